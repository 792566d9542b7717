import Verif.Spec.Gist
import Verif.Spec.Blocks
/-!
# Specification: the data of an image are replaced
-/

namespace Gif.Spec

/-- What a program collects for an image with minimum code size `k` and compressed data `d`: with `skip_frame_decoding` the data, and
otherwise the pixels; nothing in the data is invalid, and they have an end code if that is asked for. -/
def Opens {C : Codec} (K : C.Contract) (o : DecodeOptions) (k : UInt8) (d x : List UInt8) : Prop :=
  if o.skipFrameDecoding then x = d
  else ∃ e, K.Yields (C.new k) d x e ∧ e ≠ .invalid ∧ (o.checkForEndCode = true → e = .ended)

end Gif.Spec
