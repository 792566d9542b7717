import Verif.Spec.History
/-!
# Specification: feeding a streaming decoder

`StreamingDecoder::update` wants the bytes that it did not consume again. The caller may hand over as many bytes as they
like, but at least one.
-/

namespace Gif

/-- `Reading s l calls s' l'`: the decoder `s` is fed with the bytes `l` in slices of any size, without output buffer; after
these calls, none of which failed, it is in state `s'` and `l'` is still to be consumed. -/
inductive Reading {C : Codec} : SD C → List UInt8 → List UpdateCall → SD C → List UInt8 → Prop
  | nil (s : SD C) (l : List UInt8) : Reading s l [] s l
  | cons {s s1 s' : SD C} {slice rest l' : List UInt8} {calls : List UpdateCall} {n : Nat} {ev : Decoded}
      (hne : slice ≠ []) (h : s.update slice .none = (s1, .ok (n, ev)))
      (ht : Reading s1 ((slice ++ rest).drop n) calls s' l') :
      Reading s (slice ++ rest) (⟨slice, .none, .ok (n, ev)⟩ :: calls) s' l'

/-- Does the event say something? `Nothing` and `LzwDataCopied` (without output buffer) do not. -/
def Decoded.telling : Decoded → Bool
  | .nothing => false
  | .lzwDataCopied _ => false
  | _ => true

/-- The events that the calls returned. -/
def told (calls : List UpdateCall) : List Decoded :=
  (calls.filterMap UpdateCall.event).filter Decoded.telling

end Gif
