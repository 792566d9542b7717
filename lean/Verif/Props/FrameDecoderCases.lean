import Verif.Props.FrameDecoder
import Verif.Ref.Slow
/-!
Cases of the theorems of `FrameDecoder.lean`, and what goes wrong with a codec that is slow to start.
-/

namespace Gif

open Spec (rawFrames Sane)

namespace FrameDecoder

/-- A frame of one pixel. -/
def tiny : Frame := { Frame.default with width := 1, height := 1, buffer := [1] }

/-- A frame of 48 pixels. -/
def wide : Frame := { Frame.default with
  width := 8, height := 6
  buffer := [0, 1, 2, 3, 0, 2, 1, 3, 3, 1, 2, 0, 1, 1, 2, 0, 3, 3, 2, 1, 0, 0, 1, 3, 2, 2, 0, 3, 1, 0, 2, 3, 3, 0, 1, 2, 2, 1, 0, 3,
    1, 3, 0, 2, 3, 2, 0, 1] }

set_option maxRecDepth 100000 in
/-- A case of `restores_partial`, with a `FrameDecoder` that has already failed on another frame. -/
example : (((new Ref.lzw { DecodeOptions.new with checkForEndCode := true }).decodeFrame { wide with buffer := [2, 7] }).1.decodeFrame
    (wide.makeLzwPreEncoded Ref.lzw)).2 = ({ wide with ownedCap := some 48 }, .ok ()) :=
  restores_partial Ref.lzwContract Ref.lzw_prompt (.decodeFrame .new _ (by decide +kernel)) rfl wide (by decide) (by decide) (by decide)
    (by decide +kernel) (.inl rfl)

set_option maxRecDepth 100000 in
/-- A case of `restores_picture_partial` with the slow codec. -/
example : ((new Ref.slow { DecodeOptions.new with colorOutput := .rgba }).decodeFrame
    ({ wide with palette := some [9, 8, 7] }.makeLzwPreEncoded Ref.slow)).2.2 = .ok () := by
  rw [restores_picture_partial Ref.slowContract Ref.slow_prompt .new { wide with palette := some [9, 8, 7] } (by decide +kernel) (by decide)
    (by decide +kernel) (.inr (by decide +kernel))]

set_option maxRecDepth 100000 in
/-- C22 does not follow from the contract of the codec: a `FrameDecoder` gives up when a call took in all of the data without output,
although the next call would have delivered the pixels. -/
theorem tiny_frame_not_restored : ∃ (C : Codec) (_ : C.Contract), ∃ f : Frame, f.interlaced = false ∧
    f.buffer.length = f.width.toNat * f.height.toNat ∧ 0 < f.width.toNat * f.height.toNat ∧
    ((new C .new).decodeFrame (f.makeLzwPreEncoded C)).2.2 = .fmtErr .imageTruncated :=
  ⟨Ref.slow, Ref.slowContract, tiny, rfl, by decide, by decide, by decide +kernel⟩

open Decoder

set_option maxRecDepth 100000 in
/-- A case of `skip_then_expand_partial`: both frames of an animation. -/
example : sessionFrom Ref.lzw .new animationBytewise (List.replicate 3 .read) =
    develop (new Ref.lzw .new) Frame.default (rawFilm Ref.lzw .new animation 3) :=
  skip_then_expand_partial Ref.lzwContract Ref.lzw_prompt .new rfl rfl animation_reliable animationBytewise_reliable (by decide +kernel) 3
    animation_sane.1 (.inl rfl)

set_option maxRecDepth 100000 in
/-- What is read in this case. -/
example : (develop (new Ref.lzw .new) Frame.default (rawFilm Ref.lzw .new animation 3)).map
    (fun | .frame f _ => f.map (·.buffer) | _ => none) = [none, some [1, 1], some [1, 1], none] := by decide +kernel

set_option maxRecDepth 100000 in
/-- C23 does not follow from the contract of the codec: of the same file, `read_next_frame` gives a frame of two pixels, while the
`FrameDecoder` reports that the image is truncated. -/
theorem skipped_frame_lost : ∃ (C : Codec) (_ : C.Contract) (r : Reader), r.Reliable ∧
    (sessionFrom C .new r [.read]).map (fun | .frame f _ => f.map (·.buffer) | _ => none) = [none, some [1, 1]] ∧
    (develop (new C .new) Frame.default (rawFilm C .new r 1)).getLast? = some (.failed (.format .imageTruncated)) :=
  ⟨Ref.slow, Ref.slowContract, animation, animation_reliable, by decide +kernel, by decide +kernel⟩

end FrameDecoder

end Gif
