import Verif.Props.Scratch
import Verif.Props.Memory
import Verif.Props.ReencodeCases
/-!
# C71 and C73 on a concrete file
-/

namespace Gif.Decoder

open Spec

/-- RGBA output, with a limit that is just enough for two pixels. -/
def tightRgba : DecodeOptions := { DecodeOptions.new with memoryLimit := .bytes 8 (by decide), colorOutput := .rgba }

/-- The callback of the decoder, on slices. -/
def slices : SliceCallback (RD Ref.lzw) := writer [77, 77, 77] RD.decodeNextBytes

set_option maxRecDepth 100000 in
/-- A case of `frames_ignore_scratch`: the first frame of the animation, decoded with a scratch buffer full of other indices. -/
example : (readInfo Ref.lzw tightRgba animation).2 = .ok () ∧
    ((readInfo Ref.lzw tightRgba animation).1.readNextFrameS slices [0, 0, 0, 0]).2.1 = [1, 1, 0, 0] ∧
    ((readInfo Ref.lzw tightRgba animation).1.readNextFrameS slices [0, 0, 0, 0]).2.2 =
      (readInfo Ref.lzw tightRgba animation).1.readNextFrame.2 :=
  ⟨by decide +kernel, by decide +kernel, (frames_ignore_scratch (writes_writer _ _) _ _).2⟩

set_option maxRecDepth 100000 in
/-- A case of `scratch_bounded`, `reach_of_scratch`: after the first frame the scratch buffer has two bytes. -/
example : ∃ d sc, ReachS slices tightRgba animation 0 d sc ∧ sc = [1, 1] ∧ Reach tightRgba animation d ∧ sc.length ≤ max 8 0 / 4 ∧
    decoderBytes d + sc.length ≤ 2 * 8 + 3080 + max 8 0 / 4 := by
  have h1 : (readInfo Ref.lzw tightRgba animation).2 = .ok () := by decide +kernel
  have h2 : ((readInfo Ref.lzw tightRgba animation).1.performS slices [] .readNextFrame).2.2.returns = true := by decide +kernel
  have hr := ReachS.op (b := 0) (cb := slices) (ReachS.opened h1) .readNextFrame (Nat.le_refl 0) h2
  have hr' := reach_of_scratch (writes_writer _ _) hr
  have hb := scratch_bounded Ref.lzw_safe (writes_writer _ _) rfl hr
  have hd := decoder_holds_partial Ref.lzw_safe hr' rfl
  exact ⟨_, _, hr, by decide +kernel, hr', hb, by omega⟩

set_option maxRecDepth 100000 in
/-- A case of `into_ignores_scratch`, with a buffer that is longer than the image. -/
example : ∃ d : Decoder Ref.lzw, (d.readIntoBufferS slices [9, 9, 9] (List.replicate 40 5)).2.2.1 = (d.readIntoBuffer (List.replicate 40 5)).2.1 :=
  ⟨(readInfo Ref.lzw tightRgba animation).1.nextFrameInfo.1,
    (into_ignores_scratch (writes_writer _ _) _ _ _).2.2.2 (.inl (by decide +kernel))⟩

set_option maxRecDepth 100000 in
/-- A case of `FrameDecoder.frames_ignore_scratch`. -/
example : ((FrameDecoder.new Ref.lzw .new).decodeFrameS (writer [77] FrameDecoder.pull) [9, 9, 9] Examples.firstRaw).2.2 = (Examples.first, .ok ()) :=
  (FrameDecoder.frames_ignore_scratch (writes_writer _ _) _ _ _).2.trans (by decide +kernel)

end Gif.Decoder
