import Verif.Props.Cost
import Verif.Props.RoundTripCases
/-!
# C68 on concrete files
-/

namespace Gif

theorem pair_snd {α β : Type} {x : α × β} {b : β} (h : x.2 = b) : x = (x.1, b) := by rw [← h]

/-- A file of empty frames, as small as possible: 18 bytes, and 13 per frame. -/
def emptyFrames (n : Nat) : List UInt8 :=
  [0x47, 0x49, 0x46, 0x38, 0x39, 0x61, 0, 0, 0, 0, 0x80, 0, 0, 0, 0, 0, 255, 255, 255] ++
    ((List.replicate n [0x2C, 0, 0, 0, 0, 0, 0, 0, 0, 0, 2, 0, 0]).flatten).dropLast

set_option maxRecDepth 100000 in
/-- Three frames in 57 bytes: the bound of `frames_cost` is 51 (six more bytes are needed for a colour table). -/
theorem cost_sharp : announced (Decoder.transcriptFrom Ref.lzw .new (readerOn (emptyFrames 3)) [.info, .info, .info, .info]) = 3 ∧
    (readerOn (emptyFrames 3)).bytes.length = 13 * 3 + 18 := by
  decide +kernel

/-- `frames_cost` applies to it. -/
example : 13 * 3 + 12 ≤ (readerOn (emptyFrames 3)).bytes.length := by
  have h := Decoder.frames_cost Ref.lzw_safe .new (readerOn (emptyFrames 3)) [.info, .info, .info, .info]
  rw [cost_sharp.1] at h
  exact h (by decide)

set_option maxRecDepth 100000 in
/-- A decoder that goes on after errors: the unsupported block after the first frame is reported again and again; no further
frame comes of it. -/
theorem cost_after_errors :
    announced (Decoder.transcriptFrom Ref.lzw .new (readerOn (emptyFrames 1 ++ [0, 0x77] ++ emptyFrames 2))
      [.info, .info, .info, .read, .info, .info]) = 1 := by
  decide +kernel

set_option maxRecDepth 100000 in
/-- The loops of `read_loop_ends` and `items_end` return frames. -/
theorem demo_opens : (Decoder.readInfo Ref.lzw .new (readerOn demoFile)).2 = .ok () ∧
    (match (Decoder.readInfo Ref.lzw .new (readerOn demoFile)).1.readNextFrame.2 with
      | .ok (some _) => true
      | _ => false) = true := by
  decide +kernel

example : ∃ fs x, Decoder.Looped (Decoder.readInfo Ref.lzw .new (readerOn demoFile)).1 fs x ∧ x.returns = true ∧
    (fs ≠ [] → 13 * fs.length + 12 ≤ (readerOn demoFile).bytes.length) :=
  Decoder.read_loop_ends Ref.lzw_safe (pair_snd demo_opens.1)

example : ∃ (fs : List Frame) (e : List DecodingError),
    DecoderIter.Items (DecoderIter.new (Decoder.readInfo Ref.lzw .new (readerOn demoFile)).1) (fs.map .ok ++ e.map .error) ∧
      e.length ≤ 1 ∧ (fs ≠ [] → 13 * fs.length + 12 ≤ (readerOn demoFile).bytes.length) :=
  DecoderIter.items_end Ref.lzw_safe (pair_snd demo_opens.1)

end Gif
