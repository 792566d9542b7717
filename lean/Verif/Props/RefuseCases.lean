import Verif.Props.Refuse
import Verif.Ref.Safe
/-!
# C76: cases, and what a refusal can break
-/

namespace Gif

namespace Decoder

/-- A file with two frames of one pixel. The data of the first one are three sub-blocks, of one, two and 44 bytes; the last one has
the bytes of an image of 7 times 9 pixels in it. -/
def embedded : Reader :=
  { buf := [], src := [.data [0x47, 0x49, 0x46, 0x38, 0x39, 0x61, 1, 0, 1, 0, 0x80, 1, 0, 10, 20, 30, 40, 50, 60,
      0x2C, 0, 0, 0, 0, 1, 0, 1, 0, 0, 2, 1, 0x4C, 2, 1, 0,
      44, 0, 0, 0, 0, 7, 0, 9, 0, 0, 2, 1, 76, 1, 0, 0, 0, 0, 0, 0, 0, 0, 0, 0, 0, 0, 0, 0, 0, 0, 0, 0, 0, 0, 0, 0, 0, 0, 0, 0, 0, 0, 0,
        0, 0, 0,
      0x2C, 0, 0, 0, 0, 1, 0, 1, 0, 0, 2, 2, 0x54, 1, 0, 0x3B]] }

/-- Frames are not decompressed. -/
def undecoded : DecodeOptions := { DecodeOptions.new with skipFrameDecoding := true }

/-- The ninth answer is no: the reservation for the first sub-block of the first frame. -/
example : (filmFrom Ref.lzw undecoded embedded [.read, .read, .read]).length = 4 ∧
    filmFromOn Ref.lzw undecoded embedded (List.replicate 9 true ++ [false]) [.read, .read, .read] =
      (filmFrom Ref.lzw undecoded embedded [.read, .read, .read]).take 1 ++ [.seen (.failed (.io .outOfMemory))] ∧
    filmFromOn Ref.lzw undecoded embedded (List.replicate 9 true) [.read, .read, .read] =
      filmFrom Ref.lzw undecoded embedded [.read, .read, .read] := by
  decide +kernel

/-- The answers in the next theorem: in `read_next_frame` the reservation for the second sub-block is refused. -/
def refuseSecond : Answers := [true, true, true, true, true, true, true, false]

/-- **C76**, the finding: after a refusal a decoder cannot go on. The file has two frames of one pixel; a decoder that could not
reserve memory for a part of the first frame, and is asked for the next one, reports a frame of 7 times 9 pixels that it has found
within the data. `update` had consumed the length of the sub-block before, but did not tell. -/
theorem refusal_derails :
    filmFrom Ref.lzw undecoded embedded [] = [.seen (.opened (readInfo Ref.lzw undecoded embedded).1.view)] ∧
    ((readInfo Ref.lzw undecoded embedded).1.readNextFrameRoom refuseSecond).2 = .err (.io .outOfMemory) ∧
    (let d := ((readInfo Ref.lzw undecoded embedded).1.readNextFrameRoom refuseSecond).1.1.nextFrameInfo
     d.2 = .ok true ∧ d.1.currentFrame.width = 7 ∧ d.1.currentFrame.height = 9) ∧
    (let d := (readInfo Ref.lzw undecoded embedded).1.nextFrameInfo
     d.2 = .ok true ∧ d.1.currentFrame.width = 1 ∧ d.1.currentFrame.height = 1 ∧
     d.1.nextFrameInfo.2 = .ok true ∧ d.1.nextFrameInfo.1.currentFrame.width = 1 ∧ d.1.nextFrameInfo.1.currentFrame.height = 1 ∧
     d.1.nextFrameInfo.1.nextFrameInfo.2 = .ok false) := by
  decide +kernel

/-- The derailed decoder is one to which `refusals_are_safe` applies. -/
example : ReachOn undecoded embedded
    (((readInfoOn Ref.lzw undecoded embedded []).1.1.performOn refuseSecond .readNextFrame).1) ∧
    ((readInfoOn Ref.lzw undecoded embedded []).1.1.performOn refuseSecond .readNextFrame).2 = .err (.io .outOfMemory) :=
  ⟨.op (.opened [] (by decide +kernel)) refuseSecond .readNextFrame (by decide +kernel), by decide +kernel⟩

/-- An iterator to which `refusal_ends` applies, in a case where it gives the error. -/
example : DecoderIter.ReachOn undecoded embedded (DecoderIter.new (readInfoOn Ref.lzw undecoded embedded []).1.1) ∧
    (match ((DecoderIter.new (readInfoOn Ref.lzw undecoded embedded []).1.1).nextOn refuseSecond).2 with
      | .ok (some (.error (.io .outOfMemory))) => true
      | _ => false) = true :=
  ⟨.new (.opened [] (by decide +kernel)), by decide +kernel⟩

end Decoder

namespace SD

/-- A decoder that has read the signature. -/
def signed : SD Ref.lzw := ((SD.withOptions Ref.lzw DecodeOptions.new).update [0x47, 0x49, 0x46, 0x38, 0x39, 0x61] .none).1

/-- A screen of 3 times 2 pixels with a table of two colours. -/
def screen : List UInt8 := [3, 0, 2, 0, 0x80, 1, 0]

/-- The hypotheses of `refused_first_step` are met: the reservation for the global table is refused, and made again. -/
example : signed.ibuf = [] ∧ (signed.updateOn [false] screen .none).2 = .err (.io .outOfMemory) ∧
    (signed.update screen .none).2 = .ok (7, .backgroundColor 1) ∧
    ((signed.updateOn [false] screen .none).1.1.update screen .none).2 = .ok (7, .backgroundColor 1) := by
  decide +kernel

/-- Without the hypotheses it is false: if the signature is in the same slice, then trying again takes the signature for the screen;
if some bytes of the screen were collected before, then they are gone. -/
theorem refused_later_step :
    (let s := SD.withOptions Ref.lzw DecodeOptions.new
     let slice := [0x47, 0x49, 0x46, 0x38, 0x39, 0x61] ++ screen
     s.ibuf = [] ∧ (s.updateOn [true, false] slice .none).2 = .err (.io .outOfMemory) ∧ (s.update slice .none).1.width = 3 ∧
     ((s.updateOn [true, false] slice .none).1.1.update slice .none).1.width = 0x4947) ∧
    (let s := (signed.update (screen.take 4) .none).1
     let slice := screen.drop 4 ++ [10, 20, 30, 40]
     s.ibuf ≠ [] ∧ (s.updateOn [false] slice .none).2 = .err (.io .outOfMemory) ∧ (s.update slice .none).1.width = 3 ∧
     ((s.updateOn [false] slice .none).1.1.update slice .none).1.width = 0x0180) := by
  decide +kernel

end SD

end Gif
