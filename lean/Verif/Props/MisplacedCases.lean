import Verif.Props.Misplaced
import Verif.Props.SalvageCases
/-!
# Cases for C86
-/

namespace Gif

namespace Decoder

open ErrorCases FinalCases

/-- A file with two frames of one pixel and one of two pixels, the second one with a control extension. -/
def three : Reader :=
  { buf := [], src := [.data [0x47, 0x49, 0x46, 0x38, 0x39, 0x61, 2, 0, 2, 0, 0x80, 1, 0, 10, 20, 30, 40, 50, 60,
      0x2C, 0, 0, 0, 0, 1, 0, 1, 0, 0, 2, 2, 0x4C, 0x01, 0],
      .data [0x21, 0xF9, 4, 0, 7, 0, 0, 0, 0x2C, 0, 0, 0, 0, 1, 0, 1, 0, 0, 2, 2, 0x44, 0x01, 0,
      0x2C, 0, 0, 0, 0, 1, 0, 2, 0, 0, 2, 2, 0x44, 0x0A, 0, 0x3B]] }

/-- The frames are not decoded. -/
def copied : DecodeOptions := { DecodeOptions.new with skipFrameDecoding := true }

/-- What is seen of a decoder: the height and the delay of the next frame, if there is one. -/
def upcoming (d : Decoder Ref.lzw) : Option (UInt16 × UInt16) :=
  match d.nextFrameInfo with
  | (d', .ok true) => some (d'.currentFrame.height, d'.currentFrame.delay)
  | _ => none

def start : Decoder Ref.lzw := (readInfo Ref.lzw DecodeOptions.new three).1
def startRaw : Decoder Ref.lzw := (readInfo Ref.lzw copied three).1

theorem start_reach : Reach DecodeOptions.new three start := .opened (by decide +kernel)
theorem startRaw_reach : Reach copied three startRaw := .opened (by decide +kernel)

/-- What a call of `fill_buffer` with one byte reports: whether it succeeded, or that the data were unexpected. -/
def fillReport (d : Decoder Ref.lzw) : List UInt8 × Option Bool :=
  match d.fillBuffer [9] with
  | (_, b, .ok x) => (b, some x)
  | (_, b, _) => (b, none)

/-- The assumptions of `misplaced_fill` and `misplaced_into` are met: after opening a file, -/
example : Undue DecodeOptions.new three start := .opened (by decide +kernel)

set_option maxRecDepth 100000 in
/-- after the data of the first frame, which has one pixel, have been read, -/
example : Undue DecodeOptions.new three (((start.perform .nextFrameInfo).1.perform (.fillBuffer [9])).1.fillBuffer [9]).1 :=
  .ended (.op (.op start_reach .nextFrameInfo (by decide +kernel)) (.fillBuffer [9]) (by decide +kernel)) [9] (by decide +kernel)

set_option maxRecDepth 100000 in
/-- after a frame that is not decoded has been found, -/
example : Undue copied three startRaw.nextFrameInfo.1 := .rawInfo (b := true) startRaw_reach rfl (by decide +kernel)

/-- and after all frames have been read. -/
def startRead : Decoder Ref.lzw :=
  (((startRaw.perform .readNextFrame).1.perform .readNextFrame).1.perform .readNextFrame).1

set_option maxRecDepth 100000 in
example : Undue copied three startRead.nextFrameInfo.1 :=
  .infoNone (.op (.op (.op startRaw_reach .readNextFrame (by decide +kernel)) .readNextFrame (by decide +kernel))
    .readNextFrame (by decide +kernel)) (by decide +kernel)

set_option maxRecDepth 100000 in
/-- The first frame is found after a call of `fill_buffer` out of place as well as without it. -/
example : upcoming start = some (1, 0) ∧ fillReport start = ([9], none) ∧ upcoming (start.fillBuffer [9]).1 = some (1, 0) := by
  decide +kernel

set_option maxRecDepth 100000 in
/-- **C86**, the limit: a second call out of place uses up the first frame, and a third one stores its pixel, although
`next_frame_info` was never called; the frame that is found next is the second one. -/
theorem second_fill_takes_the_frame :
    fillReport (start.fillBuffer [9]).1 = ([9], none) ∧
    upcoming ((start.fillBuffer [9]).1.fillBuffer [9]).1 = some (1, 7) ∧
    fillReport ((start.fillBuffer [9]).1.fillBuffer [9]).1 = ([1], some true) ∧
    start.nextFrameInfo.1.rd.reader.bytes = ((start.fillBuffer [9]).1.fillBuffer [9]).1.rd.reader.bytes := by
  decide +kernel

set_option maxRecDepth 100000 in
/-- The last case of `raw_never_fills` occurs: without decoding, the second call uses up the first frame, too. -/
example : upcoming (startRaw.fillBuffer [9]).1 = some (1, 0) ∧
    upcoming ((startRaw.fillBuffer [9]).1.fillBuffer [9]).1 = some (1, 7) := by
  decide +kernel

end Decoder

end Gif
