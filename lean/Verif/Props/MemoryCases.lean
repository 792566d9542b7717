import Verif.Props.Memory
import Verif.Props.ReencodeCases
/-!
# C71 on a concrete file
-/

namespace Gif.Decoder

open Spec

/-- A limit that is just enough for the animation. -/
def tightOptions : DecodeOptions := { DecodeOptions.new with memoryLimit := .bytes 5 (by decide) }

set_option maxRecDepth 100000 in
/-- A case of `decoder_holds_partial`: after its second frame, of two pixels and two colours, a decoder of the animation holds the frame,
the palette of the frame, the global palette and the last extension: 19 bytes. -/
example : ∃ d : Decoder Ref.lzw, Reach tightOptions animation d ∧ decoderBytes d = 19 ∧ decoderBytes d ≤ 2 * 5 + 3080 := by
  have h1 : (readInfo Ref.lzw tightOptions animation).2 = .ok () := by decide +kernel
  have h2 : ((readInfo Ref.lzw tightOptions animation).1.perform .readNextFrame).2.returns = true := by decide +kernel
  have h3 : (((readInfo Ref.lzw tightOptions animation).1.perform .readNextFrame).1.perform .readNextFrame).2.returns = true := by decide +kernel
  have hr := Reach.op (Reach.op (Reach.opened h1) .readNextFrame h2) .readNextFrame h3
  exact ⟨_, hr, by decide +kernel, decoder_holds_partial Ref.lzw_safe hr rfl⟩

/-- A file of 35 bytes: a frame of 65535 × 65535 pixels, with two bytes of compressed data. -/
def vast : Reader := readerOn
  [71, 73, 70, 56, 57, 97, 1, 0, 1, 0, 0x80, 0, 0,  0, 0, 0, 9, 9, 9,
   0x2C, 0, 0, 0, 0, 0xFF, 0xFF, 0xFF, 0xFF, 0, 2, 2, 0x4C, 0x0A, 0, 0x3B]

/-- Raw frames, and a limit of five bytes. -/
def tightRaw : DecodeOptions := { tightOptions with skipFrameDecoding := true }

set_option maxRecDepth 100000 in
theorem vast_opens : (readInfo Ref.lzw tightRaw vast).2 = .ok () := by decide +kernel

set_option maxRecDepth 100000 in
/-- C71 is false of what `read_next_frame` reserves for raw frames: with a memory limit of five bytes, a file of 35 bytes makes it
ask for a gigabyte, for a frame whose data has three. An allocator that has only 10⁹ bytes makes it fail. -/
theorem raw_reserve_ignores_limit :
    tightRaw.memoryLimit = .bytes 5 (by decide) ∧ vast.bytes.length = 35 ∧ Reach tightRaw vast (readInfo Ref.lzw tightRaw vast).1 ∧
    (∃ d f, (readInfo Ref.lzw tightRaw vast).1.readNextFrame = (d, .ok (some f)) ∧ f.buffer = [2, 0x4C, 0x0A]) ∧
    rawReserve (readInfo Ref.lzw tightRaw vast).1.nextFrameInfo.1.currentFrame = 1073709056 ∧
    ((readInfo Ref.lzw tightRaw vast).1.readNextFrameOn (· ≤ 1000000000)).2 = .ioErr .outOfMemory := by
  refine ⟨rfl, by decide +kernel, .opened vast_opens, ?_, by decide +kernel, by decide +kernel⟩
  refine ⟨_, _, pair_snd (b := Outcome.ok (some { Frame.default with
    width := 65535, height := 65535, buffer := [2, 0x4C, 0x0A], ownedCap := some 3 })) (by decide +kernel), rfl⟩

set_option maxRecDepth 100000 in
/-- The other case of `refused_reservation`: an allocator that grants what a frame of two pixels needs. -/
example : ((readInfo Ref.lzw tightRaw animation).1.readNextFrameOn (· ≤ 0)).2 = .ok (some Examples.firstRaw) := by decide +kernel

end Gif.Decoder
