import Verif.Props.Join
import Verif.Props.TranscodeCases
/-!
Cases of the theorems about animations that are made of frames of several files, and why the palettes have to be copied.
-/

namespace Gif.Join

open Spec Decoder

/-- A file like `animation`, with other colours, of which the second frame is interlaced and the end is missing. -/
def otherFile : Reader :=
  { buf := [0x47, 0x49, 0x46], src := [
      .data [0x38, 0x39, 0x61, 1, 0, 3, 0, 0x80, 1, 0, 100, 110, 120, 130, 140, 150],
      .data [0x21, 0xF9, 4, 5, 5, 0, 0, 0, 0x2C, 0, 0, 0, 0, 2, 0, 1, 0, 0, 2, 2, 0x4C, 0x0A, 0],
      .data [0x2C, 0, 0, 0, 0, 1, 0, 2, 0, 0x40, 2, 2, 0x4C, 0x0A, 0]] }

theorem otherFile_reliable : otherFile.Reliable := by simp [Reader.Reliable, otherFile]

/-- The first frame of `animation`, to be shown for a second. -/
def clip1 : Clip :=
  { frame := { Frame.default with width := 2, height := 1, buffer := [1, 1], ownedCap := some 2 }
    global := some [10, 20, 30, 40, 50, 60], image := [40, 50, 60, 255, 40, 50, 60, 255]
    left := 3, top := 1, delay := 100, dispose := .background, needsUserInput := false }

/-- The first frame of `otherFile`. -/
def clip2 : Clip :=
  { frame := { Frame.default with width := 2, height := 1, delay := 5, transparent := some 0, dispose := .keep, buffer := [1, 1], ownedCap := some 2 }
    global := some [100, 110, 120, 130, 140, 150], image := [130, 140, 150, 255, 130, 140, 150, 255]
    left := 0, top := 2, delay := 7, dispose := .previous, needsUserInput := true }

/-- The second frame of `otherFile`, compressed: it has two rows, and they are interlaced. -/
def clip3 : Clip :=
  { frame := { Frame.default with width := 1, height := 2, interlaced := true, buffer := [2, 0x4C, 0x0A], ownedCap := some 3 }
    global := some [100, 110, 120, 130, 140, 150], image := [130, 140, 150, 255, 130, 140, 150, 255]
    left := 4, top := 0, delay := 0, dispose := .keep, needsUserInput := false }

/-- The first frame of `animation`, compressed. -/
def clip4 : Clip := { clip1 with frame := { Frame.default with width := 2, height := 1, buffer := [2, 0x4C, 0x0A], ownedCap := some 3 } }

/-- RGBA output. -/
def inColour : DecodeOptions := { DecodeOptions.new with colorOutput := .rgba }

/-- The view that the decoder of `otherFile` gives. -/
def otherView : View :=
  { width := 1, height := 3, globalPalette := some [100, 110, 120, 130, 140, 150], bgColor := some 1, repetition := .finite 0,
    currentFrame := Frame.default }

set_option maxRecDepth 100000 in
theorem clip1_read : clip1.Read Ref.lzw :=
  ⟨.new, animation, [.read, .info], 1, { animationView with currentFrame := clip1.frame },
    { animationView with currentFrame := { clip1.frame with buffer := clip1.image, ownedCap := some 8 } },
    { clip1.frame with buffer := clip1.image, ownedCap := some 8 }, rfl, by decide +kernel, rfl, by decide +kernel, rfl⟩

set_option maxRecDepth 100000 in
theorem clip2_read : clip2.Read Ref.lzw :=
  ⟨.new, otherFile, List.replicate 3 .read, 1, { otherView with currentFrame := clip2.frame },
    { otherView with currentFrame := { clip2.frame with buffer := clip2.image, ownedCap := some 8 } },
    { clip2.frame with buffer := clip2.image, ownedCap := some 8 }, rfl, by decide +kernel, rfl, by decide +kernel, rfl⟩

set_option maxRecDepth 100000 in
theorem clip3_skipped : clip3.Skipped Ref.lzwContract :=
  ⟨inColour, otherFile, 2, 2, { otherView with currentFrame := clip3.frame },
    { otherView with currentFrame := { clip3.frame with buffer := clip3.image, ownedCap := some 8, interlaced := false } },
    { clip3.frame with buffer := clip3.image, ownedCap := some 8, interlaced := false }, otherFile_reliable, rfl, rfl, rfl,
    (Ref.tame_sane (by decide +kernel) (by decide +kernel) (by decide +kernel)).1, by decide +kernel, rfl, by decide +kernel, rfl⟩

set_option maxRecDepth 100000 in
theorem clip4_skipped : clip4.Skipped Ref.lzwContract :=
  ⟨inColour, animation, 3, 1, { animationView with currentFrame := clip4.frame },
    { animationView with currentFrame := { clip1.frame with buffer := clip1.image, ownedCap := some 8 } },
    { clip1.frame with buffer := clip1.image, ownedCap := some 8 }, animation_reliable, rfl, rfl, rfl,
    (Ref.tame_sane (by decide +kernel) (by decide +kernel) (by decide +kernel)).1, by decide +kernel, rfl, by decide +kernel, rfl⟩

/-- A case of `joined`: frames of two files that have different global palettes, one of them three times. -/
example := joined Ref.lzwContract true 5 3 (pal := []) (by decide) .infinite (xs := [clip2, clip1, clip2, clip2]) (by decide)
  (by
    intro x hx
    simp only [List.mem_cons, List.not_mem_nil, or_false] at hx
    rcases hx with rfl | rfl | rfl | rfl
    · exact clip2_read
    · exact clip1_read
    · exact clip2_read
    · exact clip2_read)
  (by intro x hx; simp only [List.mem_cons, List.not_mem_nil, or_false] at hx; rcases hx with rfl | rfl | rfl | rfl <;> decide)

/-- A case of `joined_raw`. -/
example := joined_raw Ref.lzwContract true 5 3 (pal := [7, 7, 7]) (by decide) .infinite (xs := [clip3, clip4]) (by decide)
  (by
    intro x hx
    simp only [List.mem_cons, List.not_mem_nil, or_false] at hx
    rcases hx with rfl | rfl
    · exact clip3_skipped
    · exact clip4_skipped)
  (by intro x hx; simp only [List.mem_cons, List.not_mem_nil, or_false] at hx; rcases hx with rfl | rfl <;> decide)
  (by intro x hx; simp only [List.mem_cons, List.not_mem_nil, or_false] at hx; rcases hx with rfl | rfl <;> decide)

/-- The conditions on the decoder of the new file are met, with all checks of positions and the usual memory limit. -/
example : DecodeOptions.new.memoryLimit.sizeOk 15 = true ∧ ∀ x ∈ [clip1, clip2, clip3, clip4],
    (x.left.toNat + x.frame.width.toNat ≤ 5 ∧ x.top.toNat + x.frame.height.toNat ≤ 3) ∧
    DecodeOptions.new.memoryLimit.sizeOk x.image.length = true ∧ DecodeOptions.new.memoryLimit.sizeOk x.frame.buffer.length = true := by
  refine ⟨by decide, ?_⟩
  intro x hx
  simp only [List.mem_cons, List.not_mem_nil, or_false] at hx
  rcases hx with rfl | rfl | rfl | rfl <;> decide +kernel

/-- The pixels that an RGBA decoder gives of the frames of a file. -/
def pixelsOf (file : Option (List UInt8)) (n : Nat) : List (List UInt8) :=
  (rawFrames (sessionFrom Ref.lzw inColour ⟨file.getD [], []⟩ (List.replicate n .read))).map (·.buffer)

set_option maxRecDepth 100000 in
/-- The palettes have to be copied: a program that writes the frames as it has read them also gets a file, but the frames of the second
file are shown in the colours of the first. -/
theorem join_needs_palette :
    pixelsOf (encodeFile Ref.lzw true 5 3 (clip1.global.getD []) [.frame clip1.frame, .frame clip2.frame]).1 3 ≠ [clip1.image, clip2.image] ∧
    (encodeFile Ref.lzw true 5 3 (clip1.global.getD []) [.frame clip1.frame, .frame clip2.frame]).2 = [.ok (), .ok ()] ∧
    pixelsOf (encodeFile Ref.lzw true 5 3 (clip1.global.getD []) [.frame clip1.placed, .frame clip2.placed]).1 3 = [clip1.image, clip2.image] := by
  decide +kernel

end Gif.Join
