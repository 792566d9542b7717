import Verif.Props.FinalCases
import Verif.Props.Salvage
/-!
# Cases for C85
-/

namespace Gif

namespace Decoder

open ErrorCases FinalCases

/-- A file with five frames: the second and the third one, which is interlaced, have too few pixels, and the fourth one is large. -/
def torn : Reader :=
  { buf := [], src := [.data [0x47, 0x49, 0x46, 0x38, 0x39, 0x61, 2, 0, 2, 0, 0x80, 1, 0, 10, 20, 30, 40, 50, 60,
      0x2C, 0, 0, 0, 0, 1, 0, 1, 0, 0, 2, 2, 0x4C, 0x01, 0, 0x2C, 0, 0, 0, 0, 2, 0, 2, 0, 0, 2, 2, 0x4C, 0x01, 0],
      .data [0x2C, 0, 0, 0, 0, 1, 0, 3, 0, 0x40, 2, 2, 0x44, 0x0A, 0, 0x2C, 0, 0, 0, 0, 5, 0, 5, 0, 0, 2, 2, 0x4C, 0x01, 0,
      0x2C, 0, 0, 0, 0, 1, 0, 1, 0, 0, 2, 2, 0x44, 0x01, 0, 0x3B]] }

/-- At most nine bytes for a frame. -/
def nineBytes : DecodeOptions := { DecodeOptions.new with memoryLimit := .bytes 9 (by decide) }

theorem torn_reliable : torn.Reliable := by
  intro ev hev
  simp only [torn, List.mem_cons, List.not_mem_nil, or_false] at hev
  rcases hev with rfl | rfl <;> exact ⟨_, rfl, by simp⟩

set_option maxRecDepth 100000 in
theorem torn_sane : Spec.Sane Ref.lzwContract nineBytes torn 6 ∧
    ∀ f ∈ Spec.rawFrames (rawFilm Ref.lzw nineBytes torn 6), Spec.Valid Ref.lzwContract f :=
  Ref.tame_sane (by decide +kernel) (by decide +kernel) (by decide +kernel)

/-- The assumptions of `bad_frames_are_passed` are met. -/
example : ∃ v raw outs, rawFilm Ref.lzw nineBytes torn 6 = .opened v :: raw ∧
    Spec.ExpandAll Ref.lzwContract (Spec.rawFrames raw) outs ∧
    salvage 6 (readInfo Ref.lzw nineBytes torn).1 = Spec.salvaged .indexed nineBytes.memoryLimit raw outs :=
  bad_frames_are_passed Ref.lzwContract nineBytes rfl rfl torn_reliable 6 torn_sane.1 torn_sane.2
    (Prod.ext rfl (by decide +kernel : (readInfo Ref.lzw nineBytes torn).2 = .ok ()))

set_option maxRecDepth 100000 in
/-- What the program reads: both good frames, and the end of the file. -/
example : (salvage 6 (readInfo Ref.lzw nineBytes torn).1).map
    (fun | .ok f => (f.map Frame.buffer, none) | .error e => (none, some e)) =
    [(some [1], none), (none, some (.format .imageTruncated)), (none, some (.format .imageTruncated)),
      (none, some (.io .outOfMemory)), (some [0], none), (none, none)] := by
  decide +kernel

/-- The decoder before the third frame, which is interlaced and has two of three pixels. -/
def beforeThird : Decoder Ref.lzw :=
  (((readInfo Ref.lzw nineBytes torn).1.perform .readNextFrame).1.perform .readNextFrame).1

set_option maxRecDepth 100000 in
/-- The assumptions of `read_is_fill` are met, with an interlaced image. -/
example : beforeThird.readNextFrame =
    ((fillLines 1 3 beforeThird.nextFrameInfo.1).1, .err (.format .imageTruncated)) := by
  have hr : Reach nineBytes torn beforeThird :=
    .op (.op (.opened (by decide +kernel)) .readNextFrame (by decide +kernel)) .readNextFrame (by decide +kernel)
  have hi : beforeThird.nextFrameInfo = (beforeThird.nextFrameInfo.1, .ok true) :=
    Prod.ext rfl (by decide +kernel : beforeThird.nextFrameInfo.2 = .ok true)
  have hf : (if beforeThird.nextFrameInfo.1.currentFrame.interlaced then fillLines (1 * Spec.channels nineBytes.colorOutput) 3 beforeThird.nextFrameInfo.1
      else fillLines (1 * 3 * Spec.channels nineBytes.colorOutput) 1 beforeThird.nextFrameInfo.1) =
      ((fillLines 1 3 beforeThird.nextFrameInfo.1).1, (fillLines 1 3 beforeThird.nextFrameInfo.1).2) := by
    rw [if_pos (by decide +kernel)]
    rfl
  have ho : (fillLines 1 3 beforeThird.nextFrameInfo.1).2 = .ok false := by decide +kernel
  rcases read_is_fill Ref.lzw_safe hr rfl hi (w := 1) (hh := 3) (by decide +kernel) (by decide +kernel)
    (by intro n hn h; cases h; decide) hf with ⟨h, _⟩ | ⟨_, h⟩ | ⟨e, h, _⟩
  · rw [ho] at h; cases h
  · exact h
  · rw [ho] at h; cases h

/-- **C85** is false for `InvalidCode`: the data of the first frame contain an undefined code, and the two good frames after it are lost.
The decoder takes the data for blocks of the file. -/
theorem invalid_code_derails :
    reports options (ErrorCases.after (undefinedCode ++ image ++ image)) [.readNextFrame, .readNextFrame, .readNextFrame, .readNextFrame] =
      [some (.io .invalidCode), some (.io .invalidCode), some (.io .unexpectedEof), some (.io .unexpectedEof)] ∧
    reports options (ErrorCases.after (image ++ image)) [.readNextFrame, .readNextFrame] = [none, none] := by
  decide +kernel

end Decoder

end Gif
