import Verif.Props.Oversized
import Verif.Props.RefuseCases
/-!
# Cases for C77
-/

namespace Gif

namespace Decoder

/-- A file with three frames, of 1×1, 2×2 and 1×1 pixels. -/
def middling : Reader :=
  { buf := [], src := [.data [0x47, 0x49, 0x46, 0x38, 0x39, 0x61, 2, 0, 2, 0, 0x80, 1, 0, 10, 20, 30, 40, 50, 60,
      0x2C, 0, 0, 0, 0, 1, 0, 1, 0, 0, 2, 2, 0x4C, 0x01, 0],
      .data [0x2C, 0, 0, 0, 0, 2, 0, 2, 0, 0, 2, 2, 0x8C, 0x53, 0,
      0x2C, 0, 0, 0, 0, 1, 0, 1, 0, 0, 2, 2, 0x44, 0x01, 0, 0x3B]] }

/-- At most three bytes for a frame. -/
def threeBytes : DecodeOptions := { DecodeOptions.new with memoryLimit := .bytes 3 (by decide) }

/-- What four calls of `read_next_frame` give without a limit. -/
def middlingFrames : List (Option Frame × View) :=
  (filmFrom Ref.lzw { threeBytes with memoryLimit := .unlimited } middling (List.replicate 4 .read)).filterMap
    fun | .seen (.frame f v) => some (f, v) | _ => none

theorem middling_reliable : middling.Reliable := by
  intro ev hev
  simp only [middling, List.mem_cons, List.not_mem_nil, or_false] at hev
  rcases hev with rfl | rfl <;> exact ⟨_, rfl, by simp⟩

set_option maxRecDepth 100000 in
/-- The assumptions of `limit_hides_large_frames_partial` are met: the second of the three frames is too large. -/
example : ∃ v d, Spec.Sane Ref.lzwContract { threeBytes with memoryLimit := .unlimited } middling middlingFrames.length ∧
    filmFrom Ref.lzw { threeBytes with memoryLimit := .unlimited } middling (List.replicate middlingFrames.length .read) =
      .seen (.opened v) :: middlingFrames.map (fun g => .seen (.frame g.1 g.2)) ∧
    readInfo Ref.lzw threeBytes middling = (d, .ok ()) ∧ middlingFrames.length = 4 ∧
    middlingFrames.map (fun g => (g.1.map fun f => (f.buffer, decide (Spec.Big .indexed 3 f)))) =
      [some ([1], false), some ([1, 1, 1, 1], true), some ([0], false), none] :=
  ⟨(readInfo Ref.lzw { threeBytes with memoryLimit := .unlimited } middling).1.view, (readInfo Ref.lzw threeBytes middling).1,
    (Ref.tame_sane (by decide +kernel) (by decide +kernel) (by decide +kernel)).1, by decide +kernel,
    Prod.ext rfl (by decide +kernel : (readInfo Ref.lzw threeBytes middling).2 = .ok ()), by decide +kernel, by decide +kernel⟩

set_option maxRecDepth 100000 in
/-- What the program reads: the first alternative of the theorem. -/
example : (keepReading 4 (readInfo Ref.lzw threeBytes middling).1).map
    (fun | .ok f => some (f.map Frame.buffer) | .error _ => none) = [some (some [1]), none, some (some [0]), some none] := by
  decide +kernel

/-- A file with a comment of seven bytes after its first frame. -/
def chatty : Reader :=
  { buf := [], src := [.data [0x47, 0x49, 0x46, 0x38, 0x39, 0x61, 2, 0, 2, 0, 0x80, 1, 0, 10, 20, 30, 40, 50, 60,
      0x2C, 0, 0, 0, 0, 1, 0, 1, 0, 0, 2, 2, 0x4C, 0x01, 0, 0x21, 0xFE, 7, 1, 2, 3, 4, 5, 6, 7, 0,
      0x2C, 0, 0, 0, 0, 1, 0, 1, 0, 0, 2, 2, 0x4C, 0x01, 0, 0x3B]] }

/-- The second alternative occurs: extensions are subject to the limit, too. -/
example : (readInfo Ref.lzw threeBytes chatty).2 = .ok () ∧
    (match keepReading 2 (readInfo Ref.lzw threeBytes chatty).1 with
      | [.ok (some _), .error (.format .memoryLimit)] => true
      | _ => false) = true := by decide +kernel

/-- A reachable decoder at which `oversized_is_skipped` speaks of an error. -/
example : Reach threeBytes middling ((readInfo Ref.lzw threeBytes middling).1.perform .readNextFrame).1 ∧
    ((readInfo Ref.lzw threeBytes middling).1.perform .readNextFrame).1.readNextFrame.2 = .err (.io .outOfMemory) :=
  ⟨.op (.opened (by decide +kernel)) .readNextFrame (by decide +kernel), by decide +kernel⟩

/-- At most three bytes, and frames are not decompressed. -/
def threeRawBytes : DecodeOptions := { undecoded with memoryLimit := .bytes 3 (by decide) }

/-- **C77** is false with `skip_frame_decoding`: the file has two frames of one pixel. The data of the first one are larger than the limit;
after the error, `next_frame_info` reports a frame of 7 times 9 pixels that it has found within these data. -/
theorem raw_oversized_derails :
    (readInfo Ref.lzw threeRawBytes embedded).2 = .ok () ∧
    (readInfo Ref.lzw threeRawBytes embedded).1.readNextFrame.2 = .err (.format .memoryLimit) ∧
    (let d := (readInfo Ref.lzw threeRawBytes embedded).1.readNextFrame.1.nextFrameInfo
     d.2 = .ok true ∧ d.1.currentFrame.width = 7 ∧ d.1.currentFrame.height = 9) ∧
    (let d := (readInfo Ref.lzw threeRawBytes embedded).1.nextFrameInfo
     d.2 = .ok true ∧ d.1.currentFrame.width = 1 ∧ d.1.currentFrame.height = 1 ∧
     d.1.nextFrameInfo.2 = .ok true ∧ d.1.nextFrameInfo.1.currentFrame.width = 1 ∧ d.1.nextFrameInfo.1.currentFrame.height = 1 ∧
     d.1.nextFrameInfo.1.nextFrameInfo.2 = .ok false) := by
  decide +kernel

end Decoder

end Gif
