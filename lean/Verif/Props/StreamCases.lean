import Verif.Props.OwnStream
import Verif.Props.RoundTripCases
/-!
Cases of the theorems about several files in one stream.
-/

namespace Gif

open Spec

/-- Two files and what follows them, cut in the middle of the header of the second one. -/
def twoFiles : Reader :=
  { buf := [], src := [.data (sample.render ++ [71]), .data (sample.render.tail ++ [1]), .data [2, 3]] }

theorem twoFiles_reliable : twoFiles.Reliable := by
  intro ev h
  simp only [twoFiles, List.mem_cons, List.not_mem_nil, or_false] at h
  rcases h with rfl | rfl | rfl
  · exact ⟨_, rfl, by simp⟩
  · exact ⟨_, rfl, by simp⟩
  · exact ⟨_, rfl, by decide⟩

set_option maxRecDepth 100000 in
/-- A case of `stream_frames_partial`. -/
example : ∃ r', Decoder.Stream Ref.lzw .new twoFiles
    (List.replicate 2 (sample.view Frame.default, sample.pictures .indexed [[0, 1, 1, 0, 1, 0], [1, 1]])) r' ∧
    r'.bytes = [1, 2, 3] ∧ r'.Reliable :=
  Decoder.stream_frames_partial Ref.lzwContract rfl rfl (List.replicate 2 (sample, [[0, 1, 1, 0, 1, 0], [1, 1]]))
    (fun x hx => by rw [List.eq_of_mem_replicate hx]; exact ⟨sample_readable, sample_shows⟩) twoFiles_reliable (by decide +kernel)

set_option maxRecDepth 100000 in
/-- A case of `stream_raw`. -/
example : ∃ r', Decoder.Stream Ref.lzw { DecodeOptions.new with skipFrameDecoding := true } twoFiles
    (List.replicate 2 (sample.view Frame.default, sample.frames.map Spec.rawFrame)) r' ∧ r'.bytes = [1, 2, 3] ∧ r'.Reliable :=
  Decoder.stream_raw Ref.lzwContract.safe rfl (List.replicate 2 sample)
    (fun x hx => by rw [List.eq_of_mem_replicate hx]; exact ⟨sample_readable.congr rfl rfl, by decide +kernel⟩) twoFiles_reliable
    (by decide +kernel)

set_option maxRecDepth 100000 in
/-- A case of `rest_is_suffix`: the whole first buffer has been taken from the reader of the caller, and what is left in it
remains. -/
example : (Decoder.after [.info, .read] (Decoder.readInfo Ref.lzw .new twoFiles).1).intoInner.bytes.length = 97 ∧
    (Decoder.after [.info, .read] (Decoder.readInfo Ref.lzw .new twoFiles).1).intoInner.bytes <:+ twoFiles.bytes :=
  ⟨by decide +kernel, (Decoder.rest_is_suffix Ref.lzw .new twoFiles _).2⟩

def demoJobs : List Job := [⟨4, 4, demoPalette, [demoFrame, demoFrame2]⟩, ⟨9, 9, demoPalette, [demoFrame]⟩]

set_option maxRecDepth 100000 in
/-- A job with a frame that is refused gives nothing. -/
example : (writeJob Ref.lzw true { written := [], plan := [] } ⟨4, 4, [], [{ demoFrame with palette := none }]⟩).isNone = true ∧
    (writeJob Ref.lzw true { written := [], plan := [] } ⟨4, 4, demoPalette, [{ demoFrame with palette := none }]⟩).isSome = true := by
  decide +kernel

set_option maxRecDepth 100000 in
/-- A case of `own_stream_partial`. -/
example : ∃ s' bytes, writeJobs Ref.lzw true { written := [5], plan := [] } demoJobs = some s' ∧ s'.written = [5] ++ bytes ∧
    ∀ (junk : List UInt8) (r : Reader), r.Reliable → r.bytes = bytes ++ junk →
      ∃ r', Decoder.Stream Ref.lzw .new r [(screen 4 4 demoPalette (.finite 0) Frame.default, [trimmed demoFrame, trimmed demoFrame2]),
        (screen 9 9 demoPalette (.finite 0) Frame.default, [trimmed demoFrame])] r' ∧ r'.bytes = junk :=
  own_stream_partial Ref.lzwContract (o := .new) rfl rfl rfl (by decide +kernel) true (js := demoJobs)
    (by
      have a1 : Drawable demoPalette demoFrame := ⟨by decide, by decide, (by decide : 3 ≤ demoPalette.length)⟩
      have a2 : Drawable demoPalette demoFrame2 := ⟨by decide, by decide, (by decide : ([9, 9, 9] : List UInt8).length / 3 ≤ 256)⟩
      intro j hj
      simp only [demoJobs, List.mem_cons, List.not_mem_nil, or_false] at hj
      rcases hj with rfl | rfl
      · refine ⟨by decide +kernel, by simp, ?_, ?_, ?_⟩ <;>
          (intro f hf; simp only [List.mem_cons, List.not_mem_nil, or_false] at hf; rcases hf with rfl | rfl)
        · exact a1
        · exact a2
        · rfl
        · rfl
        · exact ⟨by decide +kernel, 4, by decide +kernel⟩
        · exact ⟨by decide +kernel, 4, by decide +kernel⟩
      · refine ⟨by decide +kernel, by simp, ?_, ?_, ?_⟩ <;>
          (intro f hf; simp only [List.mem_cons, List.not_mem_nil, or_false] at hf; subst hf)
        · exact a1
        · rfl
        · exact ⟨by decide +kernel, 4, by decide +kernel⟩)
    (by intro p hp; cases hp)

end Gif
