import Verif.Props.OwnLoop
import Verif.Props.LoopCases
import Verif.Props.RoundTripCases
/-!
# C99, cases
-/

namespace Gif.Loop.Cases

open Spec SD Draw Twofold Gif.Draw.Cases Gif.Props Encoder

set_option maxRecDepth 100000

def own (p : Driver) (o : DecodeOptions) (k : Nat) := run p k [] (SD.withOptions Ref.lzw o) (demoFile ++ [1, 2])

theorem own_drive (p : Driver) (o : DecodeOptions) (k : Nat) :
    Drive Ref.lzw p o (demoFile ++ [1, 2]) (own p o k).1 (own p o k).2.1 (own p o k).2.2 := run_drive k .start

theorem own_end {p : Driver} {o : DecodeOptions} {k : Nat} (h : .blockStart .trailer ∈ (own p o k).1.filterMap UpdateCall.event) :
    DriveEnd p (own p o k).1 (own p o k).2.1 (own p o k).2.2 none := .trailer (told_trailer h)

/-- A file with repetitions, a comment and two frames (a third one was refused), and two bytes after it: a loop in slices of four bytes
has the pixels. The buffers have a pixel too many, which is written, and collected. -/
example : gathered (gist [] (own fours .new 100).1) = [[0, 1, 2, 0, 7], [0, 1, 2, 0, 7]] :=
  (own_loop Ref.lzwContract (o := .new) true (by decide +kernel) demo_sane demo_plain demo_encode demo_admissible demo_held demo_changed
    (outs := [[0, 1, 2, 0, 7], [0, 1, 2, 0, 7]]) (by rw [demo_written]; exact .cons rfl (.cons rfl .nil)) [1, 2] fours_fit
    (own_drive fours .new 100) (own_end (by decide +kernel))).1

/-- The same with `skip_frame_decoding`. -/
example : gathered (gist [] (own whole skipOptions 100).1) =
    [(demoFrame.makeLzwPreEncoded Ref.lzw).buffer.tail, (demoFrame2.makeLzwPreEncoded Ref.lzw).buffer.tail] :=
  (own_loop Ref.lzwContract (o := skipOptions) true (by decide +kernel) demo_sane demo_plain demo_encode demo_admissible demo_held
    demo_changed (outs := [(demoFrame.makeLzwPreEncoded Ref.lzw).buffer.tail, (demoFrame2.makeLzwPreEncoded Ref.lzw).buffer.tail])
    (by rw [demo_written]; exact .cons rfl (.cons rfl .nil)) [1, 2] whole_fit
    (own_drive whole skipOptions 100) (own_end (by decide +kernel))).1

theorem last_call {cs : List UpdateCall} {ev : Decoded} (h : cs.getLast?.bind UpdateCall.event = some ev) :
    ∃ cs' c, cs = cs' ++ [c] ∧ c.event = some ev := by
  rcases List.eq_nil_or_concat cs with rfl | ⟨cs', c, rfl⟩
  · cases h
  · rw [List.concat_eq_append, List.getLast?_concat] at h
    exact ⟨cs', c, List.concat_eq_append, h⟩

/-- When the program is told of the second frame. -/
example : (own fours .new 38).2.1.current = some (bare (readRaw (demoFrame2.makeLzwPreEncoded Ref.lzw))) := by
  obtain ⟨cs, c, hcs, hev⟩ := last_call (cs := (own fours .new 38).1) (ev := .frameMetadata .pixels) (by decide +kernel)
  have hd := own_drive fours .new 38
  have hi : announcedImages (gist [] (own fours .new 38).1) = 1 + 1 := by decide +kernel
  rw [hcs] at hd hi
  exact own_loop_frame Ref.lzwContract (o := .new) true (by decide +kernel) demo_sane demo_plain demo_encode demo_admissible demo_held
    demo_changed [1, 2] fours_fit hd hev hi (op := .frame demoFrame2) (by rw [demo_written]; rfl)

/-- For frames: with `check_lzw_end_code` and `check_frame_consistency`, too. -/
example : ∃ file, encodeFile Ref.lzw true 4 4 demoPalette ([demoFrame, demoFrame2].map .frame) =
      (some file, [demoFrame, demoFrame2].map fun _ => .ok ()) ∧
    ∀ (junk : List UInt8) (p : Driver), p.Fit → ∃ cs s l,
      Drive Ref.lzw p { DecodeOptions.new with checkForEndCode := true, checkFrameConsistency := true } (file ++ junk) cs s l ∧
      DriveEnd p cs s l none := by
  obtain ⟨file, h1, h2⟩ := own_frames_loop Ref.lzwContract
    (o := { DecodeOptions.new with checkForEndCode := true, checkFrameConsistency := true }) rfl true (w := 4) (h := 4)
    (pal := demoPalette) (by decide +kernel) (fs := [demoFrame, demoFrame2]) (by simp)
    (by
      intro f hf
      simp only [List.mem_cons, List.not_mem_nil, or_false] at hf
      rcases hf with rfl | rfl
      · exact ⟨by decide, by decide, (by decide : 3 ≤ demoPalette.length)⟩
      · exact ⟨by decide, by decide, (by decide : ([9, 9, 9] : List UInt8).length / 3 ≤ 256)⟩)
    (by decide +kernel) (by decide +kernel) (by decide +kernel)
  exact ⟨file, h1, fun junk p hp => (h2 junk p hp).1⟩

end Gif.Loop.Cases
