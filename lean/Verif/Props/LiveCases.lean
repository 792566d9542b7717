import Verif.Props.Live
import Verif.Props.RoundTripCases
/-!
Cases of the theorems about programs that follow an encoder.
-/

namespace Gif.Live

open Spec Decoder

/-- The file `sample`, with nothing to read after its first image and after its second. -/
def samplePipe : Reader :=
  ⟨[0x47], [.data ((sample.renderHead ++ renderBlks (sample.blocks.take 4)).drop 1), .err 4,
    .data (renderBlks (sample.blocks.drop 4)), .data [], .data [0x3B]]⟩

set_option maxRecDepth 100000 in
theorem sample_step : samplePipe.InStep (Between sample) := by
  intro pre ev post he hev
  have key : ∀ i, (hi : i < 5) → samplePipe.src[i]? = some ev → pre = samplePipe.src.take i →
      Between sample (Reader.bytes { samplePipe with src := pre }) := by
    intro i hi h1 h3
    subst h3
    match i, hi with
    | 0, _ => cases h1; exact absurd hev (by decide +kernel)
    | 1, _ => exact .inl ⟨4, by decide +kernel, by decide +kernel⟩
    | 2, _ => cases h1; exact absurd hev (by decide +kernel)
    | 3, _ => exact .inl ⟨5, by decide +kernel, by decide +kernel⟩
    | 4, _ => cases h1; cases hev
  refine key pre.length ?_ (by rw [he]; simp) (by rw [he]; simp)
  have : samplePipe.src.length = 5 := rfl
  rw [he] at this
  simp at this
  omega

set_option maxRecDepth 100000 in
/-- A case of `follow_file` and of `follow_raw`. -/
example : followFrom Ref.lzw .new samplePipe 2 4 = sample.screenplay (sample.pictures .indexed [[0, 1, 1, 0, 1, 0], [1, 1]]) 2 ∧
    followFrom Ref.lzw { DecodeOptions.new with skipFrameDecoding := true } samplePipe 2 4 =
      sample.screenplay (sample.frames.map rawFrame) 2 :=
  ⟨follow_file Ref.lzwContract rfl rfl sample_readable sample_shows sample_step (junk := []) (by decide +kernel) 2 2
      (by decide +kernel),
    follow_raw Ref.lzwContract.safe sample_readable (by decide +kernel) sample_step (junk := []) (by decide +kernel) 2 2
      (by decide +kernel)⟩

/-- A pipe from the encoder of `demoOps`: nothing to read after the first frame (the end of the file, then an error), after the
comment, and after the end. -/
def demoPipe : Reader :=
  ⟨[], [.data (demoFile.take 30), .data ((demoFile.take 69).drop 30), .data [], .err 11, .data ((demoFile.take 75).drop 69), .data [],
    .data (demoFile.drop 75), .data []]⟩

set_option maxRecDepth 100000 in
theorem demo_sent2 : sentBy Ref.lzw true 4 4 demoPalette (demoOps.take 2) = some (demoFile.take 69) := by decide +kernel

set_option maxRecDepth 100000 in
theorem demo_sent4 : sentBy Ref.lzw true 4 4 demoPalette (demoOps.take 4) = some (demoFile.take 75) := by decide +kernel

set_option maxRecDepth 100000 in
theorem demo_step : demoPipe.InStep (Caught Ref.lzw true 4 4 demoPalette demoOps demoResults demoFile) := by
  have h2 : Caught Ref.lzw true 4 4 demoPalette demoOps demoResults demoFile (demoFile.take 69) :=
    .inl ⟨2, by decide +kernel, demo_sent2⟩
  have h4 : Caught Ref.lzw true 4 4 demoPalette demoOps demoResults demoFile (demoFile.take 75) :=
    .inl ⟨4, by decide +kernel, demo_sent4⟩
  have h5 : Caught Ref.lzw true 4 4 demoPalette demoOps demoResults demoFile demoFile := .inr List.prefix_rfl
  intro pre ev post he hev
  have key : ∀ i, (hi : i < 8) → demoPipe.src[i]? = some ev → pre = demoPipe.src.take i →
      Caught Ref.lzw true 4 4 demoPalette demoOps demoResults demoFile (Reader.bytes { demoPipe with src := pre }) := by
    intro i hi h1 h3
    subst h3
    match i, hi with
    | 0, _ => cases h1; cases hev
    | 1, _ => cases h1; cases hev
    | 2, _ => exact h2
    | 3, _ => exact h2
    | 4, _ => cases h1; cases hev
    | 5, _ => exact h4
    | 6, _ => cases h1; cases hev
    | 7, _ => exact h5
  refine key pre.length ?_ (by rw [he]; simp) (by rw [he]; simp)
  have : demoPipe.src.length = 8 := rfl
  rw [he] at this
  simp at this
  omega

set_option maxRecDepth 100000 in
/-- A case of `follow_encoder`: the frames once each, the rejected one not at all. -/
example : followFrom Ref.lzw .new demoPipe 4 3 = projection 4 4 demoPalette .infinite [trimmed demoFrame, trimmed demoFrame2] 1 := by
  have := follow_encoder Ref.lzwContract (o := .new) rfl rfl true (by decide +kernel) demo_sane demo_plain demo_encode demo_admissible
    demo_changed demo_contents (r := demoPipe) demo_step (junk := []) (by decide +kernel) 1 4 (by decide +kernel)
  rw [demo_written] at this
  exact this

set_option maxRecDepth 100000 in
/-- Without repeating calls the program does not get that far: the third call fails, and with it the session. -/
example : (sessionFrom Ref.lzw .new demoPipe (List.replicate 3 .read)).getLast? = some (.failed (.io .unexpectedEof)) := by decide +kernel

set_option maxRecDepth 100000 in
/-- A case of `follow_at_once`: after the first frame. -/
example (later : List ReadEv) :
    sessionFrom Ref.lzw .new ⟨[], .data (demoFile.take 69) :: later⟩ [.read] =
      projection 4 4 demoPalette .infinite [trimmed demoFrame] 0 ∧
    later <:+ (afterReads 1 (readInfo Ref.lzw .new ⟨[], .data (demoFile.take 69) :: later⟩).1).intoInner.src := by
  have hw : written (demoOps.take 2) [.ok (), .ok ()] = [.frame demoFrame] := by decide +kernel
  have := follow_at_once Ref.lzwContract (o := .new) rfl rfl true (by decide +kernel)
    (fun op ho => demo_sane op (List.mem_of_mem_take ho)) (fun op ho => demo_plain op (List.mem_of_mem_take ho)) demo_sent2
    (show encodeFile Ref.lzw true 4 4 demoPalette (demoOps.take 2) = (_, [.ok (), .ok ()]) from
      Prod.ext rfl (by decide +kernel))
    (by
      rw [hw]
      intro op hop
      exact demo_admissible op (by rw [demo_written]; simp only [List.mem_singleton] at hop; simp [hop]))
    (by rw [hw]; simp) (pxs := [demoFrame.buffer]) (by rw [hw]; exact ⟨⟨by decide, ⟨4, by decide +kernel⟩, rfl⟩, trivial⟩)
    (r := readerOn (demoFile.take 69)) (readerOn_reliable (by decide)) (rest := []) (by decide +kernel) later
  rw [hw] at this
  exact this

set_option maxRecDepth 100000 in
/-- The condition on the reader is needed: with nothing to read in the middle of the data of an image, that image is lost, and no
call says so at the end. -/
theorem follow_needs_frames : ∃ (r : Reader) (n : Nat), r.bytes = demoFile ∧ r.pauses ≤ n ∧
    followFrom Ref.lzw .new r n 3 = .opened (screen 4 4 demoPalette .infinite Frame.default) ::
      [.frame (some (trimmed demoFrame2)) (screen 4 4 demoPalette .infinite (trimmed demoFrame2)),
       .frame none (screen 4 4 demoPalette .infinite (trimmed demoFrame2)),
       .frame none (screen 4 4 demoPalette .infinite (trimmed demoFrame2))] :=
  ⟨⟨[], [.data (demoFile.take 65), .data [], .data (demoFile.drop 65)]⟩, 4, by decide +kernel, by decide +kernel, by decide +kernel⟩

set_option maxRecDepth 100000 in
/-- And with nothing to read in the header there is no decoder to go on with. -/
theorem follow_needs_header : ∃ (r : Reader) (n : Nat), r.bytes = demoFile ∧ r.pauses ≤ n ∧
    followFrom Ref.lzw .new r n 3 = [.failed (.io .unexpectedEof)] :=
  ⟨⟨[], [.data (demoFile.take 20), .data [], .data (demoFile.drop 20)]⟩, 4, by decide +kernel, by decide +kernel, by decide +kernel⟩

end Gif.Live
