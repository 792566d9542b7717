import Verif.Props.Damage
import Verif.Props.GrammarCases
import Verif.Props.RoundTripCases
/-!
Cases of the theorems of `Damage.lean`, and what they need.
-/

namespace Gif

open Spec Encoder

/-- The images of `sample`, then a control extension that was cut off. -/
def brokenReader : Reader := { buf := [], src := [.data (sample.renderHead ++ renderBlks sample.blocks), .data [0x21, 0xF9, 4, 0]] }

theorem brokenReader_reliable : brokenReader.Reliable := by
  intro ev h
  simp only [brokenReader, List.mem_cons, List.not_mem_nil, or_false] at h
  rcases h with rfl | rfl
  · exact ⟨_, rfl, by decide +kernel⟩
  · exact ⟨_, rfl, by decide⟩

set_option maxRecDepth 100000 in
/-- A case of `damage_raw` and of `damage_frames`: the file is broken, the images are not. -/
example : Decoder.rawFilm Ref.lzw .new brokenReader 2 = sample.screenplay (sample.frames.map Spec.rawFrame) 0 ∧
    Decoder.sessionFrom Ref.lzw .new brokenReader (List.replicate 2 .read) =
      sample.screenplay (sample.pictures .indexed [[0, 1, 1, 0, 1, 0], [1, 1]]) 0 ∧
    (Decoder.sessionFrom Ref.lzw .new brokenReader (List.replicate 3 .read)).getLast? = some (.failed (.io .unexpectedEof)) :=
  ⟨Decoder.damage_raw Ref.lzwContract.safe sample_readable (by decide +kernel) (by decide +kernel) brokenReader_reliable
      (rest := [0x21, 0xF9, 4, 0]) (by decide +kernel),
    Decoder.damage_frames Ref.lzwContract rfl rfl sample_readable (by decide +kernel) sample_shows brokenReader_reliable
      (rest := [0x21, 0xF9, 4, 0]) (by decide +kernel),
    by decide +kernel⟩

set_option maxRecDepth 100000 in
/-- Files without images do need what comes behind their blocks: `read_info` looks for it. -/
theorem damage_fails_imageless : ∃ (g : File) (r : Reader), g.Readable .new ∧ r.Reliable ∧
    r.bytes = g.renderHead ++ renderBlks g.blocks ∧
    Decoder.rawFilm Ref.lzw .new r g.frames.length ≠ g.screenplay (g.frames.map Spec.rawFrame) 0 :=
  ⟨withBlocks [.ext 0xFE [[104, 105]]], readerOn ((withBlocks []).renderHead ++ renderBlks [.ext 0xFE [[104, 105]]]),
    ⟨by decide +kernel, by decide +kernel, by decide +kernel, by decide +kernel⟩, readerOn_reliable (by decide +kernel),
    by decide +kernel, by decide +kernel⟩

set_option maxRecDepth 100000 in
/-- The bytes of an image have to be complete: without the end of its data it is not a frame. -/
theorem damage_fails_terminator :
    (Decoder.rawFilm Ref.lzw .new (readerOn ((sample.renderHead ++ renderBlks sample.blocks).dropLast)) 2).getLast? =
      some (.failed (.io .unexpectedEof)) := by decide +kernel

/-! ## Writers -/

/-- A writer that fails once, after 24 calls. -/
def tiredSink : Sink := { written := [], plan := List.replicate 24 none ++ [some (1, 5)] }

/-- The encoder on it. -/
def tiredEncoder : Encoder := (Encoder.new true tiredSink 4 4 demoPalette).1

def tiredResults : List (EOut Unit) := [.ok (), .ok (), .err (.io .invalidInput), .ok (), .err (.io (.writer 5))]

set_option maxRecDepth 100000 in
theorem tired_new : Encoder.new true tiredSink 4 4 demoPalette = (tiredEncoder, .ok ()) :=
  Prod.ext rfl (by decide +kernel)

set_option maxRecDepth 100000 in
theorem tired_run : runUntilIo Ref.lzw tiredEncoder demoOps = ((runUntilIo Ref.lzw tiredEncoder demoOps).1, tiredResults) :=
  Prod.ext rfl (by decide +kernel)

def tiredFile : List UInt8 :=
  [71, 73, 70, 56, 57, 97, 4, 0, 4, 0, 145, 0, 0, 0, 0, 0, 255, 255, 255, 1, 2, 3, 0, 0, 0, 33, 255, 11, 78, 69,
   84, 83, 67, 65, 80, 69, 50, 46, 48, 3, 1, 0, 0, 0, 33, 249, 4, 5, 5, 0, 1, 0, 44, 0, 0, 0, 0, 2, 0, 2, 0, 0, 3, 4, 8,
   33, 112, 9, 0, 33, 254, 2, 1, 2, 0, 33, 249, 4, 15, 5, 0, 1, 0, 44, 0, 0, 1, 0, 2, 0, 2, 0, 128, 9, 9, 9, 0]

set_option maxRecDepth 100000 in
theorem tired_file : (runUntilIo Ref.lzw tiredEncoder demoOps).1.w = some { written := tiredFile, plan := [] } := by decide +kernel

theorem tired_written : written demoOps tiredResults = [.frame demoFrame] := by decide +kernel

set_option maxRecDepth 100000 in
/-- A case of `crash_pixels`: the writer fails within the second frame, then `drop` writes a trailer. The first frame is there. -/
example : Decoder.sessionFrom Ref.lzw .new (readerOn (tiredFile ++ [0x3B])) (List.replicate 1 .read) =
    projection 4 4 demoPalette .infinite [trimmed demoFrame] 0 := by
  have := crash_pixels Ref.lzwContract (o := .new) rfl rfl true (s := tiredSink) rfl (by decide +kernel) demo_sane demo_plain
    tired_new tired_run tired_file
    (by
      rw [tired_written]
      intro op hop
      simp only [List.mem_cons, List.not_mem_nil, or_false] at hop
      subst hop
      exact ⟨by decide +kernel, fun g h => by cases h⟩)
    (by rw [tired_written]; simp) (pxs := [demoFrame.buffer])
    (by rw [tired_written]; exact ⟨⟨by decide, ⟨4, by decide +kernel⟩, rfl⟩, trivial⟩)
    (r := readerOn (tiredFile ++ [0x3B])) (readerOn_reliable (by decide)) (rest := [0x3B]) (by decide +kernel)
  rw [tired_written] at this
  exact this

set_option maxRecDepth 100000 in
/-- A case of `crash_raw`. -/
example : ∃ fs, Decoder.rawFilm Ref.lzw .new (readerOn tiredFile) 1 = projection 4 4 demoPalette .infinite fs 0 ∧
    fs.map (·.buffer) = [[3, 8, 33, 112, 9]] := by
  have := crash_raw Ref.lzwContract (o := .new) true (s := tiredSink) rfl (by decide +kernel) demo_sane demo_plain
    tired_new tired_run tired_file
    (by
      rw [tired_written]
      intro op hop
      simp only [List.mem_cons, List.not_mem_nil, or_false] at hop
      subst hop
      exact ⟨by decide +kernel, fun g h => by cases h⟩)
    (by rw [tired_written]; unfold Held; decide +kernel)
    (by rw [tired_written]; simp)
    (r := readerOn tiredFile) (readerOn_reliable (by decide)) (rest := []) (by decide +kernel)
  rw [tired_written] at this
  exact ⟨_, this, by decide +kernel⟩

/-- A writer that fails once, within the first frame. -/
def weakSink : Sink := { written := [], plan := List.replicate 9 none ++ [some (1, 5)] }

set_option maxRecDepth 100000 in
/-- Only frames written before the first failure are safe: writing the frame again, with success, is not enough, because what was
written of the first attempt stays in the file. -/
theorem crash_fails_retry : ∃ file : List UInt8,
    let e := (Encoder.new true weakSink 4 4 demoPalette).1
    (runOps Ref.lzw e [.setRepeat .infinite, .frame demoFrame, .frame demoFrame]).2 = [.ok (), .err (.io (.writer 5)), .ok ()] ∧
    (runOps Ref.lzw e [.setRepeat .infinite, .frame demoFrame, .frame demoFrame]).1.w = some { written := file, plan := [] } ∧
    Spec.rawFrames (Decoder.rawFilm Ref.lzw .new (readerOn (file ++ [0x3B])) 2) = [] :=
  ⟨_, by decide +kernel, rfl, by decide +kernel⟩

end Gif
