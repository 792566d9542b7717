import Verif.Props.Access
import Verif.Props.RoundTripCases
/-!
Cases of C80.
-/

namespace Gif

open Spec Encoder

/-- An encoder on a writer that fails in its 7th call, and again in its 9th call after two bytes. -/
def shakySink : Sink :=
  { written := [1, 2, 3], plan := [none, none, none, none, none, none, some (0, 5), none, some (2, 6)] }

set_option maxRecDepth 100000 in
/-- `Encoder::new` can succeed on a writer that fails later: then calls fail, and go on after that. The program that takes the bytes
gets more than one piece, and not all of the calls succeed. -/
example : (Encoder.new true shakySink 4 4 demoPalette).2 = .ok () ∧
    (runTaking Ref.lzw (Encoder.new true shakySink 4 4 demoPalette).1 demoOps).2 =
      ([.ok (), .err (.io (.writer 5)), .err (.io .invalidInput), .err (.io (.writer 6)), .ok ()],
      [.ok [1, 2, 3, 71, 73, 70, 56, 57, 97, 4, 0, 4, 0, 145, 0, 0, 0, 0, 0, 255, 255, 255, 1, 2, 3, 0, 0, 0, 33, 255, 11, 78,
         69, 84, 83, 67, 65, 80, 69, 50, 46, 48, 3, 1, 0, 0, 0],
       .ok [], .ok [], .ok [33],
       .ok [33, 249, 4, 15, 5, 0, 1, 0, 44, 0, 0, 1, 0, 2, 0, 2, 0, 128, 9, 9, 9, 0, 0, 0, 3, 4, 8, 33, 112, 9, 0]]) := by
  decide +kernel

set_option maxRecDepth 100000 in
/-- `taking_file` is about files in several pieces. -/
example : (encodeTaking Ref.lzw true 4 4 demoPalette demoOps).1.map (List.map List.length) =
    some [25, 19, 25, 0, 6, 31, 1] := by
  decide +kernel

/-- Put another writer in the place of the encoder's, look, write something directly. -/
def meddling : List EncStep :=
  [.call (.setRepeat .infinite), .touch (fun _ => { written := [], plan := [] }), .call (.frame demoFrame), .look, .past [1, 2],
   .call (.frame { demoFrame with buffer := [] })]

set_option maxRecDepth 100000 in
/-- The hypotheses of `results_despite_touch` hold for steps with calls of either result. -/
example : (Encoder.new true { written := [], plan := [] } 4 4 demoPalette).2 = .ok () ∧
    resultsOf (runSteps Ref.lzw (Encoder.new true { written := [], plan := [] } 4 4 demoPalette).1 meddling).2 =
      [.ok (), .ok (), .err (.io .invalidInput)] ∧
    (∀ op, EncStep.call op ∈ meddling → op.Sane) ∧
    (∀ f, EncStep.touch f ∈ meddling → ∀ s : Sink, (∀ p ∈ s.plan, p = none) → ∀ p ∈ (f s).plan, p = none) := by
  refine ⟨by decide +kernel, by decide +kernel, ?_, ?_⟩
  · intro op hop
    simp only [meddling, EncStep.past, List.mem_cons, List.not_mem_nil, or_false, EncStep.call.injEq, reduceCtorEq,
      false_or] at hop
    rcases hop with rfl | rfl | rfl <;> decide
  · intro f hf s hs
    simp only [meddling, EncStep.past, List.mem_cons, List.not_mem_nil, or_false, EncStep.touch.injEq, reduceCtorEq,
      false_or] at hf
    rcases hf with rfl | rfl
    · simp
    · obtain ⟨s', h1, _, h3⟩ := writeAll_working [1, 2] s hs
      show ∀ p ∈ ((W.writeAll [1, 2]) s).1.plan, p = none
      rw [h1]
      exact h3

/-- A comment written past the encoder, between calls. -/
def pastPieces : List Piece :=
  [.call (.setRepeat .infinite), .call (.frame demoFrame), .raw [0x21, 0xFE, 2, 1, 2, 0], .call (.frame demoFrame2)]

set_option maxRecDepth 100000 in
/-- The hypotheses of `past_file` and `past_extension` hold: the file is the one of `demoOps`. -/
example : demoPalette.length / 3 ≤ 256 ∧ (∀ op, Piece.call op ∈ pastPieces → op.Sane) ∧
    (encodeSteps Ref.lzw true 4 4 demoPalette (pastPieces.map Piece.step)).1 = some demoFile := by
  refine ⟨by decide, ?_, by decide +kernel⟩
  intro op hop
  simp only [pastPieces, List.mem_cons, List.not_mem_nil, or_false, Piece.call.injEq, reduceCtorEq, false_or] at hop
  rcases hop with rfl | rfl | rfl <;> decide

/-- A trailer written past the encoder after two frames, and one more frame. -/
def cutShort : List Piece := demoOps.map Piece.call ++ [.raw [0x3B], .call (.frame demoFrame)]

set_option maxRecDepth 100000 in
theorem cutShort_bytes : (encodeSteps Ref.lzw true 4 4 demoPalette (cutShort.map Piece.step)).1 =
    some (readerOn (demoFile ++ [33, 249, 4, 5, 5, 0, 1, 0, 44, 0, 0, 0, 0, 2, 0, 2, 0, 0, 3, 4, 8, 33, 112, 9, 0, 59])).bytes := by
  decide +kernel

/-- A case of `past_trailer_hides`: only two of the three frames are read. -/
example : ∃ fs, Decoder.rawFilm Ref.lzw .new
      (readerOn (demoFile ++ [33, 249, 4, 5, 5, 0, 1, 0, 44, 0, 0, 0, 0, 2, 0, 2, 0, 0, 3, 4, 8, 33, 112, 9, 0, 59])) 3 =
      projection 4 4 demoPalette .infinite fs 1 ∧ fs.map (·.buffer) = [[3, 8, 33, 112, 9], [3, 8, 33, 112, 9]] := by
  have := past_trailer_hides Ref.lzwContract (o := .new) true (by decide +kernel) demo_sane demo_plain
    (after := [.call (.frame demoFrame)]) (by
      intro op hop
      rw [List.mem_singleton] at hop
      cases hop
      decide) demo_encode demo_admissible demo_held demo_changed
    (readerOn_reliable (by decide)) cutShort_bytes 1
  rw [demo_written] at this
  exact ⟨_, this, by decide +kernel⟩

end Gif
