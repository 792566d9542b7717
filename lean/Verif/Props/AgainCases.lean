import Verif.Props.Again
import Verif.Props.TranscodeCases
/-!
Cases of C63, and why its conditions are needed.
-/

namespace Gif

open Spec Encoder

/-- Two frames, one without a palette, one with a palette of its own that is not full. -/
def againFrames : List Frame := [{ demoFrame with buffer := [0, 1, 2, 0] }, { demoFrame2 with buffer := [0, 1, 1, 0] }]

theorem again_drawable : ∀ f ∈ againFrames, Drawable demoPalette f := by
  intro f hf
  simp only [againFrames, List.mem_cons, List.not_mem_nil, or_false] at hf
  rcases hf with rfl | rfl
  · exact ⟨by decide, by decide, (by decide : 3 ≤ demoPalette.length)⟩
  · exact ⟨by decide, by decide, (by decide : ([9, 9, 9] : List UInt8).length / 3 ≤ 256)⟩

set_option maxRecDepth 100000 in
theorem again_allowed : ∀ f ∈ againFrames, Allowed Ref.lzw .new 4 4 f := by
  intro f hf
  simp only [againFrames, List.mem_cons, List.not_mem_nil, or_false] at hf
  rcases hf with rfl | rfl
  · exact ⟨by decide +kernel, 4, by decide +kernel⟩
  · exact ⟨by decide +kernel, 4, by decide +kernel⟩

/-- A case of `reencode_identical`. -/
example := reencode_identical Ref.lzwContract (o := .new) rfl rfl rfl true false (w := 4) (h := 4) (pal := demoPalette) (by decide)
  (rep := .infinite) (fs := againFrames) (by decide) again_drawable (by decide) (by decide) (by decide) again_allowed

/-- Frames written in both ways; the first one has more pixels than it shows. -/
def againOps : List EncOp := [.frame demoFrame, .preEncoded (demoFrame2.makeLzwPreEncoded Ref.lzw)]

set_option maxRecDepth 100000 in
/-- A case of `rewrite_identical`. -/
example : ∃ file, encodeFile Ref.lzw true 4 4 demoPalette (.setRepeat (.finite 3) :: againOps) = (some file, List.replicate 3 (.ok ())) ∧
    ∀ r : Reader, r.Reliable → r.bytes = file ++ [1, 2, 3] → ∃ v rest, Decoder.rawFilm Ref.lzw .new r (2 + 1) = .opened v :: rest ∧
      encodeFile Ref.lzw false v.width v.height (v.globalPalette.getD []) (.setRepeat v.repetition :: (rawFrames rest).map .preEncoded) =
        (some file, List.replicate 3 (.ok ())) := by
  have hsane : ∀ op ∈ againOps, op.Sane := by
    intro op hop
    simp only [againOps, List.mem_cons, List.not_mem_nil, or_false] at hop
    rcases hop with rfl | rfl
    · exact .inl (by decide)
    · trivial
  have hfr : ∀ op ∈ againOps, isFrame op = true := by
    intro op hop
    simp only [againOps, List.mem_cons, List.not_mem_nil, or_false] at hop
    rcases hop with rfl | rfl <;> rfl
  have henc : encodeFile Ref.lzw true 4 4 demoPalette (.setRepeat (.finite 3) :: againOps) =
      (some ((encodeFile Ref.lzw true 4 4 demoPalette (.setRepeat (.finite 3) :: againOps)).1.getD []), List.replicate 3 (.ok ())) := by
    decide +kernel
  refine ⟨_, henc, ?_⟩
  intro r hr hb
  refine rewrite_identical Ref.lzwContract (o := .new) true false (fs := againOps) (by decide +kernel) (by simp [againOps]) hfr hsane henc ?_
    (by unfold Held; decide +kernel) (by decide) hr hb 1
  intro op hop
  simp only [againOps, List.mem_cons, List.not_mem_nil, or_false] at hop
  rcases hop with rfl | rfl
  · exact ⟨by decide +kernel, fun g hg => by cases hg⟩
  · refine ⟨by decide +kernel, fun g hg => ?_⟩
    cases hg
    decide +kernel

/-- A case of `reencode_stable`: the frames of a file that this library did not write. -/
example := reencode_stable Ref.lzwContract (o := .new) (p := .new) rfl rfl rfl rfl rfl (fun h => h) animation_opened
    (gs := animationFrames.reverse ++ animationFrames.take 1) (by rw [animation_frames]; decide) (by decide) (by decide) true false .infinite
    (by decide) (by decide +kernel)

/-- A case of `rewrite_stable`. -/
example := rewrite_stable Ref.lzwContract (o := Decoder.rawOptions) (p := .new) rfl (fun h => h) animation_opened_raw (gs := animationRaw.reverse)
    (by rw [animation_frames_raw]; decide) (by decide) (by decide) (by decide) true false (.finite 3) (by decide) (by decide)

/-- Encoding, decoding with the pixels, encoding again. -/
def reencoded (ops : List EncOp) : Option (List UInt8) × Option (List UInt8) :=
  match (encodeFile Ref.lzw true 4 4 demoPalette ops).1 with
  | none => (none, none)
  | some file =>
    match Decoder.sessionFrom Ref.lzw .new (readerOn file) (List.replicate 3 .read) with
    | .opened v :: rest =>
      (some file, (encodeFile Ref.lzw true v.width v.height (v.globalPalette.getD []) (.setRepeat v.repetition :: (rawFrames rest).map .frame)).1)
    | _ => (some file, none)

set_option maxRecDepth 100000 in
/-- Without the conditions the file changes: pixels behind the last row, an interlaced frame, a comment, a loop count behind
the first frame. -/
theorem reencode_differs :
    (∃ a b, reencoded [.frame demoFrame] = (some a, some b) ∧ a ≠ b) ∧
    (∃ a b, reencoded [.frame { demoFrame with buffer := [0, 1, 2, 0], interlaced := true }] = (some a, some b) ∧ a ≠ b) ∧
    (∃ a b, reencoded (.rawExtension 0xFE [[1, 2]] :: againFrames.map .frame) = (some a, some b) ∧ a ≠ b) ∧
    (∃ a b, reencoded (againFrames.map .frame ++ [.setRepeat .infinite]) = (some a, some b) ∧ a ≠ b) := by
  have key : ∀ x : Option (List UInt8) × Option (List UInt8), (x.1.isSome && x.2.isSome && x.1 != x.2) = true →
      ∃ a b, x = (some a, some b) ∧ a ≠ b := by
    rintro ⟨a, b⟩ h
    cases a with
    | none => cases h
    | some a =>
      cases b with
      | none => cases h
      | some b =>
        refine ⟨a, b, rfl, ?_⟩
        rintro rfl
        simp at h
  exact ⟨key _ (by decide +kernel), key _ (by decide +kernel), key _ (by decide +kernel), key _ (by decide +kernel)⟩

end Gif
