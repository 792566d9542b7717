import Verif.Props.Work
import Verif.Props.OversizedCases
/-!
# Cases for C78
-/

namespace Gif.Decoder

/-- Three frames of one, four and one pixels in 65 bytes: 30 steps. -/
example : (readInfo Ref.lzw .new middling).2 = .ok () ∧ openWork Ref.lzw .new middling = 5 ∧ middling.bytes.length = 65 ∧
    Spec.toil (readInfo Ref.lzw .new middling).1 (List.replicate 4 .readNextFrame) = (25, 6, 0) := by decide +kernel

/-- The same file with a memory limit: one call fails. -/
example : (readInfo Ref.lzw threeBytes middling).2 = .ok () ∧
    Spec.toil (readInfo Ref.lzw threeBytes middling).1 (List.replicate 4 .readNextFrame) = (25, 6, 1) := by decide +kernel

/-- Buffers of the caller, and a frame that is passed over. -/
example : (readInfo Ref.lzw .new chatty).2 = .ok () ∧
    Spec.toil (readInfo Ref.lzw .new chatty).1 [.nextFrameInfo, .fillBuffer [0], .fillBuffer [0], .nextFrameInfo,
      .readIntoBuffer [0], .nextFrameInfo, .nextFrameInfo] = (22, 3, 0) := by decide +kernel

/-- A file with rubbish after its first frame. -/
def rubbish : Reader :=
  { buf := [], src := [.data [0x47, 0x49, 0x46, 0x38, 0x39, 0x61, 2, 0, 2, 0, 0x80, 1, 0, 10, 20, 30, 40, 50, 60,
      0x2C, 0, 0, 0, 0, 1, 0, 1, 0, 0, 2, 2, 0x4C, 0x01, 0, 0x99, 0]] }

/-- The decoder of `rubbish` after the call that found it. -/
def stuck : Decoder Ref.lzw := (((readInfo Ref.lzw .new rubbish).1.perform .readNextFrame).1.perform .readNextFrame).1

theorem stuck_stays : (stuck.perform .readNextFrame).1 = stuck := by rfl

set_option maxRecDepth 100000 in
theorem stuck_works : stuck.work .readNextFrame = 1 ∧
    (match (stuck.perform .readNextFrame).2 with
      | .err (.format .unknownBlock) => true
      | _ => false) = true := by decide +kernel

theorem stuck_toil : ∀ n, (Spec.toil stuck (List.replicate n .readNextFrame)).1 = n := by
  intro n
  induction n with
  | zero => rfl
  | succ n ih =>
    rw [List.replicate_succ, Spec.toil, stuck_stays]
    generalize Spec.toil stuck (List.replicate n .readNextFrame) = x at *
    obtain ⟨w, r, b⟩ := x
    simp only at ih ⊢
    rw [stuck_works.1, ih, Nat.add_comm]

/-- **C78**, why failures have to be counted: a program that goes on after them can make a decoder work for ever, on a file of
36 bytes and without ever offering room for a pixel beyond the first frame. -/
theorem retries_are_not_free (bound : Nat) : (readInfo Ref.lzw .new rubbish).2 = .ok () ∧ rubbish.bytes.length = 36 ∧
    ∃ n, bound < (Spec.toil (readInfo Ref.lzw .new rubbish).1 (List.replicate n .readNextFrame)).1 := by
  refine ⟨by decide +kernel, by decide +kernel, bound + 3, ?_⟩
  show bound < (Spec.toil _ (List.replicate (bound + 1 + 1 + 1) .readNextFrame)).1
  rw [List.replicate_succ, List.replicate_succ, Spec.toil, Spec.toil]
  have h := stuck_toil (bound + 1)
  unfold stuck at h
  generalize Spec.toil _ (List.replicate (bound + 1) Op.readNextFrame) = x at *
  obtain ⟨w, r, b⟩ := x
  simp only at h ⊢
  omega

end Gif.Decoder
