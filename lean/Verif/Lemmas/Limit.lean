import Verif.Lemmas.Strict
/-!
A decoder with a higher memory limit does the same as one with a lower one, until the latter runs into its limit.
-/

namespace Gif

namespace Spec

/-- `a` is `b`, or a part of it and then an error of the memory limit. -/
def WithinLimit (a b : List Got) : Prop :=
  a = b ∨ ∃ k e, (e = .format .memoryLimit ∨ e = .io .outOfMemory) ∧ k < b.length ∧ a = b.take k ++ [.seen (.failed e)]

theorem WithinLimit.upheld {a b : List Got} (h : WithinLimit a b) : Upheld a b := by
  rcases h with rfl | ⟨k, e, _, hk, rfl⟩
  · exact .inl rfl
  · exact .inr ⟨k, e, hk, rfl⟩

end Spec

namespace Decoder

variable {C : Codec}

/-- A lower memory limit only adds errors of the memory limit. -/
theorem filmFrom_cap (o : DecodeOptions) {m : MemoryLimit} (hlm : o.memoryLimit.Le m) (r : Reader) (acts : List Act) :
    Spec.WithinLimit (filmFrom C o r acts) (filmFrom C { o with memoryLimit := m } r acts) := by
  have h := filmFrom_relax (C := C) o (m := { o.policy with memoryLimit := m }) ⟨hlm, id, id, id⟩ r acts
  have e : o.relax { o.policy with memoryLimit := m } = { o with memoryLimit := m } := rfl
  rw [e] at h
  rcases h with h | ⟨k, e, he, hk, h⟩
  · exact .inl h
  · refine .inr ⟨k, e, ?_, hk, h⟩
    unfold Refusal at he
    split at he
    · exact .inl rfl
    · exact .inr rfl
    · rw [he.1] at he; cases he.2
    · rw [he.1] at he; cases he.2
    · rw [he.1] at he; cases he.2
    · exact he.elim

end Decoder

end Gif
