/-!
# Sub-blocks

Image data and extension data are stored in sub-blocks: a length byte and as many bytes, up to a zero length.
-/

namespace Gif.Spec

/-- The payload of a sequence of sub-blocks, when `n` bytes of the first one are still to come, and what follows the
terminating zero; `none` if the bytes end before it. -/
def blocks : Nat → List UInt8 → List UInt8 × Option (List UInt8)
  | _, [] => ([], none)
  | n + 1, b :: l => (b :: (blocks n l).1, (blocks n l).2)
  | 0, b :: l => if b = 0 then ([], some l) else blocks b.toNat l

theorem blocks_nil (n : Nat) : blocks n [] = ([], none) := by cases n <;> rfl

theorem blocks_end (l : List UInt8) : blocks 0 (0 :: l) = ([], some l) := by simp [blocks]

theorem blocks_next {b : UInt8} (hb : b ≠ 0) (l : List UInt8) : blocks 0 (b :: l) = blocks b.toNat l := by
  simp [blocks, hb]

theorem blocks_append : ∀ (x y : List UInt8) (n : Nat), x.length ≤ n →
    blocks n (x ++ y) = (x ++ (blocks (n - x.length) y).1, (blocks (n - x.length) y).2) := by
  intro x
  induction x with
  | nil => intro y n _; rfl
  | cons b x ih =>
    intro y n h
    match n with
    | 0 => simp at h
    | n + 1 =>
      rw [List.cons_append, blocks, ih y n (by simpa using h)]
      simp

/-- More bytes after the terminator change nothing before it. -/
theorem blocks_more_some : ∀ (l : List UInt8) (n : Nat) {d rest : List UInt8} (q : List UInt8), blocks n l = (d, some rest) →
    blocks n (l ++ q) = (d, some (rest ++ q)) := by
  intro l
  induction l with
  | nil => intro n d rest q h; rw [blocks_nil] at h; simp at h
  | cons b l ih =>
    intro n d rest q h
    match n with
    | 0 =>
      rw [List.cons_append]
      by_cases hb : b = 0
      · subst hb
        rw [blocks_end] at h ⊢
        simp only [Prod.mk.injEq, Option.some.injEq] at h
        rw [← h.1, ← h.2]
      · rw [blocks_next hb] at h ⊢
        exact ih _ q h
    | n + 1 =>
      rw [List.cons_append, blocks]
      rw [blocks] at h
      simp only [Prod.mk.injEq] at h
      rw [ih n (d := (blocks n l).1) (rest := rest) q (by rw [← h.2])]
      simp [h.1]

/-- More bytes only add to the payload of an incomplete sequence. -/
theorem blocks_more_none : ∀ (l : List UInt8) (n : Nat) (q : List UInt8), (blocks n l).2 = none →
    ∃ x, (blocks n (l ++ q)).1 = (blocks n l).1 ++ x := by
  intro l
  induction l with
  | nil => intro n q _; exact ⟨_, by rw [blocks_nil]; rfl⟩
  | cons b l ih =>
    intro n q h
    match n with
    | 0 =>
      rw [List.cons_append]
      by_cases hb : b = 0
      · subst hb; rw [blocks_end] at h; simp at h
      · rw [blocks_next hb] at h ⊢
        rw [blocks_next hb]
        exact ih _ q h
    | n + 1 =>
      rw [List.cons_append, blocks]
      rw [blocks] at h ⊢
      obtain ⟨x, hx⟩ := ih n q h
      exact ⟨x, by rw [hx]; rfl⟩

end Gif.Spec
