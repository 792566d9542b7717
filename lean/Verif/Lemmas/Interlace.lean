import Verif.Model.Converter
import Verif.Spec.Interlace

namespace Gif

open Spec

namespace InterlaceIter

/-- The rows returned by at most `n` calls of `next`, and the iterator afterwards. -/
def rows : Nat → InterlaceIter → List Nat
  | 0, _ => []
  | n + 1, it =>
    match it.nextRow with
    | (_, none) => []
    | (it, some r) => r :: rows n it

/-- `next, next + k, ...` below `h` -/
def prog (next k h : Nat) : List Nat := (List.range ((h - next + (k - 1)) / k)).map (fun i => next + k * i)

theorem prog_nil {next k h : Nat} (hk : 0 < k) (hh : h ≤ next) : prog next k h = [] := by
  unfold prog
  have : h - next = 0 := by omega
  rw [this, Nat.div_eq_of_lt (by omega)]; rfl

theorem prog_cons {next k h : Nat} (hk : 0 < k) (hh : next < h) :
    prog next k h = next :: prog (next + k) k h := by
  unfold prog
  have h1 : (h - next + (k - 1)) / k = (h - (next + k) + (k - 1)) / k + 1 := by
    by_cases hc : next + k ≤ h
    · have : h - next + (k - 1) = (h - (next + k) + (k - 1)) + k := by omega
      rw [this, Nat.add_div_right _ hk]
    · have e : h - (next + k) = 0 := by omega
      rw [e]
      have e2 : (0 + (k - 1)) / k = 0 := Nat.div_eq_of_lt (by omega)
      rw [e2]
      have : h - next + (k - 1) = (h - next - 1) + k := by omega
      rw [this, Nat.add_div_right _ hk, Nat.div_eq_of_lt (by omega)]
  rw [h1, List.range_succ_eq_map]
  simp only [List.map_cons, List.map_map, Nat.mul_zero, Nat.add_zero, List.cons.injEq, true_and]
  apply List.map_congr_left
  intro i _
  simp [Function.comp, Nat.mul_add]; omega

theorem prog_succ {next k h : Nat} (hk : 0 < k) :
    prog next k (h + 1) = prog next k h ++ (if next ≤ h ∧ (h - next) % k = 0 then [h] else []) := by
  unfold prog
  by_cases hn : next ≤ h
  · by_cases hm : (h - next) % k = 0
    · obtain ⟨q, hq⟩ := Nat.dvd_of_mod_eq_zero hm
      have e1 : (h + 1 - next + (k - 1)) / k = q + 1 := by
        have : h + 1 - next + (k - 1) = k * q + k := by omega
        rw [this, Nat.add_div_right _ hk, Nat.mul_div_cancel_left _ hk]
      have e2 : (h - next + (k - 1)) / k = q := by
        rw [hq, Nat.add_comm, Nat.add_mul_div_left _ _ hk, Nat.div_eq_of_lt (by omega)]; omega
      rw [e1, e2, List.range_succ]
      simp [hn, hm]; omega
    · have e : (h + 1 - next + (k - 1)) / k = (h - next + (k - 1)) / k := by
        have : h + 1 - next + (k - 1) = (h - next + (k - 1)) + 1 := by omega
        rw [this, Nat.succ_div]
        have : ¬ k ∣ (h - next + (k - 1) + 1) := by
          intro hd
          have e : h - next + (k - 1) + 1 = (h - next) + k := by omega
          rw [e, Nat.dvd_add_left (Nat.dvd_refl k)] at hd
          exact hm (Nat.mod_eq_zero_of_dvd hd)
        simp [this]
      rw [e]; simp [hm]
  · have : h + 1 - next = 0 := by omega
    have : h - next = 0 := by omega
    simp [*]

theorem prog_eq_filter (next k h : Nat) (hk : 0 < k) (hs : next < k) :
    prog next k h = (List.range h).filter (fun i => i % k = next) := by
  induction h with
  | zero => rw [prog_nil hk (Nat.zero_le _)]; rfl
  | succ h ih =>
    rw [prog_succ hk, ih, List.range_succ, List.filter_append]
    congr 1
    have : (next ≤ h ∧ (h - next) % k = 0) ↔ h % k = next := by
      constructor
      · rintro ⟨h1, h2⟩
        obtain ⟨q, hq⟩ := Nat.dvd_of_mod_eq_zero h2
        have : h = next + k * q := by omega
        rw [this, Nat.add_mul_mod_self_left, Nat.mod_eq_of_lt hs]
      · intro h1
        have := Nat.div_add_mod h k
        have hle : next ≤ h := by omega
        refine ⟨hle, ?_⟩
        have : h - next = k * (h / k) := by omega
        rw [this, Nat.mul_mod_right]
    by_cases hc : h % k = next
    · rw [if_pos (this.2 hc)]; simp [hc]
    · rw [if_neg (fun h' => hc (this.1 h'))]; simp [hc]

/-- What is still to come in state `(next, pass)`. -/
def remaining (h next : Nat) : Nat → List Nat
  | 0 => prog next 8 h ++ (prog 4 8 h ++ (prog 2 4 h ++ prog 1 2 h))
  | 1 => prog next 8 h ++ (prog 2 4 h ++ prog 1 2 h)
  | 2 => prog next 4 h ++ prog 1 2 h
  | 3 => prog next 2 h
  | _ => []

theorem nextRow_spec (h next pass : Nat) (hn : next < h) (hp : pass < 4) :
    ∃ next' pass', nextRow ⟨h, next, pass⟩ = (⟨h, next', pass'⟩, some next) ∧
      remaining h next pass = next :: remaining h next' pass' ∧ next' < h ∧ pass' ≤ 4 := by
  have hh : h ≠ 0 := by omega
  match pass, hp with
  | 0, _ =>
    rcases Nat.lt_or_ge (next + 8) h with h8 | h8
    · exact ⟨next + 8, 0, by simp [nextRow, hh, stride, skipPasses, Nat.not_le.2 h8],
        by simp [remaining, prog_cons (k := 8) (by decide) hn], h8, by decide⟩
    rcases Nat.lt_or_ge 4 h with h4 | h4
    · exact ⟨4, 1, by simp [nextRow, hh, stride, start, skipPasses, h8, Nat.not_le.2 h4],
        by simp [remaining, prog_cons (k := 8) (by decide) hn, prog_nil (k := 8) (by decide) h8], h4, by decide⟩
    rcases Nat.lt_or_ge 2 h with h2 | h2
    · exact ⟨2, 2, by simp [nextRow, hh, stride, start, skipPasses, h8, h4, Nat.not_le.2 h2],
        by simp [remaining, prog_cons (k := 8) (by decide) hn, prog_nil (k := 8) (by decide) h8,
          prog_nil (k := 8) (by decide) h4], h2, by decide⟩
    rcases Nat.lt_or_ge 1 h with h1 | h1
    · exact ⟨1, 3, by simp [nextRow, hh, stride, start, skipPasses, h8, h4, h2, Nat.not_le.2 h1],
        by simp [remaining, prog_cons (k := 8) (by decide) hn, prog_nil (k := 8) (by decide) h8,
          prog_nil (k := 8) (by decide) h4, prog_nil (k := 4) (by decide) h2], h1, by decide⟩
    · exact ⟨0, 4, by simp [nextRow, hh, stride, start, skipPasses, h8, h4, h2, h1],
        by simp [remaining, prog_cons (k := 8) (by decide) hn, prog_nil (k := 8) (by decide) h8,
          prog_nil (k := 8) (by decide) h4, prog_nil (k := 4) (by decide) h2, prog_nil (k := 2) (by decide) h1],
        by omega, by decide⟩
  | 1, _ =>
    rcases Nat.lt_or_ge (next + 8) h with h8 | h8
    · exact ⟨next + 8, 1, by simp [nextRow, hh, stride, skipPasses, Nat.not_le.2 h8],
        by simp [remaining, prog_cons (k := 8) (by decide) hn], h8, by decide⟩
    rcases Nat.lt_or_ge 2 h with h2 | h2
    · exact ⟨2, 2, by simp [nextRow, hh, stride, start, skipPasses, h8, Nat.not_le.2 h2],
        by simp [remaining, prog_cons (k := 8) (by decide) hn, prog_nil (k := 8) (by decide) h8], h2, by decide⟩
    rcases Nat.lt_or_ge 1 h with h1 | h1
    · exact ⟨1, 3, by simp [nextRow, hh, stride, start, skipPasses, h8, h2, Nat.not_le.2 h1],
        by simp [remaining, prog_cons (k := 8) (by decide) hn, prog_nil (k := 8) (by decide) h8,
          prog_nil (k := 4) (by decide) h2], h1, by decide⟩
    · exact ⟨0, 4, by simp [nextRow, hh, stride, start, skipPasses, h8, h2, h1],
        by simp [remaining, prog_cons (k := 8) (by decide) hn, prog_nil (k := 8) (by decide) h8,
          prog_nil (k := 4) (by decide) h2, prog_nil (k := 2) (by decide) h1],
        by omega, by decide⟩
  | 2, _ =>
    rcases Nat.lt_or_ge (next + 4) h with h8 | h8
    · exact ⟨next + 4, 2, by simp [nextRow, hh, stride, skipPasses, Nat.not_le.2 h8],
        by simp [remaining, prog_cons (k := 4) (by decide) hn], h8, by decide⟩
    rcases Nat.lt_or_ge 1 h with h1 | h1
    · exact ⟨1, 3, by simp [nextRow, hh, stride, start, skipPasses, h8, Nat.not_le.2 h1],
        by simp [remaining, prog_cons (k := 4) (by decide) hn, prog_nil (k := 4) (by decide) h8], h1, by decide⟩
    · exact ⟨0, 4, by simp [nextRow, hh, stride, start, skipPasses, h8, h1],
        by simp [remaining, prog_cons (k := 4) (by decide) hn, prog_nil (k := 4) (by decide) h8,
          prog_nil (k := 2) (by decide) h1],
        by omega, by decide⟩
  | 3, _ =>
    rcases Nat.lt_or_ge (next + 2) h with h8 | h8
    · exact ⟨next + 2, 3, by simp [nextRow, hh, stride, skipPasses, Nat.not_le.2 h8],
        by simp [remaining, prog_cons (k := 2) (by decide) hn], h8, by decide⟩
    · exact ⟨0, 4, by simp [nextRow, hh, stride, start, skipPasses, h8, show ¬ h ≤ 0 by omega],
        by simp [remaining, prog_cons (k := 2) (by decide) hn, prog_nil (k := 2) (by decide) h8],
        by omega, by decide⟩

theorem nextRow_end (h next : Nat) : nextRow ⟨h, next, 4⟩ = (⟨h, next, 4⟩, none) := by
  by_cases hh : h = 0 <;> simp [nextRow, hh, stride]

theorem rows_eq_remaining (h : Nat) : ∀ n next pass, next < h → pass ≤ 4 →
    rows n ⟨h, next, pass⟩ = (remaining h next pass).take n := by
  intro n
  induction n with
  | zero => intros; simp [rows]
  | succ n ih =>
    intro next pass hn hp
    by_cases hp4 : pass = 4
    · subst hp4
      simp [rows, nextRow_end, remaining]
    · obtain ⟨n', p', e, hr, hn', hp'⟩ := nextRow_spec h next pass hn (by omega)
      rw [rows, e]
      simp only
      rw [ih n' p' hn' hp', hr, List.take_succ_cons]

theorem remaining_zero (h : Nat) : remaining h 0 0 = interlaceOrder h := by
  unfold remaining interlaceOrder
  rw [prog_eq_filter 0 8 h (by decide) (by decide), prog_eq_filter 4 8 h (by decide) (by decide),
    prog_eq_filter 2 4 h (by decide) (by decide), prog_eq_filter 1 2 h (by decide) (by decide)]
  simp

end InterlaceIter

namespace Spec

theorem interlaceOrder_perm (h : Nat) : (interlaceOrder h).Perm (List.range h) := by
  unfold interlaceOrder
  rw [List.perm_iff_count]
  intro a
  simp only [List.count_append]
  by_cases ha : a < h
  · have hc : List.count a (List.range h) = 1 := by
      rw [List.nodup_range.count]; simp [ha]
    have key : ∀ p : Nat → Bool, List.count a ((List.range h).filter p) = if p a then 1 else 0 := by
      intro p
      by_cases hp : p a
      · rw [List.count_filter hp, hc]; simp [hp]
      · rw [if_neg hp, List.count_eq_zero]
        simp [hp]
    rw [key, key, key, key, hc]
    simp only [decide_eq_true_eq]
    rcases (show a % 8 = 0 ∨ a % 8 = 4 ∨ a % 4 = 2 ∨ a % 2 = 1 by omega) with h1 | h1 | h1 | h1
    · rw [if_pos h1, if_neg (by omega), if_neg (by omega), if_neg (by omega)]
    · rw [if_neg (by omega), if_pos h1, if_neg (by omega), if_neg (by omega)]
    · rw [if_neg (by omega), if_neg (by omega), if_pos h1, if_neg (by omega)]
    · rw [if_neg (by omega), if_neg (by omega), if_neg (by omega), if_pos h1]
  · have : ∀ p : Nat → Bool, List.count a ((List.range h).filter p) = 0 := by
      intro p; rw [List.count_eq_zero]; simp [ha]
    rw [this, this, this, this]
    symm
    rw [List.count_eq_zero]; simp [ha]

theorem interlaceOrder_length (h : Nat) : (interlaceOrder h).length = h := by
  rw [(interlaceOrder_perm h).length_eq, List.length_range]

theorem interlaceOrder_lt {h r : Nat} (hr : r ∈ interlaceOrder h) : r < h := by
  have := (interlaceOrder_perm h).mem_iff.1 hr
  simpa using this

theorem interlaceOrder_nodup (h : Nat) : (interlaceOrder h).Nodup :=
  (interlaceOrder_perm h).symm.nodup List.nodup_range

end Spec

/-- A fresh iterator returns the interlace order, and nothing more. -/
theorem InterlaceIter.rows_fresh (h n : Nat) (hn : h ≤ n) :
    InterlaceIter.rows n ⟨h, 0, 0⟩ = interlaceOrder h := by
  by_cases hh : h = 0
  · subst hh
    cases n <;> simp [InterlaceIter.rows, InterlaceIter.nextRow, interlaceOrder]
  · rw [InterlaceIter.rows_eq_remaining h n 0 0 (by omega) (by decide), InterlaceIter.remaining_zero,
      List.take_of_length_le]
    rw [interlaceOrder_length]; exact hn

end Gif
