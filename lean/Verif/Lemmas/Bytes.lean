import Verif.Model.Streaming
import Verif.Model.Encoder
/-!
Little-endian numbers, power-of-two sizes, flag bytes.
-/

namespace Gif

theorem u16le_leBytes (n : UInt16) : u16le (lo8 n) (hi8 n) = n := by
  unfold u16le lo8 hi8
  have h := n.toNat_lt
  apply UInt16.toNat_inj.1
  simp only [UInt16.toNat_ofNat', UInt8.toNat_ofNat']
  omega

theorem two_pow_ge (n : Nat) : n ≤ 2 ^ n := Nat.le_of_lt Nat.lt_two_pow_self

/-- `nextPow2Log n` is the least exponent of a power of two that is at least `n`. -/
theorem nextPow2Log_spec (n : Nat) : n ≤ 2 ^ nextPow2Log n ∧ ∀ k, n ≤ 2 ^ k → nextPow2Log n ≤ k := by
  unfold nextPow2Log
  match h : (List.range (n + 1)).find? fun k => n ≤ 2 ^ k with
  | none =>
    rw [List.find?_eq_none] at h
    exact absurd (two_pow_ge n) (by simpa using h n (by simp))
  | some k =>
    rw [List.find?_range_eq_some] at h
    obtain ⟨h1, h2, h3⟩ := h
    refine ⟨by simpa using h1, ?_⟩
    intro j hj
    rcases Nat.lt_or_ge j k with hlt | hge
    · have := h3 j hlt
      simp at this; omega
    · exact hge

/-- Table size exponents: for a clamped number of colours. -/
theorem flagSize_spec (n : Nat) (hn : n ≤ 256) :
    (flagSize n).toNat < 8 ∧ n ≤ 2 ^ ((flagSize n).toNat + 1) ∧
    ∀ j, 1 ≤ j → n ≤ 2 ^ j → (flagSize n).toNat + 1 ≤ j := by
  obtain ⟨h1, h2⟩ := nextPow2Log_spec (min (max n 2) 255)
  have h8 : nextPow2Log (min (max n 2) 255) ≤ 8 := h2 8 (by omega)
  have h1' : 1 ≤ nextPow2Log (min (max n 2) 255) := by
    rcases Nat.eq_zero_or_pos (nextPow2Log (min (max n 2) 255)) with h0 | h0
    · rw [h0] at h1; simp at h1; omega
    · exact h0
  have e : (flagSize n).toNat = nextPow2Log (min (max n 2) 255) - 1 := by
    unfold flagSize
    rw [UInt8.toNat_ofNat']
    omega
  rw [e, Nat.sub_add_cancel h1']
  refine ⟨by omega, ?_, ?_⟩
  · rcases Nat.lt_or_ge n 256 with h | h
    · omega
    · have : nextPow2Log (min (max n 2) 255) = 8 := by
        rcases Nat.lt_or_ge (nextPow2Log (min (max n 2) 255)) 8 with hlt | hge
        · have : 2 ^ nextPow2Log (min (max n 2) 255) ≤ 2 ^ 7 := Nat.pow_le_pow_right (by decide) (by omega)
          omega
        · omega
      rw [this]; omega
  · intro j hj hnj
    apply h2
    have : 2 ^ 1 ≤ 2 ^ j := Nat.pow_le_pow_right (by decide) hj
    omega

/-- What `check_color_table` accepts, and what it returns. -/
theorem checkColorTable_ok (table : List UInt8) (h : table.length / 3 ≤ 256) :
    checkColorTable table = .ok (table.take (table.length / 3 * 3),
      2 ^ ((flagSize (table.length / 3)).toNat + 1) - table.length / 3, flagSize (table.length / 3)) := by
  obtain ⟨h1, h2, h3⟩ := flagSize_spec _ h
  unfold checkColorTable
  simp only
  rw [if_neg (by omega), Nat.pow_succ, Nat.mul_comm _ 2, if_neg]
  rw [Nat.pow_succ] at h2
  omega

theorem checkColorTable_err (table : List UInt8) (h : 256 < table.length / 3) :
    checkColorTable table = .err (.format .tooManyColors) := by
  unfold checkColorTable
  simp only
  rw [if_pos (by omega)]

theorem scanMax_spec : ∀ (l : List UInt8) (m : UInt8),
    (m ≤ scanMax m l) ∧ (scanMax m l > 127 ∨ ∀ b ∈ l, b ≤ scanMax m l) ∧
    (scanMax m l = m ∨ scanMax m l ∈ l) := by
  intro l
  induction l with
  | nil => intro m; exact ⟨UInt8.le_refl _, .inr (by simp), .inl rfl⟩
  | cons b bs ih =>
    intro m
    unfold scanMax
    by_cases hb : b > m
    · rw [if_pos hb]
      by_cases h127 : b > 127
      · rw [if_pos h127]
        exact ⟨UInt8.le_of_lt hb, .inl h127, .inr (List.mem_cons_self ..)⟩
      · rw [if_neg h127]
        obtain ⟨i1, i2, i3⟩ := ih b
        refine ⟨UInt8.le_trans (UInt8.le_of_lt hb) i1, ?_, ?_⟩
        · rcases i2 with i2 | i2
          · exact .inl i2
          · right
            intro x hx
            rcases List.mem_cons.1 hx with rfl | hx
            · exact i1
            · exact i2 x hx
        · right
          rcases i3 with i3 | i3
          · rw [i3]; exact List.mem_cons_self ..
          · exact List.mem_cons_of_mem _ i3
    · rw [if_neg hb]
      obtain ⟨i1, i2, i3⟩ := ih m
      refine ⟨i1, ?_, ?_⟩
      · rcases i2 with i2 | i2
        · exact .inl i2
        · right
          intro x hx
          rcases List.mem_cons.1 hx with rfl | hx
          · exact UInt8.le_trans (UInt8.not_lt.1 hb) i1
          · exact i2 x hx
      · rcases i3 with i3 | i3
        · exact .inl i3
        · exact .inr (List.mem_cons_of_mem _ i3)

/-- The minimum code size: it fits, and it is the least that does. -/
theorem minCodeSizeFor_spec (data : List UInt8) :
    2 ≤ (minCodeSizeFor data).toNat ∧ (minCodeSizeFor data).toNat ≤ 8 ∧
    (∀ b ∈ data, b.toNat < 2 ^ (minCodeSizeFor data).toNat) ∧
    (∀ k, 2 ≤ k → (∀ b ∈ data, b.toNat < 2 ^ k) → (minCodeSizeFor data).toNat ≤ k) := by
  obtain ⟨s1, s2, s3⟩ := scanMax_spec data 0
  obtain ⟨p1, p2⟩ := nextPow2Log_spec (max ((scanMax 0 data).toNat + 1) 4)
  have hlt := (scanMax 0 data).toNat_lt
  have h8 : nextPow2Log (max ((scanMax 0 data).toNat + 1) 4) ≤ 8 := p2 8 (by omega)
  have e : (minCodeSizeFor data).toNat = nextPow2Log (max ((scanMax 0 data).toNat + 1) 4) := by
    unfold minCodeSizeFor
    rw [UInt8.toNat_ofNat']
    omega
  rw [e]
  have h2 : 2 ≤ nextPow2Log (max ((scanMax 0 data).toNat + 1) 4) := by
    rcases Nat.lt_or_ge (nextPow2Log (max ((scanMax 0 data).toNat + 1) 4)) 2 with h | h
    · have : 2 ^ nextPow2Log (max ((scanMax 0 data).toNat + 1) 4) ≤ 2 ^ 1 := Nat.pow_le_pow_right (by decide) (by omega)
      omega
    · exact h
  refine ⟨h2, h8, ?_, ?_⟩
  · intro b hb
    rcases s2 with s2 | s2
    · have hgt : 127 < (scanMax 0 data).toNat := by simpa using UInt8.lt_iff_toNat_lt.1 s2
      have : nextPow2Log (max ((scanMax 0 data).toNat + 1) 4) = 8 := by
        rcases Nat.lt_or_ge (nextPow2Log (max ((scanMax 0 data).toNat + 1) 4)) 8 with h | h
        · have : 2 ^ nextPow2Log (max ((scanMax 0 data).toNat + 1) 4) ≤ 2 ^ 7 :=
            Nat.pow_le_pow_right (by decide) (by omega)
          omega
        · omega
      rw [this]
      exact b.toNat_lt
    · have := UInt8.le_iff_toNat_le.1 (s2 b hb)
      omega
  · intro k hk hall
    apply p2
    have h4 : 2 ^ 2 ≤ 2 ^ k := Nat.pow_le_pow_right (by decide) hk
    rcases s3 with s3 | s3
    · rw [s3]
      have : (0 : UInt8).toNat = 0 := rfl
      omega
    · have := hall _ s3
      omega

/-- `flags & 0b111` after the flags were composed by the encoder. -/
theorem flags_global : ∀ i : Fin 8,
    let k : UInt8 := UInt8.ofNat i.val
    (((0x80 : UInt8) ||| k ||| (k <<< 4)) &&& 0x80 ≠ 0) ∧ (((0x80 : UInt8) ||| k ||| (k <<< 4)) &&& 7).toNat = i.val := by decide

theorem flags_local : ∀ (i : Fin 8) (b : Bool),
    let k : UInt8 := UInt8.ofNat i.val
    let fl : UInt8 := (if b then 0 ||| 0b01000000 else 0) ||| 0b10000000 ||| k
    (fl &&& 0x80 ≠ 0) ∧ (fl &&& 7).toNat = i.val ∧ (decide (fl &&& 0b01000000 ≠ 0) = b) := by decide

theorem flags_none : ∀ (b : Bool),
    let fl : UInt8 := if b then 0 ||| 0b01000000 else 0
    (fl &&& 0x80 = 0) ∧ (decide (fl &&& 0b01000000 ≠ 0) = b) := by decide

end Gif
