import Verif.Ref.Lawful
/-!
# A codec that is slow to start

Not part of /repo. This is the reference codec, except that the first call takes in at most eight bytes and never gives output. It
keeps the contract of `Verif/Spec/LzwContract.lean`, which is what most of the theorems assume, but `FrameDecoder` does not cope with it.
-/

namespace Gif.Ref

theorem Dec.prompt {s : Dec} {inp out : List UInt8} {e : LzwEnd} (cap : Nat) (h : s.Yields inp out e) (hcap : 0 < cap)
    (hs : (s.decodeBytes inp cap).status ≠ .invalidCode) (ho : (s.decodeBytes inp cap).out = []) : out = [] ∧ e ≠ .invalid := by
  obtain ⟨h1, h2⟩ := h
  by_cases he : s.hasEnded = true
  · rw [Dec.ended_feed he] at h1 h2
    simp only [Dec.hasEnded, Bool.and_eq_true, decide_eq_true_eq, List.isEmpty_iff] at he
    refine ⟨h1.symm.trans he.2, ?_⟩
    rw [← h2, he.1]
    simp [Stop.toEnd]
  · rw [Dec.decodeBytes_of_not_ended (by simpa using he)] at hs ho
    simp only at hs ho
    have hp : (s.feed inp).pending = [] := by
      rcases List.take_eq_nil_iff.mp ho with h | h
      · omega
      · exact h
    refine ⟨h1.symm.trans hp, ?_⟩
    rintro rfl
    apply hs
    rw [if_pos]
    refine ⟨?_, hp⟩
    cases hst : (s.feed inp).stop <;> rw [hst] at h2 <;> first | rfl | cases h2

/-- The reference codec gives all output it can give. -/
theorem lzw_prompt : lzwContract.Prompt 0 :=
  ⟨fun _ => True, fun _ _ _ _ => trivial, fun cap h hcap _ hs ho _ => Dec.prompt cap h hcap hs ho⟩

/-- The decoder, and whether it has not been called yet. -/
structure SlowDec where
  dec : Dec
  cold : Bool
deriving DecidableEq, Repr

/-- Does the call only take in data? -/
def SlowDec.slow (s : SlowDec) (inp : List UInt8) : Bool := s.cold && !s.dec.hasEnded && !inp.isEmpty

/-- Like the reference codec, but for the first call. -/
def SlowDec.decodeBytes (s : SlowDec) (inp : List UInt8) (cap : Nat) : LzwResult SlowDec :=
  if s.slow inp then
    { st := ⟨s.dec.feed (inp.take 8), false⟩, consumed := (inp.take 8).length, out := [], status := .ok }
  else
    let r := s.dec.decodeBytes inp cap
    { st := ⟨r.st, s.cold⟩, consumed := r.consumed, out := r.out, status := r.status }

/-- The slow codec. -/
def slow : Codec where
  σ := SlowDec
  new m := ⟨.new m, true⟩
  reset s := ⟨.new s.dec.size, true⟩
  hasEnded s := s.dec.hasEnded
  decodeBytes := SlowDec.decodeBytes
  encode := encode

theorem SlowDec.of_slow {s : SlowDec} {inp : List UInt8} (h : s.slow inp = true) (cap : Nat) :
    s.decodeBytes inp cap =
      { st := ⟨s.dec.feed (inp.take 8), false⟩, consumed := (inp.take 8).length, out := [], status := .ok } := by
  unfold SlowDec.decodeBytes
  rw [if_pos h]

theorem SlowDec.of_fast {s : SlowDec} {inp : List UInt8} (h : ¬ s.slow inp = true) (cap : Nat) :
    s.decodeBytes inp cap =
      { st := ⟨(s.dec.decodeBytes inp cap).st, s.cold⟩
        consumed := (s.dec.decodeBytes inp cap).consumed
        out := (s.dec.decodeBytes inp cap).out
        status := (s.dec.decodeBytes inp cap).status } := by
  unfold SlowDec.decodeBytes
  rw [if_neg h]

theorem SlowDec.slow_ne {s : SlowDec} {inp : List UInt8} (h : s.slow inp = true) : inp ≠ [] := by
  rintro rfl
  simp [SlowDec.slow] at h

theorem SlowDec.slow_not_ended {s : SlowDec} {inp : List UInt8} (h : s.slow inp = true) : s.dec.hasEnded = false := by
  simp only [SlowDec.slow, Bool.and_eq_true, Bool.not_eq_true'] at h
  exact h.1.2

/-- The slow codec keeps the contract. -/
def slowContract : slow.Contract where
  Yields s := s.dec.Yields
  size s := s.dec.size
  safe := by
    constructor
    · intro (s : SlowDec) inp cap
      show (s.decodeBytes inp cap).consumed ≤ _
      by_cases h : s.slow inp = true
      · rw [SlowDec.of_slow h]; simp only [List.length_take]; omega
      · rw [SlowDec.of_fast h]; exact lzw_safe.consumed_le s.dec inp cap
    · intro (s : SlowDec) inp cap
      show (s.decodeBytes inp cap).out.length ≤ _
      by_cases h : s.slow inp = true
      · rw [SlowDec.of_slow h]; exact Nat.zero_le _
      · rw [SlowDec.of_fast h]; exact lzw_safe.out_le s.dec inp cap
  size_new _ := rfl
  size_reset _ := rfl
  size_step := by
    intro (s : SlowDec) inp cap
    show (s.decodeBytes inp cap).st.dec.size = s.dec.size
    by_cases h : s.slow inp = true
    · rw [SlowDec.of_slow h]; simp only [Dec.feed_eq]
    · rw [SlowDec.of_fast h]; exact lzwContract.size_step s.dec inp cap
  det := fun {s} {inp} {out} {out'} {e} {e'} h h' => lzwContract.det (s := (s : SlowDec).dec) h h'
  total m inp := lzwContract.total m inp
  reset h := h
  nil m := lzwContract.nil m
  prefix_yields := Dec.prefix_yields
  step := by
    intro (s : SlowDec) inp rest out e cap hy hs
    show ∃ out', out = (s.decodeBytes inp cap).out ++ out' ∧
      (s.decodeBytes inp cap).st.dec.Yields (inp.drop (s.decodeBytes inp cap).consumed ++ rest) out' e
    by_cases h : s.slow inp = true
    · rw [SlowDec.of_slow h]
      refine ⟨out, rfl, ?_⟩
      simp only
      have hd : inp.drop (inp.take 8).length = inp.drop 8 := by
        rw [List.length_take]
        rcases Nat.le_total 8 inp.length with h | h
        · rw [Nat.min_eq_left h]
        · rw [Nat.min_eq_right h, List.drop_length, List.drop_eq_nil_iff.mpr h]
      rw [hd]
      unfold Dec.Yields at hy ⊢
      rw [Dec.feed_feed, ← List.append_assoc, List.take_append_drop]
      exact hy
    · rw [SlowDec.of_fast h]; exact Dec.step_yields cap hy
  invalid := by
    intro (s : SlowDec) inp out e cap hy hs
    change (s.decodeBytes inp cap).status = .invalidCode at hs
    by_cases h : s.slow inp = true
    · rw [SlowDec.of_slow h] at hs; cases hs
    · rw [SlowDec.of_fast h] at hs; exact lzwContract.invalid (s := s.dec) cap hy hs
  progress := by
    intro (s : SlowDec) inp out e cap hy hne hcap hs hc ho
    change (s.decodeBytes inp cap).status ≠ .invalidCode at hs
    change (s.decodeBytes inp cap).consumed = 0 at hc
    change (s.decodeBytes inp cap).out = [] at ho
    show (s.decodeBytes inp cap).st.dec.hasEnded = true
    by_cases h : s.slow inp = true
    · rw [SlowDec.of_slow h] at hc
      simp only [List.length_take] at hc
      exact absurd (List.eq_nil_of_length_eq_zero (by omega)) hne
    · rw [SlowDec.of_fast h] at hs hc ho ⊢
      exact lzwContract.progress (s := s.dec) cap hy hne hcap hs hc ho
  flush := by
    intro (s : SlowDec) out e cap hy hcap hs ho
    change (s.decodeBytes [] cap).status ≠ .invalidCode at hs
    change (s.decodeBytes [] cap).out = [] at ho
    show _ ∧ _ ∧ (_ → (s.decodeBytes [] cap).st.dec.hasEnded = true)
    have h : ¬ s.slow [] = true := fun h => SlowDec.slow_ne h rfl
    rw [SlowDec.of_fast h] at hs ho ⊢
    exact lzwContract.flush (s := s.dec) cap hy hcap hs ho
  ended := fun {s} inp h => lzwContract.ended (s := (s : SlowDec).dec) inp h
  ended_step := by
    intro (s : SlowDec) inp cap he
    show (s.decodeBytes inp cap).status = .done ∧ (s.decodeBytes inp cap).st.dec.hasEnded = true
    have h : ¬ s.slow inp = true := by
      intro h
      have he' : s.dec.hasEnded = true := he
      rw [SlowDec.slow_not_ended h] at he'
      cases he'
    rw [SlowDec.of_fast h]
    exact lzwContract.ended_step (s := s.dec) inp cap he
  done := by
    intro (s : SlowDec) inp cap hs
    change (s.decodeBytes inp cap).status = .done at hs
    show (s.decodeBytes inp cap).st.dec.hasEnded = true
    by_cases h : s.slow inp = true
    · rw [SlowDec.of_slow h] at hs; cases hs
    · rw [SlowDec.of_fast h] at hs ⊢; exact lzwContract.done (s := s.dec) hs
  ok := by
    intro (s : SlowDec) inp cap hs
    change (s.decodeBytes inp cap).status = .ok at hs
    show (s.decodeBytes inp cap).consumed ≠ 0 ∨ (s.decodeBytes inp cap).out ≠ []
    by_cases h : s.slow inp = true
    · left
      rw [SlowDec.of_slow h]
      intro hc
      simp only [List.length_take] at hc
      exact SlowDec.slow_ne h (List.eq_nil_of_length_eq_zero (by omega))
    · rw [SlowDec.of_fast h] at hs ⊢; exact lzwContract.ok (s := s.dec) hs
  noProgress := by
    intro (s : SlowDec) inp cap hs
    change (s.decodeBytes inp cap).status = .noProgress at hs
    show (s.decodeBytes inp cap).consumed = 0 ∧ (s.decodeBytes inp cap).out = [] ∧ (s.decodeBytes inp cap).st.dec.hasEnded = false
    by_cases h : s.slow inp = true
    · rw [SlowDec.of_slow h] at hs; cases hs
    · rw [SlowDec.of_fast h] at hs ⊢; exact lzwContract.noProgress (s := s.dec) hs
  roundtrip h2 h8 hd := lzwContract.roundtrip h2 h8 hd

/-- The slow codec holds back eight bytes at most. -/
theorem slow_prompt : slowContract.Prompt 8 := by
  refine ⟨fun s => (s : SlowDec).cold = false ∨ (s : SlowDec).dec.hasEnded = true, ?_, ?_⟩
  · intro (s : SlowDec) inp cap h
    show (s.decodeBytes inp cap).st.cold = false ∨ (s.decodeBytes inp cap).st.dec.hasEnded = true
    by_cases hsl : s.slow inp = true
    · rw [SlowDec.of_slow hsl]; exact .inl rfl
    · rw [SlowDec.of_fast hsl]
      have : s.cold = false ∨ s.dec.hasEnded = true := by
        rcases h with h | h
        · exact h
        · cases hc : s.cold with
          | false => exact .inl rfl
          | true =>
            cases he : s.dec.hasEnded with
            | true => exact .inr rfl
            | false =>
              exfalso
              apply hsl
              simp only [SlowDec.slow, hc, he, Bool.not_false, Bool.true_and, Bool.not_eq_true', List.isEmpty_eq_false_iff]
              exact h
      rcases this with h | h
      · exact .inl h
      · exact .inr (lzwContract.ended_step (s := s.dec) inp cap h).2
  · intro (s : SlowDec) inp out e cap hy hcap hw hs ho hc
    change (s.decodeBytes inp cap).status ≠ .invalidCode at hs
    change (s.decodeBytes inp cap).out = [] at ho
    change (s.decodeBytes inp cap).consumed = inp.length at hc
    change (s.cold = false ∨ s.dec.hasEnded = true) ∨ _ at hw
    have hsl : ¬ s.slow inp = true := by
      intro hsl
      rw [SlowDec.of_slow hsl] at hc
      simp only [List.length_take] at hc
      rcases hw with (h | h) | h
      · simp [SlowDec.slow, h] at hsl
      · rw [SlowDec.slow_not_ended hsl] at h; cases h
      · omega
    rw [SlowDec.of_fast hsl] at hs ho hc
    exact Dec.prompt cap hy hcap hs ho

end Gif.Ref
