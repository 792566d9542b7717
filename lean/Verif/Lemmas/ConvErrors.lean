import Verif.Lemmas.DecInv
/-!
Where the errors of the pixel converter come from, for any source of pixels.
-/

namespace Gif

variable {τ : Type}

/-- As long as pixels come the source is in `I`; an error from there and the source it leaves are in `E`. -/
def Callback.Leaves (cb : Callback τ) (I : τ → Prop) (E : τ → DecodingError → Prop) : Prop :=
  ∀ t cap t' out, I t → cb t cap = (t', out) → (∀ bytes, out = .ok bytes → bytes ≠ [] → I t') ∧ ∀ e, out = .err e → E t' e

/-- As long as pixels come the source is in `I`, and there all its errors are in `E`. -/
abbrev Callback.Fails (cb : Callback τ) (I : τ → Prop) (E : DecodingError → Prop) : Prop := cb.Leaves I fun _ => E

namespace Converter

variable {cb : Callback τ} {I : τ → Prop} {E : τ → DecodingError → Prop}

theorem fillLoop_errs (hf : cb.Leaves I E) (c : Converter) (f : Frame) : ∀ (n : Nat) (t : τ) (buf : List UInt8), I t →
    ((fillLoop c f cb n t buf).2.2 = .ok true → I (fillLoop c f cb n t buf).1) ∧
    ∀ e, (fillLoop c f cb n t buf).2.2 = .err e → E (fillLoop c f cb n t buf).1 e ∨ e = .format .oddSizedBuffer ∧ c.colorOutput = .rgba ∧
      ¬ (0 < buf.length ∧ buf.length % 4 = 0) := by
  intro n
  induction n with
  | zero => intro t buf _; exact ⟨fun h => (by cases h), fun e h => (by cases h)⟩
  | succ n ih =>
    intro t buf hI
    rw [fillLoop]
    cases hc : c.colorOutput with
    | indexed =>
      simp only
      have hs := hf t buf.length
      generalize cb t buf.length = x at *
      obtain ⟨t', out⟩ := x
      obtain ⟨h1, h2⟩ := hs t' out hI rfl
      cases out with
      | ok bytes =>
        simp only
        split
        · exact ⟨fun h => (by cases h), fun e h => (by cases h)⟩
        · rename_i hb
          have hI' := h1 bytes rfl (by rintro rfl; exact hb rfl)
          split
          · exact ⟨fun h => (by cases h), fun e h => (by cases h)⟩
          · split
            · exact ⟨fun _ => hI', fun e h => (by cases h)⟩
            · obtain ⟨q1, q2⟩ := ih t' (buf.drop bytes.length) hI'
              refine ⟨q1, fun e he => ?_⟩
              rcases q2 e he with q | ⟨_, q, _⟩
              · exact .inl q
              · rw [hc] at q; cases q
      | err e => exact ⟨fun h => (by cases h), fun e' h => (by cases h; exact .inl (h2 _ rfl))⟩
      | panic => exact ⟨fun h => (by cases h), fun e h => (by cases h)⟩
      | diverge => exact ⟨fun h => (by cases h), fun e h => (by cases h)⟩
    | rgba =>
      simp only
      split
      · rename_i h0
        refine ⟨fun h => (by cases h), fun e h => ?_⟩
        cases h
        exact .inr ⟨rfl, trivial, by omega⟩
      · have hs := hf t (buf.length / 4)
        generalize cb t (buf.length / 4) = x at *
        obtain ⟨t', out⟩ := x
        obtain ⟨h1, h2⟩ := hs t' out hI rfl
        cases out with
        | ok bytes =>
          simp only
          split
          · exact ⟨fun h => (by cases h), fun e h => (by cases h)⟩
          · rename_i hb
            have hI' := h1 bytes rfl (by rintro rfl; exact hb rfl)
            split
            · exact ⟨fun h => (by cases h), fun e h => (by cases h)⟩
            · split
              · exact ⟨fun _ => hI', fun e h => (by cases h)⟩
              · rename_i hr
                obtain ⟨q1, q2⟩ := ih t' (buf.drop (bytes.length * 4)) hI'
                refine ⟨q1, fun e he => ?_⟩
                rcases q2 e he with q | ⟨p, _, q⟩
                · exact .inl q
                · refine .inr ⟨p, trivial, fun hx => q ?_⟩
                  have : (buf.drop (bytes.length * 4)).length ≠ 0 := by
                    intro h0; exact hr (by rw [List.length_eq_zero_iff.1 h0]; rfl)
                  rw [List.length_drop] at *
                  omega
        | err e => exact ⟨fun h => (by cases h), fun e' h => (by cases h; exact .inl (h2 _ rfl))⟩
        | panic => exact ⟨fun h => (by cases h), fun e h => (by cases h)⟩
        | diverge => exact ⟨fun h => (by cases h), fun e h => (by cases h)⟩

theorem lineLength_mod (c : Converter) (f : Frame) (hc : c.colorOutput = .rgba) : c.lineLength f % 4 = 0 := by
  unfold lineLength; rw [hc]; simp only; omega

/-- The width of the lines is that of the frame. -/
theorem lineLength_zero (c : Converter) (f : Frame) (h : c.lineLength f = 0) : f.width = 0 := by
  unfold lineLength at h
  apply UInt16.toNat_inj.1
  cases hc : c.colorOutput <;> rw [hc] at h <;> simp only at h <;> simp <;> omega

theorem readRows_errs {P : τ → Prop} (hg : cb.Good P) (hP : ∀ t, I t → P t) (hf : cb.Leaves I E) (c : Converter) (f : Frame) (h : Nat) :
    ∀ (fuel next pass : Nat) (t : τ) (buf : List UInt8), I t → (h = 0 ∨ next < h ∧ pass ≤ 4) →
      ∀ e, (c.readRows f cb fuel ⟨h, next, pass⟩ t buf).2.2 = .err e →
        E (c.readRows f cb fuel ⟨h, next, pass⟩ t buf).1 e ∨ e = .format .imageTruncated ∨
          e = .format .oddSizedBuffer ∧ c.colorOutput = .rgba ∧ c.lineLength f = 0 ∨
          e = .format .bufferTooSmall ∧ buf.length < c.lineLength f * h := by
  intro fuel
  induction fuel with
  | zero => intro next pass t buf _ _ e he; cases he
  | succ fuel ih =>
    intro next pass t buf hI hn e he
    rw [readRows] at he ⊢
    rcases hn with rfl | ⟨hn, hp⟩
    · have hr : InterlaceIter.nextRow ⟨0, next, pass⟩ = (⟨0, next, pass⟩, none) := by simp [InterlaceIter.nextRow]
      rw [hr] at he
      cases he
    · rcases Nat.lt_or_ge pass 4 with hp4 | hp4
      · obtain ⟨next', pass', h1, h2, h3, h4⟩ := InterlaceIter.nextRow_spec h next pass hn hp4
        rw [h1] at he ⊢
        simp only at he ⊢
        by_cases hc : next * c.lineLength f ≤ buf.length ∧ c.lineLength f ≤ (buf.drop (next * c.lineLength f)).length
        · rw [if_pos hc] at he ⊢
          generalize hline : (buf.drop (next * c.lineLength f)).take (c.lineLength f) = line at he ⊢
          have hlen : line.length = c.lineLength f := by
            rw [← hline, List.length_take, Nat.min_eq_left hc.2]
          obtain ⟨g1, g2, g3⟩ := fillBuffer_good c f hg t line (hP t hI)
          have hs := fillLoop_errs hf c f (line.length + 1) t line hI
          have hx : c.fillBuffer f cb t line = fillLoop c f cb (line.length + 1) t line := rfl
          rw [hx] at he g1 g2 g3 ⊢
          generalize fillLoop c f cb (line.length + 1) t line = x at *
          obtain ⟨t', l, out⟩ := x
          cases out with
          | ok b =>
            cases b with
            | true =>
              simp only at he g3 ⊢
              have hlen2 : (buf.take (next * c.lineLength f) ++ l ++ buf.drop (next * c.lineLength f + c.lineLength f)).length =
                  buf.length := by
                have := hc.1
                have := hc.2
                simp only [List.length_append, List.length_take, List.length_drop] at *
                omega
              have := ih next' pass' t' _ (hs.1 rfl) (.inr ⟨h3, h4⟩) e he
              rw [hlen2] at this
              exact this
            | false => cases he; exact .inr (.inl rfl)
          | err e' =>
            cases he
            rcases hs.2 _ rfl with q | ⟨q1, q2, q3⟩
            · exact .inl q
            · refine .inr (.inr (.inl ⟨q1, q2, ?_⟩))
              have := lineLength_mod c f q2
              rw [hlen] at q3
              omega
          | panic => cases he
          | diverge => cases he
        · rw [if_neg hc] at he
          cases he
          refine .inr (.inr (.inr ⟨rfl, ?_⟩))
          have hle : next * c.lineLength f + c.lineLength f ≤ h * c.lineLength f := by
            have := Nat.mul_le_mul_right (c.lineLength f) (show next + 1 ≤ h from hn)
            rw [Nat.add_mul, Nat.one_mul] at this
            exact this
          rw [Nat.mul_comm (c.lineLength f) h]
          rw [List.length_drop] at hc
          omega
      · have hp : pass = 4 := by omega
        subst hp
        have hr : InterlaceIter.nextRow ⟨h, next, 4⟩ = (⟨h, next, 4⟩, none) := by
          simp [InterlaceIter.nextRow, InterlaceIter.stride]
        rw [hr] at he
        cases he

theorem readIntoBuffer_errs {P : τ → Prop} (hg : cb.Good P) (hP : ∀ t, I t → P t) (hf : cb.Leaves I E) (c : Converter) (f : Frame) (t : τ) (buf : List UInt8) (hI : I t)
    (e : DecodingError) (he : (c.readIntoBuffer f cb t buf).2.2 = .err e) :
    E (c.readIntoBuffer f cb t buf).1 e ∨ e = .format .imageTruncated ∨ e = .format .oddSizedBuffer ∧ c.colorOutput = .rgba ∧ (f.width = 0 ∨ f.height = 0) ∨
      e = .format .bufferTooSmall ∧ buf.length < c.bufferSize f := by
  unfold readIntoBuffer at he ⊢
  by_cases hil : f.interlaced = true
  · rw [if_pos hil] at he ⊢
    have h0 : f.height.toNat = 0 ∨ 0 < f.height.toNat ∧ 0 ≤ 4 := by omega
    rcases readRows_errs hg hP hf c f f.height.toNat _ 0 0 t buf hI h0 e he with q | q | ⟨q1, q2, q3⟩ | q
    · exact .inl q
    · exact .inr (.inl q)
    · exact .inr (.inr (.inl ⟨q1, q2, .inl (lineLength_zero c f q3)⟩))
    · exact .inr (.inr (.inr q))
  · rw [if_neg hil] at he ⊢
    simp only at he ⊢
    by_cases hsz : c.bufferSize f ≤ buf.length
    · rw [if_pos hsz] at he ⊢
      have hs := fillLoop_errs hf c f ((buf.take (c.bufferSize f)).length + 1) t (buf.take (c.bufferSize f)) hI
      unfold fillBuffer at he ⊢
      generalize fillLoop c f cb ((buf.take (c.bufferSize f)).length + 1) t (buf.take (c.bufferSize f)) = x at *
      obtain ⟨t', l, out⟩ := x
      cases out with
      | ok b =>
        cases b with
        | true => cases he
        | false => cases he; exact .inr (.inl rfl)
      | err e' =>
        cases he
        rcases hs.2 _ rfl with q | ⟨q1, q2, q3⟩
        · exact .inl q
        · refine .inr (.inr (.inl ⟨q1, q2, ?_⟩))
          rw [List.length_take, Nat.min_eq_left hsz] at q3
          have hm : c.bufferSize f % 4 = 0 := by
            unfold bufferSize
            rw [Nat.mul_mod, lineLength_mod c f q2, Nat.zero_mul]
          have h0 : c.bufferSize f = 0 := by omega
          unfold bufferSize at h0
          rcases Nat.mul_eq_zero.1 h0 with h | h
          · exact .inl (lineLength_zero c f h)
          · exact .inr (UInt16.toNat_inj.1 (by simpa using h))
      | panic => cases he
      | diverge => cases he
    · rw [if_neg hsz] at he
      cases he
      exact .inr (.inr (.inr ⟨rfl, by omega⟩))

theorem readFrame_errs {P : τ → Prop} (hg : cb.Good P) (hP : ∀ t, I t → P t) (hf : cb.Leaves I E) (c : Converter) (f : Frame) (t : τ) (hI : I t)
    (e : DecodingError) (he : (c.readFrame f cb t).2.2 = .err e) :
    E (c.readFrame f cb t).1 e ∨ e = .format .imageTruncated ∨ e = .format .oddSizedBuffer ∧ c.colorOutput = .rgba ∧ (f.width = 0 ∨ f.height = 0) ∨
      e = .io .outOfMemory ∧ c.memoryLimit ≠ .unlimited := by
  unfold readFrame at he ⊢
  rcases checkBufferSize_cases c f with ⟨q1, _⟩ | ⟨q1, q2⟩
  · rw [q1] at he ⊢
    simp only at he ⊢
    have hs := readIntoBuffer_errs hg hP hf c { f with buffer := [], ownedCap := none } t (frameBuffer f (c.bufferSize f)) hI
    generalize c.readIntoBuffer { f with buffer := [], ownedCap := none } cb t (frameBuffer f (c.bufferSize f)) = x at *
    obtain ⟨t', l, out⟩ := x
    cases out with
    | ok u => cases he
    | err e' =>
      cases he
      rcases hs _ rfl with q | q | q | ⟨_, q⟩
      · exact .inl q
      · exact .inr (.inl q)
      · exact .inr (.inr (.inl q))
      · rw [frameBuffer_length] at q
        have : c.bufferSize { f with buffer := [], ownedCap := none } = c.bufferSize f := rfl
        omega
    | panic => cases he
    | diverge => cases he
  · rw [q1] at he ⊢
    cases he
    refine .inr (.inr (.inr ⟨rfl, ?_⟩))
    intro h
    rw [h] at q2
    cases q2

end Converter

end Gif
