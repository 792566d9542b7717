import Verif.Lemmas.Inv
/-!
Every outcome of `next_state` and `update` from a state that satisfies the invariant.
-/

namespace Gif.SD

variable {C : Codec}

/-- What an error leaves behind, and that there is no other outcome. -/
theorem nextState_fail (hS : C.Safe) {o : OutSpec} {b : UInt8} {bs : List UInt8} {s s' : SD C} {r : Outcome (Nat × Decoded)}
    (hw : WF s) (hl : Look s (b :: bs)) (h : nextState s (b :: bs) o = (s', r)) :
    (∃ x, r = .ok x) ∨ (∃ e, r = .err e) ∧ WF s' ∧ peeks s'.state = false ∧ s'.state = s.state := by
  obtain ⟨w1, w2, w3, w4⟩ := hw
  unfold nextState at h
  simp only at h
  match hs : s.state with
  | .magic =>
    simp only [hs] at h
    simp only [ibufOk, hs, required] at w1
    rw [ensureMin_eq _ _ _ _ (by simpa using w1) (by decide)] at h
    split at h
    · cases h; exact .inl ⟨_, rfl⟩
    · unfold onMagic goto at h
      split at h
      · cases h; exact .inl ⟨_, rfl⟩
      · split at h
        · cases h; exact .inl ⟨_, rfl⟩
        · cases h
          refine .inr ⟨⟨_, rfl⟩, ⟨by simp [ibufOk, hs, required], w2, w3, ?_⟩, by simp [hs, peeks], by first | rfl | exact hs | simp [hs]⟩
          simp only [stOk, hs] at w4 ⊢
          exact w4
  | .screenDescriptor =>
    simp only [hs] at h
    simp only [ibufOk, hs, required] at w1
    have w1' : s.ibuf.length < 7 := by simpa using w1
    rw [ensureMin_eq _ _ _ _ w1' (by decide)] at h
    split at h
    · cases h; exact .inl ⟨_, rfl⟩
    · rename_i hlen
      unfold onScreenDescriptor goto at h
      split at h
      · split at h <;> (cases h; exact .inl ⟨_, rfl⟩)
      · rename_i hne
        exfalso
        have : (s.ibuf ++ (b :: bs).take (7 - s.ibuf.length)).length = 7 := by
          rw [List.length_append, List.length_take]; omega
        generalize s.ibuf ++ (b :: bs).take (7 - s.ibuf.length) = l at *
        match l, this with
        | [a0, a1, a2, a3, a4, a5, a6], _ => exact hne _ _ _ _ _ _ _ rfl
  | .imageBlockStart =>
    simp only [hs] at h
    simp only [ibufOk, hs, required] at w1
    have w1' : s.ibuf.length < 9 := by simpa using w1
    rw [ensureMin_eq _ _ _ _ w1' (by decide)] at h
    simp only [stOk, hs] at w4
    obtain ⟨g1, f, g2, g3⟩ := w4
    split at h
    · cases h; exact .inl ⟨_, rfl⟩
    · rename_i hlen
      unfold onImageBlockStart goto at h
      split at h
      · simp only [g2] at h
        split at h
        · cases h
          refine .inr ⟨⟨_, rfl⟩, ⟨by simp [ibufOk, hs, required], w2, ?_, ?_⟩, by simp [hs, peeks], by first | rfl | exact hs | simp [hs]⟩
          · intro g hg
            simp only [Option.some.injEq] at hg
            subst hg
            exact w3 f g2
          · simp only [stOk, hs]
            exact ⟨g1, _, rfl, g3⟩
        · split at h <;> (cases h; exact .inl ⟨_, rfl⟩)
      · rename_i hne
        exfalso
        have : (s.ibuf ++ (b :: bs).take (9 - s.ibuf.length)).length = 9 := by
          rw [List.length_append, List.length_take]; omega
        generalize s.ibuf ++ (b :: bs).take (9 - s.ibuf.length) = l at *
        match l, this with
        | [a0, a1, a2, a3, a4, a5, a6, a7, a8], _ => exact hne _ _ _ _ _ _ _ _ _ rfl
  | .globalPalette left =>
    simp only [hs] at h
    unfold onGlobalPalette goto at h
    split at h
    · simp only at h; cases h; exact .inl ⟨_, rfl⟩
    · cases h; exact .inl ⟨_, rfl⟩
  | .blockStart t =>
    simp only [hs] at h
    simp only [stOk, hs] at w4
    simp only [ibufOk, hs, required, if_true] at w1
    unfold onBlockStart goto at h
    split at h
    · cases h; exact .inl ⟨_, rfl⟩
    · split at h
      · cases h; exact .inl ⟨_, rfl⟩
      · simp only at h
        split at h
        · cases h
          refine .inr ⟨⟨_, rfl⟩, ⟨by simp [ibufOk, hs, required, w1], sizeOk_zero _, w3, ?_⟩, by simp [hs, peeks], by first | rfl | exact hs | simp [hs]⟩
          simp only [stOk, hs]; exact w4
        · cases h; exact .inl ⟨_, rfl⟩
      · cases h; exact .inl ⟨_, rfl⟩
      · split at h
        · cases h; exact .inl ⟨_, rfl⟩
        · cases h
          refine .inr ⟨⟨_, rfl⟩, ⟨by simp [ibufOk, hs, required, w1], w2, w3, ?_⟩, by simp [hs, peeks], by first | rfl | exact hs | simp [hs]⟩
          simp only [stOk, hs]; exact w4
  | .blockEnd =>
    simp only [hs] at h
    unfold onBlockEnd goto at h
    split at h <;> (cases h; exact .inl ⟨_, rfl⟩)
  | .extensionBlockStart =>
    simp only [hs, goto] at h
    cases h; exact .inl ⟨_, rfl⟩
  | .extensionDataBlock left =>
    simp only [hs] at h
    simp only [stOk, hs] at w4
    simp only [ibufOk, hs, required, if_true] at w1
    unfold onExtensionDataBlock goto at h
    split at h
    · simp only at h
      split at h
      · cases h; exact .inl ⟨_, rfl⟩
      · cases h
        refine .inr ⟨⟨_, rfl⟩, ⟨by simp [ibufOk, hs, required, w1], w2, w3, ?_⟩, by simp [hs, peeks], by first | rfl | exact hs | simp [hs]⟩
        simp only [stOk, hs]; exact w4
    · split at h
      · simp only at h
        split at h
        · cases h; exact .inl ⟨_, rfl⟩
        · unfold readControlExtension at h
          split at h
          · cases h; exact .inl ⟨_, rfl⟩
          · rename_i hx
            cases h
            split at hx
            · cases hx
            · cases hx
              refine .inr ⟨⟨_, rfl⟩, ⟨by simp [ibufOk, hs, required, w1], w2, w3, ?_⟩, by simp [hs, peeks], by first | rfl | exact hs | simp [hs]⟩
              simp only [stOk, hs]; exact w4
          · rename_i hx; split at hx <;> cases hx
          · rename_i hx; split at hx <;> cases hx
        · cases h; exact .inl ⟨_, rfl⟩
      · cases h; exact .inl ⟨_, rfl⟩
  | .applicationExtension =>
    simp only [hs] at h
    obtain ⟨t, ht⟩ := hl (by rw [hs]; rfl)
    have hb : b = 0 := by cases ht; rfl
    unfold onApplicationExtension goto at h
    rw [if_neg (by simp [hb])] at h
    split at h
    · rename_i hc
      split at h
      · cases h; exact .inl ⟨_, rfl⟩
      · rename_i hne
        exfalso
        have : ((s.extData.drop 13).take 2).length = 2 := by
          rw [List.length_take, List.length_drop]; omega
        generalize (s.extData.drop 13).take 2 = l at *
        match l, this with
        | [a0, a1], _ => exact hne _ _ rfl
    · cases h; exact .inl ⟨_, rfl⟩
  | .localPalette left =>
    simp only [hs] at h
    simp only [stOk, hs] at w4
    obtain ⟨g1, f, g2, g3⟩ := w4
    unfold onLocalPalette goto at h
    split at h
    · simp only [g2] at h
      split at h
      · split at h <;> (cases h; exact .inl ⟨_, rfl⟩)
      · cases h; exact .inl ⟨_, rfl⟩
    · cases h; exact .inl ⟨_, rfl⟩
  | .lzwInit m =>
    simp only [hs] at h
    simp only [stOk, hs] at w4
    simp only [ibufOk, hs, required, if_true] at w1
    have key : ∀ lzw : LzwReader C, WF { s with lzw := lzw } := fun lzw =>
      ⟨by simp [ibufOk, hs, required, w1], w2, w3, by simp only [stOk, hs]; exact w4⟩
    unfold onLzwInit goto at h
    split at h
    · split at h
      · cases h; exact .inl ⟨_, rfl⟩
      · cases h; exact .inr ⟨⟨_, rfl⟩, key _, by simp [hs, peeks], by first | rfl | exact hs | simp [hs]⟩
      · rename_i hx; unfold LzwReader.reset at hx; split at hx
        · split at hx
          · split at hx <;> cases hx
          · cases hx
        · cases hx
      · rename_i hx; unfold LzwReader.reset at hx; split at hx
        · split at hx
          · split at hx <;> cases hx
          · cases hx
        · cases hx
    · split at h
      · cases h; exact .inl ⟨_, rfl⟩
      · cases h; exact .inr ⟨⟨_, rfl⟩, key s.lzw, by simp [hs, peeks], by first | rfl | exact hs | simp [hs]⟩
  | .copySubBlock left =>
    simp only [hs] at h
    have w4' := w4
    simp only [stOk, hs] at w4'
    unfold onCopySubBlock goto at h
    rw [if_neg (by simp [w4'.2.2])] at h
    split at h
    · simp only at h
      split at h
      · rename_i ha
        have hb := (append_bounds ha).1
        simp only [List.length_take] at hb
        rw [if_neg (by omega)] at h
        cases h; exact .inl ⟨_, rfl⟩
      · cases h; exact .inr ⟨⟨_, rfl⟩, ⟨w1, w2, w3, w4⟩, by simp [hs, peeks], by first | rfl | exact hs | simp [hs]⟩
      · rename_i ha; unfold append at ha; split at ha
        · cases ha
        · split at ha <;> cases ha
        · cases ha
      · rename_i ha; unfold append at ha; split at ha
        · cases ha
        · split at ha <;> cases ha
        · cases ha
    · split at h <;> (cases h; exact .inl ⟨_, rfl⟩)
  | .decodeSubBlock left =>
    simp only [hs] at h
    have w4' := w4
    simp only [stOk, hs] at w4'
    simp only [ibufOk, hs, required, if_true] at w1
    have np : ∀ (inp : List UInt8) (r : LzwReader C), s.lzw.decodeBytes inp o ≠ (r, .panic) ∧
        s.lzw.decodeBytes inp o ≠ (r, .diverge) := by
      intro inp r
      unfold LzwReader.decodeBytes
      cases s.lzw.decoder with
      | none => simp
      | some d =>
        cases o with
        | vec l => simp
        | slice c =>
          simp only
          constructor <;> (split <;> (try split) <;> simp)
        | none =>
          simp only
          constructor <;> (split <;> (try split) <;> simp)
    have key : ∀ inp r (x : Outcome (Nat × List UInt8)), s.lzw.decodeBytes inp o = (r, x) → WF { s with lzw := r } := fun inp r x hd =>
      ⟨by simp [ibufOk, hs, required, w1], w2, w3, by
        simp only [stOk, hs]; exact ⟨w4'.1, w4'.2.1, w4'.2.2.1, decodeBytes_decoder hd w4'.2.2.2⟩⟩
    unfold onDecodeSubBlock goto at h
    rw [if_neg (by simp [w4'.2.2.1])] at h
    split at h
    · simp only at h
      split at h
      · cases h; exact .inl ⟨_, rfl⟩
      · split at h
        · rename_i hd
          have hb := (decodeBytes_bounds hS hd).1
          simp only [List.length_take] at hb
          rw [if_neg (by split <;> omega)] at h
          cases h; exact .inl ⟨_, rfl⟩
        · rename_i hd; cases h; exact .inr ⟨⟨_, rfl⟩, key _ _ _ hd, by simp [hs, peeks], by first | rfl | exact hs | simp [hs]⟩
        · rename_i hd; exact absurd hd (np _ _).1
        · rename_i hd; exact absurd hd (np _ _).2
    · split at h
      · cases h; exact .inl ⟨_, rfl⟩
      · split at h
        · simp only at h; split at h <;> (cases h; exact .inl ⟨_, rfl⟩)
        · rename_i hd; cases h; exact .inr ⟨⟨_, rfl⟩, key _ _ _ hd, by simp [hs, peeks], by first | rfl | exact hs | simp [hs]⟩
        · rename_i hd; exact absurd hd (np _ _).1
        · rename_i hd; exact absurd hd (np _ _).2
  | .frameDecoded =>
    simp only [hs] at h
    obtain ⟨t, ht⟩ := hl (by rw [hs]; rfl)
    have hb : b = 0 := by cases ht; rfl
    unfold onFrameDecoded goto at h
    simp only at h
    rw [if_neg (by simp [hb])] at h
    cases h; exact .inl ⟨_, rfl⟩
  | .trailer =>
    simp only [hs, goto] at h
    cases h; exact .inl ⟨_, rfl⟩

/-- All outcomes of one `next_state` call. -/
theorem nextState_cases (hS : C.Safe) {o : OutSpec} {b : UInt8} {bs : List UInt8} {s s' : SD C}
    {r : Outcome (Nat × Decoded)} (hw : WF s) (hl : Look s (b :: bs)) (h : nextState s (b :: bs) o = (s', r)) :
    (∃ n ev, r = .ok (n, ev) ∧ Tr o b bs s s' n ev ∧ WF s' ∧ Look s' ((b :: bs).drop n) ∧ n ≤ (b :: bs).length) ∨
    (∃ e, r = .err e) ∧ WF s' ∧ peeks s'.state = false ∧ s'.state = s.state := by
  rcases nextState_fail hS hw hl h with ⟨⟨n, ev⟩, rfl⟩ | h'
  · have ht := tr_of_nextState hw.ibuf h
    exact .inl ⟨n, ev, rfl, ht, tr_wf hS hw ht⟩
  · exact .inr h'

/-! ## Measures -/

/-- Steps without consuming that are possible inside one `update` call. -/
def pend : State → Nat
  | .blockEnd => 1
  | .decodeSubBlock _ => 1
  | .copySubBlock _ => 1
  | _ => 0

/-- Bound on the events without consuming. -/
def rank (s : SD C) : Nat :=
  match s.state with
  | .blockStart _ => if s.headerEndReached then 1 else 2
  | .blockEnd => 3
  | .extensionDataBlock _ => 1
  | .decodeSubBlock _ => 1
  | .copySubBlock _ => 1
  | _ => 0

theorem rank_le (s : SD C) : rank s ≤ 3 := by
  unfold rank; split <;> (try split) <;> omega

theorem pend_le (s : State) : pend s ≤ 1 := by
  unfold pend; split <;> omega

theorem tr_pend {o : OutSpec} {b : UInt8} {bs : List UInt8} {s s' : SD C} {n : Nat} {ev : Decoded}
    (h : Tr o b bs s s' n ev) (ht : s.state ≠ .trailer) (hev : ev = .nothing) :
    0 < n ∨ pend s'.state < pend s.state := by
  cases h with
  | collect h0 h => exact .inl (by simp)
  | magic v hs hi hl hv => exact .inl (by omega)
  | screen => cases hev
  | imageHeader f l0 l1 t0 t1 w0 w1 h0 h1 flags hs hi hl hv => exact .inl (by omega)
  | gctData left hs hl => exact .inl (by simp only [List.length_cons]; omega)
  | gctEnd => exact .inl (by omega)
  | headerEnd => cases hev
  | image => cases hev
  | extension => cases hev
  | trailer => cases hev
  | unknown => exact .inl (by omega)
  | blockEndTrailer hs hb => exact .inr (by rw [hs]; simp [pend])
  | blockEnd => exact .inl (by omega)
  | extFirst => exact .inl (by omega)
  | extData left hs hl => exact .inl (by simp only [List.length_cons]; omega)
  | extEndApp => cases hev
  | extEndControl => cases hev
  | extEndOther => cases hev
  | extSub => cases hev
  | appRepeat => cases hev
  | appOther => exact .inl (by omega)
  | lctData left f hs hl => exact .inl (by simp only [List.length_cons]; omega)
  | lctEnd => exact .inl (by omega)
  | lzwPixels => cases hev
  | lzwSkip => cases hev
  | copy => cases hev
  | copyNext => exact .inl (by omega)
  | copyEnd hs => exact .inr (by rw [hs]; simp [pend])
  | decodeSkip left hs hk hl => exact .inl (by simp only [List.length_cons]; omega)
  | decode left consumed bytes lzw hs hk hl he ho hd n1 hn hc =>
    left
    rw [hn]
    split at hev
    · rename_i hb
      split
      · simp only [List.length_cons]; omega
      · rename_i hx; exact Nat.pos_of_ne_zero fun h0 => hx ⟨h0, hb⟩
    · cases hev
  | decodeNext => exact .inl (by omega)
  | decodeFlush => cases hev
  | decodeEnd consumed lzw hs => exact .inr (by rw [hs]; simp [pend])
  | frameDecoded => cases hev
  | trailerLoop hs => exact absurd hs ht

/-- Only the trailer event leads to the `Trailer` state. -/
theorem tr_trailer {o : OutSpec} {b : UInt8} {bs : List UInt8} {s s' : SD C} {n : Nat} {ev : Decoded}
    (h : Tr o b bs s s' n ev) (ht : s.state ≠ .trailer) : s'.state = .trailer ↔ ev = .blockStart .trailer := by
  cases h with
  | collect h0 h => simp [ht]
  | screen => split <;> simp
  | imageHeader => split <;> simp
  | gctData => split <;> simp
  | lctData left f hs hl hc => split <;> (try split) <;> simp
  | decode => simp; split <;> simp
  | trailerLoop hs => exact absurd hs ht
  | _ => simp

theorem tr_rank (hS : C.Safe) {o : OutSpec} {b : UInt8} {bs : List UInt8} {s s' : SD C} {n : Nat} {ev : Decoded}
    (h : Tr o b bs s s' n ev) (ht : s.state ≠ .trailer) (ho : ∀ c, o ≠ .slice c) :
    0 < n ∨ rank s' < rank s := by
  cases h with
  | collect h0 h => exact .inl (by simp)
  | magic v hs hi hl hv => exact .inl (by omega)
  | screen w0 w1 h0 h1 flags bg asp hs hi hl hv => exact .inl (by omega)
  | imageHeader f l0 l1 t0 t1 w0 w1 h0 h1 flags hs hi hl hv => exact .inl (by omega)
  | gctData left hs hl => exact .inl (by simp only [List.length_cons]; omega)
  | gctEnd => exact .inl (by omega)
  | headerEnd t hs hh => exact .inr (by simp [rank, hs, hh])
  | image hs hh => exact .inr (by simp [rank, hs, hh])
  | extension => exact .inl (by omega)
  | trailer => exact .inl (by omega)
  | unknown => exact .inl (by omega)
  | blockEndTrailer hs hb => exact .inr (by simp only [rank, hs]; split <;> omega)
  | blockEnd => exact .inl (by omega)
  | extFirst => exact .inl (by omega)
  | extData left hs hl => exact .inl (by simp only [List.length_cons]; omega)
  | extEndApp hs => exact .inr (by simp [rank, hs])
  | extEndControl => exact .inl (by omega)
  | extEndOther => exact .inl (by omega)
  | extSub => exact .inl (by omega)
  | appRepeat => exact .inl (by omega)
  | appOther => exact .inl (by omega)
  | lctData left f hs hl => exact .inl (by simp only [List.length_cons]; omega)
  | lctEnd => exact .inl (by omega)
  | lzwPixels => exact .inl (by omega)
  | lzwSkip => exact .inl (by omega)
  | copy left consumed copied hs hk hl ha hc =>
    left
    unfold append at ha
    have hlen : 0 < ((b :: bs).take (min left (b :: bs).length)).length := by
      rw [List.length_take, List.length_cons]; omega
    cases o with
    | slice c => exact absurd rfl (ho c)
    | vec l =>
      simp only at ha
      split at ha
      · cases ha; exact hlen
      · cases ha
    | none =>
      simp only at ha
      cases ha; exact hlen
  | copyNext => exact .inl (by omega)
  | copyEnd hs => exact .inr (by simp [rank, hs])
  | decodeSkip left hs hk hl => exact .inl (by simp only [List.length_cons]; omega)
  | decode left consumed bytes lzw hs hk hl he hon hd n1 hn hc =>
    obtain ⟨_, _, h3⟩ := decodeBytes_bounds hS hd
    cases o with
    | slice c => exact absurd rfl (ho c)
    | vec l => exact absurd rfl (h3 l)
    | none => exact absurd rfl hon
  | decodeNext => exact .inl (by omega)
  | decodeFlush consumed bytes lzw hs hk hb hd hne =>
    obtain ⟨_, h2, h3⟩ := decodeBytes_bounds hS hd
    cases o with
    | slice c => exact absurd rfl (ho c)
    | vec l => exact absurd rfl (h3 l)
    | none => exact absurd (List.eq_nil_of_length_eq_zero (Nat.le_zero.1 h2)) hne
  | decodeEnd consumed lzw hs => exact .inr (by simp [rank, hs])
  | frameDecoded => exact .inl (by omega)
  | trailerLoop hs => exact absurd hs ht

/-! ## `update` -/

/-- Silent steps of one `update` call. -/
inductive Steps (o : OutSpec) : SD C → List UInt8 → SD C → List UInt8 → Prop
  | refl (s : SD C) (l : List UInt8) : Steps o s l s l
  | step {s s1 s' : SD C} {b : UInt8} {bs l' : List UInt8} {n : Nat} (h : nextState s (b :: bs) o = (s1, .ok (n, .nothing)))
      (ht : Steps o s1 ((b :: bs).drop n) s' l') : Steps o s (b :: bs) s' l'

/-- How an `update` call ends. -/
inductive UpdEnd (len : Nat) (o : OutSpec) (s1 : SD C) : List UInt8 → SD C → Outcome (Nat × Decoded) → Prop
  | all : UpdEnd len o s1 [] s1 (.ok (len, .nothing))
  | event {b : UInt8} {bs : List UInt8} {s' : SD C} {n : Nat} {ev : Decoded}
      (h : nextState s1 (b :: bs) o = (s', .ok (n, ev))) (hev : ev ≠ .nothing) :
      UpdEnd len o s1 (b :: bs) s' (.ok (len - ((b :: bs).drop n).length, ev))
  | err {b : UInt8} {bs : List UInt8} {s' : SD C} {e : DecodingError} (h : nextState s1 (b :: bs) o = (s', .err e)) :
      UpdEnd len o s1 (b :: bs) s' (.err e)

theorem steps_wf (hS : C.Safe) {o : OutSpec} {s s' : SD C} {l l' : List UInt8} (h : Steps o s l s' l') (hw : WF s)
    (hl : Look s l) : WF s' ∧ Look s' l' ∧ l' <:+ l ∧ (s.state ≠ .trailer → s'.state ≠ .trailer) := by
  induction h with
  | refl => exact ⟨hw, hl, List.suffix_refl _, fun h => h⟩
  | @step s s1 s' b bs l' n h ht ih =>
    have hx := tr_of_nextState hw.ibuf h
    obtain ⟨h1, h2, h3⟩ := tr_wf hS hw hx
    obtain ⟨a1, a2, a3, a4⟩ := ih h1 h2
    refine ⟨a1, a2, a3.trans (List.drop_suffix _ _), fun hne => a4 fun hc => ?_⟩
    have := (tr_trailer hx hne).1 hc
    simp at this

theorem updateLoop_cases (hS : C.Safe) (len : Nat) (o : OutSpec) : ∀ (fuel : Nat) (s : SD C) (l : List UInt8),
    WF s → Look s l → s.state ≠ .trailer → 2 * l.length + pend s.state < fuel →
    ∃ s1 l1, Steps o s l s1 l1 ∧ UpdEnd len o s1 l1 (updateLoop len o fuel s l).1 (updateLoop len o fuel s l).2 := by
  intro fuel
  induction fuel with
  | zero => intro s l _ _ _ h; omega
  | succ fuel ih =>
    intro s l hw hl ht hf
    match l with
    | [] => rw [updateLoop]; exact ⟨s, [], .refl _ _, .all⟩
    | b :: bs =>
      have hx : ∃ s' r, nextState s (b :: bs) o = (s', r) := ⟨_, _, rfl⟩
      obtain ⟨s', r, hx⟩ := hx
      rcases nextState_cases hS hw hl hx with ⟨n, ev, rfl, htr, hw', hl', hn⟩ | ⟨⟨e, rfl⟩, hw', hp⟩
      · by_cases hev : ev = .nothing
        · subst hev
          have hmeas := tr_pend htr ht rfl
          have hpl := pend_le s'.state
          obtain ⟨s1, l1, hs, he⟩ := ih s' ((b :: bs).drop n) hw' hl'
            (fun hc => by have := (tr_trailer htr ht).1 hc; simp at this)
            (by rw [List.length_drop]; omega)
          refine ⟨s1, l1, .step hx hs, ?_⟩
          rw [updateLoop, hx]
          exact he
        · refine ⟨s, b :: bs, .refl _ _, ?_⟩
          have := UpdEnd.event (len := len) hx hev
          rw [updateLoop, hx]
          cases ev <;> first | exact absurd rfl hev | exact this
      · refine ⟨s, b :: bs, .refl _ _, ?_⟩
        rw [updateLoop, hx]
        exact .err hx

/-- `update` always ends from the states of the invariant, other than `Trailer`. -/
theorem update_cases (hS : C.Safe) (o : OutSpec) (s : SD C) (l : List UInt8) (hw : WF s) (hl : Look s l)
    (ht : s.state ≠ .trailer) :
    ∃ s1 l1, Steps o s l s1 l1 ∧ UpdEnd l.length o s1 l1 (update s l o).1 (update s l o).2 :=
  updateLoop_cases hS _ o _ s l hw hl ht (by have := pend_le s.state; omega)

end Gif.SD
