import Verif.Model.Refuse
import Verif.Lemmas.DecRun
/-!
The decoder with an allocator that may refuse against the ordinary decoder.
-/

namespace Gif

/-- `p` is `q`, or the allocator has refused something and `p` is the error, in a state that satisfies `P`. -/
def RefuseRes {σ α : Type} (P : σ → Prop) (as : Answers) (p : (σ × Answers) × Outcome α) (q : σ × Outcome α) : Prop :=
  p.1.2 <:+ as ∧ ((p.1.1 = q.1 ∧ p.2 = q.2) ∨ (false ∈ as ∧ p.2 = .ioErr .outOfMemory ∧ P p.1.1))

theorem RefuseRes.mono {σ α : Type} {P Q : σ → Prop} {as bs : Answers} {p : (σ × Answers) × Outcome α} {q : σ × Outcome α}
    (h : RefuseRes P as p q) (hs : as <:+ bs) (hPQ : ∀ s, P s → Q s) : RefuseRes Q bs p q := by
  obtain ⟨h1, h2⟩ := h
  refine ⟨h1.trans hs, ?_⟩
  rcases h2 with h2 | ⟨h3, h4, h5⟩
  · exact .inl h2
  · exact .inr ⟨hs.subset h3, h4, hPQ _ h5⟩

theorem headD_false {as : Answers} (h : as.headD true = false) : false ∈ as := by
  cases as with
  | nil => cases h
  | cons a as => simp only [List.headD_cons] at h; subst h; exact List.mem_cons_self

namespace SD

variable {C : Codec}

/-- What a refusal leaves behind. -/
structure Left (s s' : SD C) : Prop where
  wf : WF s'
  state : s'.state = s.state
  peeks : peeks s'.state = false
  opts : s'.opts = s.opts

theorem onScreen_cases (room : Bool) (s : SD C) (k : Nat) (l : List UInt8) :
    onScreenDescriptorOn room s k l = onScreenDescriptor s k l ∨
      (room = false ∧ ∃ w h, onScreenDescriptorOn room s k l = ({ s with width := w, height := h }, .ioErr .outOfMemory)) := by
  unfold onScreenDescriptorOn
  split
  · unfold onScreenDescriptor
    simp only
    split
    · cases room
      · exact .inr ⟨rfl, _, _, rfl⟩
      · exact .inl rfl
    · exact .inl rfl
  · rename_i hne
    unfold onScreenDescriptor
    split
    · exact absurd rfl (hne _ _ _ _ _ _ _)
    · exact .inl rfl

theorem onImageBlock_cases (room : Bool) (s : SD C) (k : Nat) (l : List UInt8) :
    onImageBlockStartOn room s k l = onImageBlockStart s k l ∨
      (room = false ∧ ∃ f g cap, s.current = some f ∧ g.palette = some (f.palette.getD []) ∧ g.buffer = f.buffer ∧
        g.ownedCap = f.ownedCap ∧
        onImageBlockStartOn room s k l = ({ s with current := some g, palCap := cap }, .ioErr .outOfMemory)) := by
  unfold onImageBlockStartOn
  split
  · unfold onImageBlockStart
    simp only
    cases hc : s.current with
    | none => exact .inl rfl
    | some f =>
      simp only
      split
      · exact .inl rfl
      · split
        · cases room
          · simp only [Bool.false_eq_true, if_false]
            refine .inr ⟨trivial, f, _, _, rfl, ?_, ?_, ?_, rfl⟩ <;> rfl
          · exact .inl rfl
        · exact .inl rfl
  · rename_i hne
    unfold onImageBlockStart
    split
    · exact absurd rfl (hne _ _ _ _ _ _ _ _ _)
    · exact .inl rfl

/-- One step: as usual, or a refusal. -/
theorem nextStateOn_cases (room : Bool) (o : OutSpec) (b : UInt8) (bs : List UInt8) (s : SD C) (hw : WF s) :
    nextStateOn room s (b :: bs) o = nextState s (b :: bs) o ∨
      (room = false ∧ (nextStateOn room s (b :: bs) o).2 = .ioErr .outOfMemory ∧ Left s (nextStateOn room s (b :: bs) o).1) := by
  obtain ⟨w1, w2, w3, w4⟩ := hw
  unfold nextStateOn
  simp only
  split
  · rename_i hs
    unfold nextState
    simp only [hs]
    simp only [ibufOk, hs, required] at w1
    have w1' : s.ibuf.length < 7 := by simpa using w1
    rw [ensureMin_eq _ _ _ _ w1' (by decide), ensureMin_eq _ _ _ _ w1' (by decide)]
    split
    · exact .inl rfl
    · rcases onScreen_cases room { s with ibuf := [] } (7 - s.ibuf.length) (s.ibuf ++ (b :: bs).take (7 - s.ibuf.length)) with
        h | ⟨h1, w, h, h2⟩
      · exact .inl h
      · refine .inr ⟨h1, by rw [h2], ?_⟩
        rw [h2]
        refine ⟨⟨by simp [ibufOk, hs, required], w2, w3, ?_⟩, rfl, by simp [hs, peeks], rfl⟩
        simp only [stOk, hs] at w4 ⊢
        exact w4
  · rename_i hs
    unfold nextState
    simp only [hs]
    simp only [ibufOk, hs, required] at w1
    have w1' : s.ibuf.length < 9 := by simpa using w1
    rw [ensureMin_eq _ _ _ _ w1' (by decide), ensureMin_eq _ _ _ _ w1' (by decide)]
    simp only [stOk, hs] at w4
    obtain ⟨g1, f, g2, g3⟩ := w4
    split
    · exact .inl rfl
    · rcases onImageBlock_cases room { s with ibuf := [] } (9 - s.ibuf.length) (s.ibuf ++ (b :: bs).take (9 - s.ibuf.length)) with
        h | ⟨h1, f', g, cap, hf, hg, hgb, hgo, h2⟩
      · exact .inl h
      · have : f' = f := by rw [g2] at hf; cases hf; rfl
        subst this
        refine .inr ⟨h1, by rw [h2], ?_⟩
        rw [h2]
        refine ⟨⟨by simp [ibufOk, hs, required], w2, ?_, ?_⟩, rfl, by simp [hs, peeks], rfl⟩
        · intro x hx
          simp only [Option.some.injEq] at hx
          subst hx
          rw [hgb, hgo]
          exact w3 f' g2
        · simp only [stOk, hs]
          exact ⟨g1, g, rfl, by rw [hg]; exact g3⟩
  · rename_i left hs
    have e : nextState s (b :: bs) o = onExtensionDataBlock s left b (b :: bs) := by
      unfold nextState; simp only [hs]
    rw [e]
    unfold onExtensionDataBlockOn
    split
    · rename_i hl
      unfold onExtensionDataBlock
      simp only [hl, if_true]
      split
      · cases room
        · refine .inr ⟨rfl, rfl, ⟨⟨w1, w2, w3, w4⟩, rfl, by simp [hs, peeks], rfl⟩⟩
        · exact .inl rfl
      · exact .inl rfl
    · exact .inl rfl
  · rename_i left hs
    have e : nextState s (b :: bs) o = onCopySubBlock s left b (b :: bs) o := by
      unfold nextState; simp only [hs]
    rw [e]
    unfold onCopySubBlockOn onCopySubBlock
    split
    · exact .inl rfl
    · split
      · have h : appendOn room o ((b :: bs).take (min left (b :: bs).length)) s.memoryLimit =
              append o ((b :: bs).take (min left (b :: bs).length)) s.memoryLimit ∨
            (room = false ∧ appendOn room o ((b :: bs).take (min left (b :: bs).length)) s.memoryLimit = .ioErr .outOfMemory) := by
          unfold appendOn append
          cases o with
          | slice c => exact .inl rfl
          | none => exact .inl rfl
          | vec n =>
            simp only
            by_cases hx : s.memoryLimit.sizeOk (n + ((b :: bs).take (min left (b :: bs).length)).length) = true
            · rw [if_pos hx, if_pos hx]
              cases room
              · exact .inr ⟨rfl, rfl⟩
              · exact .inl rfl
            · rw [if_neg hx, if_neg hx]; exact .inl rfl
        simp only
        rcases h with h | ⟨h1, h2⟩
        · rw [h]; exact .inl rfl
        · rw [h2]
          exact .inr ⟨h1, rfl, ⟨⟨w1, w2, w3, w4⟩, rfl, by simp [hs, peeks], rfl⟩⟩
      · exact .inl rfl
  · exact .inl rfl

theorem updateLoopOn_res (hS : C.Safe) (len : Nat) (o : OutSpec) : ∀ (n : Nat) (s : SD C) (as : Answers) (buf : List UInt8),
    WF s → Look s buf → s.state ≠ .trailer →
    RefuseRes (fun s' => WF s' ∧ peeks s'.state = false ∧ s'.state ≠ .trailer ∧ s'.opts = s.opts) as
      (updateLoopOn len o n s as buf) (updateLoop len o n s buf) := by
  intro n
  induction n with
  | zero => intro s as buf _ _ _; cases buf <;> exact ⟨List.suffix_refl _, .inl ⟨rfl, rfl⟩⟩
  | succ n ih =>
    intro s as buf hw hl ht
    cases buf with
    | nil => exact ⟨List.suffix_refl _, .inl ⟨rfl, rfl⟩⟩
    | cons b bs =>
      rw [updateLoopOn, updateLoop]
      rcases nextStateOn_cases (as.headD true) o b bs s hw with h | ⟨h1, h2, h3⟩
      · rw [h]
        generalize hx : nextState s (b :: bs) o = x
        obtain ⟨s', r⟩ := x
        rcases nextState_cases hS hw hl hx with ⟨k, ev, rfl, htr, hw', hl', hk⟩ | ⟨⟨e, rfl⟩, _⟩
        · by_cases hev : ev = .nothing
          · subst hev
            have ht' : s'.state ≠ .trailer := fun hc => by
              have := (tr_trailer htr ht).1 hc
              cases this
            exact (ih s' as.tail _ hw' hl' ht').mono (List.tail_suffix _) fun t h => ⟨h.1, h.2.1, h.2.2.1, h.2.2.2.trans (tr_opts htr)⟩
          · cases ev <;> first | exact absurd rfl hev | exact ⟨List.tail_suffix _, .inl ⟨rfl, rfl⟩⟩
        · exact ⟨List.tail_suffix _, .inl ⟨rfl, rfl⟩⟩
      · generalize nextStateOn (as.headD true) s (b :: bs) o = x at *
        obtain ⟨s', r⟩ := x
        simp only at h2
        subst h2
        exact ⟨List.tail_suffix _, .inr ⟨headD_false h1, rfl, h3.wf, h3.peeks, by rw [h3.state]; exact ht, h3.opts⟩⟩

end SD

namespace RD

variable {C : Codec}

/-- What holds after a refusal. -/
def Kept (d d' : RD C) : Prop := Inv d' ∧ d'.sd.opts = d.sd.opts

theorem decodeNextLoopOn_res (hS : C.Safe) (o : OutSpec) : ∀ (n : Nat) (d : RD C) (as : Answers), Inv d →
    RefuseRes (Kept d) as (decodeNextLoopOn o n d as) (decodeNextLoop o n d) := by
  intro n
  induction n with
  | zero => intro d as _; exact ⟨List.suffix_refl _, .inl ⟨rfl, rfl⟩⟩
  | succ n ih =>
    intro d as hi
    rw [decodeNextLoopOn, decodeNextLoop]
    split
    · exact ⟨List.suffix_refl _, .inl ⟨rfl, rfl⟩⟩
    · rename_i he
      have he : d.atEof = false := by simpa using he
      match hf : d.reader.fillBuf with
      | (r, .error e) => exact ⟨List.suffix_refl _, .inl ⟨rfl, rfl⟩⟩
      | (r, .ok []) => exact ⟨List.suffix_refl _, .inl ⟨rfl, rfl⟩⟩
      | (r, .ok (b :: bs)) =>
        simp only [List.isEmpty_cons, Bool.false_eq_true, if_false]
        have hlk := look_fill hi he hf
        obtain ⟨hs, hc⟩ := SD.updateLoopOn_res hS (b :: bs).length o (2 * (b :: bs).length + 2) d.sd as (b :: bs) hi.wf hlk (hi.live he)
        rcases hc with ⟨h1, h2⟩ | ⟨h0, h1, h2⟩
        · have e1 : SD.updateOn d.sd as (b :: bs) o =
              (((SD.update d.sd (b :: bs) o).1, (SD.updateOn d.sd as (b :: bs) o).1.2), (SD.update d.sd (b :: bs) o).2) :=
            Prod.ext (Prod.ext h1 rfl) h2
          have hs' : (SD.updateOn d.sd as (b :: bs) o).1.2 <:+ as := hs
          rw [e1]
          generalize (SD.updateOn d.sd as (b :: bs) o).1.2 = as' at *
          obtain ⟨s1, l1, hst, hend⟩ := SD.update_cases hS o d.sd (b :: bs) hi.wf hlk (hi.live he)
          obtain ⟨w1, w2, w3, w4⟩ := SD.steps_wf hS hst hi.wf hlk
          have w5 := w4 (hi.live he)
          have ho := SD.steps_opts hS hst hi.wf hlk
          obtain ⟨g1, _⟩ := Reader.bytes_fillBuf_ok hf
          generalize hu : SD.update d.sd (b :: bs) o = u at hend ⊢
          obtain ⟨s', r'⟩ := u
          simp only at hend
          cases hend with
          | all =>
            simp only
            have hc : r.consume (b :: bs).length = { r with buf := [] } := by
              have := consume_suffix g1 (rest := []) ⟨_, List.append_nil _⟩
              simpa using this
            rw [hc]
            exact (ih _ as' ⟨w1, fun _ => w2, fun _ => w5⟩).mono hs' fun t h => ⟨h.1, h.2.trans ho⟩
          | @event b1 bs1 s' n ev hn hev =>
            have htr := SD.tr_of_nextState w1.ibuf hn
            obtain ⟨x1, x2, x3⟩ := SD.tr_wf hS w1 htr
            have hc : r.consume ((b :: bs).length - ((b1 :: bs1).drop n).length) = { r with buf := (b1 :: bs1).drop n } :=
              consume_suffix g1 ((List.drop_suffix _ _).trans w3)
            simp only [hc]
            by_cases hev' : ev = .blockStart .trailer
            · subst hev'
              exact (ih _ as' ⟨x1, fun h => (by cases h), fun h => (by cases h)⟩).mono hs' fun t h =>
                ⟨h.1, h.2.trans ((SD.tr_opts htr).trans ho)⟩
            · cases ev <;> first
                | exact absurd rfl hev
                | exact ⟨hs', .inl ⟨rfl, rfl⟩⟩
                | (rename_i bl; cases bl <;> first | exact absurd rfl hev' | exact ⟨hs', .inl ⟨rfl, rfl⟩⟩)
          | err hn => exact ⟨hs', .inl ⟨rfl, rfl⟩⟩
        · have h1' : (SD.updateOn d.sd as (b :: bs) o).2 = .ioErr .outOfMemory := h1
          have hs' : (SD.updateOn d.sd as (b :: bs) o).1.2 <:+ as := hs
          have h2' : SD.WF (SD.updateOn d.sd as (b :: bs) o).1.1 ∧ SD.peeks (SD.updateOn d.sd as (b :: bs) o).1.1.state = false ∧
            (SD.updateOn d.sd as (b :: bs) o).1.1.state ≠ .trailer ∧ (SD.updateOn d.sd as (b :: bs) o).1.1.opts = d.sd.opts := h2
          generalize SD.updateOn d.sd as (b :: bs) o = x at *
          obtain ⟨⟨sd, as'⟩, out⟩ := x
          simp only at h1'
          subst h1'
          exact ⟨hs', .inr ⟨h0, rfl, ⟨h2'.1, fun _ => SD.look_of_not_peeks h2'.2.1, fun _ => h2'.2.2.1⟩, h2'.2.2.2⟩⟩

theorem Kept.refl {d : RD C} (h : Inv d) : Kept d d := ⟨h, rfl⟩

theorem Kept.trans {d d' d'' : RD C} (h : Kept d d') (h' : Kept d' d'') : Kept d d'' := ⟨h'.1, h'.2.trans h.2⟩

theorem decodeNext_kept (hS : C.Safe) (o : OutSpec) (d : RD C) (hi : Inv d) : Kept d (d.decodeNext o).1 :=
  ⟨pull_inv hS (decodeNext_pull hS o d hi) hi, pull_opts hS (decodeNext_pull hS o d hi) hi⟩

theorem decodeNextOn_res (hS : C.Safe) (o : OutSpec) (d : RD C) (as : Answers) (hi : Inv d) :
    RefuseRes (Kept d) as (d.decodeNextOn o as) (d.decodeNext o) :=
  decodeNextLoopOn_res hS o _ d as hi

/-- The two cases of `decode_next`, ready for rewriting. -/
theorem decodeNextOn_cases (hS : C.Safe) (o : OutSpec) (d : RD C) (as : Answers) (hi : Inv d) :
    (∃ as', as' <:+ as ∧ d.decodeNextOn o as = (((d.decodeNext o).1, as'), (d.decodeNext o).2)) ∨
    (∃ d' as', as' <:+ as ∧ false ∈ as ∧ Kept d d' ∧ d.decodeNextOn o as = ((d', as'), .ioErr .outOfMemory)) := by
  obtain ⟨h1, h2⟩ := decodeNextOn_res hS o d as hi
  rcases h2 with ⟨h2, h3⟩ | ⟨h0, h2, h3⟩
  · exact .inl ⟨_, h1, Prod.ext (Prod.ext h2 rfl) h3⟩
  · exact .inr ⟨_, _, h1, h0, h3, Prod.ext (Prod.ext rfl rfl) h2⟩

theorem decodeNextBytesOn_res (hS : C.Safe) (d : RD C) (as : Answers) (cap : Nat) (hi : Inv d) :
    RefuseRes (Kept d) as (decodeNextBytesOn (d, as) cap) (decodeNextBytes d cap) := by
  unfold decodeNextBytesOn decodeNextBytes
  simp only
  rcases decodeNextOn_cases hS (.slice cap) d as hi with ⟨as', h1, h2⟩ | ⟨d', as', h1, h0, hk, h2⟩
  · rw [h2]
    generalize d.decodeNext (.slice cap) = x
    obtain ⟨d', out⟩ := x
    cases out with
    | ok ev =>
      cases ev with
      | none => exact ⟨h1, .inl ⟨rfl, rfl⟩⟩
      | some ev => cases ev <;> exact ⟨h1, .inl ⟨rfl, rfl⟩⟩
    | err e => exact ⟨h1, .inl ⟨rfl, rfl⟩⟩
    | panic => exact ⟨h1, .inl ⟨rfl, rfl⟩⟩
    | diverge => exact ⟨h1, .inl ⟨rfl, rfl⟩⟩
  · rw [h2]
    exact ⟨h1, .inr ⟨h0, rfl, hk⟩⟩

theorem decodeNextBytes_kept (hS : C.Safe) (d : RD C) (cap : Nat) (hi : Inv d) : Kept d (decodeNextBytes d cap).1 := by
  have h := decodeNext_kept hS (.slice cap) d hi
  unfold decodeNextBytes
  generalize d.decodeNext (.slice cap) = x at *
  obtain ⟨d', out⟩ := x
  cases out with
  | ok ev =>
    cases ev with
    | none => exact h
    | some ev => cases ev <;> exact h
  | err e => exact h
  | panic => exact h
  | diverge => exact h

end RD

/-- As `RefuseRes`, for calls that also return data. -/
def RefuseBuf {σ β α : Type} (P : σ → Prop) (as : Answers) (p : (σ × Answers) × β × Outcome α) (q : σ × β × Outcome α) : Prop :=
  p.1.2 <:+ as ∧ ((p.1.1 = q.1 ∧ p.2 = q.2) ∨ (false ∈ as ∧ p.2.2 = .ioErr .outOfMemory ∧ P p.1.1))

/-- The two cases, ready for rewriting. -/
theorem RefuseRes.cases {σ α : Type} {P : σ → Prop} {as : Answers} {p : (σ × Answers) × Outcome α} {q : σ × Outcome α}
    (h : RefuseRes P as p q) :
    (∃ as', as' <:+ as ∧ p = ((q.1, as'), q.2)) ∨
    (∃ s as', as' <:+ as ∧ false ∈ as ∧ P s ∧ p = ((s, as'), .ioErr .outOfMemory)) := by
  obtain ⟨⟨s, as'⟩, out⟩ := p
  obtain ⟨h1, ⟨h2, h3⟩ | ⟨h0, h2, h3⟩⟩ := h
  · simp only at h2 h3; subst h2; subst h3; exact .inl ⟨_, h1, rfl⟩
  · simp only at h2 h3; subst h2; exact .inr ⟨_, _, h1, h0, h3, rfl⟩

/-- The two cases, ready for rewriting. -/
theorem RefuseBuf.cases {σ β α : Type} {P : σ → Prop} {as : Answers} {p : (σ × Answers) × β × Outcome α} {q : σ × β × Outcome α}
    (h : RefuseBuf P as p q) :
    (∃ as', as' <:+ as ∧ p = ((q.1, as'), q.2)) ∨
    (∃ s as' x, as' <:+ as ∧ false ∈ as ∧ P s ∧ p = ((s, as'), x, .ioErr .outOfMemory)) := by
  obtain ⟨⟨s, as'⟩, x, out⟩ := p
  obtain ⟨h1, ⟨h2, h3⟩ | ⟨h0, h2, h3⟩⟩ := h
  · simp only at h2 h3; subst h2; rw [h3]; exact .inl ⟨_, h1, rfl⟩
  · simp only at h2 h3; subst h2; exact .inr ⟨_, _, _, h1, h0, h3, rfl⟩

theorem RefuseBuf.mono {σ β α : Type} {P : σ → Prop} {as bs : Answers} {p : (σ × Answers) × β × Outcome α} {q : σ × β × Outcome α}
    (h : RefuseBuf P as p q) (hs : as <:+ bs) : RefuseBuf P bs p q := by
  obtain ⟨h1, h2⟩ := h
  refine ⟨h1.trans hs, ?_⟩
  rcases h2 with h2 | ⟨h3, h4, h5⟩
  · exact .inl h2
  · exact .inr ⟨hs.subset h3, h4, h5⟩

/-- A data callback that answers as another one, or refuses. -/
structure Refuses {τ : Type} (P : τ → Prop) (cb' : Callback (τ × Answers)) (cb : Callback τ) : Prop where
  res : ∀ t as cap, P t → RefuseRes P as (cb' (t, as) cap) (cb t cap)
  step : ∀ t cap, P t → P (cb t cap).1

namespace Converter

variable {τ : Type} {P : τ → Prop} {cb' : Callback (τ × Answers)} {cb : Callback τ}

theorem fillLoop_kept (h : Refuses P cb' cb) (c : Converter) (f : Frame) : ∀ (n : Nat) (t : τ) (buf : List UInt8), P t →
    P (fillLoop c f cb n t buf).1 := by
  intro n
  induction n with
  | zero => intro t buf ht; exact ht
  | succ n ih =>
    intro t buf ht
    rw [fillLoop]
    split
    · have hs := h.step t buf.length ht
      generalize cb t buf.length = x at *
      obtain ⟨t', out⟩ := x
      cases out with
      | ok bytes =>
        simp only
        split
        · exact hs
        · split
          · exact hs
          · split
            · exact hs
            · exact ih _ _ hs
      | err e => exact hs
      | panic => exact hs
      | diverge => exact hs
    · split
      · exact ht
      · have hs := h.step t (buf.length / 4) ht
        generalize cb t (buf.length / 4) = x at *
        obtain ⟨t', out⟩ := x
        cases out with
        | ok bytes =>
          simp only
          split
          · exact hs
          · split
            · exact hs
            · split
              · exact hs
              · exact ih _ _ hs
        | err e => exact hs
        | panic => exact hs
        | diverge => exact hs

theorem fillLoop_refuse (h : Refuses P cb' cb) (c : Converter) (f : Frame) : ∀ (n : Nat) (t : τ) (as : Answers) (buf : List UInt8), P t →
    RefuseBuf P as (fillLoop c f cb' n (t, as) buf) (fillLoop c f cb n t buf) := by
  intro n
  induction n with
  | zero => intro t as buf ht; exact ⟨List.suffix_refl _, .inl ⟨rfl, rfl⟩⟩
  | succ n ih =>
    intro t as buf ht
    rw [fillLoop, fillLoop]
    split
    · have hs := h.step t buf.length ht
      rcases (h.res t as buf.length ht).cases with ⟨as', h1, h2⟩ | ⟨t', as', h1, h0, hk, h2⟩
      · rw [h2]
        generalize cb t buf.length = x at *
        obtain ⟨t', out⟩ := x
        cases out with
        | ok bytes =>
          simp only
          split
          · exact ⟨h1, .inl ⟨rfl, rfl⟩⟩
          · split
            · exact ⟨h1, .inl ⟨rfl, rfl⟩⟩
            · split
              · exact ⟨h1, .inl ⟨rfl, rfl⟩⟩
              · rcases (ih t' as' (buf.drop bytes.length) hs).cases with ⟨as2, h3, h4⟩ | ⟨t2, as2, x, h3, h5, hk, h4⟩
                · rw [h4]; exact ⟨h3.trans h1, .inl ⟨rfl, rfl⟩⟩
                · rw [h4]; exact ⟨h3.trans h1, .inr ⟨h1.subset h5, rfl, hk⟩⟩
        | err e => exact ⟨h1, .inl ⟨rfl, rfl⟩⟩
        | panic => exact ⟨h1, .inl ⟨rfl, rfl⟩⟩
        | diverge => exact ⟨h1, .inl ⟨rfl, rfl⟩⟩
      · rw [h2]; exact ⟨h1, .inr ⟨h0, rfl, hk⟩⟩
    · split
      · exact ⟨List.suffix_refl _, .inl ⟨rfl, rfl⟩⟩
      · have hs := h.step t (buf.length / 4) ht
        rcases (h.res t as (buf.length / 4) ht).cases with ⟨as', h1, h2⟩ | ⟨t', as', h1, h0, hk, h2⟩
        · rw [h2]
          generalize cb t (buf.length / 4) = x at *
          obtain ⟨t', out⟩ := x
          cases out with
          | ok bytes =>
            simp only
            split
            · exact ⟨h1, .inl ⟨rfl, rfl⟩⟩
            · split
              · exact ⟨h1, .inl ⟨rfl, rfl⟩⟩
              · split
                · exact ⟨h1, .inl ⟨rfl, rfl⟩⟩
                · rcases (ih t' as' (buf.drop (bytes.length * 4)) hs).cases with ⟨as2, h3, h4⟩ | ⟨t2, as2, x, h3, h5, hk, h4⟩
                  · rw [h4]; exact ⟨h3.trans h1, .inl ⟨rfl, rfl⟩⟩
                  · rw [h4]; exact ⟨h3.trans h1, .inr ⟨h1.subset h5, rfl, hk⟩⟩
          | err e => exact ⟨h1, .inl ⟨rfl, rfl⟩⟩
          | panic => exact ⟨h1, .inl ⟨rfl, rfl⟩⟩
          | diverge => exact ⟨h1, .inl ⟨rfl, rfl⟩⟩
        · rw [h2]; exact ⟨h1, .inr ⟨h0, rfl, hk⟩⟩

theorem fillBuffer_refuse (h : Refuses P cb' cb) (c : Converter) (f : Frame) (t : τ) (as : Answers) (buf : List UInt8) (ht : P t) :
    RefuseBuf P as (fillBuffer c f cb' (t, as) buf) (fillBuffer c f cb t buf) :=
  fillLoop_refuse h c f _ t as buf ht

theorem readRows_refuse (h : Refuses P cb' cb) (c : Converter) (f : Frame) : ∀ (n : Nat) (it : InterlaceIter) (t : τ) (as : Answers)
    (buf : List UInt8), P t → RefuseBuf P as (readRows c f cb' n it (t, as) buf) (readRows c f cb n it t buf) := by
  intro n
  induction n with
  | zero => intro it t as buf ht; exact ⟨List.suffix_refl _, .inl ⟨rfl, rfl⟩⟩
  | succ n ih =>
    intro it t as buf ht
    rw [readRows, readRows]
    generalize it.nextRow = nr
    obtain ⟨it', row⟩ := nr
    cases row with
    | none => exact ⟨List.suffix_refl _, .inl ⟨rfl, rfl⟩⟩
    | some row =>
      simp only
      split
      · generalize (buf.drop (row * c.lineLength f)).take (c.lineLength f) = line
        have hs : P (fillBuffer c f cb t line).1 := fillLoop_kept h c f _ t line ht
        rcases (fillBuffer_refuse h c f t as line ht).cases with ⟨as', h1, h2⟩ | ⟨t', as', x, h1, h0, hk, h2⟩
        · rw [h2]
          generalize fillBuffer c f cb t line = x at *
          obtain ⟨t', l, out⟩ := x
          cases out with
          | ok b =>
            cases b with
            | true => exact (ih it' t' as' _ hs).mono h1
            | false => exact ⟨h1, .inl ⟨rfl, rfl⟩⟩
          | err e => exact ⟨h1, .inl ⟨rfl, rfl⟩⟩
          | panic => exact ⟨h1, .inl ⟨rfl, rfl⟩⟩
          | diverge => exact ⟨h1, .inl ⟨rfl, rfl⟩⟩
        · rw [h2]; exact ⟨h1, .inr ⟨h0, rfl, hk⟩⟩
      · exact ⟨List.suffix_refl _, .inl ⟨rfl, rfl⟩⟩

theorem readIntoBuffer_refuse (h : Refuses P cb' cb) (c : Converter) (f : Frame) (t : τ) (as : Answers) (buf : List UInt8) (ht : P t) :
    RefuseBuf P as (readIntoBuffer c f cb' (t, as) buf) (readIntoBuffer c f cb t buf) := by
  unfold readIntoBuffer
  split
  · exact readRows_refuse h c f _ _ t as buf ht
  · simp only
    split
    · rcases (fillBuffer_refuse h c f t as (buf.take (c.bufferSize f)) ht).cases with ⟨as', h1, h2⟩ | ⟨t', as', x, h1, h0, hk, h2⟩
      · rw [h2]
        generalize fillBuffer c f cb t (buf.take (c.bufferSize f)) = x at *
        obtain ⟨t', l, out⟩ := x
        cases out with
        | ok b => cases b <;> exact ⟨h1, .inl ⟨rfl, rfl⟩⟩
        | err e => exact ⟨h1, .inl ⟨rfl, rfl⟩⟩
        | panic => exact ⟨h1, .inl ⟨rfl, rfl⟩⟩
        | diverge => exact ⟨h1, .inl ⟨rfl, rfl⟩⟩
      · rw [h2]; exact ⟨h1, .inr ⟨h0, rfl, hk⟩⟩
    · exact ⟨List.suffix_refl _, .inl ⟨rfl, rfl⟩⟩

theorem readFrame_refuse (h : Refuses P cb' cb) (c : Converter) (f : Frame) (t : τ) (as : Answers) (ht : P t) :
    RefuseBuf P as (readFrame c f cb' (t, as)) (readFrame c f cb t) := by
  unfold readFrame
  generalize c.checkBufferSize f = k
  cases k with
  | ok n =>
    simp only
    rcases (readIntoBuffer_refuse h c { f with buffer := [], ownedCap := none } t as (frameBuffer f n) ht).cases with
      ⟨as', h1, h2⟩ | ⟨t', as', x, h1, h0, hk, h2⟩
    · rw [h2]
      generalize readIntoBuffer c { f with buffer := [], ownedCap := none } cb t (frameBuffer f n) = x at *
      obtain ⟨t', l, out⟩ := x
      cases out <;> exact ⟨h1, .inl ⟨rfl, rfl⟩⟩
    · rw [h2]; exact ⟨h1, .inr ⟨h0, rfl, hk⟩⟩
  | err e => exact ⟨List.suffix_refl _, .inl ⟨rfl, rfl⟩⟩
  | panic => exact ⟨List.suffix_refl _, .inl ⟨rfl, rfl⟩⟩
  | diverge => exact ⟨List.suffix_refl _, .inl ⟨rfl, rfl⟩⟩

end Converter

namespace Decoder

variable {C : Codec}

theorem bytes_refuses (hS : C.Safe) (d : RD C) : Refuses (RD.Kept d) RD.decodeNextBytesOn RD.decodeNextBytes where
  res t as cap ht := (RD.decodeNextBytesOn_res hS t as cap ht.1).mono (List.suffix_refl _) fun _ h => ht.trans h
  step t cap ht := ht.trans (RD.decodeNextBytes_kept hS t cap ht.1)

/-- What holds after a refusal. -/
structure KeptFrom (d d' : Decoder C) : Prop where
  rd : RD.Kept d.rd d'.rd
  limit : d'.conv.memoryLimit = d.conv.memoryLimit
  colors : d'.conv.colorOutput = d.conv.colorOutput

theorem KeptFrom.inv {d d' : Decoder C} (h : KeptFrom d d') (hi : d.Inv) : d'.Inv :=
  ⟨h.rd.1, by rw [opts_limit h.rd.2, hi.limit, h.limit]⟩

theorem initLoopOn_res (hS : C.Safe) : ∀ (n : Nat) (d : Decoder C) (as : Answers), d.rd.Inv →
    RefuseRes (KeptFrom d) as (initLoopOn n d as) (initLoop n d) := by
  intro n
  induction n with
  | zero => intro d as _; exact ⟨List.suffix_refl _, .inl ⟨rfl, rfl⟩⟩
  | succ n ih =>
    intro d as hi
    rw [initLoopOn, initLoop]
    have hkd := RD.decodeNext_kept hS .none d.rd hi
    rcases RD.decodeNextOn_cases hS .none d.rd as hi with ⟨as', h1, h2⟩ | ⟨d', as', h1, h0, hk, h2⟩
    · rw [h2]
      generalize d.rd.decodeNext .none = x at *
      obtain ⟨rd, out⟩ := x
      simp only at hkd
      cases out with
      | ok ev =>
        cases ev with
        | none => exact ⟨h1, .inl ⟨rfl, rfl⟩⟩
        | some ev =>
          cases ev with
          | headerEnd => exact ⟨h1, .inl ⟨rfl, rfl⟩⟩
          | _ => exact (ih _ as' hkd.1).mono h1 fun t h => ⟨hkd.trans h.rd, h.limit, h.colors⟩
      | err e => exact ⟨h1, .inl ⟨rfl, rfl⟩⟩
      | panic => exact ⟨h1, .inl ⟨rfl, rfl⟩⟩
      | diverge => exact ⟨h1, .inl ⟨rfl, rfl⟩⟩
    · rw [h2]; exact ⟨h1, .inr ⟨h0, rfl, hk, rfl, rfl⟩⟩

theorem readInfoOn_res (hS : C.Safe) (o : DecodeOptions) (r : Reader) (as : Answers) :
    RefuseRes (KeptFrom (withNoInit C o r)) as (readInfoOn C o r as) (readInfo C o r) := by
  unfold readInfoOn readInfo init
  simp only
  rcases (initLoopOn_res hS (withNoInit C o r).rd.eventFuel (withNoInit C o r) as (inv_withNoInit o r).rd).cases with
    ⟨as', h1, h2⟩ | ⟨d', as', h1, h0, hk, h2⟩
  · rw [h2]
    generalize initLoop (withNoInit C o r).rd.eventFuel (withNoInit C o r) = x at *
    obtain ⟨d', out⟩ := x
    cases out <;> exact ⟨h1, .inl ⟨rfl, rfl⟩⟩
  · rw [h2]; exact ⟨h1, .inr ⟨h0, rfl, hk⟩⟩

/-- What holds after a refusal in a call. -/
structure Stays (d d' : Decoder C) : Prop where
  rd : RD.Kept d.rd d'.rd
  conv : d'.conv = d.conv
  bg : d'.bgColor = d.bgColor
  rep : d'.repetition = d.repetition

theorem Stays.inv {d d' : Decoder C} (h : Stays d d') (hi : d.Inv) : d'.Inv :=
  ⟨h.rd.1, by rw [opts_limit h.rd.2, hi.limit, h.conv]⟩

theorem nextFrameLoopOn_res (hS : C.Safe) : ∀ (n : Nat) (d : Decoder C) (as : Answers), d.rd.Inv →
    RefuseRes (Stays d) as (nextFrameLoopOn n d as) (nextFrameLoop n d) := by
  intro n
  induction n with
  | zero => intro d as _; exact ⟨List.suffix_refl _, .inl ⟨rfl, rfl⟩⟩
  | succ n ih =>
    intro d as hi
    rw [nextFrameLoopOn, nextFrameLoop]
    have hkd := RD.decodeNext_kept hS .none d.rd hi
    rcases RD.decodeNextOn_cases hS .none d.rd as hi with ⟨as', h1, h2⟩ | ⟨d', as', h1, h0, hk, h2⟩
    · rw [h2]
      generalize d.rd.decodeNext .none = x at *
      obtain ⟨rd, out⟩ := x
      simp only at hkd
      cases out with
      | ok ev =>
        cases ev with
        | none => exact ⟨h1, .inl ⟨rfl, rfl⟩⟩
        | some ev =>
          cases ev with
          | frameMetadata t =>
            simp only
            cases rd.sd.current with
            | none => exact ⟨h1, .inl ⟨rfl, rfl⟩⟩
            | some f =>
              simp only
              split <;> exact ⟨h1, .inl ⟨rfl, rfl⟩⟩
          | _ => exact (ih _ as' hkd.1).mono h1 fun t h => ⟨hkd.trans h.rd, h.conv, h.bg, h.rep⟩
      | err e => exact ⟨h1, .inl ⟨rfl, rfl⟩⟩
      | panic => exact ⟨h1, .inl ⟨rfl, rfl⟩⟩
      | diverge => exact ⟨h1, .inl ⟨rfl, rfl⟩⟩
    · rw [h2]; exact ⟨h1, .inr ⟨h0, rfl, hk, rfl, rfl, rfl⟩⟩

theorem nextFrameInfoOn_res (hS : C.Safe) (d : Decoder C) (as : Answers) (hi : d.rd.Inv) :
    RefuseRes (Stays d) as (d.nextFrameInfoOn as) d.nextFrameInfo :=
  nextFrameLoopOn_res hS _ d as hi

theorem copyLoopOn_res (hS : C.Safe) : ∀ (n : Nat) (rd : RD C) (as : Answers) (vec : List UInt8), rd.Inv →
    RefuseBuf (RD.Kept rd) as (copyLoopOn n rd as vec) (copyLoop n rd vec) := by
  intro n
  induction n with
  | zero => intro d as _ _; exact ⟨List.suffix_refl _, .inl ⟨rfl, rfl⟩⟩
  | succ n ih =>
    intro d as vec hi
    rw [copyLoopOn, copyLoop]
    have hkd := RD.decodeNext_kept hS (.vec vec.length) d hi
    rcases RD.decodeNextOn_cases hS (.vec vec.length) d as hi with ⟨as', h1, h2⟩ | ⟨d', as', h1, h0, hk, h2⟩
    · rw [h2]
      generalize d.decodeNext (.vec vec.length) = x at *
      obtain ⟨rd, out⟩ := x
      simp only at hkd
      cases out with
      | ok ev =>
        cases ev with
        | none => exact ⟨h1, .inl ⟨rfl, rfl⟩⟩
        | some ev =>
          cases ev with
          | lzwDataCopied bytes =>
            obtain ⟨i1, i2⟩ := ih rd as' (vec ++ bytes) hkd.1
            refine ⟨i1.trans h1, ?_⟩
            rcases i2 with i2 | ⟨i2, i3, i4⟩
            · exact .inl i2
            · exact .inr ⟨h1.subset i2, i3, hkd.trans i4⟩
          | _ => exact ⟨h1, .inl ⟨rfl, rfl⟩⟩
      | err e => exact ⟨h1, .inl ⟨rfl, rfl⟩⟩
      | panic => exact ⟨h1, .inl ⟨rfl, rfl⟩⟩
      | diverge => exact ⟨h1, .inl ⟨rfl, rfl⟩⟩
    · rw [h2]; exact ⟨h1, .inr ⟨h0, rfl, hk⟩⟩

theorem readNextFrameRoom_res (hS : C.Safe) (d : Decoder C) (as : Answers) (hi : d.Inv) :
    RefuseRes (Stays d) as (d.readNextFrameRoom as) d.readNextFrame := by
  unfold readNextFrameRoom readNextFrame
  have hfr := frameRun_spec hS (nextFrameInfo_run hS d hi.rd) hi.rd
  rcases (nextFrameInfoOn_res hS d as hi.rd).cases with ⟨as', h1, h2⟩ | ⟨d', as', h1, h0, hk, h2⟩
  · rw [h2]
    generalize d.nextFrameInfo = x at *
    obtain ⟨d1, out⟩ := x
    obtain ⟨g1, _, g3, g4, g5, g6, _⟩ := hfr
    simp only at g1 g3 g4 g5 g6
    have hst : ∀ {rd : RD C} {f : Frame} {t : FrameDataType}, RD.Kept d1.rd rd →
        Stays d { d1 with rd := rd, currentFrame := f, dataType := t } := fun h => ⟨⟨h.1, h.2.trans g3⟩, g4, g5, g6⟩
    cases out with
    | ok b =>
      cases b with
      | false => exact ⟨h1, .inl ⟨rfl, rfl⟩⟩
      | true =>
        simp only
        cases d1.dataType with
        | pixels =>
          simp only
          rcases (Converter.readFrame_refuse (bytes_refuses hS d1.rd) d1.conv d1.currentFrame d1.rd as' (.refl g1)).cases with
            ⟨as2, h3, h4⟩ | ⟨t2, as2, x, h3, h5, hk, h4⟩
          · rw [h4]
            generalize d1.conv.readFrame d1.currentFrame RD.decodeNextBytes d1.rd = x at *
            obtain ⟨t', l, out⟩ := x
            cases out <;> exact ⟨h3.trans h1, .inl ⟨rfl, rfl⟩⟩
          · rw [h4]; exact ⟨h3.trans h1, .inr ⟨h1.subset h5, rfl, hst hk⟩⟩
        | lzw m =>
          simp only
          cases hr : as'.headD true with
          | false =>
            simp only [Bool.false_eq_true, if_false]
            exact ⟨(List.tail_suffix _).trans h1, .inr ⟨h1.subset (headD_false hr), rfl, hst (.refl g1)⟩⟩
          | true =>
            simp only [if_true, copyLzw]
            have ht := (List.tail_suffix as').trans h1
            rcases (copyLoopOn_res hS d1.rd.eventFuel d1.rd as'.tail [m] g1).cases with
              ⟨as2, h3, h4⟩ | ⟨t2, as2, x, h3, h5, hk, h4⟩
            · rw [h4]
              generalize copyLoop d1.rd.eventFuel d1.rd [m] = x at *
              obtain ⟨t', l, out⟩ := x
              cases out <;> exact ⟨h3.trans ht, .inl ⟨rfl, rfl⟩⟩
            · rw [h4]; exact ⟨h3.trans ht, .inr ⟨ht.subset h5, rfl, hst hk⟩⟩
    | err e => exact ⟨h1, .inl ⟨rfl, rfl⟩⟩
    | panic => exact ⟨h1, .inl ⟨rfl, rfl⟩⟩
    | diverge => exact ⟨h1, .inl ⟨rfl, rfl⟩⟩
  · rw [h2]; exact ⟨h1, .inr ⟨h0, rfl, hk⟩⟩

theorem readIntoBufferOn_res (hS : C.Safe) (d : Decoder C) (as : Answers) (buf : List UInt8) (hi : d.Inv) :
    RefuseBuf (Stays d) as (d.readIntoBufferOn as buf) (d.readIntoBuffer buf) := by
  unfold readIntoBufferOn readIntoBuffer
  rcases (Converter.readIntoBuffer_refuse (bytes_refuses hS d.rd) d.conv d.currentFrame d.rd as buf (.refl hi.rd)).cases with
    ⟨as2, h3, h4⟩ | ⟨t2, as2, x, h3, h5, hk, h4⟩
  · rw [h4]; exact ⟨h3, .inl ⟨rfl, rfl⟩⟩
  · rw [h4]; exact ⟨h3, .inr ⟨h5, rfl, hk, rfl, rfl, rfl⟩⟩

theorem fillBufferOn_res (hS : C.Safe) (d : Decoder C) (as : Answers) (buf : List UInt8) (hi : d.Inv) :
    RefuseBuf (Stays d) as (d.fillBufferOn as buf) (d.fillBuffer buf) := by
  unfold fillBufferOn fillBuffer
  rcases (Converter.fillBuffer_refuse (bytes_refuses hS d.rd) d.conv d.currentFrame d.rd as buf (.refl hi.rd)).cases with
    ⟨as2, h3, h4⟩ | ⟨t2, as2, x, h3, h5, hk, h4⟩
  · rw [h4]; exact ⟨h3, .inl ⟨rfl, rfl⟩⟩
  · rw [h4]; exact ⟨h3, .inr ⟨h5, rfl, hk, rfl, rfl, rfl⟩⟩

end Decoder

end Gif
