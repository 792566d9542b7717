import Verif.Lemmas.Walk
import Verif.Spec.Reading
/-!
Feeding the streaming decoder in slices of any size is a run over the bytes.
-/

namespace Gif

namespace SD

variable {C : Codec}

theorem telling_of {ev : Decoded} (h : ∀ x, ¬ Quiet ev x) : ev.telling = true := by
  cases ev <;> first | rfl | exact absurd .nothing (h _) | exact absurd (.copied _) (h _)

theorem quiet_of {ev : Decoded} (h : ev.telling = false) : ∃ x, Quiet ev x := by
  cases ev <;> first | (cases h; done) | exact ⟨_, .nothing⟩ | exact ⟨_, .copied _⟩

theorem not_quiet_of {ev : Decoded} (h : ev.telling = true) : ∀ x, ¬ Quiet ev x := by
  intro x hx
  cases hx <;> cases h

/-- A run over some events. The last part may be unfinished. -/
inductive Trace : SD C → List UInt8 → List Decoded → SD C → List UInt8 → Prop
  | quiet {s s' : SD C} {l l' : List UInt8} (h : ∀ r, Eval false s' [] l' r → Eval false s [] l r) : Trace s l [] s' l'
  | event {s s1 s' : SD C} {l l1 l' : List UInt8} {ev : Decoded} {evs : List Decoded}
      (h : Eval false s [] l (.event s1 [] ev l1)) (ht : Trace s1 l1 evs s' l') : Trace s l (ev :: evs) s' l'

/-- What one call does, as part of a run. -/
theorem call_eval (hS : C.Safe) {s s1 : SD C} {slice rest : List UInt8} {n : Nat} {ev : Decoded} (hw : WF s)
    (hl : Look s (slice ++ rest)) (hne : slice ≠ []) (ht : s.state ≠ .trailer)
    (h : s.update slice .none = (s1, .ok (n, ev))) :
    WF s1 ∧ Look s1 ((slice ++ rest).drop n) ∧ (s1.state = .trailer → ev = .blockStart .trailer) ∧
    (ev.telling = false → ∀ r, Eval false s1 [] ((slice ++ rest).drop n) r → Eval false s [] (slice ++ rest) r) ∧
    (ev.telling = true → Eval false s [] (slice ++ rest) (.event s1 [] ev ((slice ++ rest).drop n))) := by
  have hlk : Look s slice := by
    intro hp
    obtain ⟨t, ht'⟩ := hl hp
    cases slice with
    | nil => exact absurd rfl hne
    | cons b bs => rw [List.cons_append, List.cons.injEq] at ht'; exact ⟨bs, by rw [ht'.1]⟩
  obtain ⟨s0, l0, hs, he⟩ := update_cases hS .none s slice hw hlk ht
  obtain ⟨w1, w2, w3, w4⟩ := steps_wf hS hs hw hlk
  have hst : ∀ r, Eval false s0 [] (l0 ++ rest) r → Eval false s [] (slice ++ rest) r :=
    fun r hr => eval_steps hS (m := false) (acc := []) hs hw hlk rest hr
  rw [h] at he
  simp only at he
  generalize hr : Outcome.ok (n, ev) = res at he
  cases he with
  | all =>
    simp only [Outcome.ok.injEq, Prod.mk.injEq] at hr
    obtain ⟨rfl, rfl⟩ := hr
    rw [List.drop_left']
    · refine ⟨w1, ?_, fun hc => absurd hc (w4 ht), fun _ => hst, fun h => by cases h⟩
      intro hp
      obtain ⟨t, ht'⟩ := w2 hp
      cases ht'
    · rfl
  | @event b bs _ n' ev' hstep hev =>
    simp only [Outcome.ok.injEq, Prod.mk.injEq] at hr
    obtain ⟨rfl, rfl⟩ := hr
    have hx := tr_of_nextState w1.ibuf hstep
    obtain ⟨a1, a2, a3⟩ := tr_wf hS w1 hx
    have hd : (slice ++ rest).drop (slice.length - ((b :: bs).drop n').length) = (b :: bs).drop n' ++ rest := by
      obtain ⟨p, hp⟩ := w3
      have : slice.length - ((b :: bs).drop n').length = (p ++ (b :: bs).take n').length := by
        rw [← hp]
        simp only [List.length_append, List.length_drop, List.length_take]
        omega
      have h2 : slice ++ rest = (p ++ (b :: bs).take n') ++ ((b :: bs).drop n' ++ rest) := by
        rw [List.append_assoc, ← List.append_assoc (List.take _ _), List.take_append_drop, ← List.append_assoc, hp]
      rw [this, h2, List.drop_left' rfl]
    rw [hd]
    have hs1 := eval_step hS false _ s0 [] b bs (Nat.le_refl _) w1 rest
    refine ⟨a1, ?_, fun hc => (tr_trailer hx (w4 ht)).1 hc, ?_, ?_⟩
    · intro hp
      obtain ⟨t, ht'⟩ := a2 hp
      exact ⟨t ++ rest, by rw [ht']; rfl⟩
    · intro hq r hr
      obtain ⟨x, hx'⟩ := quiet_of hq
      have hnil : x = [] := by
        cases hx' with
        | nothing => rfl
        | copied => exact tr_copied_none hx rfl
      subst hnil
      exact hst _ (hs1.1 _ _ _ [] r hstep hx' (by simpa using hr))
    · intro hq
      exact hst _ (hs1.2.1 _ _ _ hstep (not_quiet_of hq))
  | err => cases hr

/-- A call that fails, as part of a run. -/
theorem call_fails (hS : C.Safe) {s : SD C} {slice rest : List UInt8} (hw : WF s)
    (hl : Look s (slice ++ rest)) (hne : slice ≠ []) (ht : s.state ≠ .trailer)
    (h : ∀ n ev, (s.update slice .none).2 ≠ .ok (n, ev)) : ∃ e, Eval false s [] (slice ++ rest) (.err e) := by
  have hlk : Look s slice := by
    intro hp
    obtain ⟨t, ht'⟩ := hl hp
    cases slice with
    | nil => exact absurd rfl hne
    | cons b bs => rw [List.cons_append, List.cons.injEq] at ht'; exact ⟨bs, by rw [ht'.1]⟩
  obtain ⟨s0, l0, hs, he⟩ := update_cases hS .none s slice hw hlk ht
  obtain ⟨w1, w2, w3, w4⟩ := steps_wf hS hs hw hlk
  generalize (s.update slice .none) = u at he h
  obtain ⟨s1, out⟩ := u
  simp only at he h
  cases he with
  | all => exact absurd rfl (h _ _)
  | event => exact absurd rfl (h _ _)
  | @err b bs _ e hstep =>
    exact ⟨e, eval_steps hS (m := false) (acc := []) hs hw hlk rest
      ((eval_step hS false _ s0 [] b bs (Nat.le_refl _) w1 rest).2.2 _ _ hstep)⟩

/-- After the trailer, calls do not return. -/
theorem trailer_hangs (hS : C.Safe) {s s1 : SD C} {slice : List UInt8} {n : Nat} {ev : Decoded} (hne : slice ≠ [])
    (h : s.update slice .none = (s1, .ok (n, ev))) : s.state ≠ .trailer := by
  intro ht
  have key : ∀ (len fuel : Nat) (s : SD C), s.state = .trailer → slice ≠ [] → (updateLoop len .none fuel s slice).2 = .diverge := by
    intro len fuel
    induction fuel with
    | zero => intro s _ _; cases slice with
      | nil => exact absurd rfl hne
      | cons => rfl
    | succ fuel ih =>
      intro s hs _
      cases slice with
      | nil => exact absurd rfl hne
      | cons b bs =>
        rw [updateLoop]
        have : nextState s (b :: bs) .none = (s, .ok (0, .nothing)) := by
          rcases s with ⟨⟩
          simp only at hs
          subst hs
          rfl
        rw [this]
        exact ih s hs hne
  have := key slice.length (2 * slice.length + 2) s ht hne
  unfold update at h
  rw [h] at this
  cases this

theorem told_cons (slice : List UInt8) (n : Nat) (ev : Decoded) (cs : List UpdateCall) :
    told (⟨slice, .none, .ok (n, ev)⟩ :: cs) = if ev.telling then ev :: told cs else told cs := by
  unfold told
  rw [List.filterMap_cons]
  simp only [UpdateCall.event]
  rw [List.filter_cons]

theorem reading_trace (hS : C.Safe) {s s' : SD C} {l l' : List UInt8} {cs : List UpdateCall} (h : Reading s l cs s' l')
    (hw : WF s) (hl : Look s l) : Trace s l (told cs) s' l' ∧ WF s' ∧ Look s' l' ∧
      (s.state ≠ .trailer → s'.state = .trailer → .blockStart .trailer ∈ told cs) := by
  induction h with
  | nil => exact ⟨.quiet fun _ h => h, hw, hl, fun h h' => absurd h' h⟩
  | @cons s s1 s' slice rest l' cs n ev hne h ht ih =>
    have htr := trailer_hangs hS hne h
    obtain ⟨a1, a2, a3, a4, a5⟩ := call_eval hS hw hl hne htr h
    obtain ⟨b1, b2, b3, b4⟩ := ih a1 a2
    rw [told_cons]
    refine ⟨?_, b2, b3, fun _ hc => ?_⟩
    · by_cases hq : ev.telling = true
      · rw [if_pos hq]
        exact .event (a5 hq) b1
      · rw [if_neg hq]
        rw [Bool.not_eq_true] at hq
        generalize told cs = es at b1
        cases b1 with
        | quiet h1 => exact .quiet fun r hr => a4 hq r (h1 r hr)
        | event h1 ht => exact .event (a4 hq _ h1) ht
    · by_cases h1 : s1.state = .trailer
      · have := a3 h1
        subst this
        exact List.mem_cons_self
      · have := b4 h1 hc
        split
        · exact List.mem_cons_of_mem _ this
        · exact this

/-- A run that ends with its last event. -/
inductive Hits : SD C → List UInt8 → List Decoded → SD C → List UInt8 → Prop
  | nil (s : SD C) (l : List UInt8) : Hits s l [] s l
  | event {s s1 s' : SD C} {l l1 l' : List UInt8} {ev : Decoded} {evs : List Decoded}
      (h : Eval false s [] l (.event s1 [] ev l1)) (ht : Hits s1 l1 evs s' l') : Hits s l (ev :: evs) s' l'

theorem reading_hits (hS : C.Safe) {s s' : SD C} {l l' : List UInt8} {cs : List UpdateCall} (h : Reading s l cs s' l')
    (hw : WF s) (hl : Look s l) (hlast : ∀ c ∈ cs.getLast?, ∃ ev, c.event = some ev ∧ ev.telling = true) :
    Hits s l (told cs) s' l' := by
  induction h with
  | nil => exact .nil _ _
  | @cons s s1 s' slice rest l' cs n ev hne h ht ih =>
    have htr := trailer_hangs hS hne h
    obtain ⟨a1, a2, a3, a4, a5⟩ := call_eval hS hw hl hne htr h
    have hlast' : ∀ c ∈ cs.getLast?, ∃ ev, c.event = some ev ∧ ev.telling = true := by
      intro c hc
      refine hlast c ?_
      cases cs with
      | nil => cases hc
      | cons c' cs => rw [List.getLast?_cons_cons]; exact hc
    have b1 := ih a1 a2 hlast'
    rw [told_cons]
    by_cases hq : ev.telling = true
    · rw [if_pos hq]
      exact .event (a5 hq) b1
    · rw [if_neg hq]
      rw [Bool.not_eq_true] at hq
      have hcs : told cs ≠ [] := by
        intro hnil
        cases hg : cs.getLast? with
        | none =>
          rw [List.getLast?_eq_none_iff] at hg
          subst hg
          obtain ⟨ev', h1, h2⟩ := hlast _ rfl
          cases h1
          rw [hq] at h2
          cases h2
        | some c =>
          obtain ⟨ev', h1, h2⟩ := hlast' c (by rw [hg]; rfl)
          have hmem := List.mem_of_getLast? hg
          have : ev' ∈ told cs := List.mem_filter.mpr ⟨List.mem_filterMap.mpr ⟨c, hmem, h1⟩, h2⟩
          rw [hnil] at this
          cases this
      generalize told cs = es at b1 hcs
      cases b1 with
      | nil => exact absurd rfl hcs
      | event h1 ht => exact .event (a4 hq _ h1) ht

/-! ## Runs and walks -/

theorem walk_silent {s s1 : SD C} {w : List UInt8} {evs : List Decoded} (h : Walk s w evs s1) (he : evs = [])
    (rest : List UInt8) (r : Res C) : Eval false s [] (w ++ rest) r ↔ Eval false s1 [] rest r := by
  induction h with
  | refl => exact Iff.rfl
  | @quiet s s' s'' b n l evs h hn ht ih =>
    have hd : ((b :: l) ++ rest).drop n = (b :: l).drop n ++ rest := List.drop_append_of_le_length (by simp; omega)
    rw [← ih he, ← hd, List.cons_append]
    constructor
    · intro hr
      cases hr with
      | @quiet _ s2 _ _ x2 _ n2 ev2 r2 h2 hq2 ht2 =>
        rw [spec_false, h] at h2
        simp only [Prod.mk.injEq, Outcome.ok.injEq] at h2
        obtain ⟨rfl, rfl, rfl⟩ := h2
        cases hq2
        exact ht2
      | @event _ s2 _ _ n2 ev2 _ h2 hq2 =>
        rw [spec_false, h] at h2
        simp only [Prod.mk.injEq, Outcome.ok.injEq] at h2
        obtain ⟨rfl, rfl, rfl⟩ := h2
        exact absurd .nothing (hq2 _)
      | err _ h2 => rw [spec_false, h] at h2; simp at h2
    · intro hr
      exact .quiet h .nothing hr
  | event => cases he

theorem walk_first {s s1 : SD C} {w : List UInt8} {evs es : List Decoded} {ev : Decoded} (h : Walk s w es s1)
    (he : es = ev :: evs) (rest : List UInt8) :
    ∃ sa wa, Eval false s [] (w ++ rest) (.event sa [] ev (wa ++ rest)) ∧ Walk sa wa evs s1 := by
  induction h with
  | refl => cases he
  | @quiet s s' s'' b n l es h hn ht ih =>
    obtain ⟨sa, wa, h1, h2⟩ := ih he
    refine ⟨sa, wa, ?_, h2⟩
    have hd : ((b :: l) ++ rest).drop n = (b :: l).drop n ++ rest := List.drop_append_of_le_length (by simp; omega)
    rw [← hd] at h1
    exact .quiet h .nothing h1
  | @event s s' s'' b n l ev' es h hn hq ht ih =>
    cases he
    refine ⟨s', (b :: l).drop n, ?_, ht⟩
    have hd : ((b :: l) ++ rest).drop n = (b :: l).drop n ++ rest := List.drop_append_of_le_length (by simp; omega)
    rw [← hd]
    exact .event _ h hq

/-- A walk that ends with an event. -/
def WalkTo (s : SD C) (w : List UInt8) (evs : List Decoded) (last : Decoded) (b : UInt8) (n : Nat) (s1 : SD C) : Prop :=
  ∃ sa, Walk s w evs sa ∧ nextState sa [b] .none = (s1, .ok (n, last)) ∧ last.telling = true

/-- A run and a walk meet the same events. -/
theorem trace_walk {s s1 s' : SD C} {w l l' : List UInt8} {evs evs' : List Decoded} {last : Decoded} {b : UInt8} {n : Nat}
    (h : WalkTo s w evs last b n s1) (h' : Trace s (w ++ b :: l) evs' s' l') :
    (evs' <+: evs ∧ ∀ e, ¬ Eval false s' [] l' (.err e)) ∨
      ∃ evs2, evs' = evs ++ last :: evs2 ∧ Trace s1 ((b :: l).drop n) evs2 s' l' := by
  induction evs generalizing s w evs' with
  | nil =>
    obtain ⟨sa, h1, h2, h3⟩ := h
    have hev : Eval false s [] (w ++ b :: l) (.event s1 [] last ((b :: l).drop n)) :=
      (walk_silent h1 rfl _ _).mpr (.event _ h2 (not_quiet_of h3))
    cases h' with
    | quiet hq =>
      refine .inl ⟨List.nil_prefix, fun e he => ?_⟩
      have := eval_det hev (hq _ he)
      cases this
    | event he ht =>
      have := eval_det hev he
      cases this
      exact .inr ⟨_, rfl, ht⟩
  | cons ev evs ih =>
    obtain ⟨sa, h1, h2, h3⟩ := h
    obtain ⟨sb, wa, g1, g2⟩ := walk_first h1 rfl (b :: l)
    cases h' with
    | quiet hq =>
      refine .inl ⟨List.nil_prefix, fun e he => ?_⟩
      have := eval_det g1 (hq _ he)
      cases this
    | event he ht =>
      have := eval_det g1 he
      cases this
      rcases ih ⟨sa, g2, h2, h3⟩ ht with ⟨k1, k2⟩ | ⟨evs2, rfl, k⟩
      · exact .inl ⟨(List.prefix_cons_inj _).mpr k1, k2⟩
      · exact .inr ⟨evs2, rfl, k⟩

/-- A run to the last event of a walk ends where the walk ends. -/
theorem hits_walk {s s1 s' : SD C} {w l l' : List UInt8} {evs : List Decoded} {last : Decoded} {b : UInt8} {n : Nat}
    (h : WalkTo s w evs last b n s1) (h' : Hits s (w ++ b :: l) (evs ++ [last]) s' l') : s' = s1 ∧ l' = (b :: l).drop n := by
  induction evs generalizing s w with
  | nil =>
    obtain ⟨sa, h1, h2, h3⟩ := h
    have hev : Eval false s [] (w ++ b :: l) (.event s1 [] last ((b :: l).drop n)) :=
      (walk_silent h1 rfl _ _).mpr (.event _ h2 (not_quiet_of h3))
    cases h' with
    | event he ht =>
      have := eval_det hev he
      cases this
      cases ht
      exact ⟨rfl, rfl⟩
  | cons ev evs ih =>
    obtain ⟨sa, h1, h2, h3⟩ := h
    obtain ⟨sb, wa, g1, g2⟩ := walk_first h1 rfl (b :: l)
    cases h' with
    | event he ht =>
      have := eval_det g1 he
      cases this
      exact ih ⟨sa, g2, h2, h3⟩ ht

end SD

end Gif
