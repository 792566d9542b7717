import Verif.Lemmas.Split
import Verif.Lemmas.Pull
import Verif.Spec.Session
/-!
The meaning of a byte string for the streaming decoder, one byte at a time, and the proof that the real calls, with slices
of any size, follow it.
-/

namespace Gif

namespace SD

variable {C : Codec}

/-- Result of running over a byte string. -/
inductive Res (C : Codec) where
  /-- The bytes are used up. -/
  | more (s : SD C) (acc : List UInt8)
  /-- An event other than copied data, and what follows. -/
  | event (s : SD C) (acc : List UInt8) (ev : Decoded) (rest : List UInt8)
  | err (e : DecodingError)

/-- Run until the next event; `acc` collects copied data. -/
inductive Eval (m : Bool) : SD C → List UInt8 → List UInt8 → Res C → Prop
  | nil (s : SD C) (acc : List UInt8) : Eval m s acc [] (.more s acc)
  | quiet {s s' : SD C} {acc l x : List UInt8} {b : UInt8} {n : Nat} {ev : Decoded} {r : Res C}
      (h : nextState s [b] (spec m acc) = (s', .ok (n, ev))) (hq : Quiet ev x)
      (ht : Eval m s' (acc ++ x) ((b :: l).drop n) r) : Eval m s acc (b :: l) r
  | event {s s' : SD C} {acc : List UInt8} {b : UInt8} {n : Nat} {ev : Decoded} (l : List UInt8)
      (h : nextState s [b] (spec m acc) = (s', .ok (n, ev))) (hq : ∀ x, ¬ Quiet ev x) :
      Eval m s acc (b :: l) (.event s' acc ev ((b :: l).drop n))
  | err {s s' : SD C} {acc : List UInt8} {b : UInt8} {e : DecodingError} (l : List UInt8)
      (h : nextState s [b] (spec m acc) = (s', .err e)) : Eval m s acc (b :: l) (.err e)

theorem quiet_inj {ev : Decoded} {x y : List UInt8} (h : Quiet ev x) (h' : Quiet ev y) : x = y := by
  cases h <;> cases h' <;> rfl

/-- Running is deterministic. -/
theorem eval_det {m : Bool} {s : SD C} {acc l : List UInt8} {r r' : Res C} (h : Eval m s acc l r) (h' : Eval m s acc l r') :
    r = r' := by
  induction h with
  | nil => cases h'; rfl
  | @quiet s s' acc l x b n ev r h hq ht ih =>
    cases h' with
    | @quiet _ s2 _ _ x2 _ n2 ev2 r2 h2 hq2 ht2 =>
      rw [h] at h2
      simp only [Prod.mk.injEq, Outcome.ok.injEq] at h2
      obtain ⟨rfl, rfl, rfl⟩ := h2
      have := quiet_inj hq hq2
      subst this
      exact ih ht2
    | @event _ s2 _ _ n2 ev2 _ h2 hq2 =>
      rw [h] at h2
      simp only [Prod.mk.injEq, Outcome.ok.injEq] at h2
      obtain ⟨rfl, rfl, rfl⟩ := h2
      exact absurd hq (hq2 _)
    | err _ h2 => rw [h] at h2; simp at h2
  | @event s s' acc b n ev l h hq =>
    cases h' with
    | @quiet _ s2 _ _ x2 _ n2 ev2 r2 h2 hq2 ht2 =>
      rw [h] at h2
      simp only [Prod.mk.injEq, Outcome.ok.injEq] at h2
      obtain ⟨rfl, rfl, rfl⟩ := h2
      exact absurd hq2 (hq _)
    | @event _ s2 _ _ n2 ev2 _ h2 hq2 =>
      rw [h] at h2
      simp only [Prod.mk.injEq, Outcome.ok.injEq] at h2
      obtain ⟨rfl, rfl, rfl⟩ := h2
      rfl
    | err _ h2 => rw [h] at h2; simp at h2
  | @err s s' acc b e l h =>
    cases h' with
    | quiet h2 => rw [h] at h2; simp at h2
    | event _ h2 => rw [h] at h2; simp at h2
    | @err _ s2 _ _ e2 _ h2 => rw [h] at h2; simp at h2; rw [h2.2]

theorem consumed_le (hS : C.Safe) {o : OutSpec} {b : UInt8} {bs : List UInt8} {s s' : SD C} {n : Nat} {ev : Decoded} (hw : WF s)
    (h : nextState s (b :: bs) o = (s', .ok (n, ev))) : n ≤ (b :: bs).length :=
  (tr_wf hS hw (tr_of_nextState hw.ibuf h)).2.2

theorem quiet_join {ev1 ev ev' : Decoded} {x z : List UInt8} (hj : Join ev1 ev ev') (hq1 : Quiet ev1 x) (hq : Quiet ev' z) :
    ∃ y, Quiet ev y ∧ z = x ++ y := by
  cases hj with
  | nothing ev => cases hq1; exact ⟨z, hq, rfl⟩
  | copied a b => cases hq1; cases hq; exact ⟨_, .copied _, rfl⟩

theorem join_event {ev1 ev ev' : Decoded} {x : List UInt8} (hj : Join ev1 ev ev') (hq1 : Quiet ev1 x)
    (hq : ∀ z, ¬ Quiet ev' z) : ev1 = .nothing ∧ ev' = ev := by
  cases hj with
  | nothing ev => exact ⟨rfl, rfl⟩
  | copied a b => exact absurd (.copied _) (hq _)

/-- One call of `next_state` on a slice of any size, as part of a run. -/
theorem eval_step (hS : C.Safe) (m : Bool) : ∀ (k : Nat) (s : SD C) (acc : List UInt8) (b : UInt8) (bs : List UInt8),
    bs.length ≤ k → WF s → ∀ (rest : List UInt8),
    (∀ s' n ev x r, nextState s (b :: bs) (spec m acc) = (s', .ok (n, ev)) → Quiet ev x →
      Eval m s' (acc ++ x) ((b :: bs).drop n ++ rest) r → Eval m s acc (b :: bs ++ rest) r) ∧
    (∀ s' n ev, nextState s (b :: bs) (spec m acc) = (s', .ok (n, ev)) → (∀ x, ¬ Quiet ev x) →
      Eval m s acc (b :: bs ++ rest) (.event s' acc ev ((b :: bs).drop n ++ rest))) ∧
    (∀ s' e, nextState s (b :: bs) (spec m acc) = (s', .err e) → Eval m s acc (b :: bs ++ rest) (.err e)) := by
  intro k
  induction k with
  | zero =>
    intro s acc b bs hk hw rest
    have : bs = [] := List.eq_nil_of_length_eq_zero (by omega)
    subst this
    refine ⟨?_, ?_, ?_⟩
    · intro s' n ev x r h hq ht
      have hn := consumed_le hS hw h
      refine .quiet h hq ?_
      rwa [← List.drop_append_of_le_length hn] at ht
    · intro s' n ev h hq
      have hn := consumed_le hS hw h
      rw [← List.drop_append_of_le_length hn]
      exact .event _ h hq
    · intro s' e h; exact .err _ h
  | succ k ih =>
    intro s acc b bs hk hw rest
    match bs with
    | [] =>
      exact ih s acc b [] (by simp) hw rest
    | b' :: bs =>
      rcases split hS hw m acc b b' bs with hA | ⟨s1, ev1, x1, h1, hq1, h2⟩
      · rw [hA]
        have h0 := ih s acc b [] (by simp) hw (b' :: bs ++ rest)
        refine ⟨?_, ?_, ?_⟩
        · intro s' n ev x r h hq ht
          have hn := consumed_le hS hw h
          refine h0.1 s' n ev x r h hq ?_
          rwa [← List.drop_append_of_le_length (by simp at hn ⊢; omega)] at ht ⊢
        · intro s' n ev h hq
          have hn := consumed_le hS hw h
          have := h0.2.1 s' n ev h hq
          rwa [← List.drop_append_of_le_length (by simp at hn ⊢; omega)] at this ⊢
        · exact h0.2.2
      · have hw1 := (tr_wf hS hw (tr_of_nextState hw.ibuf h1)).1
        have h0 := ih s1 (acc ++ x1) b' bs (by simp at hk; omega) hw1 rest
        have lift : ∀ r, Eval m s1 (acc ++ x1) (b' :: bs ++ rest) r → Eval m s acc (b :: b' :: bs ++ rest) r :=
          fun r ht => .quiet h1 hq1 ht
        refine ⟨?_, ?_, ?_⟩
        · intro s' n ev x r h hq ht
          rcases h2 with ⟨s2, n2, ev2, ev3, h3, hj, h4⟩ | ⟨e, h3, h4⟩
          · rw [h4] at h
            simp only [Prod.mk.injEq, Outcome.ok.injEq] at h
            obtain ⟨rfl, rfl, rfl⟩ := h
            obtain ⟨y, hy, rfl⟩ := quiet_join hj hq1 hq
            refine lift r (h0.1 _ _ _ y r h3 hy ?_)
            rw [List.append_assoc]
            exact ht
          · rw [h] at h4; simp at h4
        · intro s' n ev h hq
          rcases h2 with ⟨s2, n2, ev2, ev3, h3, hj, h4⟩ | ⟨e, h3, h4⟩
          · rw [h4] at h
            simp only [Prod.mk.injEq, Outcome.ok.injEq] at h
            obtain ⟨rfl, rfl, rfl⟩ := h
            obtain ⟨rfl, rfl⟩ := join_event hj hq1 hq
            cases hq1
            have := h0.2.1 _ _ _ h3 hq
            rw [List.append_nil] at this
            refine lift _ ?_
            rw [List.append_nil]
            exact this
          · rw [h] at h4; simp at h4
        · intro s' e h
          rcases h2 with ⟨s2, n2, ev2, ev3, h3, hj, h4⟩ | ⟨e', h3, h4⟩
          · rw [h4] at h; simp at h
          · rw [h] at h4
            simp only [Outcome.err.injEq] at h4
            subst h4
            rcases hx : nextState s1 (b' :: bs) (spec m (acc ++ x1)) with ⟨s3, r3⟩
            rw [hx] at h3
            simp only at h3
            subst h3
            exact lift _ (h0.2.2 _ _ hx)

/-- Silent steps are part of a run. -/
theorem eval_steps (hS : C.Safe) {m : Bool} {s s' : SD C} {acc l l' : List UInt8} (h : Steps (spec m acc) s l s' l') (hw : WF s)
    (hl : Look s l) (rest : List UInt8) {r : Res C} (ht : Eval m s' acc (l' ++ rest) r) : Eval m s acc (l ++ rest) r := by
  induction h with
  | refl => exact ht
  | @step s s1 s' b bs l' n h hs ih =>
    obtain ⟨w1, w2, w3⟩ := tr_wf hS hw (tr_of_nextState hw.ibuf h)
    refine (eval_step hS m _ s acc b bs (Nat.le_refl _) hw rest).1 _ _ _ [] r h .nothing ?_
    rw [List.append_nil]
    exact ih w1 w2 ht

end SD

namespace Reader

theorem clean_fill {r r' : Reader} {x : Except Nat (List UInt8)} (h : r.fillBuf = (r', x)) (hc : r.Clean) : r'.Clean := by
  unfold fillBuf at h
  split at h
  · cases h; exact hc
  · split at h
    · cases h; exact hc
    · rename_i hs; cases h; exact fun b hb => hc b (by rw [hs]; exact List.mem_cons_of_mem _ hb)
    · rename_i hs; cases h; exact fun b hb => hc b (by rw [hs]; exact List.mem_cons_of_mem _ hb)

theorem clean_fill' {r r' : Reader} {x : Except Nat (List UInt8)} (h : r.fillBuf = (r', x)) (hc : r.Clean)
    (buf : List UInt8) : ({ r' with buf := buf } : Reader).Clean := by
  have := clean_fill h hc
  exact this

theorem clean_eof {r r' : Reader} (h : r.fillBuf = (r', .ok [])) (hc : r.Clean) : r'.bytes = [] ∧ r.bytes = [] := by
  have hb := bytes_fillBuf_ok h
  unfold fillBuf at h
  split at h
  · rename_i hx; simp only [Prod.mk.injEq, Except.ok.injEq] at h; rw [h.2] at hx; cases hx
  · rename_i hx
    split at h
    · rename_i hs; cases h; simp [bytes, hx, hs]
    · rename_i hs
      simp only [Prod.mk.injEq, Except.ok.injEq] at h
      exact absurd h.2 (hc _ (by rw [hs]; exact List.mem_cons_self))
    · cases h

end Reader

namespace RD

variable {C : Codec}

theorem pull_clean {o : OutSpec} {d d' : RD C} {out : Outcome (Option Decoded)} (h : Pull o d d' out)
    (hc : d.reader.Clean) : d'.reader.Clean := by
  induction h with
  | eof => exact hc
  | readErr h hf => exact Reader.clean_fill hf hc
  | eos h hf => exact Reader.clean_fill hf hc
  | more h hf hs hp ih => exact ih (Reader.clean_fill' hf hc _)
  | event h hf => exact Reader.clean_fill' hf hc _
  | trailer h hf => exact Reader.clean_fill' hf hc _
  | err h hf => exact Reader.clean_fill hf hc

theorem bytes_eq {d : RD C} {r : Reader} {l : List UInt8} (hf : d.reader.fillBuf = (r, .ok l)) :
    ∃ rest, d.reader.bytes = l ++ rest ∧ ∀ l', ({ r with buf := l' } : Reader).bytes = l' ++ rest := by
  obtain ⟨g1, g2, -⟩ := Reader.bytes_fillBuf_ok hf
  refine ⟨({ r with buf := [] } : Reader).bytes, ?_, fun l' => by simp [Reader.bytes]⟩
  rw [← g2, Reader.bytes, Reader.bytes, g1, List.nil_append]

/-- What one call of `decode_next` has to do with the run over the remaining bytes. -/
def PullRes (m : Bool) (acc : List UInt8) (d d' : RD C) (out : Outcome (Option Decoded)) : Prop :=
  match out with
  | .ok (some ev) => d'.atEof = false ∧
      ((∃ x, SD.Quiet ev x ∧ ∀ r, SD.Eval m d'.sd (acc ++ x) d'.reader.bytes r → SD.Eval m d.sd acc d.reader.bytes r) ∨
      (∀ x, ¬ SD.Quiet ev x) ∧ ev ≠ .blockStart .trailer ∧
        SD.Eval m d.sd acc d.reader.bytes (.event d'.sd acc ev d'.reader.bytes))
  | .ok none => d'.atEof = true ∧
      SD.Eval m d.sd acc d.reader.bytes (.event d'.sd acc (.blockStart .trailer) d'.reader.bytes)
  | .err e => d'.atEof = false ∧
      ((∃ c, e = .io (.reader c) ∧ ∀ r, SD.Eval m d'.sd acc d'.reader.bytes r → SD.Eval m d.sd acc d.reader.bytes r) ∨
      (e = .io .unexpectedEof ∧ d'.reader.bytes = [] ∧ SD.Eval m d.sd acc d.reader.bytes (.more d'.sd acc)) ∨
      SD.Eval m d.sd acc d.reader.bytes (.err e))
  | _ => False

theorem pull_eval (hS : C.Safe) {m : Bool} {acc : List UInt8} {o : OutSpec} (ho : o = SD.spec m acc) {d d' : RD C}
    {out : Outcome (Option Decoded)} (h : Pull o d d' out)
    (hi : Inv d) (hc : d.reader.Clean) (hn : d.atEof = false) : PullRes m acc d d' out := by
  subst ho
  induction h with
  | eof h => rw [hn] at h; cases h
  | @readErr d r e h hf =>
    refine ⟨h, .inl ⟨e, rfl, ?_⟩⟩
    rw [(Reader.bytes_fillBuf_err hf).1]
    exact fun _ h => h
  | @eos d r h hf =>
    obtain ⟨h1, h2⟩ := Reader.clean_eof hf hc
    refine ⟨h, .inr (.inl ⟨rfl, h1, ?_⟩)⟩
    rw [h2]
    exact .nil _ _
  | @more d d' r b bs s1 out h hf hs hp ih =>
    have hlk := look_fill hi h hf
    obtain ⟨w1, w2, w3, w4⟩ := SD.steps_wf hS hs hi.wf hlk
    obtain ⟨rest, hr1, hr2⟩ := bytes_eq hf
    have key : ∀ res, SD.Eval m s1 acc ({ r with buf := [] } : Reader).bytes res → SD.Eval m d.sd acc d.reader.bytes res := by
      intro res hres
      rw [hr1]
      rw [hr2] at hres
      exact SD.eval_steps hS hs hi.wf hlk rest hres
    have := ih ⟨w1, fun _ => w2, fun _ => w4 (hi.live h)⟩ (Reader.clean_fill' hf hc _) h
    cases out with
    | ok ev =>
      cases ev with
      | none => exact ⟨this.1, key _ this.2⟩
      | some ev =>
        obtain ⟨k1, k2⟩ := this
        refine ⟨k1, ?_⟩
        rcases k2 with ⟨x, q1, q2⟩ | ⟨q1, q2, q3⟩
        · exact .inl ⟨x, q1, fun r hr => key r (q2 r hr)⟩
        · exact .inr ⟨q1, q2, key _ q3⟩
    | err e =>
      obtain ⟨k1, k2⟩ := this
      refine ⟨k1, ?_⟩
      rcases k2 with ⟨c, q1, q2⟩ | ⟨q1, q2, q3⟩ | q
      · exact .inl ⟨c, q1, fun r hr => key r (q2 r hr)⟩
      · exact .inr (.inl ⟨q1, q2, key _ q3⟩)
      · exact .inr (.inr (key _ q))
    | panic => exact this
    | diverge => exact this
  | @event d r b b1 bs bs1 s1 s' n ev h hf hs hst hev hev' =>
    have hlk := look_fill hi h hf
    obtain ⟨w1, w2, w3, w4⟩ := SD.steps_wf hS hs hi.wf hlk
    obtain ⟨rest, hr1, hr2⟩ := bytes_eq hf
    refine ⟨h, ?_⟩
    have hstep := SD.eval_step hS m _ s1 acc b1 bs1 (Nat.le_refl _) w1 rest
    rw [hr1]
    simp only [hr2]
    by_cases hq : ∃ x, SD.Quiet ev x
    · obtain ⟨x, hx⟩ := hq
      exact .inl ⟨x, hx, fun res hres => SD.eval_steps hS hs hi.wf hlk rest (hstep.1 _ _ _ x res hst hx hres)⟩
    · have hq' : ∀ x, ¬ SD.Quiet ev x := fun x hx => hq ⟨x, hx⟩
      exact .inr ⟨hq', hev', SD.eval_steps hS hs hi.wf hlk rest (hstep.2.1 _ _ _ hst hq')⟩
  | @trailer d r b b1 bs bs1 s1 s' n h hf hs hst =>
    have hlk := look_fill hi h hf
    obtain ⟨w1, w2, w3, w4⟩ := SD.steps_wf hS hs hi.wf hlk
    obtain ⟨rest, hr1, hr2⟩ := bytes_eq hf
    have hstep := SD.eval_step hS m _ s1 acc b1 bs1 (Nat.le_refl _) w1 rest
    refine ⟨rfl, ?_⟩
    rw [hr1]
    simp only [hr2]
    exact SD.eval_steps hS hs hi.wf hlk rest (hstep.2.1 _ _ _ hst (fun x hx => by cases hx))
  | @err d r b b1 bs bs1 s1 s' e h hf hs hst =>
    have hlk := look_fill hi h hf
    obtain ⟨w1, w2, w3, w4⟩ := SD.steps_wf hS hs hi.wf hlk
    obtain ⟨rest, hr1, hr2⟩ := bytes_eq hf
    have hstep := SD.eval_step hS m _ s1 acc b1 bs1 (Nat.le_refl _) w1 rest
    refine ⟨h, .inr (.inr ?_)⟩
    rw [hr1]
    exact SD.eval_steps hS hs hi.wf hlk rest (hstep.2.2 _ _ hst)

end RD

end Gif
