import Verif.Lemmas.Sim
import Verif.Lemmas.Trace
import Verif.Lemmas.FrameDec
import Verif.Spec.Drawing
/-!
The calls of `update`, with output buffers of any kind, as steps of the state machine over the bytes that are still to be consumed.
-/

namespace Gif.SD

variable {C : Codec}

/-- One step. -/
def Micro (o : OutSpec) (s : SD C) (l : List UInt8) (s' : SD C) (l' : List UInt8) (ev : Decoded) : Prop :=
  ∃ b bs rest n, l = b :: bs ++ rest ∧ nextState s (b :: bs) o = (s', .ok (n, ev)) ∧ l' = (b :: bs).drop n ++ rest ∧ WF s

/-- Silent steps. -/
inductive Glide (o : OutSpec) : SD C → List UInt8 → SD C → List UInt8 → Prop
  | refl (s : SD C) (l : List UInt8) : Glide o s l s l
  | step {s s1 s' : SD C} {l l1 l' : List UInt8} (h : Micro o s l s1 l1 .nothing) (ht : Glide o s1 l1 s' l') : Glide o s l s' l'

theorem steps_glide (hS : C.Safe) {o : OutSpec} {s s' : SD C} {l l' : List UInt8} (h : Steps o s l s' l') (hw : WF s) (rest : List UInt8) :
    Glide o s (l ++ rest) s' (l' ++ rest) := by
  induction h with
  | refl => exact .refl _ _
  | @step s s1 s' b bs l' n h ht ih =>
    exact .step ⟨b, bs, rest, n, rfl, h, rfl, hw⟩ (ih (tr_wf hS hw (tr_of_nextState hw.ibuf h)).1)

theorem look_part {s : SD C} {slice rest : List UInt8} (hl : Look s (slice ++ rest)) (hne : slice ≠ []) : Look s slice := by
  intro hp
  obtain ⟨t, ht'⟩ := hl hp
  cases slice with
  | nil => exact absurd rfl hne
  | cons b bs => rw [List.cons_append, List.cons.injEq] at ht'; exact ⟨bs, by rw [ht'.1]⟩

/-- After the trailer, calls do not return. -/
theorem trailer_diverges {s : SD C} {slice : List UInt8} (o : OutSpec) (hne : slice ≠ []) (ht : s.state = .trailer) :
    (s.update slice o).2 = .diverge := by
  have key : ∀ (len fuel : Nat) (s : SD C), s.state = .trailer → slice ≠ [] → (updateLoop len o fuel s slice).2 = .diverge := by
    intro len fuel
    induction fuel with
    | zero => intro s _ _; cases slice with
      | nil => exact absurd rfl hne
      | cons => rfl
    | succ fuel ih =>
      intro s hs _
      cases slice with
      | nil => exact absurd rfl hne
      | cons b bs =>
        rw [updateLoop]
        have : nextState s (b :: bs) o = (s, .ok (0, .nothing)) := by
          rcases s with ⟨⟩
          simp only at hs
          subst hs
          rfl
        rw [this]
        exact ih s hs hne
  exact key slice.length (2 * slice.length + 2) s ht hne

theorem trailer_stuck {s s1 : SD C} {slice : List UInt8} {o : OutSpec} {n : Nat} {ev : Decoded} (hne : slice ≠ [])
    (h : s.update slice o = (s1, .ok (n, ev))) : s.state ≠ .trailer := by
  intro ht
  have := trailer_diverges o hne ht
  rw [h] at this
  cases this

/-- One call: silent steps, and a step with the event if there is one. -/
theorem call_micro (hS : C.Safe) {s s1 : SD C} {slice rest : List UInt8} {o : OutSpec} {r : Outcome (Nat × Decoded)} (hw : WF s)
    (hl : Look s (slice ++ rest)) (hne : slice ≠ []) (ht : s.state ≠ .trailer) (h : s.update slice o = (s1, r)) :
    ∃ s0 l0, Glide o s (slice ++ rest) s0 l0 ∧ WF s0 ∧
      ((∃ n ev, r = .ok (n, ev) ∧ WF s1 ∧ Look s1 ((slice ++ rest).drop n) ∧
          (ev = .nothing ∧ s1 = s0 ∧ l0 = (slice ++ rest).drop n ∨ ev ≠ .nothing ∧ Micro o s0 l0 s1 ((slice ++ rest).drop n) ev)) ∨
        ∃ b bs x e, l0 = b :: bs ++ x ∧ nextState s0 (b :: bs) o = (s1, .err e) ∧ r = .err e) := by
  have hlk := look_part hl hne
  obtain ⟨s0, l0, hs, he⟩ := update_cases hS o s slice hw hlk ht
  obtain ⟨w1, w2, w3, w4⟩ := steps_wf hS hs hw hlk
  refine ⟨s0, l0 ++ rest, steps_glide hS hs hw rest, w1, ?_⟩
  rw [h] at he
  simp only at he
  cases he with
  | all =>
    refine .inl ⟨_, _, rfl, w1, ?_, .inl ⟨rfl, rfl, ?_⟩⟩
    · rw [List.drop_left' rfl]
      intro hp
      obtain ⟨t, ht'⟩ := w2 hp
      cases ht'
    · rw [List.drop_left' rfl]; rfl
  | @event b bs _ n' ev' hstep hev =>
    have hx := tr_of_nextState w1.ibuf hstep
    obtain ⟨a1, a2, a3⟩ := tr_wf hS w1 hx
    have hd : (slice ++ rest).drop (slice.length - ((b :: bs).drop n').length) = (b :: bs).drop n' ++ rest := by
      obtain ⟨p, hp⟩ := w3
      have : slice.length - ((b :: bs).drop n').length = (p ++ (b :: bs).take n').length := by
        rw [← hp]
        simp only [List.length_append, List.length_drop, List.length_take]
        omega
      have h2 : slice ++ rest = (p ++ (b :: bs).take n') ++ ((b :: bs).drop n' ++ rest) := by
        rw [List.append_assoc, ← List.append_assoc (List.take _ _), List.take_append_drop, ← List.append_assoc, hp]
      rw [this, h2, List.drop_left' rfl]
    refine .inl ⟨_, _, rfl, a1, ?_, .inr ⟨hev, b, bs, rest, n', rfl, hstep, hd, w1⟩⟩
    rw [hd]
    intro hp
    obtain ⟨t, ht'⟩ := a2 hp
    exact ⟨t ++ rest, by rw [ht']; rfl⟩
  | @err b bs _ e hstep => exact .inr ⟨b, bs, rest, e, rfl, hstep, rfl⟩

theorem glide_keep {P : SD C → List UInt8 → Prop}
    (hP : ∀ {o : OutSpec} {s s' : SD C} {l l' : List UInt8} {ev : Decoded}, P s l → Micro o s l s' l' ev → P s' l')
    {o : OutSpec} {s s' : SD C} {l l' : List UInt8} (h : Glide o s l s' l') (h0 : P s l) : P s' l' := by
  induction h with
  | refl => exact h0
  | step h _ ih => exact ih (hP h0 h)

/-- What every step keeps of a decoder and the bytes that are still to be consumed, is kept. -/
theorem drawing_keep (hS : C.Safe) {P : SD C → List UInt8 → Prop}
    (hP : ∀ {o : OutSpec} {s s' : SD C} {l l' : List UInt8} {ev : Decoded}, P s l → Micro o s l s' l' ev → P s' l')
    {s s' : SD C} {l l' : List UInt8} {cs : List UpdateCall} (h : Drawing s l cs s' l') (hw : WF s) (hl : Look s l) (h0 : P s l) :
    P s' l' ∧ WF s' ∧ Look s' l' := by
  induction h with
  | nil => exact ⟨h0, hw, hl⟩
  | @cons s s1 s' slice rest l' out cs n ev hne h _ ih =>
    obtain ⟨s0, l0, g, w0, h1⟩ := call_micro hS hw hl hne (trailer_stuck hne h) h
    rcases h1 with ⟨n', ev', he, w1, w2, h2⟩ | ⟨_, _, _, _, _, _, he⟩
    · cases he
      refine ih w1 w2 ?_
      rcases h2 with ⟨_, rfl, rfl⟩ | ⟨_, h2⟩
      · exact glide_keep hP g h0
      · exact hP (glide_keep hP g h0) h2
    · cases he

theorem drawing_append {s s' : SD C} {l l' : List UInt8} {cs ds : List UpdateCall} (h : Drawing s l (cs ++ ds) s' l') :
    ∃ s1 l1, Drawing s l cs s1 l1 ∧ Drawing s1 l1 ds s' l' := by
  induction cs generalizing s l with
  | nil => exact ⟨s, l, .nil _ _, h⟩
  | cons c cs ih =>
    cases h with
    | cons hne h ht =>
      obtain ⟨s1, l1, h1, h2⟩ := ih ht
      exact ⟨s1, l1, .cons hne h h1, h2⟩

theorem decodeBytes_fit (K : C.Contract) {r r' : LzwReader C} {inp : List UInt8} {o : OutSpec} {x : Outcome (Nat × List UInt8)}
    (h : r.decodeBytes inp o = (r', x)) (hf : K.Fit r) : K.Fit r' := by
  have key : ∀ (st : C.σ) cap, r.decoder = some st → K.Fit { r with decoder := some (C.decodeBytes st inp cap).st } := by
    intro st cap hd st' h'
    simp only [Option.some.injEq] at h'
    rw [← h', K.size_step]
    exact hf st hd
  cases hd : r.decoder with
  | none =>
    unfold LzwReader.decodeBytes at h
    rw [hd] at h
    cases h
    exact hf
  | some st =>
    cases o with
    | slice cap =>
      rw [LzwReader.decodeBytes_slice hd] at h
      cases h
      exact key st cap hd
    | none =>
      rw [LzwReader.decodeBytes_none hd, LzwReader.decodeBytes_slice hd] at h
      cases h
      exact key st 0 hd
    | vec n =>
      unfold LzwReader.decodeBytes at h
      rw [hd] at h
      cases h
      exact hf

theorem tr_fit (K : C.Contract) {o : OutSpec} {b : UInt8} {bs : List UInt8} {s s' : SD C} {n : Nat} {ev : Decoded}
    (h : Tr o b bs s s' n ev) (hf : K.Fit s.lzw) : K.Fit s'.lzw := by
  cases h with
  | lzwPixels m lzw _ _ hr =>
    have := (FrameDecoder.reset_keeps K hf m).1
    rw [hr] at this
    exact this
  | decode _ _ _ lzw _ _ _ _ _ hd => exact decodeBytes_fit K hd hf
  | decodeFlush _ _ _ _ _ _ hd => exact decodeBytes_fit K hd hf
  | decodeEnd _ _ _ _ _ hd => exact decodeBytes_fit K hd hf
  | screen | imageHeader | gctData | lctData => (repeat' split) <;> exact hf
  | image => unfold addFrame; simp only; split <;> exact hf
  | _ => exact hf

/-- The code size is the byte before the first length byte. -/
def Sized (bytes : List UInt8) (s : SD C) (l : List UInt8) : Prop :=
  ∃ pre, bytes = pre ++ l ∧ ∀ m, s.state = .lzwInit m → pre.getLast? = some m

theorem tr_lzwInit {o : OutSpec} {b : UInt8} {bs : List UInt8} {s s' : SD C} {n : Nat} {ev : Decoded}
    (h : Tr o b bs s s' n ev) {m : UInt8} (hm : s'.state = .lzwInit m) : n = 1 ∧ m = b := by
  cases h with
  | lctEnd => cases hm; exact ⟨rfl, rfl⟩
  | collect h0 => simp only at hm; rw [hm] at h0; exact absurd rfl h0
  | screen | imageHeader | gctData | lctData => exfalso; (repeat' split at hm) <;> cases hm
  | trailerLoop hs => rw [hs] at hm; cases hm
  | _ => cases hm

theorem micro_sized {bytes : List UInt8} {o : OutSpec} {s s' : SD C} {l l' : List UInt8} {ev : Decoded}
    (h : Sized bytes s l) (hm : Micro o s l s' l' ev) : Sized bytes s' l' := by
  obtain ⟨pre, rfl, _⟩ := h
  obtain ⟨b, bs, rest, n, rfl, hst, rfl, hw⟩ := hm
  have htr := tr_of_nextState hw.ibuf hst
  refine ⟨pre ++ (b :: bs).take n, ?_, ?_⟩
  · rw [List.append_assoc, ← List.append_assoc (List.take _ _), List.take_append_drop]
  · intro m hm
    obtain ⟨rfl, rfl⟩ := tr_lzwInit htr hm
    simp

end Gif.SD
