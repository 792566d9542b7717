import Verif.Lemmas.Refuse
import Verif.Lemmas.Strict
import Verif.Props.Safety
import Verif.Spec.Refuse
/-!
# C76: a decoder whose allocator refuses
-/

namespace Gif

variable {C : Codec}

namespace Decoder

/-- One call of a session: as usual, or `OutOfMemory`. -/
theorem actOn_res (hS : C.Safe) (d : Decoder C) (as : Answers) (hi : d.Inv) (live : Bool) (a : Act) :
    (∀ d' live', (d.act live a).2 = some (d', live') → d'.Inv) ∧
    ((∃ as', as' <:+ as ∧ d.actOn as live a = ((d.act live a).1, (d.act live a).2.map fun x => ((x.1, as'), x.2))) ∨
      (false ∈ as ∧ d.actOn as live a = ([.seen (.failed (.io .outOfMemory))], none) ∧ (d.act live a).1 ≠ [])) := by
  cases a with
  | info =>
    simp only [act, actOn]
    have h1 := (inv_nextFrameInfo hS d hi).1
    rcases (nextFrameInfoOn_res hS d as hi.rd).cases with ⟨as', hs, h2⟩ | ⟨d', as', hs, h0, hk, h2⟩
    · rw [h2]
      generalize d.nextFrameInfo = x at *
      obtain ⟨d1, out⟩ := x
      cases out with
      | ok b => exact ⟨(fun d' live' h => by cases h; exact h1), .inl ⟨as', hs, rfl⟩⟩
      | err e => exact ⟨(fun d' live' h => by cases h), .inl ⟨as', hs, rfl⟩⟩
      | panic => exact ⟨(fun d' live' h => by cases h), .inl ⟨as', hs, rfl⟩⟩
      | diverge => exact ⟨(fun d' live' h => by cases h), .inl ⟨as', hs, rfl⟩⟩
    · rw [h2]
      generalize d.nextFrameInfo = x at *
      obtain ⟨d1, out⟩ := x
      refine ⟨(fun d' live' h => ?_), .inr ⟨h0, rfl, ?_⟩⟩
      · cases out <;> cases h; exact h1
      · cases out <;> simp
  | read =>
    simp only [act, actOn]
    have h1 := (readNextFrame_spec hS d hi).1
    rcases (readNextFrameRoom_res hS d as hi).cases with ⟨as', hs, h2⟩ | ⟨d', as', hs, h0, hk, h2⟩
    · rw [h2]
      generalize d.readNextFrame = x at *
      obtain ⟨d1, out⟩ := x
      cases out with
      | ok b => exact ⟨(fun d' live' h => by cases h; exact h1), .inl ⟨as', hs, rfl⟩⟩
      | err e => exact ⟨(fun d' live' h => by cases h), .inl ⟨as', hs, rfl⟩⟩
      | panic => exact ⟨(fun d' live' h => by cases h), .inl ⟨as', hs, rfl⟩⟩
      | diverge => exact ⟨(fun d' live' h => by cases h), .inl ⟨as', hs, rfl⟩⟩
    · rw [h2]
      generalize d.readNextFrame = x at *
      obtain ⟨d1, out⟩ := x
      refine ⟨(fun d' live' h => ?_), .inr ⟨h0, rfl, ?_⟩⟩
      · cases out <;> cases h; exact h1
      · cases out <;> simp
  | fill n =>
    simp only [act, actOn]
    cases live with
    | false => exact ⟨(fun d' live' h => by cases h; exact hi), .inl ⟨as, List.suffix_refl _, rfl⟩⟩
    | true =>
      simp only [if_true]
      generalize List.replicate ((n + 1) * Spec.channels d.conv.colorOutput) (0 : UInt8) = buf
      have h1 := (inv_fillBuffer hS d buf hi).1
      rcases (fillBufferOn_res hS d as buf hi).cases with ⟨as', hs, h2⟩ | ⟨d', as', x, hs, h0, hk, h2⟩
      · rw [h2]
        generalize d.fillBuffer buf = x at *
        obtain ⟨d1, b1, out⟩ := x
        cases out with
        | ok b => exact ⟨(fun d' live' h => by cases h; exact h1), .inl ⟨as', hs, rfl⟩⟩
        | err e => exact ⟨(fun d' live' h => by cases h), .inl ⟨as', hs, rfl⟩⟩
        | panic => exact ⟨(fun d' live' h => by cases h), .inl ⟨as', hs, rfl⟩⟩
        | diverge => exact ⟨(fun d' live' h => by cases h), .inl ⟨as', hs, rfl⟩⟩
      · rw [h2]
        generalize d.fillBuffer buf = x at *
        obtain ⟨d1, b1, out⟩ := x
        refine ⟨(fun d' live' h => ?_), .inr ⟨h0, rfl, ?_⟩⟩
        · cases out <;> cases h; exact h1
        · cases out <;> simp
  | into =>
    simp only [act, actOn]
    cases live with
    | false => exact ⟨(fun d' live' h => by cases h; exact hi), .inl ⟨as, List.suffix_refl _, rfl⟩⟩
    | true =>
      simp only [if_true]
      generalize List.replicate d.bufferSize (0 : UInt8) = buf
      have h1 := (inv_readIntoBuffer hS d buf hi).1
      rcases (readIntoBufferOn_res hS d as buf hi).cases with ⟨as', hs, h2⟩ | ⟨d', as', x, hs, h0, hk, h2⟩
      · rw [h2]
        generalize d.readIntoBuffer buf = x at *
        obtain ⟨d1, b1, out⟩ := x
        cases out with
        | ok b => exact ⟨(fun d' live' h => by cases h; exact h1), .inl ⟨as', hs, rfl⟩⟩
        | err e => exact ⟨(fun d' live' h => by cases h), .inl ⟨as', hs, rfl⟩⟩
        | panic => exact ⟨(fun d' live' h => by cases h), .inl ⟨as', hs, rfl⟩⟩
        | diverge => exact ⟨(fun d' live' h => by cases h), .inl ⟨as', hs, rfl⟩⟩
      · rw [h2]
        generalize d.readIntoBuffer buf = x at *
        obtain ⟨d1, b1, out⟩ := x
        refine ⟨(fun d' live' h => ?_), .inr ⟨h0, rfl, ?_⟩⟩
        · cases out <;> cases h; exact h1
        · cases out <;> simp

theorem filmOn_res (hS : C.Safe) : ∀ (acts : List Act) (d : Decoder C) (as : Answers) (live : Bool), d.Inv →
    Spec.Within (fun e => false ∈ as ∧ e = .io .outOfMemory) (filmOn acts d as live) (film acts d live) := by
  intro acts
  induction acts with
  | nil => intro d as live hi; exact .inl rfl
  | cons a acts ih =>
    intro d as live hi
    obtain ⟨h1, h2⟩ := actOn_res hS d as hi live a
    simp only [film, filmOn]
    rcases h2 with ⟨as', hs, h2⟩ | ⟨h0, h2, h3⟩
    · rw [h2]
      generalize d.act live a = x at *
      obtain ⟨got, next⟩ := x
      cases next with
      | none => exact .inl rfl
      | some y =>
        refine within_append ?_
        rcases ih y.1 as' y.2 (h1 _ _ rfl) with h | ⟨k, e, ⟨he, he'⟩, hk, h⟩
        · exact .inl h
        · exact .inr ⟨k, e, ⟨hs.subset he, he'⟩, hk, h⟩
    · rw [h2]
      refine .inr ⟨0, _, ⟨h0, rfl⟩, ?_, rfl⟩
      generalize d.act live a = y at *
      obtain ⟨got, next⟩ := y
      have := List.length_pos_iff.mpr h3
      cases next with
      | none => exact this
      | some z => simp only [List.length_append]; simp only at this; omega

/-- **C76**: refused reservations change nothing but that the session ends early, with the error `OutOfMemory`. -/
theorem refusals_only_reject (hS : C.Safe) (o : DecodeOptions) (r : Reader) (as : Answers) (acts : List Act) :
    filmFromOn C o r as acts = filmFrom C o r acts ∨
    (false ∈ as ∧ ∃ k, k < (filmFrom C o r acts).length ∧
      filmFromOn C o r as acts = (filmFrom C o r acts).take k ++ [.seen (.failed (.io .outOfMemory))]) := by
  unfold filmFromOn filmFrom
  have hi := (inv_readInfo hS o r).1
  rcases (readInfoOn_res hS o r as).cases with ⟨as', hs, h2⟩ | ⟨d', as', hs, h0, hk, h2⟩
  · rw [h2]
    generalize readInfo C o r = x at *
    obtain ⟨d, out⟩ := x
    cases out with
    | ok u =>
      rcases (filmOn_res hS acts d as' false hi).cons (.seen (.opened d.view)) with h | ⟨k, e, ⟨he, rfl⟩, hk, h⟩
      · exact .inl h
      · exact .inr ⟨hs.subset he, k, hk, h⟩
    | err e => exact .inl rfl
    | panic => exact .inl rfl
    | diverge => exact .inl rfl
  · rw [h2]
    refine .inr ⟨h0, 0, ?_, rfl⟩
    generalize readInfo C o r = y
    obtain ⟨d', out⟩ := y
    cases out <;> simp

theorem performOn_res (hS : C.Safe) (d : Decoder C) (as : Answers) (hi : d.Inv) (op : Op) :
    (d.performOn as op).1.Inv ∧
      (d.performOn as op = d.perform op ∨ (false ∈ as ∧ (d.performOn as op).2 = .ioErr .outOfMemory)) := by
  have hp := (perform_inv hS d hi op).1
  cases op with
  | nextFrameInfo =>
    simp only [perform, performOn] at *
    rcases (nextFrameInfoOn_res hS d as hi.rd).cases with ⟨as', hs, h2⟩ | ⟨d', as', hs, h0, hk, h2⟩
    · rw [h2]
      generalize d.nextFrameInfo = x at *
      obtain ⟨d1, out⟩ := x
      cases out <;> exact ⟨hp, .inl rfl⟩
    · rw [h2]; exact ⟨hk.inv hi, .inr ⟨h0, rfl⟩⟩
  | readNextFrame =>
    simp only [perform, performOn] at *
    rcases (readNextFrameRoom_res hS d as hi).cases with ⟨as', hs, h2⟩ | ⟨d', as', hs, h0, hk, h2⟩
    · rw [h2]
      generalize d.readNextFrame = x at *
      obtain ⟨d1, out⟩ := x
      cases out <;> exact ⟨hp, .inl rfl⟩
    · rw [h2]; exact ⟨hk.inv hi, .inr ⟨h0, rfl⟩⟩
  | readIntoBuffer buf =>
    simp only [perform, performOn] at *
    rcases (readIntoBufferOn_res hS d as buf hi).cases with ⟨as', hs, h2⟩ | ⟨d', as', x, hs, h0, hk, h2⟩
    · rw [h2]; exact ⟨hp, .inl rfl⟩
    · rw [h2]; exact ⟨hk.inv hi, .inr ⟨h0, rfl⟩⟩
  | fillBuffer buf =>
    simp only [perform, performOn] at *
    rcases (fillBufferOn_res hS d as buf hi).cases with ⟨as', hs, h2⟩ | ⟨d', as', x, hs, h0, hk, h2⟩
    · rw [h2]
      generalize d.fillBuffer buf = x at *
      obtain ⟨d1, b, out⟩ := x
      cases out <;> exact ⟨hp, .inl rfl⟩
    · rw [h2]; exact ⟨hk.inv hi, .inr ⟨h0, rfl⟩⟩

theorem reachOn_inv (hS : C.Safe) {o : DecodeOptions} {r : Reader} {d : Decoder C} (h : ReachOn o r d) : d.Inv := by
  induction h with
  | opened as h =>
    have hi := (inv_readInfo hS o r).1
    rcases (readInfoOn_res hS o r as).cases with ⟨as', hs, h2⟩ | ⟨d', as', hs, h0, hk, h2⟩
    · rw [h2]; exact hi
    · rw [h2] at h; cases h
  | @op d h as op hr ih => exact (performOn_res hS d as ih op).1

/-- **C76**, safety: no answers of the allocator make a call panic or run forever, also not after calls that failed with
`OutOfMemory`; and every call is the usual one or fails with `OutOfMemory` after a refusal. -/
theorem refusals_are_safe (hS : C.Safe) (o : DecodeOptions) (r : Reader) :
    (∀ as, (readInfoOn C o r as).2.returns = true) ∧
    (∀ (d : Decoder C), ReachOn o r d → ∀ as op, (d.performOn as op).2.returns = true ∧
      (d.performOn as op = d.perform op ∨ (false ∈ as ∧ (d.performOn as op).2 = .err (.io .outOfMemory)))) := by
  constructor
  · intro as
    have h := (inv_readInfo hS o r).2
    rcases (readInfoOn_res hS o r as).cases with ⟨as', hs, h2⟩ | ⟨d', as', hs, h0, hk, h2⟩
    · rw [h2]; exact h
    · rw [h2]; rfl
  · intro d hd as op
    have hi := reachOn_inv hS hd
    obtain ⟨_, h⟩ := performOn_res hS d as hi op
    refine ⟨?_, h⟩
    rcases h with h | ⟨_, h⟩
    · rw [h]; exact (perform_inv hS d hi op).2.1
    · rw [h]; rfl

/-- What was reached without an allocator that refuses is reached. -/
theorem reachOn_of_reach (hS : C.Safe) {o : DecodeOptions} {r : Reader} {d : Decoder C} (h : Reach o r d) : ReachOn o r d := by
  induction h with
  | opened h =>
    rcases (readInfoOn_res hS o r []).cases with ⟨as', hs, h2⟩ | ⟨d', as', hs, h0, hk, h2⟩
    · have := ReachOn.opened (C := C) (o := o) (r := r) [] (by rw [h2]; exact h)
      rw [h2] at this
      exact this
    · cases h0
  | @op d h op hr ih =>
    obtain ⟨_, h2 | ⟨h0, _⟩⟩ := performOn_res hS d [] (reachOn_inv hS ih) op
    · have := ReachOn.op ih [] op (by rw [h2]; exact hr)
      rw [h2] at this
      exact this
    · cases h0

end Decoder

namespace DecoderIter

/-- **C76**, iterator: it never panics; after `OutOfMemory`, or any other error, there are no more items, whatever the allocator
answers then. -/
theorem refusal_ends (hS : C.Safe) {o : DecodeOptions} {r : Reader} {it : DecoderIter C} (h : ReachOn o r it) (as : Answers) :
    (it.nextOn as).2.returns = true ∧
    ∀ e, (it.nextOn as).2 = .ok (some (.error e)) → ∀ bs, ((it.nextOn as).1.1.nextOn bs).2 = .ok none := by
  have hi : it.inner.Inv := by
    clear as
    induction h with
    | new h => exact Decoder.reachOn_inv hS h
    | @next it h as hr ih =>
      unfold nextOn
      split
      · exact ih
      · have hp := (Decoder.readNextFrame_spec hS it.inner ih).1
        rcases (Decoder.readNextFrameRoom_res hS it.inner as ih).cases with ⟨as', hs, h2⟩ | ⟨d', as', hs, h0, hk, h2⟩
        · rw [h2]
          generalize it.inner.readNextFrame = x at *
          obtain ⟨d1, out⟩ := x
          cases out with
          | ok f =>
            cases f with
            | none => exact hp
            | some f =>
              simp only [Decoder.takeCurrentFrame]
              split <;> rename_i h <;> split at h <;> cases h <;> exact ⟨hp.rd, hp.limit⟩
          | err e => exact hp
          | panic => exact hp
          | diverge => exact hp
        · rw [h2]; exact hk.inv ih
  have hp := (Decoder.readNextFrame_spec hS it.inner hi).2.1
  unfold nextOn
  split
  · rename_i he
    exact ⟨rfl, fun e h => by cases h⟩
  · rename_i he
    rcases (Decoder.readNextFrameRoom_res hS it.inner as hi).cases with ⟨as', hs, h2⟩ | ⟨d', as', hs, h0, hk, h2⟩
    · rw [h2]
      generalize it.inner.readNextFrame = x at *
      obtain ⟨d1, out⟩ := x
      cases out with
      | ok f =>
        cases f with
        | none => exact ⟨rfl, fun e h => by cases h⟩
        | some f =>
          simp only
          split <;> exact ⟨rfl, fun e h => by cases h⟩
      | err e => exact ⟨rfl, fun _ _ _ => rfl⟩
      | panic => cases hp
      | diverge => cases hp
    · rw [h2]
      exact ⟨rfl, fun _ _ _ => rfl⟩

end DecoderIter

namespace SD

theorem onScreen_again (s : SD C) (n : Nat) (desc : List UInt8)
    (hr : onScreenDescriptorOn false s n desc ≠ onScreenDescriptor s n desc) :
    (onScreenDescriptorOn false s n desc).2 = .ioErr .outOfMemory ∧
    (onScreenDescriptorOn false s n desc).1.state = s.state ∧ (onScreenDescriptorOn false s n desc).1.ibuf = s.ibuf ∧
    onScreenDescriptor (onScreenDescriptorOn false s n desc).1 n desc = onScreenDescriptor s n desc := by
  unfold onScreenDescriptorOn onScreenDescriptor at *
  match desc, hr with
  | [w0, w1, h0, h1, flags, bg, aspect], hr =>
    simp only at hr ⊢
    by_cases hf : flags &&& 0x80 ≠ 0
    · simp only [if_pos hf, Bool.false_eq_true, if_false]
      exact ⟨trivial, trivial, trivial, trivial⟩
    · simp only [if_neg hf] at hr
      exact absurd rfl hr
  | [], hr => exact absurd rfl hr
  | [_], hr => exact absurd rfl hr
  | [_, _], hr => exact absurd rfl hr
  | [_, _, _], hr => exact absurd rfl hr
  | [_, _, _, _], hr => exact absurd rfl hr
  | [_, _, _, _, _], hr => exact absurd rfl hr
  | [_, _, _, _, _, _], hr => exact absurd rfl hr
  | _ :: _ :: _ :: _ :: _ :: _ :: _ :: _ :: _, hr => exact absurd rfl hr

theorem onImageBlock_again (s : SD C) (n : Nat) (header : List UInt8)
    (hr : onImageBlockStartOn false s n header ≠ onImageBlockStart s n header) :
    (onImageBlockStartOn false s n header).2 = .ioErr .outOfMemory ∧
    (onImageBlockStartOn false s n header).1.state = s.state ∧ (onImageBlockStartOn false s n header).1.ibuf = s.ibuf ∧
    onImageBlockStart (onImageBlockStartOn false s n header).1 n header = onImageBlockStart s n header := by
  unfold onImageBlockStartOn at *
  split at hr
  · rename_i l0 l1 t0 t1 w0 w1 h0 h1 flags
    unfold onImageBlockStart at hr ⊢
    simp only at hr ⊢
    cases hc : s.current with
    | none => simp only [hc] at hr; exact absurd rfl hr
    | some f =>
      simp only [hc] at hr ⊢
      split at hr
      · exact absurd rfl hr
      · rename_i h1
        rw [if_neg h1]
        split at hr
        · rename_i h2
          simp only [if_pos h2, if_neg h1, Bool.false_eq_true, if_false]
          refine ⟨trivial, trivial, trivial, ?_⟩
          cases f.palette <;> rfl
        · exact absurd rfl hr
  · rename_i hne
    unfold onImageBlockStart at hr
    split at hr
    · exact absurd rfl (hne _ _ _ _ _ _ _ _ _)
    · exact absurd rfl hr

/-- A step that was refused can be made again if no bytes of the header were collected before. -/
theorem nextStateOn_again (s : SD C) (b : UInt8) (bs : List UInt8) (o : OutSpec) (hb : s.ibuf = [])
    (hr : nextStateOn false s (b :: bs) o ≠ nextState s (b :: bs) o) :
    (nextStateOn false s (b :: bs) o).2 = .ioErr .outOfMemory ∧
    nextState (nextStateOn false s (b :: bs) o).1 (b :: bs) o = nextState s (b :: bs) o := by
  cases hs : s.state with
  | screenDescriptor =>
    simp only [nextStateOn, nextState, hs] at hr ⊢
    unfold ensureMin at hr ⊢
    simp only [hb] at hr ⊢
    by_cases hl : (b :: bs).length ≥ 7
    · simp only [hl, List.length_nil, and_self, if_true] at hr ⊢
      obtain ⟨h0, h1, h2, h3⟩ := onScreen_again s 7 _ hr
      refine ⟨h0, ?_⟩
      simp only [h1, h2, h3, hs, hb, hl, List.length_nil, and_self, if_true]
    · simp only [hl, List.length_nil, false_and, if_false] at hr
      exfalso
      simp only [List.length_nil, Nat.zero_add, Nat.sub_zero] at hr
      apply hr
      have h1 : min (b :: bs).length 7 < 7 := by omega
      have h2 : ¬ min (b :: bs).length 7 > 9 := by omega
      simp only [h1, h2, if_true, if_false, Nat.zero_lt_succ]
  | imageBlockStart =>
    simp only [nextStateOn, nextState, hs] at hr ⊢
    unfold ensureMin at hr ⊢
    simp only [hb] at hr ⊢
    by_cases hl : (b :: bs).length ≥ 9
    · simp only [hl, List.length_nil, and_self, if_true] at hr ⊢
      obtain ⟨h0, h1, h2, h3⟩ := onImageBlock_again s 9 _ hr
      refine ⟨h0, ?_⟩
      simp only [h1, h2, h3, hs, hb, hl, List.length_nil, and_self, if_true]
    · simp only [hl, List.length_nil, false_and, if_false] at hr
      exfalso
      simp only [List.length_nil, Nat.zero_add, Nat.sub_zero] at hr
      apply hr
      have h1 : min (b :: bs).length 9 < 9 := by omega
      have h2 : ¬ min (b :: bs).length 9 > 9 := by omega
      simp only [h1, h2, if_true, if_false, Nat.zero_lt_succ]
  | extensionDataBlock left =>
    have e : nextStateOn false s (b :: bs) o = onExtensionDataBlockOn false s left b (b :: bs) := by
      simp only [nextStateOn, hs]
    have e' : nextState s (b :: bs) o = onExtensionDataBlock s left b (b :: bs) := by simp only [nextState, hs]
    rw [e, e'] at hr
    rw [e, e']
    unfold onExtensionDataBlockOn at hr ⊢
    split at hr
    · rename_i hl
      rw [if_pos hl]
      simp only at hr ⊢
      split at hr
      · rename_i hm
        simp only [if_pos hm, Bool.false_eq_true, if_false, e']
        exact ⟨trivial, trivial⟩
      · rename_i hm
        simp only [onExtensionDataBlock, if_pos hl, if_neg hm] at hr
        exact absurd rfl hr
    · exact absurd rfl hr
  | copySubBlock left =>
    have e : nextStateOn false s (b :: bs) o = onCopySubBlockOn false s left b (b :: bs) o := by
      simp only [nextStateOn, hs]
    have e' : nextState s (b :: bs) o = onCopySubBlock s left b (b :: bs) o := by simp only [nextState, hs]
    rw [e, e'] at hr
    rw [e]
    have : onCopySubBlockOn false s left b (b :: bs) o = (s, .ioErr .outOfMemory) := by
      unfold onCopySubBlockOn onCopySubBlock at *
      split
      · rename_i h1
        rw [if_pos h1, if_pos h1] at hr
        exact absurd rfl hr
      · rename_i h1
        rw [if_neg h1, if_neg h1] at hr
        split
        · rename_i h2
          rw [if_pos h2, if_pos h2] at hr
          simp only at hr ⊢
          cases o with
          | slice cap => exact absurd rfl hr
          | none => exact absurd rfl hr
          | vec len =>
            simp only [appendOn]
            by_cases hm : s.memoryLimit.sizeOk (len + ((b :: bs).take (min left (b :: bs).length)).length) = true
            · simp only [hm, if_true, Bool.false_eq_true, if_false]
            · simp only [appendOn, append, hm, if_false, Bool.false_eq_true] at hr
              exact absurd rfl hr
        · rename_i h2
          rw [if_neg h2, if_neg h2] at hr
          exact absurd rfl hr
    rw [this]
    exact ⟨rfl, rfl⟩
  | _ => simp only [nextStateOn, hs] at hr; exact absurd rfl hr

theorem nextStateOn_true (s : SD C) (buf : List UInt8) (o : OutSpec) : nextStateOn true s buf o = nextState s buf o := by
  have h1 : onScreenDescriptorOn (C := C) true = onScreenDescriptor := by
    funext s n d
    rcases onScreen_cases true s n d with h | ⟨h, _⟩
    · exact h
    · cases h
  have h2 : onImageBlockStartOn (C := C) true = onImageBlockStart := by
    funext s n d
    rcases onImageBlock_cases true s n d with h | ⟨h, _⟩
    · exact h
    · cases h
  cases buf with
  | nil => rfl
  | cons b bs =>
    cases hs : s.state <;> simp only [nextStateOn, nextState, hs, h1, h2]
    · unfold onExtensionDataBlockOn
      split
      · rename_i hl
        simp only [onExtensionDataBlock, if_pos hl, if_true]
      · rfl
    · rfl

theorem updateLoopOn_true (len : Nat) (o : OutSpec) : ∀ (n : Nat) (s : SD C) (as : Answers) (buf : List UInt8), false ∉ as →
    ∃ as', updateLoopOn len o n s as buf = (((updateLoop len o n s buf).1, as'), (updateLoop len o n s buf).2) := by
  intro n
  induction n with
  | zero => intro s as buf _; cases buf <;> exact ⟨_, rfl⟩
  | succ n ih =>
    intro s as buf ha
    cases buf with
    | nil => exact ⟨_, rfl⟩
    | cons b bs =>
      rw [updateLoopOn, updateLoop]
      have hh : as.headD true = true := by
        cases as with
        | nil => rfl
        | cons a as => cases a with
          | true => rfl
          | false => exact absurd (List.mem_cons_self ..) ha
      rw [hh, nextStateOn_true]
      generalize nextState s (b :: bs) o = x
      obtain ⟨s', out⟩ := x
      cases out with
      | ok p =>
        obtain ⟨k, ev⟩ := p
        cases ev with
        | nothing => exact ih _ _ _ fun h => ha (List.mem_of_mem_tail h)
        | _ => exact ⟨_, rfl⟩
      | err e => exact ⟨_, rfl⟩
      | panic => exact ⟨_, rfl⟩
      | diverge => exact ⟨_, rfl⟩

/-- **C76**, trying again: if a call of `update` differs from the usual one because its first reservation-step was refused, and no
bytes of a header were collected before, then the same call made again does what the usual one does. -/
theorem refused_first_step (s : SD C) (as : Answers) (buf : List UInt8) (o : OutSpec) (hb : s.ibuf = []) (ha : false ∉ as)
    (hr : (s.updateOn (false :: as) buf o).2 ≠ (s.update buf o).2) :
    (s.updateOn (false :: as) buf o).2 = .err (.io .outOfMemory) ∧
    (s.updateOn (false :: as) buf o).1.1.update buf o = s.update buf o := by
  unfold updateOn update at *
  cases buf with
  | nil => exact absurd rfl hr
  | cons b bs =>
    have e : 2 * (b :: bs).length + 2 = (2 * (b :: bs).length + 1) + 1 := rfl
    rw [e] at *
    by_cases h : nextStateOn false s (b :: bs) o = nextState s (b :: bs) o
    · exfalso
      rw [updateLoopOn, updateLoop] at hr
      simp only [List.headD_cons, List.tail_cons, h] at hr
      generalize nextState s (b :: bs) o = x at *
      obtain ⟨s', out⟩ := x
      cases out with
      | ok p =>
        obtain ⟨k, ev⟩ := p
        cases ev with
        | nothing =>
          obtain ⟨as', h'⟩ := updateLoopOn_true (b :: bs).length o (2 * (b :: bs).length + 1) s' as ((b :: bs).drop k) ha
          simp only [h'] at hr
          exact hr rfl
        | _ => exact hr rfl
      | err e => exact hr rfl
      | panic => exact hr rfl
      | diverge => exact hr rfl
    · obtain ⟨h1, h2⟩ := nextStateOn_again s b bs o hb h
      rw [updateLoopOn, updateLoop, updateLoop]
      simp only [List.headD_cons, List.tail_cons]
      generalize nextStateOn false s (b :: bs) o = x at *
      obtain ⟨s', out⟩ := x
      simp only at h1 h2
      subst h1
      simp only [h2]
      exact ⟨trivial, trivial⟩

end SD

end Gif
