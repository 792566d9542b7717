import Verif.Lemmas.StepSpec
/-!
A long slice given to `next_state` does the same as its first byte alone followed by the others.
-/

namespace Gif.SD

variable {C : Codec}

/-- Metadata is read with no output buffer, compressed data with a vector. -/
def spec (m : Bool) (acc : List UInt8) : OutSpec := if m then .vec acc.length else .none

theorem spec_false (acc : List UInt8) : spec false acc = .none := rfl

theorem spec_true (acc : List UInt8) : spec true acc = .vec acc.length := rfl

/-- Events that only report data written to the output buffer. -/
inductive Quiet : Decoded → List UInt8 → Prop
  | nothing : Quiet .nothing []
  | copied (x : List UInt8) : Quiet (.lzwDataCopied x) x

/-- One event for two steps. -/
inductive Join : Decoded → Decoded → Decoded → Prop
  | nothing (ev : Decoded) : Join .nothing ev ev
  | copied (x y : List UInt8) : Join (.lzwDataCopied x) (.lzwDataCopied y) (.lzwDataCopied (x ++ y))

/-- The same step after one more byte. -/
def shift (r : StepResult C) : StepResult C :=
  match r with
  | (s, .ok (n, ev)) => (s, .ok (n + 1, ev))
  | (s, .err e) => (s, .err e)
  | (s, .panic) => (s, .panic)
  | (s, .diverge) => (s, .diverge)

theorem onMagic_shift (s : SD C) (n : Nat) (h : List UInt8) : onMagic s (n + 1) h = shift (onMagic s n h) := by
  unfold onMagic goto
  split
  · rfl
  · split <;> rfl

theorem onScreenDescriptor_shift (s : SD C) (n : Nat) (h : List UInt8) :
    onScreenDescriptor s (n + 1) h = shift (onScreenDescriptor s n h) := by
  unfold onScreenDescriptor goto
  split
  · simp only
    split <;> rfl
  · rfl

theorem onImageBlockStart_shift (s : SD C) (n : Nat) (h : List UInt8) :
    onImageBlockStart s (n + 1) h = shift (onImageBlockStart s n h) := by
  unfold onImageBlockStart goto
  split
  · split
    · rfl
    · simp only
      split
      · rfl
      · split <;> rfl
  · rfl

/-- The second part of a split step. -/
def Second (o : OutSpec) (s1 : SD C) (l : List UInt8) (ev1 : Decoded) (whole : StepResult C) : Prop :=
  (∃ s' n ev ev', nextState s1 l o = (s', .ok (n, ev)) ∧ Join ev1 ev ev' ∧ whole = (s', .ok (n + 1, ev'))) ∨
  ∃ e, (nextState s1 l o).2 = .err e ∧ whole.2 = .err e

theorem second_shift {o : OutSpec} {s1 : SD C} {l : List UInt8} {whole : StepResult C}
    (h : whole = shift (nextState s1 l o)) (hr : (nextState s1 l o).2.returns = true) : Second o s1 l .nothing whole := by
  subst h
  generalize hx : nextState s1 l o = x at hr ⊢
  obtain ⟨s', r⟩ := x
  cases r with
  | ok p => obtain ⟨n, ev⟩ := p; exact .inl ⟨s', n, ev, ev, hx, .nothing ev, rfl⟩
  | err e => exact .inr ⟨e, by rw [hx], rfl⟩
  | panic => cases hr
  | diverge => cases hr

theorem split_ensureMin {s : SD C} {req : Nat} {k : SD C → Nat → List UInt8 → StepResult C} (h9 : req ≤ 9)
    (hi : s.ibuf.length < req) (hk : ∀ s n h, k s (n + 1) h = shift (k s n h)) (b b' : UInt8) (bs : List UInt8) :
    ensureMin s (b :: b' :: bs) req k = ensureMin s [b] req k ∨
    ensureMin s [b] req k = ({ s with ibuf := s.ibuf ++ [b] }, .ok (1, .nothing)) ∧
    (s.ibuf ++ [b]).length < req ∧
    ensureMin s (b :: b' :: bs) req k = shift (ensureMin { s with ibuf := s.ibuf ++ [b] } (b' :: bs) req k) := by
  by_cases h : s.ibuf.length + 1 < req
  · right
    have hi' : ({ s with ibuf := s.ibuf ++ [b] } : SD C).ibuf.length < req := by simpa using h
    refine ⟨?_, by simpa using h, ?_⟩
    · rw [ensureMin_eq s [b] req k hi h9, if_pos (by simpa using h)]
      rfl
    · rw [ensureMin_eq s _ req k hi h9, ensureMin_eq _ (b' :: bs) req k hi' h9]
      simp only [List.length_append, List.length_cons, List.length_nil]
      by_cases h2 : s.ibuf.length + (bs.length + 1 + 1) < req
      · rw [if_pos h2, if_pos (by omega)]
        simp [shift, List.append_assoc]
      · rw [if_neg h2, if_neg (by omega)]
        have e1 : req - s.ibuf.length = (req - (s.ibuf.length + (0 + 1))) + 1 := by omega
        rw [← hk, ← e1]
        congr 1
        rw [e1, List.take_succ_cons]
        simp [List.append_assoc]
  · left
    rw [ensureMin_eq s _ req k hi h9, ensureMin_eq s _ req k hi h9]
    simp only [List.length_cons, List.length_nil]
    rw [if_neg (by omega), if_neg (by omega)]
    have e1 : req - s.ibuf.length = 1 := by omega
    rw [e1]
    rfl

/-! ## The arms that take many bytes at once -/

theorem take_min (l : List UInt8) (n : Nat) : l.take (min n l.length) = l.take n := by
  rcases Nat.le_total n l.length with h | h
  · rw [Nat.min_eq_left h]
  · rw [Nat.min_eq_right h, List.take_of_length_le (Nat.le_refl _), List.take_of_length_le h]

theorem gct_eq {s : SD C} {left : Nat} (hs : s.state = .globalPalette (left + 1))
    (hcap : s.gct.length + (left + 1) ≤ s.gctCap) (c : UInt8) (l : List UInt8) (o : OutSpec) :
    nextState s (c :: l) o = ({ s with gct := s.gct ++ c :: l.take left, state := .globalPalette (left - l.length) },
      .ok (min left l.length + 1, .nothing)) := by
  have hn : min (left + 1) (c :: l).length = min left l.length + 1 := by simp only [List.length_cons]; omega
  have hl : left + 1 - (min left l.length + 1) = left - l.length := by omega
  unfold nextState onGlobalPalette goto
  simp only [hs]
  rw [if_pos (by omega)]
  simp only [hn, hl, List.take_succ_cons, take_min]
  rw [if_pos (by omega)]

theorem lct_eq {s : SD C} {left : Nat} {f : Frame} {p : List UInt8} (hs : s.state = .localPalette (left + 1))
    (hf : s.current = some f) (hp : f.palette = some p) (hcap : p.length + (left + 1) ≤ s.palCap)
    (c : UInt8) (l : List UInt8) (o : OutSpec) :
    nextState s (c :: l) o =
      ({ s with
          current := some { f with palette := some (p ++ c :: l.take left) }
          state := .localPalette (left - l.length) }, .ok (min left l.length + 1, .nothing)) := by
  have hn : min (left + 1) (c :: l).length = min left l.length + 1 := by simp only [List.length_cons]; omega
  have hl : left + 1 - (min left l.length + 1) = left - l.length := by omega
  unfold nextState onLocalPalette goto
  simp only [hs]
  rw [if_pos (by omega)]
  simp only [hn, hl, List.take_succ_cons, take_min, hf, hp]
  rw [if_pos (by omega)]

theorem ext_eq {s : SD C} {left : Nat} (hs : s.state = .extensionDataBlock (left + 1)) (c : UInt8) (l : List UInt8)
    (o : OutSpec) :
    nextState s (c :: l) o =
      if s.memoryLimit.sizeOk (s.extData.length + (min left l.length + 1)) then
        ({ s with extData := s.extData ++ c :: l.take left, state := .extensionDataBlock (left - l.length) },
          .ok (min left l.length + 1, .nothing))
      else (s, .fmtErr .memoryLimit) := by
  have hn : min (left + 1) (c :: l).length = min left l.length + 1 := by simp only [List.length_cons]; omega
  have hl : left + 1 - (min left l.length + 1) = left - l.length := by omega
  unfold nextState onExtensionDataBlock goto
  simp only [hs]
  rw [if_pos (by omega)]
  simp only [hn, hl, List.take_succ_cons, take_min]

theorem copy_none_eq {s : SD C} {left : Nat} (hs : s.state = .copySubBlock (left + 1)) (hk : s.skipFrameDecoding = true)
    (c : UInt8) (l : List UInt8) :
    nextState s (c :: l) .none =
      ({ s with state := .copySubBlock (left - l.length) }, .ok (min left l.length + 1, .lzwDataCopied [])) := by
  have hn : min (left + 1) (c :: l).length = min left l.length + 1 := by simp only [List.length_cons]; omega
  have hl : left + 1 - (min left l.length + 1) = left - l.length := by omega
  have hm : min (min left l.length + 1) (c :: l).length = min left l.length + 1 := by
    simp only [List.length_cons]; omega
  unfold nextState onCopySubBlock goto
  simp only [hs]
  rw [if_neg (by simp [hk]), if_pos (by omega)]
  simp only [hn, append, List.length_take, hm]
  rw [if_neg (by omega), hl]

theorem copy_vec_eq {s : SD C} {left : Nat} (hs : s.state = .copySubBlock (left + 1)) (hk : s.skipFrameDecoding = true)
    (c : UInt8) (l : List UInt8) (len : Nat) :
    nextState s (c :: l) (.vec len) =
      if s.memoryLimit.sizeOk (len + (min left l.length + 1)) then
        ({ s with state := .copySubBlock (left - l.length) },
          .ok (min left l.length + 1, .lzwDataCopied (c :: l.take left)))
      else (s, .fmtErr .memoryLimit) := by
  have hn : min (left + 1) (c :: l).length = min left l.length + 1 := by simp only [List.length_cons]; omega
  have hl : left + 1 - (min left l.length + 1) = left - l.length := by omega
  have hm : min (min left l.length + 1) (c :: l).length = min left l.length + 1 := by
    simp only [List.length_cons]; omega
  unfold nextState onCopySubBlock goto
  simp only [hs]
  rw [if_neg (by simp [hk]), if_pos (by omega)]
  simp only [hn, append, List.length_take, hm]
  by_cases h2 : s.memoryLimit.sizeOk (len + (min left l.length + 1)) = true
  · rw [if_pos h2, if_pos h2]
    simp only
    rw [if_neg (by omega), hl, List.take_succ_cons, take_min]
  · rw [if_neg h2, if_neg h2]

theorem skip_eq {s : SD C} {left : Nat} {o : OutSpec} (hs : s.state = .decodeSubBlock (left + 1))
    (hk : s.skipFrameDecoding = false) (ho : s.lzw.hasEnded ∨ o = .none) (c : UInt8) (l : List UInt8) :
    nextState s (c :: l) o =
      ({ s with state := .decodeSubBlock (left - l.length) }, .ok (min left l.length + 1, .nothing)) := by
  have hn : min (left + 1) (c :: l).length = min left l.length + 1 := by simp only [List.length_cons]; omega
  have hl : left + 1 - (min left l.length + 1) = left - l.length := by omega
  unfold nextState onDecodeSubBlock goto
  simp only [hs]
  rw [if_neg (by simp [hk]), if_pos (by omega), if_pos ho]
  simp only [hn, hl]

theorem dec_vec_eq {s : SD C} {left : Nat} {d : C.σ} (hs : s.state = .decodeSubBlock (left + 1))
    (hk : s.skipFrameDecoding = false) (he : s.lzw.hasEnded = false) (hd : s.lzw.decoder = some d) (c : UInt8)
    (l : List UInt8) (len : Nat) :
    nextState s (c :: l) (.vec len) = (s, .ioErr .unsupported) := by
  unfold nextState onDecodeSubBlock goto
  simp only [hs]
  rw [if_neg (by simp [hk]), if_pos (by omega), if_neg (by simp [he])]
  simp [LzwReader.decodeBytes, hd, ← hs]

theorem split (hS : C.Safe) {s : SD C} (hw : WF s) (m : Bool) (acc : List UInt8) (b b' : UInt8) (bs : List UInt8) :
    nextState s (b :: b' :: bs) (spec m acc) = nextState s [b] (spec m acc) ∨
    ∃ s1 ev1 x, nextState s [b] (spec m acc) = (s1, .ok (1, ev1)) ∧ Quiet ev1 x ∧
      Second (spec m (acc ++ x)) s1 (b' :: bs) ev1 (nextState s (b :: b' :: bs) (spec m acc)) := by
  -- the new state is well-formed, so its next step returns
  have hret : ∀ {s1 : SD C} {o : OutSpec} {x : List UInt8}, WF s1 → peeks s1.state = false →
      (nextState s1 (b' :: bs) o).2.returns = true := by
    intro s1 o x w1 w2
    rcases hx : nextState s1 (b' :: bs) o with ⟨s', r⟩
    rcases nextState_fail hS w1 (look_of_not_peeks w2) hx with ⟨y, rfl⟩ | ⟨⟨e, rfl⟩, _⟩ <;> rfl
  have hwf1 : ∀ {s1 : SD C} {n : Nat} {ev : Decoded}, nextState s [b] (spec m acc) = (s1, .ok (n, ev)) → WF s1 :=
    fun h => (tr_wf hS hw (tr_of_nextState hw.ibuf h)).1
  have hib := hw.ibuf
  have hst := hw.st
  unfold ibufOk at hib
  match hs : s.state with
  | .magic =>
    rw [hs] at hib
    simp only [required] at hib
    have e : ∀ t : SD C, t.state = .magic → ∀ c l o, nextState t (c :: l) o = ensureMin t (c :: l) 6 onMagic := by
      intro t ht c l o; unfold nextState; simp only [ht]
    rcases split_ensureMin (s := s) (req := 6) (k := onMagic) (by decide) (by simpa using hib) onMagic_shift b b' bs with h | ⟨h1, h2, h3⟩
    · left; rw [e s hs, e s hs, h]
    · right
      have h1' := h1
      rw [← e s hs b [] (spec m acc)] at h1'
      refine ⟨_, _, [], h1', .nothing, second_shift ?_ (hret (x := []) (hwf1 h1') (by simp [hs, peeks]))⟩
      rw [e s hs, e _ (by simp [hs]), h3]
  | .screenDescriptor =>
    rw [hs] at hib
    simp only [required] at hib
    have e : ∀ t : SD C, t.state = .screenDescriptor → ∀ c l o,
        nextState t (c :: l) o = ensureMin t (c :: l) 7 onScreenDescriptor := by
      intro t ht c l o; unfold nextState; simp only [ht]
    rcases split_ensureMin (s := s) (req := 7) (k := onScreenDescriptor) (by decide) (by simpa using hib)
      onScreenDescriptor_shift b b' bs with h | ⟨h1, h2, h3⟩
    · left; rw [e s hs, e s hs, h]
    · right
      have h1' := h1
      rw [← e s hs b [] (spec m acc)] at h1'
      refine ⟨_, _, [], h1', .nothing, second_shift ?_ (hret (x := []) (hwf1 h1') (by simp [hs, peeks]))⟩
      rw [e s hs, e _ (by simp [hs]), h3]
  | .imageBlockStart =>
    rw [hs] at hib
    simp only [required] at hib
    have e : ∀ t : SD C, t.state = .imageBlockStart → ∀ c l o,
        nextState t (c :: l) o = ensureMin t (c :: l) 9 onImageBlockStart := by
      intro t ht c l o; unfold nextState; simp only [ht]
    rcases split_ensureMin (s := s) (req := 9) (k := onImageBlockStart) (by decide) (by simpa using hib)
      onImageBlockStart_shift b b' bs with h | ⟨h1, h2, h3⟩
    · left; rw [e s hs, e s hs, h]
    · right
      have h1' := h1
      rw [← e s hs b [] (spec m acc)] at h1'
      refine ⟨_, _, [], h1', .nothing, second_shift ?_ (hret (x := []) (hwf1 h1') (by simp [hs, peeks]))⟩
      rw [e s hs, e _ (by simp [hs]), h3]
  | .globalPalette 0 => left; unfold nextState onGlobalPalette; simp only [hs]; rfl
  | .globalPalette 1 =>
    left
    rw [stOk, hs] at hst
    rw [gct_eq hs hst.1, gct_eq hs hst.1]
    simp
  | .globalPalette (left + 2) =>
    right
    rw [stOk, hs] at hst
    have h1 := gct_eq hs hst.1 b [] (spec m acc)
    refine ⟨_, _, [], h1, .nothing, second_shift ?_ (hret (x := []) (hwf1 h1) (by simp [peeks]))⟩
    rw [gct_eq hs hst.1, gct_eq (left := left) rfl (by simp; omega)]
    simp [shift, Nat.add_min_add_right, Nat.add_sub_add_right]
  | .localPalette 0 => left; unfold nextState onLocalPalette; simp only [hs]; rfl
  | .localPalette 1 =>
    left
    rw [stOk, hs] at hst
    obtain ⟨-, f, hf, hp⟩ := hst
    obtain ⟨p, hp, hcap⟩ := hp (by omega)
    rw [lct_eq hs hf hp hcap, lct_eq hs hf hp hcap]
    simp
  | .localPalette (left + 2) =>
    right
    rw [stOk, hs] at hst
    obtain ⟨-, f, hf, hp⟩ := hst
    obtain ⟨p, hp, hcap⟩ := hp (by omega)
    have h1 := lct_eq hs hf hp hcap b [] (spec m acc)
    refine ⟨_, _, [], h1, .nothing, second_shift ?_ (hret (x := []) (hwf1 h1) (by simp [peeks]))⟩
    rw [lct_eq hs hf hp hcap, lct_eq (left := left) rfl rfl rfl (by simp; omega)]
    simp [shift, Nat.add_min_add_right, Nat.add_sub_add_right]
  | .extensionDataBlock 0 => left; unfold nextState onExtensionDataBlock; simp only [hs]; rfl
  | .extensionDataBlock 1 => left; rw [ext_eq hs, ext_eq hs]; simp
  | .extensionDataBlock (left + 2) =>
    by_cases hok : s.memoryLimit.sizeOk (s.extData.length + 1) = true
    · right
      have h1 := ext_eq hs b [] (spec m acc)
      rw [if_pos (by simpa using hok)] at h1
      refine ⟨_, _, [], h1, .nothing, ?_⟩
      unfold Second
      rw [ext_eq hs, ext_eq (left := left) rfl]
      simp only [List.length_append, List.length_cons, List.length_nil, List.append_assoc, List.take_nil,
        List.cons_append, List.nil_append, List.take_succ_cons, Nat.add_min_add_right, Nat.add_sub_add_right]
      have e2 : s.extData.length + (min left bs.length + 1 + 1) = s.extData.length + (0 + 1) + (min left bs.length + 1) := by
        omega
      rw [e2]
      by_cases h2 : s.memoryLimit.sizeOk (s.extData.length + (0 + 1) + (min left bs.length + 1)) = true
      · rw [if_pos h2, if_pos h2]
        exact .inl ⟨_, _, _, _, rfl, .nothing _, rfl⟩
      · rw [if_neg h2, if_neg h2]
        exact .inr ⟨_, rfl, rfl⟩
    · left
      rw [ext_eq hs, ext_eq hs, if_neg (c := s.memoryLimit.sizeOk (s.extData.length + (min (left + 1) ([] : List UInt8).length + 1)) = true) (by simpa using hok), if_neg]
      exact fun hc => hok (sizeOk_mono _ (by omega) hc)
  | .copySubBlock 0 => left; unfold nextState onCopySubBlock; simp only [hs]; rfl
  | .copySubBlock 1 =>
    left
    rw [stOk, hs] at hst
    cases m with
    | false => simp only [spec_false]; rw [copy_none_eq hs hst.2.2, copy_none_eq hs hst.2.2]; simp
    | true => simp only [spec_true]; rw [copy_vec_eq hs hst.2.2, copy_vec_eq hs hst.2.2]; simp
  | .copySubBlock (left + 2) =>
    rw [stOk, hs] at hst
    obtain ⟨-, -, hk⟩ := hst
    cases m with
    | false =>
      right
      have h1 := copy_none_eq hs hk b []
      have h2 := copy_none_eq (s := { s with state := .copySubBlock (left + 1) }) (left := left) rfl hk b' bs
      refine ⟨_, _, [], h1, .copied _, .inl ⟨_, _, _, _, h2, .copied [] [], ?_⟩⟩
      simp only [spec_false]
      rw [copy_none_eq hs hk]
      simp [Nat.add_min_add_right, Nat.add_sub_add_right]
    | true =>
      by_cases hok : s.memoryLimit.sizeOk (acc.length + 1) = true
      · right
        have h1 := copy_vec_eq hs hk b [] acc.length
        rw [if_pos (by simpa using hok)] at h1
        refine ⟨_, _, [b], h1, .copied _, ?_⟩
        unfold Second
        simp only [spec_true, List.length_nil, Nat.sub_zero]
        rw [copy_vec_eq hs hk, copy_vec_eq (s := { s with state := .copySubBlock (left + 1) }) (left := left) rfl hk]
        simp only [List.length_append, List.length_cons, List.length_nil, List.append_assoc, List.take_nil,
          List.cons_append, List.nil_append, List.take_succ_cons, Nat.add_min_add_right, Nat.add_sub_add_right]
        have e2 : acc.length + (min left bs.length + 1 + 1) = acc.length + (0 + 1) + (min left bs.length + 1) := by
          omega
        rw [e2]
        by_cases h2 : s.memoryLimit.sizeOk (acc.length + (0 + 1) + (min left bs.length + 1)) = true
        · rw [if_pos h2, if_pos h2]
          exact .inl ⟨_, _, _, _, rfl, .copied [b] _, rfl⟩
        · rw [if_neg h2, if_neg h2]
          exact .inr ⟨_, rfl, rfl⟩
      · left
        simp only [spec_true]
        rw [copy_vec_eq hs hk, copy_vec_eq hs hk, if_neg (c := s.memoryLimit.sizeOk (acc.length + (min (left + 1) ([] : List UInt8).length + 1)) = true) (by simpa using hok), if_neg]
        exact fun hc => hok (sizeOk_mono _ (by omega) hc)
  | .decodeSubBlock 0 => left; unfold nextState onDecodeSubBlock; simp only [hs]; rfl
  | .decodeSubBlock (left + 1) =>
    rw [stOk, hs] at hst
    obtain ⟨-, -, hk, hdec⟩ := hst
    by_cases hn : s.lzw.hasEnded ∨ spec m acc = .none
    · match left with
      | 0 => left; rw [skip_eq hs hk hn, skip_eq hs hk hn]; simp
      | left + 1 =>
        right
        have h1 := skip_eq hs hk hn b []
        refine ⟨_, _, [], h1, .nothing, second_shift ?_ (hret (x := []) (hwf1 h1) (by simp [peeks]))⟩
        simp only [List.length_nil, Nat.sub_zero]
        rw [skip_eq hs hk hn, skip_eq (s := { s with state := .decodeSubBlock (left + 1) }) (left := left) rfl hk (by simpa using hn)]
        simp [shift, Nat.add_min_add_right, Nat.add_sub_add_right]
    · left
      have hm : m = true := by
        cases m with
        | true => rfl
        | false => exact absurd (.inr rfl) hn
      subst hm
      obtain ⟨d, hd⟩ := Option.isSome_iff_exists.1 hdec
      have he : s.lzw.hasEnded = false := by
        cases h : s.lzw.hasEnded with
        | false => rfl
        | true => exact absurd (.inl h) hn
      rw [spec_true, dec_vec_eq hs hk he hd, dec_vec_eq hs hk he hd]
  | .blockStart t => left; unfold nextState; simp only [hs]
  | .blockEnd => left; unfold nextState; simp only [hs]
  | .extensionBlockStart => left; unfold nextState; simp only [hs]
  | .applicationExtension => left; unfold nextState; simp only [hs]
  | .lzwInit c => left; unfold nextState; simp only [hs]
  | .frameDecoded => left; unfold nextState; simp only [hs]
  | .trailer => left; unfold nextState; simp only [hs]

end Gif.SD
