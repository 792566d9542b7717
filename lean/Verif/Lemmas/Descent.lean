import Verif.Lemmas.Reel
import Verif.Spec.Descent
/-!
The streaming decoder with `skip_frame_decoding` on any string of bytes follows the recursive descent of `Spec/Descent.lean`.
-/

namespace Gif

namespace SD

variable {C : Codec}

open Spec.Descent (Notes)

/-! ## Runs with a rest -/

/-- Run over some of the bytes, with the events on the way and the bytes that are left. -/
inductive Goes : SD C → List UInt8 → List Decoded → SD C → List UInt8 → Prop
  | refl (s : SD C) (l : List UInt8) : Goes s l [] s l
  | quiet {s s1 s2 : SD C} {b : UInt8} {n : Nat} {l l' : List UInt8} {ev : Decoded} {evs : List Decoded}
      (h : nextState s [b] .none = (s1, .ok (n, ev))) (hq : Quiet ev [])
      (ht : Goes s1 ((b :: l).drop n) evs s2 l') : Goes s (b :: l) evs s2 l'
  | event {s s1 s2 : SD C} {b : UInt8} {n : Nat} {l l' : List UInt8} {ev : Decoded} {evs : List Decoded}
      (h : nextState s [b] .none = (s1, .ok (n, ev))) (hq : ∀ x, ¬ Quiet ev x)
      (ht : Goes s1 ((b :: l).drop n) evs s2 l') : Goes s (b :: l) (ev :: evs) s2 l'

theorem goes_trans {s s1 s2 : SD C} {l l1 l2 : List UInt8} {evs evs' : List Decoded} (h : Goes s l evs s1 l1)
    (h' : Goes s1 l1 evs' s2 l2) : Goes s l (evs ++ evs') s2 l2 := by
  induction h with
  | refl => exact h'
  | quiet h hq ht ih => exact .quiet h hq (ih h')
  | event h hq ht ih => exact .event h hq (ih h')

theorem goes_walk {s s' : SD C} {l : List UInt8} {evs : List Decoded} (h : Walk s l evs s') (rest : List UInt8) :
    Goes s (l ++ rest) evs s' rest := by
  induction h with
  | refl => exact .refl _ _
  | @quiet s s1 s2 b n l evs h hn ht ih =>
    refine .quiet h .nothing ?_
    show Goes s1 (((b :: l) ++ rest).drop n) _ _ _
    rw [List.drop_append_of_le_length (by simp; omega)]
    exact ih
  | @event s s1 s2 b n l ev evs h hn hq ht ih =>
    refine .event h hq ?_
    show Goes s1 (((b :: l) ++ rest).drop n) _ _ _
    rw [List.drop_append_of_le_length (by simp; omega)]
    exact ih

theorem goes_one {s s1 : SD C} {b : UInt8} {l : List UInt8} (h : nextState s [b] .none = (s1, .ok (1, .nothing))) :
    Goes s (b :: l) [] s1 l := .quiet h .nothing (.refl _ _)

/-- A run is the beginning of a run to an event that it does not meet. -/
theorem goes_upto {P : Decoded → Bool} {s s' : SD C} {l rest : List UInt8} {evs evs' : List Decoded} {r : Res C}
    (h : Goes s l evs s' rest) (hev : ∀ ev ∈ evs, P ev = false ∧ ev ≠ .blockStart .trailer)
    (h' : Upto P s' rest evs' r) : Upto P s l (evs ++ evs') r := by
  induction h with
  | refl => exact h'
  | @quiet s s1 s2 b n l l' ev evs h hq ht ih =>
    have hu := ih hev h'
    generalize evs ++ evs' = es at hu ⊢
    cases hu with
    | step h2 hP ht2 hr => exact .step (.quiet h hq (by rw [List.append_nil]; exact h2)) hP ht2 hr
    | stop h2 hr => exact .stop (.quiet h hq (by rw [List.append_nil]; exact h2)) hr
  | @event s s1 s2 b n l l' ev evs h hq ht ih =>
    have hu := ih (fun ev he => hev ev (List.mem_cons_of_mem _ he)) h'
    have h0 := hev ev List.mem_cons_self
    exact upto_event h hq h0.1 h0.2 hu

/-- Events that do not end a search. -/
def Calm (evs : List Decoded) : Prop :=
  ∀ ev ∈ evs, Decoder.isHeaderEnd ev = false ∧ Decoder.isMetadata ev = false ∧ ev ≠ .blockStart .trailer

theorem calm_nil : Calm [] := by intro ev h; cases h

theorem calm_append {a b : List Decoded} (ha : Calm a) (hb : Calm b) : Calm (a ++ b) := by
  intro ev h
  rcases List.mem_append.mp h with h | h
  · exact ha ev h
  · exact hb ev h

theorem calm_prefix {a b : List Decoded} (h : Calm (a ++ b)) : Calm a :=
  fun ev he => h ev (List.mem_append_left _ he)

/-- The run ends with the error, or the bytes end, which is the error `UnexpectedEof`. -/
def Stops (s : SD C) (l : List UInt8) (e : DecodingError) : Prop :=
  ∃ evs s' l', Goes s l evs s' l' ∧ Calm evs ∧
    ((l' = [] ∧ e = .io .unexpectedEof) ∨ ∃ b l'' t, l' = b :: l'' ∧ nextState s' [b] .none = (t, .err e))

theorem stops_nil (s : SD C) : Stops s [] (.io .unexpectedEof) := ⟨[], s, [], .refl _ _, calm_nil, .inl ⟨rfl, rfl⟩⟩

theorem stops_err {s t : SD C} {b : UInt8} {l : List UInt8} {e : DecodingError} (h : nextState s [b] .none = (t, .err e)) :
    Stops s (b :: l) e := ⟨[], s, b :: l, .refl _ _, calm_nil, .inr ⟨b, l, t, rfl, h⟩⟩

theorem stops_goes {s s' : SD C} {l l' : List UInt8} {evs : List Decoded} {e : DecodingError} (h : Goes s l evs s' l')
    (hp : Calm evs) (hs : Stops s' l' e) : Stops s l e := by
  obtain ⟨evs', s2, l2, h1, h2, h3⟩ := hs
  exact ⟨_, s2, l2, goes_trans h h1, calm_append hp h2, h3⟩

/-- How such a run ends. -/
def Fails (r : Res C) (e : DecodingError) : Prop := r = .err e ∨ (e = .io .unexpectedEof ∧ ∃ t, r = .more t [])

theorem stops_upto {P : Decoded → Bool} (hP : ∀ ev, Decoder.isHeaderEnd ev = false → Decoder.isMetadata ev = false → P ev = false)
    {s : SD C} {l : List UInt8} {e : DecodingError} (h : Stops s l e) : ∃ evs r, Upto P s l evs r ∧ Fails r e := by
  obtain ⟨evs, s', l', h1, h2, h3⟩ := h
  have hev : ∀ ev ∈ evs, P ev = false ∧ ev ≠ .blockStart .trailer :=
    fun ev he => ⟨hP ev (h2 ev he).1 (h2 ev he).2.1, (h2 ev he).2.2⟩
  rcases h3 with ⟨rfl, rfl⟩ | ⟨b, l'', t, rfl, h⟩
  · exact ⟨_, _, goes_upto h1 hev (.stop (.nil _ _) (by intro _ _ _ _ h; cases h)), .inr ⟨rfl, _, rfl⟩⟩
  · exact ⟨_, _, goes_upto h1 hev (.stop (.err _ h) (by intro _ _ _ _ h; cases h)), .inl rfl⟩

/-- A walk may be stopped anywhere. -/
theorem walk_cut {s s' : SD C} {l : List UInt8} {evs : List Decoded} (h : Walk s l evs s') : ∀ (p q : List UInt8), l = p ++ q →
    ∃ evs1 evs2 s1, evs = evs1 ++ evs2 ∧ Walk s p evs1 s1 := by
  induction h with
  | refl s =>
    intro p q h
    have : p = [] := (List.append_eq_nil_iff.mp h.symm).1
    subst this
    exact ⟨[], [], s, rfl, .refl _⟩
  | @quiet s s1 s2 b n l evs h hn ht ih =>
    intro p q hpq
    cases p with
    | nil => exact ⟨[], evs, s, rfl, .refl _⟩
    | cons b' p =>
      simp only [List.cons_append, List.cons.injEq] at hpq
      obtain ⟨rfl, rfl⟩ := hpq
      obtain ⟨e1, e2, t, h1, h2⟩ := ih ((b :: p).drop n) q (by
        rw [← List.cons_append, List.drop_append_of_le_length (by simp; omega)])
      exact ⟨e1, e2, t, h1, .quiet h hn h2⟩
  | @event s s1 s2 b n l ev evs h hn hq ht ih =>
    intro p q hpq
    cases p with
    | nil => exact ⟨[], ev :: evs, s, rfl, .refl _⟩
    | cons b' p =>
      simp only [List.cons_append, List.cons.injEq] at hpq
      obtain ⟨rfl, rfl⟩ := hpq
      obtain ⟨e1, e2, t, h1, h2⟩ := ih ((b :: p).drop n) q (by
        rw [← List.cons_append, List.drop_append_of_le_length (by simp; omega)])
      exact ⟨ev :: e1, e2, t, by rw [h1]; rfl, .event h hn hq h2⟩

theorem stops_cut {s s' : SD C} {p q : List UInt8} {evs : List Decoded} (h : Walk s (p ++ q) evs s') (hp : Calm evs) :
    Stops s p (.io .unexpectedEof) := by
  obtain ⟨e1, e2, s1, rfl, h2⟩ := walk_cut h p q rfl
  have := goes_walk h2 []
  rw [List.append_nil] at this
  exact stops_goes this (calm_prefix hp) (stops_nil _)

/-! ## Sub-blocks -/

theorem blocks_length : ∀ (l : List UInt8) (n : Nat) {d l' : List UInt8}, Spec.blocks n l = (d, some l') → l'.length < l.length := by
  intro l
  induction l with
  | nil => intro n d l' h; rw [Spec.blocks_nil] at h; cases h
  | cons b l ih =>
    intro n d l' h
    cases n with
    | zero =>
      by_cases hb : b = 0
      · subst hb
        rw [Spec.blocks_end] at h
        cases h
        simp
      · rw [Spec.blocks_next hb] at h
        have := ih _ h
        simp only [List.length_cons]; omega
    | succ n =>
      simp only [Spec.blocks, Prod.mk.injEq] at h
      have := ih n (d := (Spec.blocks n l).1) (l' := l') (by rw [← h.2])
      simp only [List.length_cons]; omega

/-- The data of an extension. -/
theorem ext_payload : ∀ (l : List UInt8) (n : Nat) (s : SD C), s.state = .extensionDataBlock n →
    ((Spec.blocks n l).1 ≠ [] ∧ s.memoryLimit.sizeOk (s.extData.length + (Spec.blocks n l).1.length) = false →
      Stops s l (.format .memoryLimit)) ∧
    (¬ ((Spec.blocks n l).1 ≠ [] ∧ s.memoryLimit.sizeOk (s.extData.length + (Spec.blocks n l).1.length) = false) →
      ((Spec.blocks n l).2 = none → Stops s l (.io .unexpectedEof)) ∧
      ∀ l', (Spec.blocks n l).2 = some l' → ∃ evs e, (∀ ev ∈ evs, ev = .subBlockFinished s.extId) ∧
        Goes s l evs { s with
          state := .extensionDataBlock 0, extData := s.extData ++ (Spec.blocks n l).1, extIsBlockEnd := e } (0 :: l')) := by
  intro l
  have hcalm : ∀ (x : UInt8), Calm [.subBlockFinished x] := by
    intro x ev h
    simp only [List.mem_singleton] at h
    subst h
    exact ⟨rfl, rfl, by simp⟩
  induction l with
  | nil =>
    intro n s hs
    rw [Spec.blocks_nil]
    exact ⟨fun h => absurd rfl h.1, fun _ => ⟨fun _ => stops_nil _, fun l' h => by cases h⟩⟩
  | cons b l ih =>
    intro n s hs
    cases n with
    | succ n =>
      have hstep : nextState s [b] .none = if s.memoryLimit.sizeOk (s.extData.length + 1) = true then
          ({ s with extData := s.extData ++ [b], state := .extensionDataBlock n }, .ok (1, .nothing))
          else (s, .fmtErr .memoryLimit) := by
        simp only [nextState, hs]
        unfold onExtensionDataBlock
        rw [if_pos (by omega)]
        have hm : min (n + 1) [b].length = 1 := by simp
        simp only [hm]
        rfl
      have hd : (Spec.blocks (n + 1) (b :: l)).1 = b :: (Spec.blocks n l).1 := rfl
      have hd2 : (Spec.blocks (n + 1) (b :: l)).2 = (Spec.blocks n l).2 := rfl
      rw [hd, hd2]
      by_cases hok : s.memoryLimit.sizeOk (s.extData.length + 1) = true
      · rw [if_pos hok] at hstep
        obtain ⟨i1, i2⟩ := ih n { s with extData := s.extData ++ [b], state := .extensionDataBlock n } rfl
        have hlen : s.extData.length + (b :: (Spec.blocks n l).1).length =
            (s.extData ++ [b]).length + (Spec.blocks n l).1.length := by
          simp only [List.length_cons, List.length_append, List.length_nil]; omega
        rw [hlen]
        constructor
        · rintro ⟨_, h2⟩
          refine stops_goes (goes_one hstep) calm_nil (i1 ⟨?_, h2⟩)
          intro h0
          rw [h0] at h2
          simp only [List.length_append, List.length_singleton, List.length_nil, Nat.add_zero] at h2
          rw [hok] at h2; cases h2
        · intro h
          have h' : ¬ ((Spec.blocks n l).1 ≠ [] ∧
              s.memoryLimit.sizeOk ((s.extData ++ [b]).length + (Spec.blocks n l).1.length) = false) :=
            fun h2 => h ⟨by simp, h2.2⟩
          obtain ⟨j1, j2⟩ := i2 h'
          refine ⟨fun hn => stops_goes (goes_one hstep) calm_nil (j1 hn), ?_⟩
          intro l' hl'
          obtain ⟨evs, e, k1, k2⟩ := j2 l' hl'
          refine ⟨evs, e, k1, ?_⟩
          have := goes_trans (goes_one (l := l) hstep) k2
          rw [List.append_assoc] at this
          exact this
      · rw [if_neg hok] at hstep
        have hbad : s.memoryLimit.sizeOk (s.extData.length + (b :: (Spec.blocks n l).1).length) = false := by
          cases h : s.memoryLimit.sizeOk (s.extData.length + (b :: (Spec.blocks n l).1).length) with
          | false => rfl
          | true => exact absurd (sizeOk_le h (by simp only [List.length_cons]; omega)) hok
        exact ⟨fun _ => stops_err hstep, fun h => absurd ⟨by simp, hbad⟩ h⟩
    | zero =>
      by_cases hb : b = 0
      · subst hb
        rw [Spec.blocks_end]
        refine ⟨fun h => absurd rfl h.1, fun _ => ⟨fun h => (by cases h), ?_⟩⟩
        intro l' h
        cases h
        refine ⟨[], s.extIsBlockEnd, by simp, ?_⟩
        rw [List.append_nil, ← hs]
        exact .refl _ _
      · rw [Spec.blocks_next hb]
        have hstep : nextState s [b] .none =
            ({ s with extIsBlockEnd := false, state := .extensionDataBlock b.toNat }, .ok (1, .subBlockFinished s.extId)) := by
          simp only [nextState, hs]
          unfold onExtensionDataBlock
          rw [if_neg (by omega), if_neg hb]
          rfl
        have hq : ∀ x, ¬ Quiet (.subBlockFinished s.extId) x := not_quiet (by simp) (by simp)
        have hg : Goes s (b :: l) [.subBlockFinished s.extId]
            { s with extIsBlockEnd := false, state := .extensionDataBlock b.toNat } l := .event hstep hq (.refl _ _)
        obtain ⟨i1, i2⟩ := ih b.toNat { s with extIsBlockEnd := false, state := .extensionDataBlock b.toNat } rfl
        refine ⟨fun h => stops_goes hg (hcalm _) (i1 h), fun h => ?_⟩
        obtain ⟨j1, j2⟩ := i2 h
        refine ⟨fun hn => stops_goes hg (hcalm _) (j1 hn), ?_⟩
        intro l' hl'
        obtain ⟨evs, e, k1, k2⟩ := j2 l' hl'
        refine ⟨.subBlockFinished s.extId :: evs, e, ?_, goes_trans hg k2⟩
        intro ev hev
        rcases List.mem_cons.mp hev with h | h
        · exact h
        · exact k1 ev h

/-! ## Extensions and unknown blocks -/

/-- A decoder between two blocks, with what is remembered. -/
structure At (o : DecodeOptions) (g : Spec.File) (n : Notes) (s : SD C) : Prop where
  between : Between o g n.graphic s
  label : s.extId = n.label
  data : s.extData = n.data

theorem number_eq (a b : UInt8) : Spec.Descent.number a b = u16le a b := rfl

theorem lo8_u16le (a b : UInt8) : lo8 (u16le a b) = a := by
  have h1 := a.toNat_lt
  have h2 := b.toNat_lt
  apply UInt8.toNat_inj.mp
  simp only [lo8, u16le, UInt8.toNat_ofNat', UInt16.toNat_ofNat']
  omega

theorem hi8_u16le (a b : UInt8) : hi8 (u16le a b) = b := by
  have h1 := a.toNat_lt
  have h2 := b.toNat_lt
  apply UInt8.toNat_inj.mp
  simp only [hi8, u16le, UInt8.toNat_ofNat', UInt16.toNat_ofNat']
  omega

/-- The terminator of an extension or unknown block. -/
theorem ext_finish {o : DecodeOptions} {g : Spec.File} {n : Notes} {s : SD C} (ha : At o g n s)
    (hs : s.state = .extensionDataBlock 0) (l : List UInt8) :
    (∀ e, n.finish = .error e → Stops s (0 :: l) e) ∧
    ∀ n', n.finish = .ok n' → ∃ evs s', Goes s (0 :: l) evs s' l ∧ Calm evs ∧ At o g n' s' ∧ s'.state = .blockEnd ∧
      s'.headerEndReached = s.headerEndReached ∧
      (∀ d : Decoder C, n.label ≠ 0xFF → evs.foldl Decoder.onEvent d = d) ∧
      (∀ (d : Decoder C) b0 x, n.label = 0xFF → n.data = b0 :: x →
        evs.foldl Decoder.onEvent d = (loopEvents [x]).foldl Decoder.onEvent d) := by
  unfold Notes.finish
  by_cases hc : n.label = 0xF9
  · rw [if_pos hc]
    have hid : s.extId = 0xF9 := ha.label.trans hc
    have hstep : nextState s [0] .none = (match s.extData with
        | [_, flags, d0, d1, trns] =>
          ({ s with
            extIsBlockEnd := true, state := .blockEnd
            current := some (controlFrame (s.current.getD Frame.default) flags d0 d1 trns) }, .ok (1, .blockFinished 0xF9))
        | _ => ({ s with extIsBlockEnd := true }, .fmtErr .controlWrongLength)) := by
      have he : Extension.fromU8 0xF9 = some .control := rfl
      simp only [nextState, hs, onExtensionDataBlock, hid, he, readControlExtension]
      rw [if_neg (by omega), if_pos trivial]
      match s.extData with
      | [] => rfl
      | [_] => rfl
      | [_, _] => rfl
      | [_, _, _] => rfl
      | [_, _, _, _] => rfl
      | [_, _, _, _, _] => rfl
      | _ :: _ :: _ :: _ :: _ :: _ :: _ => rfl
    have hdat := ha.data
    generalize n.data = dat at *
    rw [hdat] at hstep
    have other : (∀ a b c d e, dat ≠ [a, b, c, d, e]) →
        (∀ e, (Except.error (.format .controlWrongLength) : Spec.Descent.Parse Notes) = .error e → Stops s (0 :: l) e) ∧
        ∀ n', (Except.error (.format .controlWrongLength) : Spec.Descent.Parse Notes) = .ok n' → ∃ evs s', Goes s (0 :: l) evs s' l ∧ Calm evs ∧ At o g n' s' ∧ s'.state = .blockEnd ∧
          s'.headerEndReached = s.headerEndReached ∧
          (∀ d : Decoder C, n.label ≠ 0xFF → evs.foldl Decoder.onEvent d = d) ∧
          (∀ (d : Decoder C) b0 x, n.label = 0xFF → dat = b0 :: x →
            evs.foldl Decoder.onEvent d = (loopEvents [x]).foldl Decoder.onEvent d) := by
      intro hne
      refine ⟨?_, fun n' h => by cases h⟩
      intro e h
      cases h
      refine stops_err (t := { s with extIsBlockEnd := true }) ?_
      rw [hstep]
      split
      · exact absurd rfl (hne _ _ _ _ _)
      · rw [hdat]
    match dat, other with
    | [], other => exact other (by simp)
    | [_], other => exact other (by simp)
    | [_, _], other => exact other (by simp)
    | [_, _, _], other => exact other (by simp)
    | [_, _, _, _], other => exact other (by simp)
    | _ :: _ :: _ :: _ :: _ :: _ :: _, other => exact other (by simp)
    | [b0, packed, d0, d1, trns], _ =>
      simp only at hstep
      refine ⟨fun e h => (by cases h), ?_⟩
      intro n' h
      cases h
      refine ⟨[.blockFinished 0xF9], _, .event hstep (not_quiet (by simp) (by simp)) (.refl _ _), ?_, ?_, rfl, rfl,
        fun d _ => rfl, fun d b0 x h => ?_⟩
      · intro ev hev
        simp only [List.mem_singleton] at hev
        subst hev
        exact ⟨rfl, rfl, by simp⟩
      · have hb := ha.between
        refine ⟨⟨hb.ibuf, hb.skip, hb.check, hb.limit, hb.allow, hb.width, hb.height, ?_⟩, ha.label, rfl⟩
        have := control_graphic (s.current.getD Frame.default) { packed := packed, delay := u16le d0 d1, trns := trns }
          n.graphic hb.frame
        simp only [lo8_u16le, hi8_u16le] at this
        simp only [Option.getD_some, number_eq]
        exact this
      · rw [hc] at h; exact absurd h (by decide)
  · rw [if_neg hc]
    refine ⟨fun e h => (by cases h), ?_⟩
    intro n' h
    cases h
    have hid : s.extId ≠ 0xF9 := by rw [ha.label]; exact hc
    have hb := ha.between
    have mk : ∀ (evs : List Decoded) (more : List Decoded), evs = .blockFinished s.extId :: more →
        (more = [] ∨ ∃ r, more = [.repetitions r]) → Calm evs := by
      rintro evs more rfl hm ev hev
      rcases List.mem_cons.mp hev with rfl | hev
      · exact ⟨rfl, rfl, by simp⟩
      · rcases hm with rfl | ⟨r, rfl⟩
        · cases hev
        · simp only [List.mem_singleton] at hev
          subst hev
          exact ⟨rfl, rfl, by simp⟩
    have hat : At o g n { s with state := .blockEnd, extIsBlockEnd := true } :=
      ⟨⟨hb.ibuf, hb.skip, hb.check, hb.limit, hb.allow, hb.width, hb.height, hb.frame⟩, ha.label, ha.data⟩
    by_cases hx : ∃ b0 x, n.label = 0xFF ∧ n.data = b0 :: x
    · obtain ⟨b0, x, h1, h2⟩ := hx
      have hw := walk_app_end s b0 [x] hs (ha.label.trans h1) (by rw [ha.data, h2]; simp)
      have hev : (loopEvents [x] = [] ∨ ∃ r, loopEvents [x] = [.repetitions r]) := by
        unfold loopEvents
        split
        · exact .inr ⟨_, rfl⟩
        · exact .inl rfl
      refine ⟨_, _, goes_walk hw l, mk _ _ (by rw [ha.label, h1]) hev, hat, rfl, rfl, fun d h => absurd h1 h, ?_⟩
      intro d b0' x' _ h2'
      rw [h2] at h2'
      cases h2'
      rfl
    · obtain ⟨more, hm, hw⟩ := walk_unknown_end s hs hid
      refine ⟨_, _, goes_walk hw l, mk _ more rfl (hm.imp id fun h => h.2), hat, rfl, rfl, ?_, ?_⟩
      · intro d h
        rcases hm with rfl | ⟨h1, _⟩
        · rfl
        · exact absurd (ha.label.symm.trans h1) h
      · intro d b0 x h1 h2
        exact absurd ⟨b0, x, h1, h2⟩ hx

theorem subFinished_calm {x : UInt8} {evs : List Decoded} (h : ∀ ev ∈ evs, ev = .subBlockFinished x) : Calm evs := by
  intro ev hev
  rw [h ev hev]
  exact ⟨rfl, rfl, by simp⟩

theorem subFinished_foldl {x : UInt8} {evs : List Decoded} (h : ∀ ev ∈ evs, ev = .subBlockFinished x) (d : Decoder C) :
    evs.foldl Decoder.onEvent d = d := by
  induction evs with
  | nil => rfl
  | cons ev evs ih =>
    rw [List.foldl_cons, h ev List.mem_cons_self]
    exact ih fun ev hev => h ev (List.mem_cons_of_mem _ hev)

/-- From the data of an extension to the end. -/
theorem ext_rest {o : DecodeOptions} {g : Spec.File} {n : Notes} {s : SD C} {len : UInt8} (ha : At o g n s)
    (hs : s.state = .extensionDataBlock len.toNat) (l : List UInt8) :
    (∀ e, Spec.Descent.payload o.memoryLimit n.data.length len l = .error e → Stops s l e) ∧
    ∀ d l', Spec.Descent.payload o.memoryLimit n.data.length len l = .ok (d, l') → l'.length < l.length ∧
      (∀ e, Notes.finish { n with data := n.data ++ d } = .error e → Stops s l e) ∧
      ∀ n', Notes.finish { n with data := n.data ++ d } = .ok n' → ∃ evs s', Goes s l evs s' l' ∧ Calm evs ∧ At o g n' s' ∧
        s'.state = .blockEnd ∧ s'.headerEndReached = s.headerEndReached ∧
        (∀ dec : Decoder C, n.label ≠ 0xFF → evs.foldl Decoder.onEvent dec = dec) ∧
        (∀ (dec : Decoder C) b0 x, n.label = 0xFF → n.data ++ d = b0 :: x →
          evs.foldl Decoder.onEvent dec = (loopEvents [x]).foldl Decoder.onEvent dec) := by
  obtain ⟨h1, h2⟩ := ext_payload l len.toNat s hs
  have hb := ha.between
  have hlim : ∀ n, s.memoryLimit.sizeOk n = o.memoryLimit.sizeOk n := fun n => by rw [hb.limit]
  rw [hlim, ha.data] at h1 h2
  unfold Spec.Descent.payload
  simp only
  by_cases hc : (Spec.blocks len.toNat l).1 ≠ [] ∧
      o.memoryLimit.sizeOk (n.data.length + (Spec.blocks len.toNat l).1.length) = false
  · rw [if_pos hc]
    exact ⟨fun e h => by cases h; exact h1 hc, fun d l' h => by cases h⟩
  · rw [if_neg hc]
    obtain ⟨h3, h4⟩ := h2 hc
    cases hr : (Spec.blocks len.toNat l).2 with
    | none => exact ⟨fun e h => by cases h; exact h3 hr, fun d l' h => by cases h⟩
    | some l1 =>
      refine ⟨fun e h => (by cases h), ?_⟩
      intro d l' h
      cases h
      obtain ⟨evs, e, k1, k2⟩ := h4 _ hr
      refine ⟨blocks_length l len.toNat (d := (Spec.blocks len.toNat l).1) (by rw [← hr]), ?_⟩
      have hat : At o g { n with data := n.data ++ (Spec.blocks len.toNat l).1 }
          { s with
            state := .extensionDataBlock 0, extData := n.data ++ (Spec.blocks len.toNat l).1, extIsBlockEnd := e } :=
        ⟨⟨hb.ibuf, hb.skip, hb.check, hb.limit, hb.allow, hb.width, hb.height, hb.frame⟩, ha.label, rfl⟩
      obtain ⟨f1, f2⟩ := ext_finish hat rfl l1
      refine ⟨fun e he => stops_goes k2 (subFinished_calm k1) (f1 e he), ?_⟩
      intro n' hn'
      obtain ⟨evs', s', j1, j2, j3, j4, j5, j6, j7⟩ := f2 n' hn'
      refine ⟨evs ++ evs', s', goes_trans k2 j1, calm_append (subFinished_calm k1) j2, j3, j4, j5, ?_, ?_⟩
      · intro dec h
        rw [List.foldl_append, subFinished_foldl k1]
        exact j6 dec h
      · intro dec b0 x h hx
        rw [List.foldl_append, subFinished_foldl k1]
        exact j7 dec b0 x h hx

theorem finish_label {n n' : Notes} (h : n.finish = .ok n') : n'.label = n.label ∧ n'.data = n.data := by
  unfold Notes.finish at h
  split at h
  · split at h
    · cases h; exact ⟨rfl, rfl⟩
    · cases h
  · cases h; exact ⟨rfl, rfl⟩

theorem fromU8_ext (label : UInt8) : (Extension.fromU8 label).isNone = false ↔
    (label = 0x01 ∨ label = 0xF9 ∨ label = 0xFE ∨ label = 0xFF) := by
  have h : ∀ i : Fin 256, (Extension.fromU8 (UInt8.ofNat i.val)).isNone = false ↔
      (UInt8.ofNat i.val = 0x01 ∨ UInt8.ofNat i.val = 0xF9 ∨ UInt8.ofNat i.val = 0xFE ∨ UInt8.ofNat i.val = 0xFF) := by
    decide +kernel
  have := h ⟨label.toNat, label.toNat_lt⟩
  simpa only [UInt8.ofNat_toNat] using this

/-- An extension. -/
theorem ext_run {o : DecodeOptions} {g : Spec.File} {n : Notes} {s : SD C} (ha : At o g n s) (hs : s.state = .blockStart 0x21)
    (l : List UInt8) :
    (∀ e, Spec.Descent.extension o.memoryLimit n l = .error e → Stops s l e) ∧
    ∀ n' l', Spec.Descent.extension o.memoryLimit n l = .ok (n', l') → l'.length < l.length ∧
      ∃ evs s', Goes s l evs s' l' ∧ Calm evs ∧ At o g n' s' ∧
        s'.state = .blockEnd ∧ s'.headerEndReached = s.headerEndReached ∧
        ∀ (d : Decoder C) (loops : Spec.Loops), d.repetition = Spec.loopsOf loops → evs.foldl Decoder.onEvent d =
          { d with
            repetition := Spec.loopsOf (if n'.label = 0xFF then (Spec.netscape [n'.data.drop 1]).getD loops else loops) } := by
  cases l with
  | nil => exact ⟨fun e h => by cases h; exact stops_nil _, fun n' l' h => by cases h⟩
  | cons label l =>
    have hstep : nextState s [label] .none = if (Extension.fromU8 label).isNone then
          ({ s with extData := [], extId := label }, .fmtErr .unknownBlock)
        else ({ s with extData := [], extId := label, state := .extensionBlockStart }, .ok (1, .blockStart .extension)) := by
      have h : nextState s [label] .none = onBlockStart s 0x21 label := by simp only [nextState, hs]
      rw [h]
      unfold onBlockStart
      rw [if_neg (by simp [Block.toU8])]
      rfl
    unfold Spec.Descent.extension
    by_cases hl : label = 0x01 ∨ label = 0xF9 ∨ label = 0xFE ∨ label = 0xFF
    · simp only [if_pos hl]
      rw [(fromU8_ext label).2 hl, if_neg (by simp)] at hstep
      have hcalm : Calm [Decoded.blockStart .extension] := by
        intro ev hev
        simp only [List.mem_singleton] at hev
        subst hev
        exact ⟨rfl, rfl, by simp⟩
      have hg : ∀ l, Goes s (label :: l) [.blockStart .extension]
          { s with extData := [], extId := label, state := .extensionBlockStart } l :=
        fun l => .event hstep (not_quiet (by simp) (by simp)) (.refl _ _)
      cases l with
      | nil => exact ⟨fun e h => by cases h; exact stops_goes (hg _) hcalm (stops_nil _), fun n' l' h => by cases h⟩
      | cons len l =>
        have hstep2 : nextState { s with extData := [], extId := label, state := .extensionBlockStart } [len] .none =
            ({ s with extData := [len], extId := label, state := .extensionDataBlock len.toNat }, .ok (1, .nothing)) := rfl
        have hg2 := goes_trans (hg (len :: l)) (goes_one (l := l) hstep2)
        rw [List.append_nil] at hg2
        have hb := ha.between
        have hat : At o g { n with label := label, data := [len] }
            { s with extData := [len], extId := label, state := .extensionDataBlock len.toNat } :=
          ⟨⟨hb.ibuf, hb.skip, hb.check, hb.limit, hb.allow, hb.width, hb.height, hb.frame⟩, rfl, rfl⟩
        obtain ⟨f1, f2⟩ := ext_rest hat rfl l
        simp only [List.length_singleton] at f1 f2
        simp only
        cases hp : Spec.Descent.payload o.memoryLimit 1 len l with
        | error e => exact ⟨fun e h => by cases h; exact stops_goes hg2 hcalm (f1 _ hp), fun n' l' h => by cases h⟩
        | ok x =>
          obtain ⟨d, l1⟩ := x
          obtain ⟨g1, g2, g3⟩ := f2 d l1 hp
          simp only [List.cons_append, List.nil_append] at g2 g3 ⊢
          cases hf : Notes.finish { n with label := label, data := len :: d } with
          | error e => exact ⟨fun e h => by cases h; exact stops_goes hg2 hcalm (g2 _ hf), fun n' l' h => by cases h⟩
          | ok n1 =>
            refine ⟨fun e h => (by cases h), ?_⟩
            intro n' l' h
            cases h
            obtain ⟨evs, s', k1, k2, k3, k4, k5, k6, k7⟩ := g3 _ hf
            obtain ⟨q1, q2⟩ := finish_label hf
            simp only at q1 q2
            refine ⟨by simp only [List.length_cons]; omega, _, s', goes_trans hg2 k1, calm_append hcalm k2, k3, k4, k5, ?_⟩
            intro dec loops hd
            rw [List.foldl_append]
            show List.foldl _ dec evs = _
            by_cases hff : label = 0xFF
            · rw [k7 dec len d hff rfl, q1, if_pos hff, q2, List.drop_succ_cons, List.drop_zero]
              unfold loopEvents
              cases Spec.netscape [d] with
              | none => simp only [List.foldl_nil, Option.getD_none, ← hd]
              | some x => cases x <;> rfl
            · rw [k6 dec hff, q1, if_neg hff, ← hd]
    · simp only [if_neg hl]
      have hn : (Extension.fromU8 label).isNone = true := by
        cases h : (Extension.fromU8 label).isNone with
        | true => rfl
        | false => exact absurd ((fromU8_ext label).1 h) hl
      rw [hn, if_pos rfl] at hstep
      exact ⟨fun e h => by cases h; exact stops_err hstep, fun n' l' h => by cases h⟩

/-- An unknown block. -/
theorem stranger_run {o : DecodeOptions} {g : Spec.File} {n : Notes} {s : SD C} {t : UInt8} (ha : At o g n s)
    (hs : s.state = .blockStart t) (ht : t ≠ 0x21 ∧ t ≠ 0x2C ∧ t ≠ 0x3B) (hh : s.headerEndReached = true) (l : List UInt8) :
    (∀ e, Spec.Descent.stranger o n l = .error e → Stops s l e) ∧
    ∀ n' l', Spec.Descent.stranger o n l = .ok (n', l') → l'.length < l.length ∧
      ∃ evs s', Goes s l evs s' l' ∧ Calm evs ∧ At o g n' s' ∧ s'.state = .blockEnd ∧ s'.headerEndReached = true := by
  cases l with
  | nil => exact ⟨fun e h => by cases h; exact stops_nil _, fun n' l' h => by cases h⟩
  | cons len l =>
    have hblk : Block.fromU8 t = none := by
      unfold Block.fromU8
      rw [if_neg ht.2.1, if_neg ht.1, if_neg ht.2.2]
    have hstep : nextState s [len] .none = if s.allowUnknownBlocks then
          ({ s with state := .extensionDataBlock len.toNat }, .ok (1, .nothing)) else (s, .fmtErr .unknownBlock) := by
      simp only [nextState, hs]
      unfold onBlockStart
      rw [if_neg (by simp [hh])]
      simp only [hblk]
      rfl
    have hb := ha.between
    unfold Spec.Descent.stranger
    by_cases hal : o.allowUnknownBlocks = true
    · rw [if_pos (hb.allow.trans hal)] at hstep
      simp only [if_pos hal]
      have hg : Goes s (len :: l) [] { s with state := .extensionDataBlock len.toNat } l := goes_one hstep
      have hat : At o g n { s with state := .extensionDataBlock len.toNat } :=
        ⟨⟨hb.ibuf, hb.skip, hb.check, hb.limit, hb.allow, hb.width, hb.height, hb.frame⟩, ha.label, ha.data⟩
      obtain ⟨f1, f2⟩ := ext_rest hat rfl l
      cases hp : Spec.Descent.payload o.memoryLimit n.data.length len l with
      | error e => exact ⟨fun e h => by cases h; exact stops_goes hg calm_nil (f1 _ hp), fun n' l' h => by cases h⟩
      | ok x =>
        obtain ⟨d, l1⟩ := x
        obtain ⟨g1, g2, g3⟩ := f2 d l1 hp
        cases hf : Notes.finish { n with data := n.data ++ d } with
        | error e =>
          simp only [hf]
          exact ⟨fun e h => by cases h; exact stops_goes hg calm_nil (g2 _ hf), fun n' l' h => by cases h⟩
        | ok n1 =>
          simp only [hf]
          refine ⟨fun e h => (by cases h), ?_⟩
          intro n' l' h
          cases h
          obtain ⟨evs, s', k1, k2, k3, k4, k5, _, _⟩ := g3 _ hf
          exact ⟨by simp only [List.length_cons]; omega, _, s', goes_trans hg k1, k2, k3, k4, k5.trans hh⟩
    · rw [if_neg (by rw [hb.allow]; exact hal)] at hstep
      simp only [if_neg hal]
      exact ⟨fun e h => by cases h; exact stops_err hstep, fun n' l' h => by cases h⟩

end SD

end Gif
