import Verif.Lemmas.Descent
/-!
The header, the search for the next image, and the head and data of an image, on any string of bytes.
-/

namespace Gif

namespace SD

variable {C : Codec}

open Spec.Descent (Notes)

/-! ## Items of a fixed length -/

theorem item_stops {st : State} {required : Nat} {k : SD C → Nat → List UInt8 → StepResult C} (h9 : required ≤ 9)
    (h1 : 1 < required)
    (hst : ∀ (s : SD C) (b : UInt8), s.state = st → nextState s [b] .none = ensureMin s [b] required k)
    {s : SD C} (hs : s.state = st) (hi : s.ibuf = []) (x : List UInt8) :
    (x.length < required → Stops s x (.io .unexpectedEof)) ∧
    (x.length = required → ∀ t e rest, k { s with ibuf := [] } 1 x = (t, .err e) → Stops s (x ++ rest) e) := by
  constructor
  · intro hx
    have hc := walk_collect h9 hst x s hs (by rw [hi]; simpa using hx)
    have := goes_walk hc []
    rw [List.append_nil] at this
    exact stops_goes this calm_nil (stops_nil _)
  · intro hx t e rest hk
    obtain ⟨y, b, rfl⟩ : ∃ y b, x = y ++ [b] :=
      ⟨x.dropLast, x.getLast (by intro h; subst h; simp at hx; omega), (List.dropLast_concat_getLast _).symm⟩
    rw [List.length_append, List.length_singleton] at hx
    have hc := walk_collect h9 hst y s hs (by rw [hi]; simp; omega)
    have hl := hst { s with ibuf := s.ibuf ++ y } b hs
    rw [ensure_last { s with ibuf := s.ibuf ++ y } b required k (by simp [hi]; omega) h1 h9] at hl
    simp only [hi, List.nil_append] at hl hc
    rw [hk] at hl
    have hg := goes_walk hc (b :: rest)
    rw [List.append_assoc]
    exact stops_goes hg calm_nil (stops_err hl)

/-! ## Header and screen descriptor -/

theorem packed_file (p : UInt8) (t : Option (List UInt8)) (h : t.isSome = decide (p.toNat / 128 = 1)) :
    UInt8.ofNat ((if t.isSome then 128 else 0) + 8 * (p.toNat / 8 % 16) + p.toNat % 8) = p := by
  have := p.toNat_lt
  apply UInt8.toNat_inj.mp
  rw [UInt8.toNat_ofNat', h]
  by_cases hp : p.toNat / 128 = 1 <;> simp only [hp, decide_true, decide_false, if_true, if_false, Bool.false_eq_true] <;> omega

theorem packed_image (p : UInt8) (t : Option (List UInt8)) (h : t.isSome = decide (p.toNat / 128 = 1)) :
    UInt8.ofNat ((if t.isSome then 128 else 0) + (if decide (p.toNat / 64 % 2 = 1) then 64 else 0) +
      8 * (p.toNat / 8 % 8) + p.toNat % 8) = p := by
  have := p.toNat_lt
  apply UInt8.toNat_inj.mp
  rw [UInt8.toNat_ofNat', h]
  by_cases hp : p.toNat / 128 = 1 <;> by_cases hq : p.toNat / 64 % 2 = 1 <;>
    simp only [hp, hq, decide_true, decide_false, if_true, if_false, Bool.false_eq_true] <;> omega

/-- What `Spec.Descent.table` returns. -/
theorem table_cases (packed : UInt8) (l : List UInt8) :
    (∃ t l', Spec.Descent.table packed l = .ok (t, l') ∧ t.isSome = decide (packed.toNat / 128 = 1) ∧ l = t.getD [] ++ l' ∧
      ∀ x, t = some x → x.length = 3 * 2 ^ (packed.toNat % 8 + 1)) ∨
    (Spec.Descent.table packed l = .error (.io .unexpectedEof) ∧ ∃ z, packed.toNat / 128 = 1 ∧
      (l ++ z).length = 3 * 2 ^ (packed.toNat % 8 + 1)) := by
  unfold Spec.Descent.table Spec.Descent.item
  by_cases hp : packed.toNat / 128 = 1
  · rw [if_pos hp]
    by_cases hl : 3 * 2 ^ (packed.toNat % 8 + 1) ≤ l.length
    · rw [if_pos hl]
      refine .inl ⟨_, _, rfl, by simp [hp], by simp, ?_⟩
      intro x hx
      cases hx
      rw [List.length_take]; omega
    · rw [if_neg hl]
      refine .inr ⟨rfl, List.replicate (3 * 2 ^ (packed.toNat % 8 + 1) - l.length) 0, hp, ?_⟩
      rw [List.length_append, List.length_replicate]; omega
  · rw [if_neg hp]
    exact .inl ⟨_, _, rfl, by simp [hp], rfl, by simp⟩

theorem calm_background (b : UInt8) : Calm [.backgroundColor b] := by
  intro ev hev
  simp only [List.mem_singleton] at hev
  subst hev
  exact ⟨rfl, rfl, by simp⟩

/-- Header, screen descriptor and global colour table. -/
theorem screen_run (o : DecodeOptions) (l : List UInt8) :
    (∀ e, Spec.Descent.screen l = .error e → Stops (withOptions C o) l e) ∧
    ∀ g l', Spec.Descent.screen l = .ok (g, l') → g.Ok ∧ ∃ v cap, Goes (withOptions C o) l [.backgroundColor g.background]
      { withOptions C o with
        state := .globalPalette 0, version := v, width := g.width, height := g.height
        gct := g.table.getD [], gctCap := cap } l' := by
  have hm : ∀ (s : SD C) (b : UInt8), s.state = .magic → nextState s [b] .none = ensureMin s [b] 6 onMagic := by
    intro s b hs
    simp only [nextState, hs]
  have hd : ∀ (s : SD C) (b : UInt8), s.state = .screenDescriptor →
      nextState s [b] .none = ensureMin s [b] 7 onScreenDescriptor := by
    intro s b hs
    simp only [nextState, hs]
  unfold Spec.Descent.screen Spec.Descent.item
  by_cases h6 : 6 ≤ l.length
  · rw [if_pos h6]
    simp only
    have hlen : (l.take 6).length = 6 := by rw [List.length_take]; omega
    obtain ⟨sig, l2, rfl, hs, hl2⟩ : ∃ sig l2, l = sig ++ l2 ∧ sig.length = 6 ∧ l.drop 6 = l2 :=
      ⟨l.take 6, l.drop 6, (List.take_append_drop 6 l).symm, hlen, rfl⟩
    have hts : (sig ++ l2).take 6 = sig := by rw [← hs]; simp
    rw [hts, hl2]
    by_cases hsig : sig = [0x47, 0x49, 0x46, 0x38, 0x37, 0x61] ∨ sig = [0x47, 0x49, 0x46, 0x38, 0x39, 0x61]
    · rw [if_pos hsig]
      -- the walk over the signature
      obtain ⟨v, hw⟩ : ∃ v, Walk (withOptions C o) sig [] { withOptions C o with state := .screenDescriptor, version := v } := by
        rcases hsig with rfl | rfl
        · exact ⟨.v87a, (walk_item (st := .magic) (required := 6) (k := onMagic) (by omega) (by omega) hm rfl rfl rfl rfl).1 rfl⟩
        · exact ⟨.v89a, (walk_item (st := .magic) (required := 6) (k := onMagic) (by omega) (by omega) hm rfl rfl rfl rfl).1 rfl⟩
      by_cases h7 : l2.length < 7
      · have hst := (item_stops (st := .screenDescriptor) (required := 7) (k := onScreenDescriptor) (by omega) (by omega) hd
          (s := { withOptions C o with state := .screenDescriptor, version := v }) rfl rfl l2).1 h7
        have hstop := stops_goes (goes_walk hw l2) calm_nil hst
        match l2, h7 with
        | [], _ | [_], _ | [_, _], _ | [_, _, _], _ | [_, _, _, _], _ | [_, _, _, _, _], _ | [_, _, _, _, _, _], _ =>
          exact ⟨fun e h => by cases h; exact hstop, fun g l' h => (by cases h)⟩
        | _ :: _ :: _ :: _ :: _ :: _ :: _ :: _, h => simp at h; omega
      · match l2, h7 with
        | [], h | [_], h | [_, _], h | [_, _, _], h | [_, _, _, _], h | [_, _, _, _, _], h | [_, _, _, _, _, _], h =>
          simp at h
        | w0 :: w1 :: h0 :: h1 :: packed :: background :: aspect :: l3, _ =>
          simp only
          -- a file with the table `t`
          have file : ∀ t : Option (List UInt8), t.isSome = decide (packed.toNat / 128 = 1) →
              (∀ x, t = some x → x.length = 3 * 2 ^ (packed.toNat % 8 + 1)) →
              ∃ g : Spec.File, g = {
                  v89 := decide (sig = [0x47, 0x49, 0x46, 0x38, 0x39, 0x61])
                  width := Spec.Descent.number w0 w1, height := Spec.Descent.number h0 h1
                  misc := packed.toNat / 8 % 16, size := packed.toNat % 8, table := t
                  background := background, aspect := aspect, blocks := [] } ∧ g.Ok ∧
                g.renderHead = sig ++ [w0, w1, h0, h1, packed, background, aspect] ++ t.getD [] := by
            intro t ht1 ht2
            refine ⟨_, rfl, ⟨by simp only; omega, by simp only; omega, ht2, fun b hb => absurd hb (by simp)⟩, ?_⟩
            simp only [Spec.File.renderHead, Spec.File.packed, packed_file packed t ht1]
            have e1 : Spec.le16 (Spec.Descent.number w0 w1) = [w0, w1] := by
              rw [number_eq, le16_eq, lo8_u16le, hi8_u16le]
            have e2 : Spec.le16 (Spec.Descent.number h0 h1) = [h0, h1] := by
              rw [number_eq, le16_eq, lo8_u16le, hi8_u16le]
            rw [e1, e2]
            rcases hsig with rfl | rfl <;> rfl
          rcases table_cases packed l3 with ⟨t, l', e1, e2, e3, e4⟩ | ⟨e1, z, e2, e3⟩
          · rw [e1]
            refine ⟨fun e h => (by cases h), ?_⟩
            intro g l'' h
            obtain ⟨g', hg1, hg2, hg3⟩ := file t e2 e4
            simp only [Except.ok.injEq, Prod.mk.injEq] at h
            obtain ⟨h, rfl⟩ := h
            rw [h] at hg1
            subst hg1
            refine ⟨hg2, ?_⟩
            obtain ⟨v, cap, hw⟩ := walk_head (C := C) o _ hg2
            refine ⟨v, cap, ?_⟩
            have := goes_walk hw l'
            rw [hg3] at this
            rw [e3]
            simp only [List.append_assoc, List.cons_append, List.nil_append] at this ⊢
            exact this
          · rw [e1]
            refine ⟨?_, fun g l' h => (by cases h)⟩
            intro e h
            cases h
            obtain ⟨g, _, hg2, hg3⟩ := file (some (l3 ++ z)) (by simp [e2]) (by rintro x ⟨⟩; exact e3)
            obtain ⟨v, cap, hw⟩ := walk_head (C := C) o g hg2
            have hl : sig ++ [w0, w1, h0, h1, packed, background, aspect] ++ (some (l3 ++ z)).getD [] =
                (sig ++ w0 :: w1 :: h0 :: h1 :: packed :: background :: aspect :: l3) ++ z := by simp
            rw [hg3, hl] at hw
            exact stops_cut hw (calm_background _)
    · rw [if_neg hsig]
      refine ⟨?_, fun g l' h => (by cases h)⟩
      intro e h
      cases h
      refine (item_stops (st := .magic) (required := 6) (k := onMagic) (by omega) (by omega) hm
        (s := withOptions C o) rfl rfl sig).2 hs (withOptions C o) _ l2 ?_
      unfold onMagic
      rw [if_neg (show ¬ sig = magic87a from fun h => hsig (.inl h)),
        if_neg (show ¬ sig = magic89a from fun h => hsig (.inr h))]
      rfl
  · rw [if_neg h6]
    refine ⟨?_, fun g l' h => (by cases h)⟩
    intro e h
    cases h
    exact (item_stops (st := .magic) (required := 6) (k := onMagic) (by omega) (by omega) hm rfl rfl l).1 (by omega)

/-! ## The extensions before the first image -/

/-- Before a block: what is left to the specification and to the decoder, which may have read the introducer. -/
inductive Ready (s : SD C) : List UInt8 → List UInt8 → Prop
  | blocks (l : List UInt8) (h : s.state = .blockEnd) : Ready s l l
  | intro (t : UInt8) (l : List UInt8) (h : s.state = .blockStart t) (ht : t = 0x3B → l ≠ []) : Ready s (t :: l) l
  | trailer (l : List UInt8) (h : s.state = .blockStart 0x3B) : Ready s (0x3B :: l) (0x3B :: l)

/-- The same in the header. -/
inductive Front (s : SD C) : Bool → List UInt8 → List UInt8 → Prop
  | first (t : UInt8) (l : List UInt8) (h : s.state = .blockStart t) : Front s true (t :: l) l
  | later (l : List UInt8) (h : s.state = .blockEnd) : Front s false l l

theorem at_start {o : DecodeOptions} {g : Spec.File} {n : Notes} {s : SD C} (ha : At o g n s) (t : UInt8) :
    At o g n { s with state := .blockStart t } := ⟨between_start ha.between t, ha.label, ha.data⟩

theorem header_found {s : SD C} {t : UInt8} (hs : s.state = .blockStart t) (ht : t ≠ 0x21) (hh : s.headerEndReached = false)
    (b : UInt8) : nextState s [b] .none = ({ s with headerEndReached := true }, .ok (0, .headerEnd)) := by
  simp only [nextState, onBlockStart, hs]
  rw [if_pos ⟨by rw [hh]; simp, by simpa [Block.toU8] using ht⟩]
  simp only [goto, ← hs]

theorem end_trailer {s : SD C} (hs : s.state = .blockEnd) :
    nextState s [0x3B] .none = ({ s with state := .blockStart 0x3B }, .ok (0, .nothing)) := by
  simp only [nextState, hs]
  rfl

theorem lead_run {o : DecodeOptions} {g : Spec.File} : ∀ (fuel : Nat) (first : Bool) (loops : Spec.Loops) (n : Notes)
    (l rest : List UInt8) (s : SD C), At o g n s → s.headerEndReached = false → Front s first l rest → l.length < fuel →
    (∀ e, Spec.Descent.lead o fuel first loops n l = .error e → Stops s rest e) ∧
    ∀ loops' n' l', Spec.Descent.lead o fuel first loops n l = .ok (loops', n', l') →
      ∃ evs s' rest', Upto Decoder.isHeaderEnd s rest evs (.event s' [] .headerEnd rest') ∧ At o g n' s' ∧
        s'.headerEndReached = true ∧ Ready s' l' rest' ∧
        ∀ d : Decoder C, d.repetition = Spec.loopsOf loops →
          evs.foldl Decoder.onEvent d = { d with repetition := Spec.loopsOf loops' } := by
  intro fuel
  induction fuel with
  | zero => intro first loops n l rest s _ _ _ h; omega
  | succ fuel ih =>
    intro first loops n l rest s ha hh hf hlen
    cases l with
    | nil =>
      cases hf with
      | later h => exact ⟨fun e h => (by cases h; exact stops_nil _), fun _ _ _ h => (by cases h)⟩
    | cons t l =>
      unfold Spec.Descent.lead
      by_cases ht : t = 0x21
      · subst ht
        rw [if_pos rfl]
        -- the introducer
        obtain ⟨s0, hg0, ha0, hs0, hh0⟩ : ∃ s0, Goes s rest [] s0 l ∧ At o g n s0 ∧ s0.state = .blockStart 0x21 ∧
            s0.headerEndReached = false := by
          cases hf with
          | first _ _ h => exact ⟨s, .refl _ _, ha, h, hh⟩
          | later _ h => exact ⟨_, goes_one (enter h _ (by decide)), at_start ha _, rfl, hh⟩
        obtain ⟨f1, f2⟩ := ext_run ha0 hs0 l
        cases hx : Spec.Descent.extension o.memoryLimit n l with
        | error e => exact ⟨fun e h => by cases h; exact stops_goes hg0 calm_nil (f1 _ hx), fun _ _ _ h => (by cases h)⟩
        | ok x =>
          obtain ⟨n1, l1⟩ := x
          obtain ⟨g1, evs, s1, g2, g3, g4, g5, g6, g7⟩ := f2 n1 l1 hx
          have hg := goes_trans hg0 g2
          simp only [List.nil_append] at hg
          obtain ⟨i1, i2⟩ := ih false (if n1.label = 0xFF then (Spec.netscape [n1.data.drop 1]).getD loops else loops) n1 l1 l1 s1
            g4 (g6.trans hh0) (.later _ g5) (by simp only [List.length_cons] at hlen; omega)
          refine ⟨fun e h => stops_goes hg g3 (i1 e h), ?_⟩
          intro loops' n' l' h
          obtain ⟨evs', s', rest', j1, j2, j3, j4, j5⟩ := i2 _ _ _ h
          refine ⟨evs ++ evs', s', rest', goes_upto hg (fun ev he => ⟨(g3 ev he).1, (g3 ev he).2.2⟩) j1, j2, j3, j4, ?_⟩
          intro d hd
          rw [List.foldl_append, g7 d loops hd, j5 _ rfl]
      · rw [if_neg ht]
        by_cases hc : l = [] ∧ (first = true ∨ t ≠ 0x3B)
        · rw [if_pos hc]
          refine ⟨?_, fun _ _ _ h => (by cases h)⟩
          intro e h
          cases h
          obtain ⟨rfl, hc⟩ := hc
          cases hf with
          | first _ _ h => exact stops_nil _
          | later _ h =>
            rcases hc with hc | hc
            · cases hc
            · exact stops_goes (goes_one (enter h _ hc)) calm_nil (stops_nil _)
        · rw [if_neg hc]
          refine ⟨fun e h => (by cases h), ?_⟩
          intro loops' n' l' h
          cases h
          have hb := ha.between
          have fin : ∀ (s : SD C) (b : UInt8) (m : List UInt8), s.state = .blockStart t → s.headerEndReached = false →
              Upto Decoder.isHeaderEnd s (b :: m) [] (.event { s with headerEndReached := true } [] .headerEnd (b :: m)) :=
            fun s b m h1 h2 => upto_found (n := 0) (header_found h1 ht h2 b) (not_quiet (by simp) (by simp)) (.inl rfl)
          cases hf with
          | first _ _ h =>
            cases rest with
            | nil => exact absurd ⟨rfl, .inl rfl⟩ hc
            | cons b m =>
              exact ⟨[], _, b :: m, fin s b m h hh,
                ⟨⟨hb.ibuf, hb.skip, hb.check, hb.limit, hb.allow, hb.width, hb.height, hb.frame⟩, ha.label, ha.data⟩, rfl,
                .intro t _ h (by simp), fun d hd => by rw [← hd]; rfl⟩
          | later _ h =>
            by_cases ht' : t = 0x3B
            · subst ht'
              refine ⟨[], _, 0x3B :: l, upto_quiet (n := 0) (end_trailer h) (fin _ _ _ rfl hh),
                ⟨⟨hb.ibuf, hb.skip, hb.check, hb.limit, hb.allow, hb.width, hb.height, hb.frame⟩, ha.label, ha.data⟩, rfl,
                .trailer l rfl, fun d hd => by rw [← hd]; rfl⟩
            · cases l with
              | nil => exact absurd ⟨rfl, .inr ht'⟩ hc
              | cons b m =>
                exact ⟨[], _, b :: m, upto_quiet (n := 1) (enter h _ ht') (fin _ _ _ rfl hh),
                  ⟨⟨hb.ibuf, hb.skip, hb.check, hb.limit, hb.allow, hb.width, hb.height, hb.frame⟩, ha.label, ha.data⟩, rfl,
                  .intro t _ rfl (by simp), fun d hd => by rw [← hd]; rfl⟩

/-! ## The search for the next image -/

theorem seek_run {o : DecodeOptions} {g : Spec.File} : ∀ (fuel : Nat) (n : Notes) (l rest : List UInt8) (s : SD C),
    At o g n s → s.headerEndReached = true → Ready s l rest → l.length < fuel →
    (∀ e, Spec.Descent.seek o fuel n l = .error e → Stops s rest e) ∧
    (Spec.Descent.seek o fuel n l = .ok none → ∃ evs s' rest',
      Upto Decoder.isMetadata s rest evs (.event s' [] (.blockStart .trailer) rest') ∧ s'.width = g.width ∧ s'.height = g.height) ∧
    ∀ n' l', Spec.Descent.seek o fuel n l = .ok (some (n', l')) →
      ∃ evs s', Goes s rest evs s' l' ∧ Calm evs ∧ At o g n' s' ∧ s'.state = .blockStart 0x2C ∧ s'.headerEndReached = true := by
  intro fuel
  induction fuel with
  | zero => intro n l rest s _ _ _ h; omega
  | succ fuel ih =>
    intro n l rest s ha hh hf hlen
    cases l with
    | nil =>
      cases hf with
      | blocks _ h =>
        exact ⟨fun e h => (by cases h; exact stops_nil _), fun h => (by cases h), fun _ _ h => (by cases h)⟩
    | cons t l =>
      unfold Spec.Descent.seek
      by_cases ht : t = 0x3B
      · subst ht
        rw [if_pos rfl]
        refine ⟨fun e h => (by cases h), ?_, fun _ _ h => (by cases h)⟩
        intro _
        have hstep : ∀ (s : SD C) (b : UInt8), s.state = .blockStart 0x3B → s.headerEndReached = true →
            nextState s [b] .none = ({ s with state := .trailer }, .ok (1, .blockStart .trailer)) := by
          intro s b h1 h2
          simp only [nextState, onBlockStart, h1]
          rw [if_neg (by simp [h2])]
          rfl
        have fin : ∀ (s : SD C) (b : UInt8) (m : List UInt8), s.state = .blockStart 0x3B → s.headerEndReached = true →
            Upto Decoder.isMetadata s (b :: m) [] (.event { s with state := .trailer } [] (.blockStart .trailer) m) :=
          fun s b m h1 h2 => upto_found (n := 1) (hstep s b h1 h2) (not_quiet (by simp) (by simp)) (.inr rfl)
        have hb := ha.between
        cases hf with
        | blocks _ h => exact ⟨_, _, _, upto_quiet (n := 0) (end_trailer h) (fin _ _ _ rfl hh), hb.width, hb.height⟩
        | intro _ _ h hne =>
          cases rest with
          | nil => exact absurd rfl (hne rfl)
          | cons b m => exact ⟨_, _, _, fin _ _ _ h hh, hb.width, hb.height⟩
        | trailer _ h => exact ⟨_, _, _, fin _ _ _ h hh, hb.width, hb.height⟩
      · rw [if_neg ht]
        obtain ⟨s0, hg0, ha0, hs0, hh0⟩ : ∃ s0, Goes s rest [] s0 l ∧ At o g n s0 ∧ s0.state = .blockStart t ∧
            s0.headerEndReached = true := by
          cases hf with
          | blocks _ h => exact ⟨_, goes_one (enter h _ ht), at_start ha _, rfl, hh⟩
          | intro _ _ h _ => exact ⟨s, .refl _ _, ha, h, hh⟩
          | trailer _ h => exact absurd rfl ht
        by_cases ht2 : t = 0x2C
        · subst ht2
          rw [if_pos rfl]
          refine ⟨fun e h => (by cases h), fun h => (by cases h), ?_⟩
          intro n' l' h
          cases h
          exact ⟨_, s0, hg0, calm_nil, ha0, hs0, hh0⟩
        · rw [if_neg ht2]
          -- the block
          have key : (∀ e, (if t = 0x21 then Spec.Descent.extension o.memoryLimit n l else Spec.Descent.stranger o n l) = .error e →
                Stops s0 l e) ∧
              ∀ n' l', (if t = 0x21 then Spec.Descent.extension o.memoryLimit n l else Spec.Descent.stranger o n l) = .ok (n', l') →
                l'.length < l.length ∧ ∃ evs s', Goes s0 l evs s' l' ∧ Calm evs ∧ At o g n' s' ∧ s'.state = .blockEnd ∧
                  s'.headerEndReached = true := by
            by_cases ht1 : t = 0x21
            · subst ht1
              simp only [if_true]
              obtain ⟨f1, f2⟩ := ext_run ha0 hs0 l
              refine ⟨f1, ?_⟩
              intro n' l' h
              obtain ⟨g1, evs, s1, g2, g3, g4, g5, g6, _⟩ := f2 n' l' h
              exact ⟨g1, evs, s1, g2, g3, g4, g5, g6.trans hh0⟩
            · simp only [if_neg ht1]
              exact stranger_run ha0 hs0 ⟨ht1, ht2, ht⟩ hh0 l
          generalize (if t = 0x21 then Spec.Descent.extension o.memoryLimit n l else Spec.Descent.stranger o n l) = x at key ⊢
          obtain ⟨f1, f2⟩ := key
          cases x with
          | error e =>
            exact ⟨fun e h => (by cases h; exact stops_goes hg0 calm_nil (f1 _ rfl)), fun h => (by cases h), fun _ _ h => (by cases h)⟩
          | ok x =>
            obtain ⟨n1, l1⟩ := x
            obtain ⟨g1, evs, s1, g2, g3, g4, g5, g6⟩ := f2 n1 l1 rfl
            have hg := goes_trans hg0 g2
            simp only [List.nil_append] at hg
            obtain ⟨i1, i2, i3⟩ := ih n1 l1 l1 s1 g4 g6 (.blocks _ g5) (by simp only [List.length_cons] at hlen; omega)
            refine ⟨fun e h => stops_goes hg g3 (i1 e h), ?_, ?_⟩
            · intro h
              obtain ⟨evs', s', rest', j1, j2⟩ := i2 h
              exact ⟨_, s', rest', goes_upto hg (fun ev he => ⟨(g3 ev he).2.1, (g3 ev he).2.2⟩) j1, j2⟩
            · intro n' l' h
              obtain ⟨evs', s', j1, j2, j3⟩ := i3 n' l' h
              exact ⟨_, s', goes_trans hg j1, calm_append g3 j2, j3⟩

/-! ## The head of an image -/

theorem calm_image : Calm [.blockStart .image] := by
  intro ev hev
  simp only [List.mem_singleton] at hev
  subst hev
  exact ⟨rfl, rfl, by simp⟩

theorem codeSize_iff (m : UInt8) : LzwReader.codeSizeOk m = true ↔ ¬ (m.toNat < 1 ∨ 11 < m.toNat) := by
  unfold LzwReader.codeSizeOk
  simp only [Bool.not_eq_true', Bool.or_eq_false_iff, decide_eq_false_iff_not, GT.gt, UInt8.lt_iff_toNat_lt]
  have h1 : (11 : UInt8).toNat = 11 := rfl
  have h2 : (1 : UInt8).toNat = 1 := rfl
  omega

theorem head_run {o : DecodeOptions} {g : Spec.File} {n : Notes} {s : SD C} (ha : At o g n s) (hs : s.state = .blockStart 0x2C)
    (hh : s.headerEndReached = true) (l : List UInt8) :
    (∀ e, Spec.Descent.imageHead o g l = .error e → Stops s l e) ∧
    ∀ i len l', Spec.Descent.imageHead o g l = .ok (i, len, l') → ∃ evs s',
      Upto Decoder.isMetadata s l evs (.event s' [] (.frameMetadata (.lzw i.minCode)) l') ∧
      s'.current = some (Spec.headFrame (n.graphic, i)) ∧ s'.state = .copySubBlock len.toNat ∧
      At o g n { s' with current := some (Spec.graphicFrame n.graphic) } ∧ s'.headerEndReached = true := by
  have hb := ha.between
  have h0 : ∀ b, nextState s [b] .none =
      ({ s with state := .imageBlockStart, current := some (Spec.graphicFrame n.graphic) }, .ok (0, .blockStart .image)) := by
    intro b
    have hf := hb.frame
    simp only [nextState, hs]
    unfold onBlockStart
    rw [if_neg (by simp [hh])]
    have : Block.fromU8 0x2C = some .image := rfl
    simp only [this, goto, addFrame]
    cases hc : s.current with
    | none => rw [hc] at hf; simp only [Option.getD_none] at hf; simp only [hf]
    | some f => rw [hc] at hf; simp only [Option.getD_some] at hf; simp only [← hf, ← hc]
  have hst' : ∀ (s : SD C) (b : UInt8), s.state = .imageBlockStart →
      nextState s [b] .none = ensureMin s [b] 9 onImageBlockStart := by
    intro s b hs
    simp only [nextState, hs]
  have start : ∀ (l : List UInt8) (e : DecodingError), l ≠ [] →
      Stops { s with state := .imageBlockStart, current := some (Spec.graphicFrame n.graphic) } l e → Stops s l e := by
    intro l e hl h
    cases l with
    | nil => exact absurd rfl hl
    | cons b l =>
      exact stops_goes (.event (h0 b) (not_quiet (by simp) (by simp)) (.refl _ _)) calm_image h
  by_cases h9 : l.length < 9
  · have hstop : Stops s l (.io .unexpectedEof) := by
      by_cases hl : l = []
      · subst hl; exact stops_nil _
      · exact start l _ hl ((item_stops (st := .imageBlockStart) (required := 9) (k := onImageBlockStart) (by omega) (by omega) hst'
          (s := { s with state := .imageBlockStart, current := some (Spec.graphicFrame n.graphic) }) rfl hb.ibuf l).1 h9)
    match l, h9 with
    | [], _ | [_], _ | [_, _], _ | [_, _, _], _ | [_, _, _, _], _ | [_, _, _, _, _], _ | [_, _, _, _, _, _], _
    | [_, _, _, _, _, _, _], _ | [_, _, _, _, _, _, _, _], _ =>
      exact ⟨fun e h => by cases h; exact hstop, fun _ _ _ h => (by cases h)⟩
    | _ :: _ :: _ :: _ :: _ :: _ :: _ :: _ :: _ :: _, h => simp at h; omega
  · match l, h9 with
    | [], h | [_], h | [_, _], h | [_, _, _], h | [_, _, _, _], h | [_, _, _, _, _], h | [_, _, _, _, _, _], h
    | [_, _, _, _, _, _, _], h | [_, _, _, _, _, _, _, _], h => simp at h
    | l0 :: l1 :: t0 :: t1 :: w0 :: w1 :: h0' :: h1' :: packed :: l2, _ =>
      unfold Spec.Descent.imageHead
      simp only
      have image : ∀ (t : Option (List UInt8)) (m : UInt8), t.isSome = decide (packed.toNat / 128 = 1) →
          (∀ x, t = some x → x.length = 3 * 2 ^ (packed.toNat % 8 + 1)) →
          ∃ i : Spec.Image, i = {
              left := Spec.Descent.number l0 l1, top := Spec.Descent.number t0 t1
              width := Spec.Descent.number w0 w1, height := Spec.Descent.number h0' h1'
              interlaced := decide (packed.toNat / 64 % 2 = 1), misc := packed.toNat / 8 % 8, size := packed.toNat % 8
              table := t, minCode := m, subs := [] } ∧ i.Ok ∧
            descriptor i = [l0, l1, t0, t1, w0, w1, h0', h1', packed] := by
        intro t m ht1 ht2
        refine ⟨_, rfl, ⟨by simp only; omega, by simp only; omega, ht2, fun b hb => absurd hb (by simp)⟩, ?_⟩
        simp only [descriptor, Spec.Image.packed, packed_image packed t ht1]
        have e : ∀ a b, Spec.le16 (Spec.Descent.number a b) = [a, b] := by
          intro a b
          rw [number_eq, le16_eq, lo8_u16le, hi8_u16le]
        rw [e, e, e, e]
        rfl
      have hsome : ∃ t : Option (List UInt8), t.isSome = decide (packed.toNat / 128 = 1) ∧
          ∀ x, t = some x → x.length = 3 * 2 ^ (packed.toNat % 8 + 1) := by
        by_cases hp : packed.toNat / 128 = 1
        · exact ⟨some (List.replicate _ 0), by simp [hp], by rintro x ⟨⟩; exact List.length_replicate⟩
        · exact ⟨none, by simp [hp], by simp⟩
      have hrej : ∀ (t : Option (List UInt8)) (m : UInt8), Rejected s g {
              left := Spec.Descent.number l0 l1, top := Spec.Descent.number t0 t1
              width := Spec.Descent.number w0 w1, height := Spec.Descent.number h0' h1'
              interlaced := decide (packed.toNat / 64 % 2 = 1), misc := packed.toNat / 8 % 8, size := packed.toNat % 8
              table := t, minCode := m, subs := [] } ↔ (o.checkFrameConsistency = true ∧ ¬ g.Contains {
              left := Spec.Descent.number l0 l1, top := Spec.Descent.number t0 t1
              width := Spec.Descent.number w0 w1, height := Spec.Descent.number h0' h1'
              interlaced := decide (packed.toNat / 64 % 2 = 1), misc := packed.toNat / 8 % 8, size := packed.toNat % 8
              table := none, minCode := 0, subs := [] }) := by
        intro t m
        unfold Rejected
        rw [hb.check]
        rfl
      by_cases hc : o.checkFrameConsistency = true ∧ ¬ g.Contains {
              left := Spec.Descent.number l0 l1, top := Spec.Descent.number t0 t1
              width := Spec.Descent.number w0 w1, height := Spec.Descent.number h0' h1'
              interlaced := decide (packed.toNat / 64 % 2 = 1), misc := packed.toNat / 8 % 8, size := packed.toNat % 8
              table := none, minCode := 0, subs := [] }
      · rw [if_pos hc]
        refine ⟨?_, fun _ _ _ h => (by cases h)⟩
        intro e h
        cases h
        obtain ⟨t, ht1, ht2⟩ := hsome
        obtain ⟨i, hi1, hi2, hi3⟩ := image t 0 ht1 ht2
        have hr : Rejected s g i := by rw [hi1]; exact (hrej t 0).2 hc
        obtain ⟨s', hk⟩ := (onImage { s with
            state := .imageBlockStart, ibuf := [], current := some (Spec.graphicFrame n.graphic) } g i hi2 n.graphic
          rfl hb.width hb.height).1 hr
        rw [hi3] at hk
        exact start _ _ (by simp) ((item_stops (st := .imageBlockStart) (required := 9) (k := onImageBlockStart) (by omega) (by omega)
          hst' (s := { s with state := .imageBlockStart, current := some (Spec.graphicFrame n.graphic) }) rfl hb.ibuf
          [l0, l1, t0, t1, w0, w1, h0', h1', packed]).2 rfl _ _ l2 hk)
      · rw [if_neg hc]
        -- the way to the code size
        have walk : ∀ (t : Option (List UInt8)) (m : UInt8), t.isSome = decide (packed.toNat / 128 = 1) →
            (∀ x, t = some x → x.length = 3 * 2 ^ (packed.toNat % 8 + 1)) →
            ∃ i : Spec.Image, i = {
                left := Spec.Descent.number l0 l1, top := Spec.Descent.number t0 t1
                width := Spec.Descent.number w0 w1, height := Spec.Descent.number h0' h1'
                interlaced := decide (packed.toNat / 64 % 2 = 1), misc := packed.toNat / 8 % 8, size := packed.toNat % 8
                table := t, minCode := m, subs := [] } ∧
              ∃ cap, Walk s ([l0, l1, t0, t1, w0, w1, h0', h1', packed] ++ t.getD [] ++ [m]) [.blockStart .image]
                { s with state := .lzwInit m, palCap := cap, current := some (Spec.headFrame (n.graphic, i)) } := by
          intro t m ht1 ht2
          obtain ⟨i, hi1, hi2, hi3⟩ := image t m ht1 ht2
          refine ⟨i, hi1, ?_⟩
          have := walk_image s g i hi2 n.graphic hs hh hb.ibuf hb.frame hb.width hb.height
            (by rw [hi1]; exact fun h => hc ((hrej t m).1 h))
          rw [hi3] at this
          subst hi1
          exact this
        rcases table_cases packed l2 with ⟨t, l3, e1, e2, e3, e4⟩ | ⟨e1, z, e2, e3⟩
        · rw [e1]
          match l3, e3 with
          | [], e3 =>
            refine ⟨?_, fun _ _ _ h => (by cases h)⟩
            intro e h
            cases h
            obtain ⟨i, _, cap, hw⟩ := walk t 0 e2 e4
            have := stops_cut hw calm_image
            rw [e3, List.append_nil]
            exact this
          | [m], e3 =>
            refine ⟨?_, fun _ _ _ h => (by cases h)⟩
            intro e h
            cases h
            obtain ⟨i, _, cap, hw⟩ := walk t m e2 e4
            have := stops_goes (goes_walk hw []) calm_image (stops_nil _)
            rw [e3]
            simp only [List.append_assoc, List.append_nil, List.cons_append, List.nil_append] at this ⊢
            exact this
          | m :: len :: l4, e3 =>
            simp only
            obtain ⟨i, hi, cap, hw⟩ := walk t m e2 e4
            have hg := goes_walk hw (len :: l4)
            have hstep : nextState { s with
                  state := .lzwInit m, palCap := cap, current := some (Spec.headFrame (n.graphic, i)) } [len] .none =
                if LzwReader.codeSizeOk m = true then
                  ({ s with state := .copySubBlock len.toNat, palCap := cap, current := some (Spec.headFrame (n.graphic, i)) },
                    .ok (1, .frameMetadata (.lzw m)))
                else ({ s with state := .lzwInit m, palCap := cap, current := some (Spec.headFrame (n.graphic, i)) },
                    .fmtErr .invalidMinCodeSize) := by
              simp only [nextState, onLzwInit, hb.skip]
              rw [if_neg (by simp)]
              rfl
            have hl : [l0, l1, t0, t1, w0, w1, h0', h1', packed] ++ t.getD [] ++ [m] ++ len :: l4 =
                l0 :: l1 :: t0 :: t1 :: w0 :: w1 :: h0' :: h1' :: packed :: l2 := by
              rw [e3]; simp
            rw [hl] at hg
            by_cases hm : m.toNat < 1 ∨ 11 < m.toNat
            · rw [if_pos hm]
              refine ⟨?_, fun _ _ _ h => (by cases h)⟩
              intro e h
              cases h
              rw [if_neg (fun h => (codeSize_iff m).1 h hm)] at hstep
              exact stops_goes hg calm_image (stops_err hstep)
            · rw [if_neg hm]
              refine ⟨fun e h => (by cases h), ?_⟩
              intro i' len' l' h
              simp only [Except.ok.injEq, Prod.mk.injEq] at h
              obtain ⟨h, rfl, rfl⟩ := h
              rw [h] at hi
              subst hi
              subst h
              rw [if_pos ((codeSize_iff m).2 hm)] at hstep
              refine ⟨_, _, goes_upto hg (fun ev he => ⟨(calm_image ev he).2.1, (calm_image ev he).2.2⟩)
                (upto_found hstep (not_quiet (by simp) (by simp)) (.inl rfl)), rfl, rfl, ?_, hh⟩
              exact ⟨⟨hb.ibuf, hb.skip, hb.check, hb.limit, hb.allow, hb.width, hb.height, rfl⟩, ha.label, ha.data⟩
        · rw [e1]
          refine ⟨?_, fun _ _ _ h => (by cases h)⟩
          intro e h
          cases h
          obtain ⟨i, _, cap, hw⟩ := walk (some (l2 ++ z)) 0 (by simp [e2]) (by rintro x ⟨⟩; exact e3)
          have hl : [l0, l1, t0, t1, w0, w1, h0', h1', packed] ++ (some (l2 ++ z)).getD [] ++ [0] =
              (l0 :: l1 :: t0 :: t1 :: w0 :: w1 :: h0' :: h1' :: packed :: l2) ++ (z ++ [0]) := by simp
          rw [hl] at hw
          exact stops_cut hw calm_image

/-! ## The data of an image -/

theorem copy_length {s : SD C} (hk : s.skipFrameDecoding = true) (hs : s.state = .copySubBlock 0) (b : UInt8) (o : OutSpec) :
    nextState s [b] o = if b ≠ 0 then ({ s with state := .copySubBlock b.toNat }, .ok (1, .nothing))
      else ({ s with state := .frameDecoded }, .ok (0, .nothing)) := by
  have h : nextState s [b] o = onCopySubBlock s 0 b [b] o := by simp only [nextState, hs]
  rw [h]
  unfold onCopySubBlock
  rw [if_neg (by simp [hk]), if_neg (by omega)]
  rfl

/-- Data that are copied. -/
theorem copy_payload : ∀ (l : List UInt8) (k : Nat) (s : SD C) (acc : List UInt8), s.skipFrameDecoding = true →
    s.state = .copySubBlock k → ∃ r, Eval true s acc l r ∧
    ((Spec.blocks k l).1 ≠ [] ∧ s.memoryLimit.sizeOk (acc.length + (Spec.blocks k l).1.length) = false →
      r = .err (.format .memoryLimit)) ∧
    (¬ ((Spec.blocks k l).1 ≠ [] ∧ s.memoryLimit.sizeOk (acc.length + (Spec.blocks k l).1.length) = false) →
      ((Spec.blocks k l).2 = none → ∃ t a, r = .more t a) ∧
      ∀ l', (Spec.blocks k l).2 = some l' →
        r = .event { s with state := .blockEnd, current := none } (acc ++ (Spec.blocks k l).1) .dataEnd l') := by
  intro l
  induction l with
  | nil =>
    intro k s acc hk hs
    rw [Spec.blocks_nil]
    exact ⟨_, .nil _ _, fun h => absurd rfl h.1, fun _ => ⟨fun _ => ⟨_, _, rfl⟩, fun l' h => (by cases h)⟩⟩
  | cons b l ih =>
    intro k s acc hk hs
    cases k with
    | succ k =>
      have hd : (Spec.blocks (k + 1) (b :: l)).1 = b :: (Spec.blocks k l).1 := rfl
      have hd2 : (Spec.blocks (k + 1) (b :: l)).2 = (Spec.blocks k l).2 := rfl
      rw [hd, hd2]
      have hstep := copy_byte s acc b k hk hs
      by_cases hok : s.memoryLimit.sizeOk (acc.length + 1) = true
      · rw [if_pos hok] at hstep
        obtain ⟨r, h1, h2, h3⟩ := ih k { s with state := .copySubBlock k } (acc ++ [b]) hk rfl
        have hlen : acc.length + (b :: (Spec.blocks k l).1).length = (acc ++ [b]).length + (Spec.blocks k l).1.length := by
          simp only [List.length_cons, List.length_append, List.length_nil]; omega
        rw [hlen]
        refine ⟨r, .quiet hstep (.copied _) h1, ?_, ?_⟩
        · rintro ⟨_, h4⟩
          refine h2 ⟨?_, h4⟩
          intro h0
          rw [h0] at h4
          simp only [List.length_append, List.length_singleton, List.length_nil, Nat.add_zero] at h4
          rw [hok] at h4; cases h4
        · intro h
          obtain ⟨j1, j2⟩ := h3 (fun h4 => h ⟨by simp, h4.2⟩)
          refine ⟨j1, ?_⟩
          intro l' hl'
          rw [j2 l' hl', List.append_assoc]
          rfl
      · rw [if_neg hok] at hstep
        have hbad : s.memoryLimit.sizeOk (acc.length + (b :: (Spec.blocks k l).1).length) = false := by
          cases h : s.memoryLimit.sizeOk (acc.length + (b :: (Spec.blocks k l).1).length) with
          | false => rfl
          | true => exact absurd (sizeOk_le h (by simp only [List.length_cons]; omega)) hok
        exact ⟨_, .err _ hstep, fun _ => rfl, fun h => absurd ⟨by simp, hbad⟩ h⟩
    | zero =>
      by_cases hb : b = 0
      · subst hb
        rw [Spec.blocks_end]
        refine ⟨.event { s with state := .blockEnd, current := none } (acc ++ []) .dataEnd l, ?_, fun h => absurd rfl h.1,
          fun _ => ⟨fun h => (by cases h), fun l' h => by cases h; rfl⟩⟩
        rw [List.append_nil]
        refine .quiet (s' := { s with state := .frameDecoded }) (n := 0) (ev := .nothing) (x := []) ?_ .nothing ?_
        · rw [copy_length hk hs, if_neg (by simp)]
        · rw [List.append_nil, List.drop_zero]
          exact .event (ev := .dataEnd) (n := 1) _ rfl (not_quiet (by simp) (by simp))
      · rw [Spec.blocks_next hb]
        obtain ⟨r, h1, h2, h3⟩ := ih b.toNat { s with state := .copySubBlock b.toNat } acc hk rfl
        refine ⟨r, ?_, h2, h3⟩
        refine .quiet (s' := { s with state := .copySubBlock b.toNat }) (n := 1) (ev := .nothing) (x := []) ?_ .nothing ?_
        · rw [copy_length hk hs, if_pos hb]
        · rw [List.append_nil]
          exact h1

theorem calm_dataEnd : Calm [.dataEnd] := by
  intro ev hev
  simp only [List.mem_singleton] at hev
  subst hev
  exact ⟨rfl, rfl, by simp⟩

/-- Data that are passed over. -/
theorem skip_payload : ∀ (l : List UInt8) (k : Nat) (s : SD C), s.skipFrameDecoding = true → s.state = .copySubBlock k →
    ((Spec.blocks k l).2 = none → Stops s l (.io .unexpectedEof)) ∧
    ∀ l', (Spec.blocks k l).2 = some l' → Goes s l [.dataEnd] { s with state := .blockEnd, current := none } l' := by
  intro l
  induction l with
  | nil =>
    intro k s hk hs
    rw [Spec.blocks_nil]
    exact ⟨fun _ => stops_nil _, fun l' h => (by cases h)⟩
  | cons b l ih =>
    intro k s hk hs
    cases k with
    | succ k =>
      have hd2 : (Spec.blocks (k + 1) (b :: l)).2 = (Spec.blocks k l).2 := rfl
      rw [hd2]
      have hstep : nextState s [b] .none = ({ s with state := .copySubBlock k }, .ok (1, .lzwDataCopied [])) := by
        simp only [nextState, hs]
        unfold onCopySubBlock
        rw [if_neg (by simp [hk]), if_pos (by omega)]
        have hm : min (k + 1) [b].length = 1 := by simp
        rw [hm]
        rfl
      have hg : Goes s (b :: l) [] { s with state := .copySubBlock k } l := .quiet hstep (.copied _) (.refl _ _)
      obtain ⟨i1, i2⟩ := ih k { s with state := .copySubBlock k } hk rfl
      exact ⟨fun h => stops_goes hg calm_nil (i1 h), fun l' h => goes_trans hg (i2 l' h)⟩
    | zero =>
      by_cases hb : b = 0
      · subst hb
        rw [Spec.blocks_end]
        refine ⟨fun h => (by cases h), ?_⟩
        intro l' h
        cases h
        refine .quiet (s1 := { s with state := .frameDecoded }) (n := 0) (ev := .nothing) ?_ .nothing ?_
        · rw [copy_length hk hs, if_neg (by simp)]
        · rw [List.drop_zero]
          exact .event (n := 1) (ev := .dataEnd) rfl (not_quiet (by simp) (by simp)) (.refl _ _)
      · rw [Spec.blocks_next hb]
        have hstep : nextState s [b] .none = ({ s with state := .copySubBlock b.toNat }, .ok (1, .nothing)) := by
          rw [copy_length hk hs, if_pos hb]
        obtain ⟨i1, i2⟩ := ih b.toNat { s with state := .copySubBlock b.toNat } hk rfl
        exact ⟨fun h => stops_goes (goes_one hstep) calm_nil (i1 h), fun l' h => goes_trans (goes_one hstep) (i2 l' h)⟩

end SD

end Gif
