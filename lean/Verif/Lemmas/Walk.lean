import Verif.Lemmas.Prefix
import Verif.Lemmas.Bytes
import Verif.Spec.Meaning
/-!
The streaming decoder on the bytes of the grammar of `Spec/GifSyntax.lean`, without output buffer.
-/

namespace Gif

namespace SD

variable {C : Codec}

/-- Run over exactly the given bytes, with the events on the way. -/
inductive Walk : SD C → List UInt8 → List Decoded → SD C → Prop
  | refl (s : SD C) : Walk s [] [] s
  | quiet {s s' s'' : SD C} {b : UInt8} {n : Nat} {l : List UInt8} {evs : List Decoded}
      (h : nextState s [b] .none = (s', .ok (n, .nothing))) (hn : n ≤ 1)
      (ht : Walk s' ((b :: l).drop n) evs s'') : Walk s (b :: l) evs s''
  | event {s s' s'' : SD C} {b : UInt8} {n : Nat} {l : List UInt8} {ev : Decoded} {evs : List Decoded}
      (h : nextState s [b] .none = (s', .ok (n, ev))) (hn : n ≤ 1) (hq : ∀ x, ¬ Quiet ev x)
      (ht : Walk s' ((b :: l).drop n) evs s'') : Walk s (b :: l) (ev :: evs) s''

theorem walk_trans {s s' s'' : SD C} {l l' : List UInt8} {evs evs' : List Decoded} (h : Walk s l evs s')
    (h' : Walk s' l' evs' s'') : Walk s (l ++ l') (evs ++ evs') s'' := by
  induction h with
  | refl => exact h'
  | @quiet s s1 s2 b n l evs h hn ht ih =>
    refine .quiet h hn ?_
    show Walk s1 (((b :: l) ++ l').drop n) _ _
    rw [List.drop_append_of_le_length (by simp; omega)]
    exact ih h'
  | @event s s1 s2 b n l ev evs h hn hq ht ih =>
    refine .event h hn hq ?_
    show Walk s1 (((b :: l) ++ l').drop n) _ _
    rw [List.drop_append_of_le_length (by simp; omega)]
    exact ih h'

theorem walk_one {s s' : SD C} {b : UInt8} (h : nextState s [b] .none = (s', .ok (1, .nothing))) : Walk s [b] [] s' :=
  .quiet h (Nat.le_refl _) (.refl _)

theorem walk_one_event {s s' : SD C} {b : UInt8} {ev : Decoded} (h : nextState s [b] .none = (s', .ok (1, ev)))
    (hq : ∀ x, ¬ Quiet ev x) : Walk s [b] [ev] s' :=
  .event h (Nat.le_refl _) hq (.refl _)

theorem walk_quiet {s s' s'' : SD C} {b : UInt8} {l : List UInt8} {evs : List Decoded}
    (h : nextState s [b] .none = (s', .ok (1, .nothing))) (ht : Walk s' l evs s'') : Walk s (b :: l) evs s'' :=
  .quiet h (Nat.le_refl _) ht

theorem walk_event {s s' s'' : SD C} {b : UInt8} {l : List UInt8} {ev : Decoded} {evs : List Decoded}
    (h : nextState s [b] .none = (s', .ok (1, ev))) (hq : ∀ x, ¬ Quiet ev x) (ht : Walk s' l evs s'') :
    Walk s (b :: l) (ev :: evs) s'' :=
  .event h (Nat.le_refl _) hq ht

/-- A step that looks at a byte without taking it. -/
theorem walk_peek {s s' s'' : SD C} {b : UInt8} {l : List UInt8} {ev : Decoded} {evs : List Decoded}
    (h : nextState s [b] .none = (s', .ok (0, ev))) (hq : ∀ x, ¬ Quiet ev x) (ht : Walk s' (b :: l) evs s'') :
    Walk s (b :: l) (ev :: evs) s'' :=
  .event h (Nat.zero_le _) hq ht

theorem upto_quiet {P : Decoded → Bool} {s s' : SD C} {b : UInt8} {n : Nat} {l : List UInt8} {evs : List Decoded} {r : Res C}
    (h : nextState s [b] .none = (s', .ok (n, .nothing))) (h' : Upto P s' ((b :: l).drop n) evs r) :
    Upto P s (b :: l) evs r := by
  cases h' with
  | step h2 hP ht2 hr => exact .step (.quiet h .nothing (by rw [List.append_nil]; exact h2)) hP ht2 hr
  | stop h2 hr => exact .stop (.quiet h .nothing (by rw [List.append_nil]; exact h2)) hr

theorem upto_event {P : Decoded → Bool} {s s' : SD C} {b : UInt8} {n : Nat} {l : List UInt8} {ev : Decoded}
    {evs : List Decoded} {r : Res C}
    (h : nextState s [b] .none = (s', .ok (n, ev))) (hq : ∀ x, ¬ Quiet ev x) (hP : P ev = false)
    (ht : ev ≠ .blockStart .trailer) (h' : Upto P s' ((b :: l).drop n) evs r) : Upto P s (b :: l) (ev :: evs) r :=
  .step (.event _ h hq) hP ht h'

/-- A walk is the beginning of a run to an event that it does not meet. -/
theorem walk_upto {P : Decoded → Bool} {s s' : SD C} {l rest : List UInt8} {evs evs' : List Decoded} {r : Res C}
    (h : Walk s l evs s') (hev : ∀ ev ∈ evs, P ev = false ∧ ev ≠ .blockStart .trailer)
    (h' : Upto P s' rest evs' r) : Upto P s (l ++ rest) (evs ++ evs') r := by
  induction h with
  | refl => exact h'
  | @quiet s s1 s2 b n l evs h hn ht ih =>
    have hu := ih hev h'
    rw [← List.drop_append_of_le_length (by simp; omega)] at hu
    exact upto_quiet h hu
  | @event s s1 s2 b n l ev evs h hn hq ht ih =>
    have hu := ih (fun ev he => hev ev (List.mem_cons_of_mem _ he)) h'
    rw [← List.drop_append_of_le_length (by simp; omega)] at hu
    have h0 := hev ev List.mem_cons_self
    exact upto_event h hq h0.1 h0.2 hu

/-- The run stops at the event. -/
theorem upto_found {P : Decoded → Bool} {s s' : SD C} {b : UInt8} {n : Nat} {l : List UInt8} {ev : Decoded}
    (h : nextState s [b] .none = (s', .ok (n, ev))) (hq : ∀ x, ¬ Quiet ev x)
    (hP : P ev = true ∨ ev = .blockStart .trailer) :
    Upto P s (b :: l) [] (.event s' [] ev ((b :: l).drop n)) :=
  .stop (.event _ h hq) (fun _ _ _ _ he => by cases he; exact hP)

/-! ## Collected bytes -/

theorem ensure_collect (s : SD C) (b : UInt8) (required : Nat) (k : SD C → Nat → List UInt8 → StepResult C)
    (h : s.ibuf.length + 1 < required) (h9 : required ≤ 9) :
    ensureMin s [b] required k = ({ s with ibuf := s.ibuf ++ [b] }, .ok (1, .nothing)) := by
  unfold ensureMin
  rw [if_neg (by simp; omega), if_pos (by omega)]
  have hm : min [b].length (required - s.ibuf.length) = 1 := by simp; omega
  rw [hm, if_neg (by omega), if_pos (by omega)]
  rfl

theorem ensure_last (s : SD C) (b : UInt8) (required : Nat) (k : SD C → Nat → List UInt8 → StepResult C)
    (h : s.ibuf.length + 1 = required) (h1 : 1 < required) (h9 : required ≤ 9) :
    ensureMin s [b] required k = k { s with ibuf := [] } 1 (s.ibuf ++ [b]) := by
  unfold ensureMin
  rw [if_neg (by simp; omega), if_pos (by omega)]
  have hm : min [b].length (required - s.ibuf.length) = 1 := by simp; omega
  rw [hm, if_neg (by omega), if_neg (by omega)]
  rfl

theorem walk_collect {st : State} {required : Nat} {k : SD C → Nat → List UInt8 → StepResult C} (h9 : required ≤ 9)
    (hst : ∀ (s : SD C) (b : UInt8), s.state = st → nextState s [b] .none = ensureMin s [b] required k) :
    ∀ (x : List UInt8) (s : SD C), s.state = st → s.ibuf.length + x.length < required →
      Walk s x [] { s with ibuf := s.ibuf ++ x } := by
  intro x
  induction x with
  | nil => intro s h hl; rw [List.append_nil]; exact .refl s
  | cons b x ih =>
    intro s h hl
    rw [List.length_cons] at hl
    refine walk_quiet (by rw [hst s b h, ensure_collect s b required k (by omega) h9]) ?_
    have := ih { s with ibuf := s.ibuf ++ [b] } h (by simp; omega)
    rw [List.append_assoc] at this
    exact this

/-- The bytes of one collected item. -/
theorem walk_item {st : State} {required : Nat} {k : SD C → Nat → List UInt8 → StepResult C} (h9 : required ≤ 9)
    (h1 : 1 < required)
    (hst : ∀ (s : SD C) (b : UInt8), s.state = st → nextState s [b] .none = ensureMin s [b] required k)
    {x : List UInt8} {s s' : SD C} {ev : Decoded} (hs : s.state = st) (hi : s.ibuf = []) (hx : x.length = required)
    (hk : k { s with ibuf := [] } 1 x = (s', .ok (1, ev))) :
    (ev = .nothing → Walk s x [] s') ∧ ((∀ y, ¬ Quiet ev y) → Walk s x [ev] s') := by
  obtain ⟨y, b, rfl⟩ : ∃ y b, x = y ++ [b] :=
    ⟨x.dropLast, x.getLast (by intro h; subst h; simp at hx; omega), (List.dropLast_concat_getLast _).symm⟩
  rw [List.length_append, List.length_singleton] at hx
  have hc := walk_collect h9 hst y s hs (by rw [hi]; simp; omega)
  have hl := hst { s with ibuf := s.ibuf ++ y } b hs
  rw [ensure_last { s with ibuf := s.ibuf ++ y } b required k (by simp [hi]; omega) h1 h9] at hl
  rw [hi] at hl
  simp only [List.nil_append] at hl
  rw [hk] at hl
  have hc' : Walk s y [] { s with ibuf := y } := by rw [hi] at hc; exact hc
  constructor
  · rintro rfl
    exact walk_trans hc' (walk_one hl)
  · intro hq
    exact walk_trans hc' (walk_one_event hl hq)

/-! ## Header -/

theorem le16_eq (n : UInt16) : Spec.le16 n = [lo8 n, hi8 n] := rfl

theorem not_quiet {ev : Decoded} (h1 : ev ≠ .nothing) (h2 : ∀ x, ev ≠ .lzwDataCopied x) : ∀ y, ¬ Quiet ev y := by
  intro y hy
  cases hy with
  | nothing => exact h1 rfl
  | copied x => exact h2 _ rfl

theorem packed_global : ∀ (t : Bool) (m : Fin 16) (s : Fin 8),
    let fl : UInt8 := UInt8.ofNat ((if t then 128 else 0) + 8 * m.val + s.val)
    (decide (fl &&& 0x80 ≠ 0) = t) ∧ (fl &&& 7).toNat = s.val := by decide +kernel

theorem packed_local : ∀ (t i : Bool) (m : Fin 8) (s : Fin 8),
    let fl : UInt8 := UInt8.ofNat ((if t then 128 else 0) + (if i then 64 else 0) + 8 * m.val + s.val)
    (decide (fl &&& 0x80 ≠ 0) = t) ∧ (decide (fl &&& 0x40 ≠ 0) = i) ∧ (fl &&& 7).toNat = s.val := by decide +kernel

theorem file_packed (g : Spec.File) (h : g.Ok) :
    (g.packed &&& 0x80 ≠ 0 ↔ g.table.isSome) ∧ tableSize g.packed = 3 * 2 ^ (g.size + 1) := by
  have := packed_global g.table.isSome ⟨g.misc, h.1⟩ ⟨g.size, h.2.1⟩
  simp only at this
  constructor
  · rw [← this.1]; simp [Spec.File.packed]
  · unfold tableSize Spec.File.packed; rw [this.2]

theorem image_packed (i : Spec.Image) (h : i.Ok) :
    (i.packed &&& 0x80 ≠ 0 ↔ i.table.isSome) ∧ decide (i.packed &&& 0b01000000 ≠ 0) = i.interlaced ∧
      tableSize i.packed = 3 * 2 ^ (i.size + 1) := by
  have := packed_local i.table.isSome i.interlaced ⟨i.misc, h.1⟩ ⟨i.size, h.2.1⟩
  simp only at this
  refine ⟨?_, ?_, ?_⟩
  · rw [← this.1]; simp [Spec.Image.packed]
  · exact this.2.1
  · unfold tableSize Spec.Image.packed; rw [this.2.2]

/-- The bytes of the global palette. -/
theorem walk_gct : ∀ (x : List UInt8) (s : SD C) (n : Nat), s.gct.length + x.length ≤ s.gctCap →
    Walk { s with state := .globalPalette (x.length + n) } x []
      { s with state := .globalPalette n, gct := s.gct ++ x } := by
  intro x
  induction x with
  | nil => intro s n h; simp only [List.append_nil, List.length_nil, Nat.zero_add]; exact .refl _
  | cons b x ih =>
    intro s n h
    rw [List.length_cons] at h
    have := ih { s with gct := s.gct ++ [b] } n (by simp only [List.length_append, List.length_singleton]; omega)
    refine walk_quiet ?_ (by rw [List.append_assoc] at this; exact this)
    show onGlobalPalette _ (x.length + 1 + n) b [b] = _
    unfold onGlobalPalette
    rw [if_pos (by omega)]
    have hm : min (x.length + 1 + n) [b].length = 1 := by simp; omega
    simp only [hm]
    rw [if_pos (by omega)]
    simp only [goto, List.take_one, List.head?_cons, Option.toList]
    congr 3
    omega

/-- Header and screen descriptor, up to the palette. -/
theorem walk_head (o : DecodeOptions) (g : Spec.File) (hg : g.Ok) :
    ∃ v cap, Walk (withOptions C o) g.renderHead [.backgroundColor g.background]
      { withOptions C o with
        state := .globalPalette 0, version := v, width := g.width, height := g.height
        gct := g.table.getD [], gctCap := cap } := by
  -- magic
  have h1 : ∃ v, Walk (withOptions C o) [0x47, 0x49, 0x46, 0x38, if g.v89 then 0x39 else 0x37, 0x61] []
      { withOptions C o with state := .screenDescriptor, version := v } := by
    refine ⟨if g.v89 then .v89a else .v87a, ?_⟩
    refine (walk_item (st := .magic) (required := 6) (k := onMagic) (by omega) (by omega) ?_ rfl rfl rfl ?_).1 rfl
    · intro s b hs
      simp only [nextState, hs]
    · cases g.v89 <;> rfl
  obtain ⟨v, h1⟩ := h1
  obtain ⟨p1, p2⟩ := file_packed g hg
  have h2 : Walk { withOptions C o with state := .screenDescriptor, version := v }
      (Spec.le16 g.width ++ Spec.le16 g.height ++ [g.packed, g.background, g.aspect]) [.backgroundColor g.background]
      { withOptions C o with
        state := .globalPalette (g.table.getD []).length, version := v, width := g.width, height := g.height
        gctCap := if g.table.isSome then tableSize g.packed else 0 } := by
    refine (walk_item (st := .screenDescriptor) (required := 7) (k := onScreenDescriptor) (by omega) (by omega) ?_ rfl rfl
      rfl ?_).2 (not_quiet (by simp) (by simp))
    · intro s b hs
      simp only [nextState, hs]
    · show onScreenDescriptor _ 1 [lo8 g.width, hi8 g.width, lo8 g.height, hi8 g.height, _, _, _] = _
      simp only [onScreenDescriptor, u16le_leBytes]
      by_cases ht : g.table.isSome
      · rw [if_pos (p1.2 ht), if_pos ht]
        obtain ⟨t, ht'⟩ := Option.isSome_iff_exists.mp ht
        have hl := hg.2.2.1 t ht'
        simp only [goto, p2, ht', Option.getD_some, hl, withOptions, List.length_nil, Nat.zero_add, Nat.zero_max]
      · have hn : ¬ (g.packed &&& 0x80 ≠ 0) := fun h => ht (p1.1 h)
        rw [if_neg hn, if_neg ht]
        simp only [Option.not_isSome_iff_eq_none] at ht
        simp only [goto, ht, Option.getD_none, List.length_nil, withOptions]
  have h3 := walk_gct (g.table.getD []) { withOptions C o with
        state := .globalPalette 0, version := v, width := g.width, height := g.height
        gctCap := if g.table.isSome then tableSize g.packed else 0 } 0 (by
    cases ht : g.table with
    | none => simp [withOptions]
    | some t => simp [withOptions, p2, hg.2.2.1 t ht])
  refine ⟨v, if g.table.isSome then tableSize g.packed else 0, ?_⟩
  unfold Spec.File.renderHead
  have := walk_trans (walk_trans h1 h2) h3
  simp only [List.append_assoc, List.append_nil, List.nil_append] at this ⊢
  exact this

/-! ## Extensions -/

theorem sizeOk_le {m : MemoryLimit} {a b : Nat} (h : m.sizeOk b = true) (hab : a ≤ b) : m.sizeOk a = true := by
  cases m with
  | unlimited => rfl
  | bytes l hl => simp only [MemoryLimit.sizeOk, decide_eq_true_eq] at h ⊢; omega

/-- The bytes of a sub-block of an extension. -/
theorem walk_ext_bytes : ∀ (x : List UInt8) (s : SD C) (n : Nat),
    s.memoryLimit.sizeOk (s.extData.length + x.length) = true →
    Walk { s with state := .extensionDataBlock (x.length + n) } x []
      { s with state := .extensionDataBlock n, extData := s.extData ++ x } := by
  intro x
  induction x with
  | nil => intro s n h; simp only [List.append_nil, List.length_nil, Nat.zero_add]; exact .refl _
  | cons b x ih =>
    intro s n h
    rw [List.length_cons] at h
    have := ih { s with extData := s.extData ++ [b] } n (by
      refine sizeOk_le h ?_
      simp only [List.length_append, List.length_singleton]; omega)
    refine walk_quiet ?_ (by rw [List.append_assoc] at this; exact this)
    show onExtensionDataBlock _ (x.length + 1 + n) b [b] = _
    unfold onExtensionDataBlock
    rw [if_pos (by omega)]
    have hm : min (x.length + 1 + n) [b].length = 1 := by simp; omega
    simp only [hm]
    rw [if_pos (sizeOk_le h (by omega))]
    simp only [goto, List.take_one, List.head?_cons, Option.toList]
    congr 3
    omega

theorem ofNat_toNat_of_le {n : Nat} (h : n ≤ 255) : (UInt8.ofNat n).toNat = n := by
  rw [UInt8.toNat_ofNat']; omega

theorem ofNat_ne_zero {n : Nat} (h : 1 ≤ n) (h' : n ≤ 255) : UInt8.ofNat n ≠ 0 := by
  intro he
  have := congrArg UInt8.toNat he
  rw [ofNat_toNat_of_le h'] at this
  have h0 : (0 : UInt8).toNat = 0 := rfl
  omega

/-- The sub-blocks of an extension after the first, without the terminator. -/
theorem walk_ext_subs (label : UInt8) : ∀ (subs : List (List UInt8)) (s : SD C), Spec.SubsOk subs → s.extId = label →
    s.memoryLimit.sizeOk (s.extData.length + subs.flatten.length) = true →
    ∃ e, Walk { s with state := .extensionDataBlock 0 } (subs.flatMap fun b => UInt8.ofNat b.length :: b)
      (List.replicate subs.length (.subBlockFinished label))
      { s with state := .extensionDataBlock 0, extData := s.extData ++ subs.flatten, extIsBlockEnd := e } := by
  intro subs
  induction subs with
  | nil =>
    intro s h hid hm
    refine ⟨s.extIsBlockEnd, ?_⟩
    simp only [List.flatten_nil, List.append_nil]
    exact .refl _
  | cons x subs ih =>
    intro s h hid hm
    have hx := h x List.mem_cons_self
    have hs : Spec.SubsOk subs := fun y hy => h y (List.mem_cons_of_mem _ hy)
    rw [List.flatten_cons, List.length_append] at hm
    obtain ⟨e, h3⟩ := ih { s with extIsBlockEnd := false, extData := s.extData ++ x } hs hid (by
      refine sizeOk_le hm ?_
      simp only [List.length_append]; omega)
    have h2 := walk_ext_bytes x { s with extIsBlockEnd := false } 0 (sizeOk_le hm (by simp only; omega))
    refine ⟨e, ?_⟩
    rw [List.flatMap_cons, List.length_cons, List.replicate_succ, List.flatten_cons, ← List.append_assoc, List.cons_append]
    refine walk_event ?_ (not_quiet (by simp) (by simp)) (walk_trans h2 h3)
    show onExtensionDataBlock _ 0 _ [_] = _
    unfold onExtensionDataBlock
    rw [if_neg (by omega), if_neg (ofNat_ne_zero hx.1 hx.2), ofNat_toNat_of_le hx.2]
    simp only [goto, hid, Nat.add_zero]

/-- The events of a complete extension. -/
def extEvents (label : UInt8) (n : Nat) : List Decoded :=
  .blockStart .extension :: List.replicate n (.subBlockFinished label) ++ [.blockFinished label]

/-- An extension up to its terminator. -/
theorem walk_ext_body (s : SD C) (label : UInt8) (x : List UInt8) (subs : List (List UInt8)) (hst : s.state = .blockStart 0x21)
    (hl : (Extension.fromU8 label).isSome) (h : Spec.SubsOk (x :: subs))
    (hm : s.memoryLimit.sizeOk (1 + (x :: subs).flatten.length) = true) :
    ∃ e, Walk s ([label] ++ (x :: subs).flatMap (fun b => UInt8.ofNat b.length :: b))
      (.blockStart .extension :: List.replicate subs.length (.subBlockFinished label))
      { s with
        state := .extensionDataBlock 0, extId := label, extIsBlockEnd := e
        extData := UInt8.ofNat x.length :: (x :: subs).flatten } := by
  have hx := h x List.mem_cons_self
  have hs : Spec.SubsOk subs := fun y hy => h y (List.mem_cons_of_mem _ hy)
  rw [List.flatten_cons, List.length_append] at hm
  have h1 := walk_ext_bytes x { s with extId := label, extData := [UInt8.ofNat x.length] } 0 (by
    refine sizeOk_le hm ?_
    simp only [List.length_singleton]; omega)
  obtain ⟨e, h2⟩ := walk_ext_subs label subs { s with extId := label, extData := UInt8.ofNat x.length :: x } hs rfl (by
    refine sizeOk_le hm ?_
    simp only [List.length_cons]; omega)
  refine ⟨e, ?_⟩
  rw [List.flatMap_cons, List.cons_append, List.nil_append, List.flatten_cons]
  refine walk_event (s' := { s with extId := label, extData := [], state := .extensionBlockStart }) ?_
    (not_quiet (by simp) (by simp)) ?_
  · simp only [nextState, hst]
    unfold onBlockStart
    rw [if_neg (by simp [Block.toU8])]
    have : Block.fromU8 0x21 = some .extension := rfl
    rw [this]
    have hn : (Extension.fromU8 label).isNone = false := by
      cases hx : Extension.fromU8 label with
      | none => rw [hx] at hl; simp at hl
      | some _ => rfl
    simp only [hn, goto]
    rfl
  · rw [List.cons_append]
    refine walk_quiet (s' := { s with
      extId := label, extData := [UInt8.ofNat x.length], state := .extensionDataBlock x.length }) ?_ ?_
    · simp only [nextState, goto, ofNat_toNat_of_le hx.2, List.nil_append]
    · have := walk_trans h1 h2
      simp only [List.nil_append] at this
      exact this

/-- The repetitions that an application extension sets. -/
def loopEvents (subs : List (List UInt8)) : List Decoded :=
  match Spec.netscape subs with
  | some l => [.repetitions (match l with
    | .finite n => .finite n
    | .infinite => .infinite)]
  | none => []

/-- The terminator of an application extension. -/
theorem walk_app_end (s : SD C) (b0 : UInt8) (subs : List (List UInt8)) (hst : s.state = .extensionDataBlock 0)
    (hid : s.extId = 0xFF) (hd : s.extData = b0 :: subs.flatten) :
    Walk s [0] (.blockFinished 0xFF :: loopEvents subs) { s with state := .blockEnd, extIsBlockEnd := true } := by
  cases s
  simp only at hst hid hd
  generalize hp : subs.flatten = p at hd
  subst hst hid hd
  refine walk_peek rfl (not_quiet (by simp) (by simp)) ?_
  · generalize hs1 : ({ state := State.applicationExtension, .. } : SD C) = s1
    have hd : s1.extData = b0 :: p := by rw [← hs1]
    have hstep : nextState s1 [0] .none = onApplicationExtension s1 0 := by rw [← hs1]; rfl
    unfold onApplicationExtension at hstep
    rw [if_neg (by simp)] at hstep
    simp only [hd, List.drop_succ_cons, List.drop_zero, List.length_cons] at hstep
    unfold loopEvents Spec.netscape
    rw [hp]
    simp only
    subst hs1
    by_cases hc : 14 ≤ p.length ∧ p.take 12 = [0x4E, 0x45, 0x54, 0x53, 0x43, 0x41, 0x50, 0x45, 0x32, 0x2E, 0x30, 0x01]
    · rw [if_pos ⟨by omega, hc.2⟩] at hstep
      obtain ⟨r0, r1, q, hq⟩ : ∃ r0 r1 q, p.drop 12 = r0 :: r1 :: q := by
        match hdr : p.drop 12 with
        | [] => have := congrArg List.length hdr; simp at this; omega
        | [_] => have := congrArg List.length hdr; simp at this; omega
        | r0 :: r1 :: q => exact ⟨r0, r1, q, rfl⟩
      have g0 : p.getD 12 0 = r0 := by
        have := congrArg (fun l => l[0]?) hq
        simp at this
        simp [List.getD, this]
      have g1 : p.getD 13 0 = r1 := by
        have := congrArg (fun l => l[1]?) hq
        simp at this
        simp [List.getD, this]
      rw [hq] at hstep
      simp only [List.take_succ_cons, List.take_zero] at hstep
      rw [if_pos hc, g0, g1]
      simp only
      have hr : (.repetitions (repeatOf r0 r1) : Decoded) =
          .repetitions (match (if UInt16.ofNat (r0.toNat + 256 * r1.toNat) = 0 then Spec.Loops.infinite
            else .finite (UInt16.ofNat (r0.toNat + 256 * r1.toNat))) with
            | .finite n => .finite n
            | .infinite => .infinite) := by
        unfold repeatOf u16le
        simp only
        split <;> simp_all
      rw [← hr]
      exact walk_one_event hstep (not_quiet (by simp) (by simp))
    · rw [if_neg (by rintro ⟨h1, h2⟩; exact hc ⟨by omega, h2⟩)] at hstep
      rw [if_neg hc]
      exact walk_one hstep

/-- The terminator of a comment or a plain text extension. -/
theorem walk_plain_end (s : SD C) (label : UInt8) (hst : s.state = .extensionDataBlock 0)
    (hid : s.extId = label) (hl : label = 0x01 ∨ label = 0xFE) :
    Walk s [0] [.blockFinished label] { s with state := .blockEnd, extIsBlockEnd := true } := by
  refine walk_one_event ?_ (not_quiet (by simp) (by simp))
  cases s
  simp only at hst hid
  subst hst hid
  rcases hl with rfl | rfl <;> rfl

/-- An extension other than graphic control. -/
theorem walk_ext (s : SD C) (label : UInt8) (subs : List (List UInt8)) (hst : s.state = .blockStart 0x21)
    (hok : (Spec.Blk.ext label subs).Ok) (hm : s.memoryLimit.sizeOk (1 + subs.flatten.length) = true) :
    ∃ b0, Walk s ([label] ++ Spec.renderSubs subs)
      (extEvents label (subs.length - 1) ++ if label = 0xFF then loopEvents subs else [])
      { s with state := .blockEnd, extId := label, extIsBlockEnd := true, extData := b0 :: subs.flatten } := by
  obtain ⟨hl, hne, hs⟩ := hok
  obtain ⟨x, subs, rfl⟩ : ∃ x l, subs = x :: l := by
    cases subs with
    | nil => exact absurd rfl hne
    | cons x l => exact ⟨x, l, rfl⟩
  obtain ⟨e, h1⟩ := walk_ext_body s label x subs hst (by rcases hl with rfl | rfl | rfl <;> rfl) hs hm
  refine ⟨UInt8.ofNat x.length, ?_⟩
  unfold Spec.renderSubs
  rw [← List.append_assoc]
  have h2 : Walk { s with
        state := .extensionDataBlock 0, extId := label, extIsBlockEnd := e
        extData := UInt8.ofNat x.length :: (x :: subs).flatten } [0]
      ([.blockFinished label] ++ if label = 0xFF then loopEvents (x :: subs) else [])
      { s with
        state := .blockEnd, extId := label, extIsBlockEnd := true
        extData := UInt8.ofNat x.length :: (x :: subs).flatten } := by
    by_cases hf : label = 0xFF
    · subst hf
      rw [if_pos rfl]
      exact walk_app_end _ _ (x :: subs) rfl rfl rfl
    · rw [if_neg hf]
      exact walk_plain_end _ label rfl rfl (by rcases hl with h | h | h; exact .inl h; exact .inr h; exact absurd h hf)
  have := walk_trans h1 h2
  rw [← List.append_assoc] at this
  exact this

/-! ## Graphic control -/

theorem control_flags (flags : UInt8) :
    decide (flags &&& 0b10 ≠ 0) = decide (flags.toNat / 2 % 2 = 1) ∧
    (match DisposalMethod.fromU8 ((flags &&& 0b11100) >>> 2) with
      | some m => m
      | none => .any) = Spec.disposalOf (match flags.toNat / 4 % 8 with
        | 1 => .keep
        | 2 => .background
        | 3 => .previous
        | _ => .unspecified) ∧
    (flags &&& 1 ≠ 0 ↔ flags.toNat % 2 = 1) := by
  have h : ∀ i : Fin 256,
      let flags : UInt8 := UInt8.ofNat i.val
      decide (flags &&& 0b10 ≠ 0) = decide (flags.toNat / 2 % 2 = 1) ∧
      (match DisposalMethod.fromU8 ((flags &&& 0b11100) >>> 2) with
        | some m => m
        | none => .any) = Spec.disposalOf (match flags.toNat / 4 % 8 with
          | 1 => .keep
          | 2 => .background
          | 3 => .previous
          | _ => .unspecified) ∧
      (flags &&& 1 ≠ 0 ↔ flags.toNat % 2 = 1) := by decide +kernel
  have := h ⟨flags.toNat, flags.toNat_lt⟩
  simp only [UInt8.ofNat_toNat] at this
  exact this

/-- What the decoder takes from a graphic control extension is what the extension says. -/
theorem control_graphic (f : Frame) (c : Spec.Control) (gr : Spec.Graphic) (hf : f = Spec.graphicFrame gr) :
    controlFrame f c.packed (lo8 c.delay) (hi8 c.delay) c.trns = Spec.graphicFrame c.graphic := by
  subst hf
  obtain ⟨h1, h2, h3⟩ := control_flags c.packed
  unfold controlFrame Spec.graphicFrame Spec.Control.graphic
  simp only [u16le_leBytes, h1, h2]
  congr 1
  by_cases h : c.packed.toNat % 2 = 1
  · rw [if_pos (h3.2 h), if_pos h]
  · rw [if_neg (fun h' => h (h3.1 h')), if_neg h]

theorem walk_control (s : SD C) (c : Spec.Control) (hst : s.state = .blockStart 0x21)
    (hm : s.memoryLimit.sizeOk 5 = true) (gr : Spec.Graphic) (hf : s.current.getD Frame.default = Spec.graphicFrame gr) :
    Walk s ([0xF9, 4, c.packed] ++ Spec.le16 c.delay ++ [c.trns, 0]) (extEvents 0xF9 0)
      { s with
        state := .blockEnd, extId := 0xF9, extIsBlockEnd := true, extData := [4, c.packed, lo8 c.delay, hi8 c.delay, c.trns]
        current := some (Spec.graphicFrame c.graphic) } := by
  obtain ⟨e, h1⟩ := walk_ext_body s 0xF9 [c.packed, lo8 c.delay, hi8 c.delay, c.trns] [] hst rfl
    (by intro b hb; simp only [List.mem_singleton] at hb; subst hb; simp) hm
  have h2 : Walk { s with
        state := .extensionDataBlock 0, extId := 0xF9, extIsBlockEnd := e
        extData := [4, c.packed, lo8 c.delay, hi8 c.delay, c.trns] } [0] [.blockFinished 0xF9]
      { s with
        state := .blockEnd, extId := 0xF9, extIsBlockEnd := true
        extData := [4, c.packed, lo8 c.delay, hi8 c.delay, c.trns]
        current := some (Spec.graphicFrame c.graphic) } := by
    refine walk_one_event ?_ (not_quiet (by simp) (by simp))
    rw [← control_graphic _ c gr hf]
    rfl
  have := walk_trans h1 h2
  exact this

/-! ## Images -/

/-- The bytes of a local palette. -/
theorem walk_lct : ∀ (x : List UInt8) (s : SD C) (n : Nat) (f : Frame) (pal : List UInt8), f.palette = some pal →
    pal.length + x.length ≤ s.palCap →
    Walk { s with state := .localPalette (x.length + n), current := some f } x []
      { s with state := .localPalette n, current := some { f with palette := some (pal ++ x) } } := by
  intro x
  induction x with
  | nil =>
    intro s n f pal hf h
    simp only [List.append_nil, List.length_nil, Nat.zero_add, ← hf]
    exact .refl _
  | cons b x ih =>
    intro s n f pal hf h
    rw [List.length_cons] at h
    have := ih s n { f with palette := some (pal ++ [b]) } (pal ++ [b]) rfl (by
      simp only [List.length_append, List.length_singleton]; omega)
    refine walk_quiet ?_ (by rw [List.append_assoc] at this; exact this)
    show onLocalPalette _ (x.length + 1 + n) b [b] = _
    unfold onLocalPalette
    rw [if_pos (by omega)]
    have hm : min (x.length + 1 + n) [b].length = 1 := by simp; omega
    simp only [hm, hf]
    rw [if_pos (by omega)]
    simp only [goto, List.take_one, List.head?_cons, Option.toList]
    congr 3
    omega

theorem checkedSubLt_iff (a b c : UInt16) : checkedSubLt a b c = true ↔ a.toNat < c.toNat + b.toNat := by
  unfold checkedSubLt
  split
  · rename_i h
    rw [decide_eq_true_eq, UInt16.lt_iff_toNat_lt, UInt16.toNat_sub_of_le _ _ h]
    have := UInt16.le_iff_toNat_le.mp h
    omega
  · rename_i h
    rw [UInt16.le_iff_toNat_le] at h
    simp only [true_iff]
    omega

/-- An image descriptor that is rejected. -/
def Rejected (s : SD C) (g : Spec.File) (i : Spec.Image) : Prop := s.checkFrameConsistency = true ∧ ¬ g.Contains i

/-- The ten bytes of an image descriptor, from the introducer. -/
def descriptor (i : Spec.Image) : List UInt8 :=
  Spec.le16 i.left ++ Spec.le16 i.top ++ Spec.le16 i.width ++ Spec.le16 i.height ++ [i.packed]

theorem onImage (s : SD C) (g : Spec.File) (i : Spec.Image) (hi : i.Ok) (gr : Spec.Graphic)
    (hf : s.current = some (Spec.graphicFrame gr)) (hw : s.width = g.width) (hh : s.height = g.height) :
    (Rejected s g i → ∃ s', onImageBlockStart s 1 (descriptor i) = (s', .fmtErr .frameOutOfBounds)) ∧
    (¬ Rejected s g i → ∃ cap, (i.table.getD []).length ≤ cap ∧ onImageBlockStart s 1 (descriptor i) =
      ({ s with
        state := .localPalette (i.table.getD []).length, palCap := cap
        current := some { Spec.headFrame (gr, i) with palette := i.table.map fun _ => [] } }, .ok (1, .nothing))) := by
  obtain ⟨p1, p2, p3⟩ := image_packed i hi
  have hd : descriptor i = [lo8 i.left, hi8 i.left, lo8 i.top, hi8 i.top, lo8 i.width, hi8 i.width, lo8 i.height,
    hi8 i.height, i.packed] := rfl
  rw [hd]
  simp only [onImageBlockStart, u16le_leBytes, hf, p2]
  have hrej : Rejected s g i ↔ (s.checkFrameConsistency = true ∧
      (checkedSubLt s.width i.width i.left = true ∨ checkedSubLt s.height i.height i.top = true)) := by
    unfold Rejected Spec.File.Contains
    rw [checkedSubLt_iff, checkedSubLt_iff, hw, hh]
    constructor
    · rintro ⟨h1, h2⟩; exact ⟨h1, by omega⟩
    · rintro ⟨h1, h2⟩; exact ⟨h1, by omega⟩
  constructor
  · intro h
    rw [if_pos (hrej.1 h)]
    exact ⟨_, rfl⟩
  · intro h
    rw [if_neg (fun h' => h (hrej.2 h'))]
    by_cases ht : i.table.isSome
    · rw [if_pos (p1.2 ht)]
      obtain ⟨t, ht'⟩ := Option.isSome_iff_exists.mp ht
      have hl := hi.2.2.1 t ht'
      refine ⟨max 0 (([] : List UInt8).length + 3 * 2 ^ (i.size + 1)), ?_, ?_⟩
      · simp [ht', hl]
      · simp only [goto, p3, ht', Option.getD_some, hl, Spec.headFrame, Spec.graphicFrame, Frame.default, Option.map_some]
        rfl
    · have hn : ¬ (i.packed &&& 0x80 ≠ 0) := fun h => ht (p1.1 h)
      rw [if_neg hn]
      simp only [Option.not_isSome_iff_eq_none] at ht
      refine ⟨s.palCap, ?_, ?_⟩
      · simp [ht]
      · simp only [goto, ht, Option.getD_none, List.length_nil, Spec.headFrame, Spec.graphicFrame, Frame.default,
          Option.map_none]

/-- The events at the start of an image. -/
def imageEvents (hdr : Bool) : List Decoded := (if hdr then [] else [.headerEnd]) ++ [.blockStart .image]

end SD

end Gif
