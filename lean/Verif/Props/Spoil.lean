import Verif.Props.Heading
import Verif.Spec.Spoil
/-!
# C101: the data of one image concern no other image
-/

namespace Gif.Loop

open Spec SD Draw Twofold Gif.Props Decoder

variable {C : Codec}

/-! ## Events depend on the bytes before them only -/

theorem tr_quiet_init {o : OutSpec} {b : UInt8} {bs : List UInt8} {s s' : SD C} {n : Nat} {ev : Decoded}
    (h : Tr o b bs s s' n ev) {m : UInt8} (hm : s'.state = .lzwInit m) : ev = .nothing := by
  cases h with
  | lctEnd => rfl
  | collect h0 => rfl
  | screen | imageHeader | gctData | lctData => exfalso; (repeat' split at hm) <;> cases hm
  | trailerLoop hs => rfl
  | _ => cases hm

theorem eval_not_init (hS : C.Safe) {m : Bool} {s s' : SD C} {acc a l rest : List UInt8} {ev : Decoded} {r : Res C} (h : Eval m s acc l r)
    (hr : r = .event s' a ev rest) (hw : WF s) {k : UInt8} : s'.state ≠ .lzwInit k := by
  induction h with
  | nil => cases hr
  | quiet h hq _ ih => exact ih hr (tr_wf hS hw (tr_of_nextState hw.ibuf h)).1
  | event _ h hq =>
    cases hr
    intro hx
    have := tr_quiet_init (tr_of_nextState hw.ibuf h) hx
    subst this
    exact hq _ .nothing
  | err => cases hr

/-- When an image is announced, the last two bytes are the code size and the length of the first sub-block. -/
theorem eval_meta (hS : C.Safe) {m : Bool} {s s' : SD C} {acc a l rest : List UInt8} {k : UInt8} {r : Res C} (h : Eval m s acc l r)
    (hr : r = .event s' a (.frameMetadata (.lzw k)) rest) (hw : WF s) :
    ∃ x b, l = x ++ b :: rest ∧ s'.state = .copySubBlock b.toNat ∧ (s.state = .lzwInit k ∧ x = [] ∨ ∃ x', x = x' ++ [k]) := by
  induction h with
  | nil => cases hr
  | @quiet s s1 acc l0 u b0 n ev0 r h hq ht ih =>
    have htr := tr_of_nextState hw.ibuf h
    obtain ⟨w1, -, w2⟩ := tr_wf hS hw htr
    obtain ⟨x, b, h1, h2, h3⟩ := ih hr w1
    match n, w2 with
    | 0, _ =>
      refine ⟨x, b, h1, h2, .inr ?_⟩
      rcases h3 with ⟨h3, -⟩ | h3
      · cases (tr_lzwInit htr h3).1
      · exact h3
    | 1, _ =>
      refine ⟨b0 :: x, b, by rw [List.cons_append, ← h1]; rfl, h2, .inr ?_⟩
      rcases h3 with ⟨h3, rfl⟩ | ⟨x', rfl⟩
      · obtain ⟨-, rfl⟩ := tr_lzwInit htr h3
        exact ⟨[], rfl⟩
      · exact ⟨b0 :: x', rfl⟩
    | n + 2, w2 => simp at w2
  | @event s s1 acc b n ev l h hq =>
    cases hr
    have htr := tr_of_nextState hw.ibuf h
    generalize hev : Decoded.frameMetadata (.lzw k) = ev at htr
    cases htr <;> first
      | (cases hev; done)
      | (split at hev <;> cases hev; done)
      | skip
    rename_i hs _ _
    cases hev
    exact ⟨[], b, rfl, rfl, .inl ⟨hs, rfl⟩⟩
  | err => cases hr

theorem eval_cut (hS : C.Safe) {m : Bool} {s : SD C} {acc l : List UInt8} {r : Res C} (h : Eval m s acc l r) :
    ∀ {x y z a : List UInt8} {s' : SD C} {ev : Decoded}, l = x ++ y → r = .event s' a ev (z ++ y) → WF s →
    (z ≠ [] ∨ ∃ k, ev = .frameMetadata (.lzw k)) → Eval m s acc x (.event s' a ev z) := by
  have short : ∀ {s : SD C} {acc y z a : List UInt8} {s' : SD C} {ev : Decoded}, Eval m s acc y (.event s' a ev (z ++ y)) → WF s →
      (z ≠ [] ∨ ∃ k, ev = .frameMetadata (.lzw k)) → False := by
    intro s acc y z a s' ev h hw hz
    have hl := (eval_suffix h rfl).length_le
    rw [List.length_append] at hl
    rcases hz with hz | ⟨k, rfl⟩
    · have := List.length_pos_iff.2 hz
      omega
    · obtain ⟨x, b, h1, -⟩ := eval_meta hS h rfl hw
      have := congrArg List.length h1
      simp only [List.length_append, List.length_cons] at this
      omega
  induction h with
  | nil => intro x y z a s' ev _ hr; cases hr
  | @quiet s s1 acc l0 u b n ev0 r h hq ht ih =>
    intro x y z a s' ev hl hr hw hz
    have htr := tr_of_nextState hw.ibuf h
    obtain ⟨w1, -, w2⟩ := tr_wf hS hw htr
    cases x with
    | nil =>
      subst hr
      rw [List.nil_append] at hl
      subst hl
      exact (short (.quiet h hq ht) hw hz).elim
    | cons b' x =>
      rw [List.cons_append, List.cons.injEq] at hl
      obtain ⟨rfl, rfl⟩ := hl
      refine .quiet h hq (ih ?_ hr w1 hz)
      match n, w2 with
      | 0, _ => rfl
      | 1, _ => rfl
      | n + 2, w2 => simp at w2
  | @event s s1 acc b n ev l h hq =>
    intro x y z a s' ev' hl hr hw hz
    have htr := tr_of_nextState hw.ibuf h
    obtain ⟨w1, -, w2⟩ := tr_wf hS hw htr
    cases x with
    | nil =>
      have he : Eval m s acc (b :: l) (.event s1 acc ev ((b :: l).drop n)) := .event l h hq
      rw [hr] at he
      rw [List.nil_append] at hl
      rw [hl] at he
      exact (short he hw hz).elim
    | cons b' x =>
      rw [List.cons_append, List.cons.injEq] at hl
      obtain ⟨rfl, rfl⟩ := hl
      have hd : (b :: (x ++ y)).drop n = (b :: x).drop n ++ y := by
        match n, w2 with
        | 0, _ => rfl
        | 1, _ => rfl
        | n + 2, w2 => simp at w2
      rw [hd] at hr
      simp only [Res.event.injEq] at hr
      obtain ⟨rfl, rfl, rfl, hr⟩ := hr
      rw [← List.append_cancel_right hr]
      exact .event x h hq
  | err => intro x y z a s' ev _ hr; cases hr

theorem blocks_cut : ∀ (x : List UInt8) {y z d : List UInt8} (n : Nat), blocks n (x ++ y) = (d, some (z ++ y)) →
    blocks n x = (d, some z) := by
  intro x
  induction x with
  | nil =>
    intro y z d n h
    have := (blocks_sub y n).2.2
    rw [List.nil_append] at h
    rw [h] at this
    have := (this _ rfl).2
    rw [List.length_append] at this
    omega
  | cons b x ih =>
    intro y z d n h
    match n with
    | 0 =>
      rw [List.cons_append] at h
      by_cases hb : b = 0
      · subst hb
        rw [blocks_end] at h ⊢
        simp only [Prod.mk.injEq, Option.some.injEq] at h
        rw [h.1, List.append_cancel_right h.2]
      · rw [blocks_next hb] at h ⊢
        exact ih _ h
    | n + 1 =>
      rw [List.cons_append, blocks] at h
      simp only [Prod.mk.injEq] at h
      have := ih n (d := (blocks n (x ++ y)).1) (by rw [← h.2])
      rw [blocks, this, ← h.1]

/-- The item ends where all its bytes are. -/
def closed (i : Item) : Prop := isStart i = true ∨ i.1 = .dataEnd

theorem leap_swap (hS : C.Safe) {a a' : SD C} {l l' x y z : List UInt8} {m m' : UInt8} {i : Item} (h : Leap a l m i a' l' m') (hw : WF a)
    (hk : a.skipFrameDecoding = true) (hl : l = x ++ y) (hl' : l' = z ++ y) (hz : z ≠ [] ∨ closed i) (y2 : List UInt8) :
    Leap a (x ++ y2) m i a' (z ++ y2) m' := by
  subst hl hl'
  have app : ∀ {ev : Decoded}, Eval false a [] x (.event a' [] ev z) → Eval false a [] (x ++ y2) (.event a' [] ev (z ++ y2)) :=
    fun he => eval_append hS he hw y2 (by intro _ _ h; cases h)
  cases h with
  | out _ ho h hev =>
    refine .out _ ho (app (eval_cut hS h rfl rfl hw (hz.imp_right fun hc => ?_))) hev
    rcases hc with hc | hc
    · simp only [isStart] at hc
      rename_i ev
      cases ev <;> first | (cases hc; done) | skip
      exact absurd rfl (hev _)
    · obtain ⟨h1, -, h2 | ⟨_, _, rfl, _⟩⟩ := eval_skip hS h rfl hw ho hk
      · exact absurd hc h2.2.1
      · exact absurd rfl (hev _)
  | start _ ho h => exact .start _ ho (app (eval_cut hS h rfl rfl hw (.inr ⟨_, rfl⟩)))
  | data _ hs hb => exact .data _ hs (blocks_more_some _ _ y2 (blocks_cut _ _ hb))

theorem leap_less (hS : C.Safe) {a a' : SD C} {l l' : List UInt8} {m m' : UInt8} {i : Item} (h : Leap a l m i a' l' m') (hw : WF a)
    (hk : a.skipFrameDecoding = true) (hc : closed i) : l'.length < l.length := by
  obtain ⟨-, -, -, h4, -⟩ := leap_takes hS h hw hk
  rcases hc with hc | hc
  · cases h with
    | out _ ho h hev =>
      simp only [isStart] at hc
      rename_i ev
      cases ev <;> first | (cases hc; done) | skip
      exact absurd rfl (hev _)
    | start _ ho h =>
      obtain ⟨x, b, h1, -⟩ := eval_meta hS h rfl hw
      have := congrArg List.length h1
      simp only [List.length_append, List.length_cons] at this
      omega
    | data => cases hc
  · have := (h4 hc).2
    omega

theorem leaps_less (hS : C.Safe) {a a' : SD C} {l l' : List UInt8} {m m' : UInt8} {is : List Item} (h : Leaps a l m is a' l' m') (hw : WF a)
    (hk : a.skipFrameDecoding = true) (hc : ∃ i ∈ is, closed i) : l'.length < l.length := by
  induction h with
  | nil => obtain ⟨_, h, _⟩ := hc; cases h
  | cons h ht ih =>
    obtain ⟨h1, h2, h3, -⟩ := leap_takes hS h hw hk
    obtain ⟨i, hi, hci⟩ := hc
    rcases List.mem_cons.1 hi with rfl | hi
    · have := leap_less hS h hw hk hci
      have := (leaps_take hS ht h1 h2).1.length_le
      omega
    · have := ih h1 h2 ⟨i, hi, hci⟩
      have := h3.length_le
      omega

theorem leaps_take_wf (hS : C.Safe) {a a' : SD C} {l l' : List UInt8} {m m' : UInt8} {is : List Item} (h : Leaps a l m is a' l' m') (hw : WF a)
    (hk : a.skipFrameDecoding = true) : WF a' ∧ a'.skipFrameDecoding = true ∧ l' <:+ l := by
  induction h with
  | nil => exact ⟨hw, hk, List.suffix_refl _⟩
  | cons h ht ih =>
    obtain ⟨h1, h2, h3, -⟩ := leap_takes hS h hw hk
    obtain ⟨i1, i2, i3⟩ := ih h1 h2
    exact ⟨i1, i2, i3.trans h3⟩

/-- What comes after the last of them makes no difference. -/
theorem leaps_swap (hS : C.Safe) {a a' : SD C} {l l' : List UInt8} {m m' : UInt8} {is : List Item} (h : Leaps a l m is a' l' m') :
    ∀ {x z y : List UInt8}, WF a → a.skipFrameDecoding = true → l = x ++ y → l' = z ++ y → (∀ i, is.getLast? = some i → z ≠ [] ∨ closed i) →
    ∀ y2, Leaps a (x ++ y2) m is a' (z ++ y2) m' := by
  induction h with
  | nil a l m =>
    intro x z y _ _ hl hl' _ y2
    rw [hl] at hl'
    rw [List.append_cancel_right hl']
    exact .nil _ _ _
  | @cons a a1 a' l l1 l' m m1 m' i is h ht ih =>
    intro x z y hw hk hl hl' hc y2
    obtain ⟨h1, h2, h3, -⟩ := leap_takes hS h hw hk
    obtain ⟨w, hw'⟩ := (leaps_take hS ht h1 h2).1
    rw [hl', ← List.append_assoc] at hw'
    refine .cons (leap_swap hS h hw hk hl hw'.symm ?_ y2) (ih h1 h2 hw'.symm hl' ?_ y2)
    · cases is with
      | nil =>
        cases ht
        rcases hc i rfl with hz | hz
        · refine .inl ?_
          intro hx
          exact hz (List.append_eq_nil_iff.1 hx).2
        · exact .inr hz
      | cons j js =>
        refine .inl ?_
        intro hx
        obtain ⟨rfl, rfl⟩ := List.append_eq_nil_iff.1 hx
        have hlast : ∃ q, (j :: js).getLast? = some q := ⟨_, List.getLast?_cons⟩
        obtain ⟨q, hq⟩ := hlast
        rcases hc q (by rw [List.getLast?_cons_cons]; exact hq) with h | h
        · exact h rfl
        · have := leaps_less hS ht h1 h2 ⟨q, List.mem_of_getLast? hq, h⟩
          rw [← hw', hl'] at this
          simp at this
    · intro q hq
      refine hc q ?_
      cases is with
      | nil => cases hq
      | cons j js => rw [List.getLast?_cons_cons]; exact hq

theorem leaps_not_init (hS : C.Safe) {a a' : SD C} {l l' : List UInt8} {m m' : UInt8} {is : List Item} (h : Leaps a l m is a' l' m') (hw : WF a)
    (hk : a.skipFrameDecoding = true) (ha : ∀ k, a.state ≠ .lzwInit k) (k : UInt8) : a'.state ≠ .lzwInit k := by
  induction h with
  | nil => exact ha k
  | cons h ht ih =>
    obtain ⟨h1, h2, -⟩ := leap_takes hS h hw hk
    refine ih h1 h2 fun k => ?_
    cases h with
    | out _ _ h => exact eval_not_init hS h rfl hw
    | start _ _ h => exact eval_not_init hS h rfl hw
    | data => intro h; cases h

theorem leaps_split {a' : SD C} {l' : List UInt8} {m' : UInt8} (xs : List Item) : ∀ {a : SD C} {l : List UInt8} {m : UInt8} {ys : List Item},
    Leaps a l m (xs ++ ys) a' l' m' → ∃ a1 l1 m1, Leaps a l m xs a1 l1 m1 ∧ Leaps a1 l1 m1 ys a' l' m' := by
  induction xs with
  | nil => exact fun h => ⟨_, _, _, .nil _ _ _, h⟩
  | cons x xs ih =>
    intro a l m ys h
    cases h with
    | cons h ht =>
      obtain ⟨a1, l1, m1, h1, h2⟩ := ih ht
      exact ⟨a1, l1, m1, .cons h h1, h2⟩

theorem leaps_one {a a' : SD C} {l l' : List UInt8} {m m' : UInt8} {i : Item} (h : Leaps a l m [i] a' l' m') : Leap a l m i a' l' m' := by
  cases h with
  | cons h ht => cases ht; exact h

theorem leap_start {a a' : SD C} {l l' : List UInt8} {m m' : UInt8} {i : Item} (h : Leap a l m i a' l' m') (hi : isStart i = true) :
    ∃ k, i = (.frameMetadata (.lzw k), m, []) ∧ m' = k ∧ outside a.state = true ∧ Eval false a [] l (.event a' [] (.frameMetadata (.lzw k)) l') := by
  cases h with
  | out _ ho h hev =>
    simp only [isStart] at hi
    rename_i ev
    cases ev <;> first | (cases hi; done) | skip
    exact absurd rfl (hev _)
  | start _ ho h => exact ⟨_, rfl, rfl, ho, h⟩
  | data => cases hi

/-- A program that has just been told of an image: what it was told does not depend on what comes, and then sub-blocks come. -/
theorem told_image (K : C.Contract) {o : DecodeOptions} {pre q0 : List UInt8} {k n : UInt8} {cs : List UpdateCall} {c : UpdateCall}
    {t : FrameDataType} {s : SD C} (h : Drawing (SD.withOptions C o) (pre ++ k :: n :: q0) (cs ++ [c]) s q0) (hc : careful none (cs ++ [c]))
    (he : c.event = some (.frameMetadata t)) :
    ∃ U i a, (∀ q, Leaps (SD.withOptions C { o with skipFrameDecoding := true }) (pre ++ k :: n :: q) 0 (U ++ [i]) a q k) ∧ isStart i = true ∧
      Each (Shows K o) (U ++ [i]) (gist [] (cs ++ [c])) ∧ a.state = .copySubBlock n.toNat := by
  obtain ⟨hs, hg, hl⟩ := since_start K o (pre ++ k :: n :: q0)
  have hs' : Since K (LzwReader.new C o.checkForEndCode) (SD.withOptions C { o with skipFrameDecoding := true }) (pre ++ k :: n :: q0) 0 none
      (SD.withOptions C o) (pre ++ k :: n :: q0) [] := .out rfl rfl fun _ h => h
  obtain ⟨is, a, l0, m, acc, p1, p2, p3, p4, p5, p6, p7, p8, -⟩ := drawing_leaps K h (SD.wf_withOptions o) hl hg hs' hc
  obtain ⟨-, rfl⟩ := p8 c _ (by simp) he rfl
  obtain ⟨u, d, hu⟩ := gist_last cs [] he rfl
  rw [hu] at p2
  obtain ⟨U, i, rfl, hi⟩ := each_last p2
  rw [← hu] at p2
  have hst : isStart i = true := by rw [(shows_event hi).2]; rfl
  have w0 : WF (SD.withOptions C { o with skipFrameDecoding := true }) := SD.wf_withOptions _
  obtain ⟨a1, l1, m1, q1, q2⟩ := leaps_split U p1
  replace q2 := leaps_one q2
  obtain ⟨k', rfl, rfl, ho, hev⟩ := leap_start q2 hst
  obtain ⟨r1, r2, r3⟩ := leaps_take_wf K.safe q1 w0 rfl
  obtain ⟨x, b, y1, y2, y3⟩ := eval_meta K.safe hev rfl r1
  obtain ⟨w, hw⟩ := r3
  have hx : ∃ x', x = x' ++ [m] := by
    rcases y3 with ⟨y3, -⟩ | y3
    · exact absurd y3 (leaps_not_init K.safe q1 w0 rfl (fun k h => by cases h) m)
    · exact y3
  obtain ⟨x', rfl⟩ := hx
  have hcut : w ++ x' = pre ∧ [m, b] = [k, n] := by
    have : (w ++ x') ++ ([m, b] ++ l0) = pre ++ ([k, n] ++ l0) := by
      rw [show pre ++ ([k, n] ++ l0) = w ++ l1 from hw.symm, y1]
      simp
    rw [← List.append_assoc, ← List.append_assoc] at this
    exact List.append_inj' (List.append_cancel_right this) rfl
  obtain ⟨rfl, hkn⟩ := hcut
  cases hkn
  refine ⟨U, _, a, fun q => ?_, hst, p2, y2⟩
  have := leaps_swap K.safe p1 (x := (w ++ x') ++ [k, n]) (z := []) (y := l0) w0 rfl (by simp) rfl
    (fun j hj => .inr (by rw [List.getLast?_concat] at hj; cases hj; exact .inl hst)) q
  simpa using this

/-! ## The loop -/

/-- A program with these calls does not go on from here. -/
def Halts (K : C.Contract) (o : DecodeOptions) (a : SD C) (l0 : List UInt8) (m : UInt8) (r : Option DecodingError) : Prop :=
  (∀ {a' : SD C} {l' : List UInt8} {m' : UInt8} {i : Item} {j : Decoded × List UInt8}, Leap a l0 m i a' l' m' → Shows K o i j → False) ∧
    ∀ e, r = some e → FailKind K o a l0 m e

theorem drawing_halts (K : C.Contract) {o : DecodeOptions} {bytes l : List UInt8} {cs : List UpdateCall} {s : SD C} {r : Option DecodingError}
    (h : Drawing (SD.withOptions C o) bytes cs s l) (hc : careful none cs) (hf : Finished cs s l r) :
    ∃ is a l0 m, Leaps (SD.withOptions C { o with skipFrameDecoding := true }) bytes 0 is a l0 m ∧ Each (Shows K o) is (gist [] cs) ∧
      Halts K o a l0 m r := by
  obtain ⟨hs, hg, hl⟩ := since_start K o bytes
  have hs' : Since K (LzwReader.new C o.checkForEndCode) (SD.withOptions C { o with skipFrameDecoding := true }) bytes 0 none
      (SD.withOptions C o) bytes [] := .out rfl rfl fun _ h => h
  obtain ⟨is, a, l0, m, acc, p1, p2, p3, p4, p5, p6, p7, p8, -⟩ := drawing_leaps K h (SD.wf_withOptions o) hl hg hs' hc
  refine ⟨is, a, l0, m, p1, p2, fun h hj => finished_stops K hf p4 p5 p6 p3 p7 h hj, fun e he => ?_⟩
  subst he
  cases hf with
  | fails hne ho hu => exact call_fails_since K p4 p5 hne p6 p3 ho hu

theorem each_join {α β : Type} {R : α → β → Prop} {xs ys : List α} {u v : List β} (h1 : Each R xs u) (h2 : Each R ys v) :
    Each R (xs ++ ys) (u ++ v) := by
  induction h1 with
  | nil => exact h2
  | cons h _ ih => exact .cons h ih

/-- What must come before it halts. -/
theorem halts_after {K : C.Contract} {o : DecodeOptions} {a0 a a1 : SD C} {b l l1 : List UInt8} {m0 m m1 : UInt8} {U is : List Item}
    {g g1 : List (Decoded × List UInt8)} {r : Option DecodingError} (hU : Leaps a0 b m0 U a l m) (eU : Each (Shows K o) U g)
    (h : Leaps a0 b m0 is a1 l1 m1) (e : Each (Shows K o) is g1) (hh : Halts K o a1 l1 m1 r) :
    ∃ is' t, Leaps a l m is' a1 l1 m1 ∧ Each (Shows K o) is' t ∧ g1 = g ++ t := by
  rcases leaps_order hU h with ⟨is', rfl, hx⟩ | ⟨is', rfl, hx⟩
  · obtain ⟨t, rfl, he⟩ := each_append (R := Shows K o) (fun h h' => shows_det h h') eU e
    exact ⟨is', t, hx, he, rfl⟩
  · obtain ⟨t, rfl, he⟩ := each_append (R := Shows K o) (fun h h' => shows_det h h') e eU
    cases he with
    | nil => cases hx; exact ⟨[], [], .nil _ _ _, .nil, by simp⟩
    | cons hj _ =>
      cases hx with
      | cons hx _ => exact (hh.1 hx hj).elim

theorem halts_det {K : C.Contract} {o : DecodeOptions} {a a1 a2 : SD C} {l l1 l2 : List UInt8} {m m1 m2 : UInt8} {is1 is2 : List Item}
    {t1 t2 : List (Decoded × List UInt8)} {r1 r2 : Option DecodingError} (h1 : Leaps a l m is1 a1 l1 m1) (e1 : Each (Shows K o) is1 t1)
    (x1 : Halts K o a1 l1 m1 r1) (h2 : Leaps a l m is2 a2 l2 m2) (e2 : Each (Shows K o) is2 t2) (x2 : Halts K o a2 l2 m2 r2) :
    t1 = t2 ∧ ∀ y1 y2, r1 = some y1 → r2 = some y2 → y1 = y2 := by
  obtain ⟨js, t, j1, j2, rfl⟩ := halts_after h1 e1 h2 e2 x2
  cases j2 with
  | nil =>
    cases j1
    exact ⟨by simp, fun y1 y2 q1 q2 => failKind_det (x1.2 _ q1) (x2.2 _ q2)⟩
  | cons hj _ =>
    cases j1 with
    | cons hx _ => exact (x1.1 hx hj).elim

theorem opens_shows {K : C.Contract} {o : DecodeOptions} {k : UInt8} {d x : List UInt8} (h : Opens K o k d x) :
    Shows K o (.dataEnd, k, d) (.dataEnd, x) := by
  unfold Opens at h
  split at h
  · rename_i hk
    subst h
    exact .same _ _ (.inl hk)
  · rename_i hk
    obtain ⟨e, h1, h2, h3⟩ := h
    exact .data (by simpa using hk) h1 h2 h3

theorem leap_blocks {a : SD C} {k n : UInt8} {D d post : List UInt8} (ha : a.state = .copySubBlock n.toNat)
    (hb : blocks n.toNat D = (d, some [])) :
    Leap a (D ++ post) k (.dataEnd, k, d) { a with state := .blockEnd, current := none } post k :=
  .data _ ha (blocks_more_some _ _ post hb)

/-- **C101**. A program has been told of an image, and its data come: `k` was the code size and `n` the length of the first sub-block.
Two files differ in the data only, and both data can be decoded. When a loop is done with each file, it has been told the same of both,
but for the bytes of the image; and if it failed for both, then for the same reason. -/
theorem spoil_loop (K : C.Contract) {o : DecodeOptions} {pre D1 D2 post d1 d2 x1 x2 : List UInt8} {k n : UInt8} {cs : List UpdateCall}
    {c : UpdateCall} {t : FrameDataType} {s : SD C}
    (h : Drawing (SD.withOptions C o) (pre ++ k :: n :: (D1 ++ post)) (cs ++ [c]) s (D1 ++ post)) (hc : careful none (cs ++ [c]))
    (he : c.event = some (.frameMetadata t)) (b1 : blocks n.toNat D1 = (d1, some [])) (b2 : blocks n.toNat D2 = (d2, some []))
    (o1 : Opens K o k d1 x1) (o2 : Opens K o k d2 x2) {p q : Driver} (hp : p.Fit) (hq : q.Fit) {cs1 cs2 : List UpdateCall} {s1 s2 : SD C}
    {l1 l2 : List UInt8} {r1 r2 : Option DecodingError}
    (h1 : Drive C p o (pre ++ k :: n :: (D1 ++ post)) cs1 s1 l1) (e1 : DriveEnd p cs1 s1 l1 r1)
    (h2 : Drive C q o (pre ++ k :: n :: (D2 ++ post)) cs2 s2 l2) (e2 : DriveEnd q cs2 s2 l2 r2) :
    (∃ v, gist [] cs1 = gist [] (cs ++ [c]) ++ (.dataEnd, x1) :: v ∧ gist [] cs2 = gist [] (cs ++ [c]) ++ (.dataEnd, x2) :: v) ∧
      ∀ y1 y2, r1 = some y1 → r2 = some y2 → y1 = y2 := by
  obtain ⟨U, i, a, u1, -, u3, u4⟩ := told_image K h hc he
  obtain ⟨c1, c2, -⟩ := drive_drawing hp h1
  obtain ⟨f1, f2, -⟩ := drive_drawing hq h2
  obtain ⟨is1, a1, y1, m1, p1, p2, p3⟩ := drawing_halts K c1 c2 (end_finished hp e1)
  obtain ⟨is2, a2, y2, m2, q1, q2, q3⟩ := drawing_halts K f1 f2 (end_finished hq e2)
  obtain ⟨t1, v1, g1, g2, g3⟩ := halts_after (leaps_append (u1 _) (.cons (leap_blocks u4 b1) (.nil _ _ _)))
    (each_join u3 (.cons (opens_shows o1) .nil)) p1 p2 p3
  obtain ⟨t2, v2, j1, j2, j3⟩ := halts_after (leaps_append (u1 _) (.cons (leap_blocks u4 b2) (.nil _ _ _)))
    (each_join u3 (.cons (opens_shows o2) .nil)) q1 q2 q3
  obtain ⟨rfl, hr⟩ := halts_det g1 g2 p3 j1 j2 q3
  exact ⟨⟨v1, by rw [g3]; simp, by rw [j3]; simp⟩, hr⟩

/-- **C101**, when the data cannot be decoded: the loop is told everything up to the image and nothing more. -/
theorem spoil_stops (K : C.Contract) {o : DecodeOptions} {pre D1 D2 post d2 : List UInt8} {k n : UInt8} {cs : List UpdateCall}
    {c : UpdateCall} {t : FrameDataType} {s : SD C}
    (h : Drawing (SD.withOptions C o) (pre ++ k :: n :: (D1 ++ post)) (cs ++ [c]) s (D1 ++ post)) (hc : careful none (cs ++ [c]))
    (he : c.event = some (.frameMetadata t)) (b2 : blocks n.toNat D2 = (d2, some [])) (o2 : ∀ x, ¬ Opens K o k d2 x) {q : Driver}
    (hq : q.Fit) {cs2 : List UpdateCall} {s2 : SD C} {l2 : List UInt8} {r2 : Option DecodingError}
    (h2 : Drive C q o (pre ++ k :: n :: (D2 ++ post)) cs2 s2 l2) (e2 : DriveEnd q cs2 s2 l2 r2) :
    gist [] cs2 = gist [] (cs ++ [c]) := by
  obtain ⟨U, i, a, u1, -, u3, u4⟩ := told_image K h hc he
  obtain ⟨f1, f2, -⟩ := drive_drawing hq h2
  obtain ⟨is2, a2, y2, m2, q1, q2, q3⟩ := drawing_halts K f1 f2 (end_finished hq e2)
  obtain ⟨t2, v2, j1, j2, j3⟩ := halts_after (u1 _) u3 q1 q2 q3
  cases j2 with
  | nil => rw [j3, List.append_nil]
  | @cons x y xs ys hj _ =>
    cases j1 with
    | cons hx _ =>
      obtain ⟨rfl, -⟩ := leap_det hx (leap_blocks u4 b2)
      exfalso
      generalize hi : ((Decoded.dataEnd, k, d2) : Item) = i at hj
      cases hj with
      | same m d hk =>
        cases hi
        rcases hk with hk | hk
        · exact o2 d2 (by unfold Opens; rw [if_pos hk])
        · exact hk.2 rfl
      | start => cases hi
      | data hk hy he hc =>
        cases hi
        exact o2 _ (by unfold Opens; rw [if_neg (by simp [hk])]; exact ⟨_, hy, he, hc⟩)

/-! ## `Decoder` -/

theorem reads_det {s : SD C} {l : List UInt8} {m : UInt8} {j : Nat} {f g : Frame} (h : Reads s l m j f) (h' : Reads s l m j g) :
    bare f = bare g ∧ f.buffer = g.buffer := by
  obtain ⟨is, k, dd, a1, l1, m1, a2, l2, a3, l3, e1, e2, e3, e4, e5, e6, e7⟩ := h
  obtain ⟨is', k', dd', a1', l1', m1', a2', l2', a3', l3', e1', e2', e3', e4', e5', e6', e7'⟩ := h'
  have p : Leaps s l m (is ++ [(.frameMetadata (.lzw k), m1, [])]) a2 l2 k := leaps_append e1 (.cons e4 (.nil _ _ _))
  have p' : Leaps s l m (is' ++ [(.frameMetadata (.lzw k'), m1', [])]) a2' l2' k' := leaps_append e1' (.cons e4' (.nil _ _ _))
  have fin : ∀ {t}, Leaps a2 l2 k t a2' l2' k' → t = [] → bare f = bare g ∧ f.buffer = g.buffer := by
    intro t ht h0
    subst h0
    cases ht
    rw [e5] at e5'
    obtain ⟨h1, -⟩ := leap_det e6 e6'
    cases h1
    exact ⟨Option.some.inj e5', e7.trans e7'.symm⟩
  have fin' : ∀ {t}, Leaps a2' l2' k' t a2 l2 k → t = [] → bare f = bare g ∧ f.buffer = g.buffer := by
    intro t ht h0
    subst h0
    cases ht
    rw [e5] at e5'
    obtain ⟨h1, -⟩ := leap_det e6 e6'
    cases h1
    exact ⟨Option.some.inj e5', e7.trans e7'.symm⟩
  rcases leaps_order p p' with ⟨t, ht, hx⟩ | ⟨t, ht, hx⟩
  · exact fin hx (last_start ht rfl (Nat.le_of_eq (e3'.trans e3.symm)) rfl)
  · exact fin' hx (last_start ht rfl (Nat.le_of_eq (e3.trans e3'.symm)) rfl)

theorem reads_spoil (hS : C.Safe) {a0 a : SD C} {pre D1 D2 post d1 d2 : List UInt8} {k n : UInt8} {U : List Item} {i0 : Item} {i j : Nat}
    {f : Frame} (w0 : WF a0) (hk0 : a0.skipFrameDecoding = true)
    (hU : ∀ q, Leaps a0 (pre ++ k :: n :: q) 0 (U ++ [i0]) a q k) (hi0 : isStart i0 = true) (hi : starts U = i)
    (ha : a.state = .copySubBlock n.toNat) (b1 : blocks n.toNat D1 = (d1, some [])) (b2 : blocks n.toNat D2 = (d2, some []))
    (h : Reads a0 (pre ++ k :: n :: (D1 ++ post)) 0 j f) :
    (j ≠ i ∧ Reads a0 (pre ++ k :: n :: (D2 ++ post)) 0 j f) ∨
      (j = i ∧ f.buffer = k :: d1 ∧ Reads a0 (pre ++ k :: n :: (D2 ++ post)) 0 j { f with buffer := k :: d2 }) := by
  obtain ⟨is, k', dd, a1, l1, m1, a2, l2, a3, l3, e1, e2, e3, e4, e5, e6, e7⟩ := h
  have hs0 : ∀ m k : UInt8, starts [(.frameMetadata (.lzw k), m, [])] = 1 := fun _ _ => rfl
  have hsd : ∀ (k : UInt8) d, starts [(.dataEnd, k, d)] = 0 := fun _ _ => rfl
  have hsi : starts [i0] = 1 := by unfold starts; rw [List.countP_singleton, hi0]; rfl
  have pV : Leaps a0 (pre ++ k :: n :: (D1 ++ post)) 0 ((is ++ [(.frameMetadata (.lzw k'), m1, [])]) ++ [(.dataEnd, k', dd)]) a3 l3 k' :=
    leaps_append (leaps_append e1 (.cons e4 (.nil _ _ _))) (.cons e6 (.nil _ _ _))
  have pW : Leaps a0 (pre ++ k :: n :: (D1 ++ post)) 0 ((U ++ [i0]) ++ [(.dataEnd, k, d1)]) { a with state := .blockEnd, current := none } post k :=
    leaps_append (hU _) (.cons (leap_blocks ha b1) (.nil _ _ _))
  have notStart : ∀ {i : Item}, i.1 = .dataEnd → isStart i = true → False := by
    intro i h1 h2
    unfold isStart at h2
    rw [h1] at h2
    cases h2
  have hsame : (is ++ [(.frameMetadata (.lzw k'), m1, [])]) ++ [(.dataEnd, k', dd)] = (U ++ [i0]) ++ [(.dataEnd, k, d1)] →
      j = i ∧ f.buffer = k :: d1 ∧ Reads a0 (pre ++ k :: n :: (D2 ++ post)) 0 j { f with buffer := k :: d2 } := by
    intro hh
    obtain ⟨g1, g2⟩ := List.append_inj' hh rfl
    obtain ⟨rfl, g3⟩ := List.append_inj' g1 rfl
    cases g2
    cases g3
    obtain ⟨c1, c2, c3, x1, x2⟩ := leaps_split _ (hU (D2 ++ post))
    replace x2 := leaps_one x2
    obtain ⟨c4, c5, c6, y1, y2⟩ := leaps_split _ (hU (D1 ++ post))
    replace y2 := leaps_one y2
    have z1 : c4 = a1 ∧ c5 = l1 ∧ c6 = m1 := by
      rcases leaps_order y1 e1 with ⟨t, ht, hx⟩ | ⟨t, ht, hx⟩ <;>
      · have : t = [] := by simpa using ht
        subst this
        cases hx
        exact ⟨rfl, rfl, rfl⟩
    obtain ⟨rfl, rfl, rfl⟩ := z1
    obtain ⟨-, rfl, -⟩ := leap_det y2 e4
    obtain ⟨k2, q1, q2, q3, q4⟩ := leap_start x2 rfl
    have hm : c6 = c3 := by
      have := congrArg (·.2.1) q1
      exact this
    subst hm
    exact ⟨e3.symm.trans hi, e7, _, k, d2, c1, c2, c6, a, D2 ++ post, _, post, x1, e2, e3, x2, e5, leap_blocks ha b2, rfl⟩
  rcases leaps_order pV pW with ⟨t, ht, hx⟩ | ⟨t, ht, hx⟩
  · cases t.eq_nil_or_concat with
    | inl h0 => subst h0; exact .inr (hsame (by simpa using ht.symm))
    | inr h0 =>
      obtain ⟨t', z, rfl⟩ := h0
      rw [List.concat_eq_append, ← List.append_assoc] at ht
      obtain ⟨g1, g2⟩ := List.append_inj' ht rfl
      cases g2
      refine .inl ?_
      have hc : ∃ t'' , t' = t'' ++ [i0] := by
        cases t'.eq_nil_or_concat with
        | inl h0 =>
          subst h0
          rw [List.append_nil] at g1
          obtain ⟨-, g3⟩ := List.append_inj' g1 rfl
          cases g3
          exact (notStart rfl hi0).elim
        | inr h0 =>
          obtain ⟨t'', z, rfl⟩ := h0
          rw [List.concat_eq_append, ← List.append_assoc] at g1
          obtain ⟨-, g3⟩ := List.append_inj' g1 rfl
          cases g3
          exact ⟨t'', by simp⟩
      obtain ⟨t'', rfl⟩ := hc
      have hlt : j < i := by
        have := congrArg starts g1
        simp only [starts_append, hs0, hsd, hsi] at this
        omega
      have hU1 := hU (D1 ++ post)
      rw [g1] at hU1
      obtain ⟨c1, c2, c3, x1, x2⟩ := leaps_split _ hU1
      have z1 : c1 = a3 ∧ c2 = l3 ∧ c3 = k' := by
        rcases leaps_order x1 pV with ⟨t, ht, hx⟩ | ⟨t, ht, hx⟩ <;>
        · have : t = [] := by simpa using ht
          subst this
          cases hx
          exact ⟨rfl, rfl, rfl⟩
      obtain ⟨rfl, rfl, rfl⟩ := z1
      obtain ⟨r1, r2, r3⟩ := leaps_take_wf hS e1 w0 hk0
      obtain ⟨r4, r5, r6, -⟩ := leap_takes hS e4 r1 r2
      obtain ⟨r7, r8, r9, -⟩ := leap_takes hS e6 r4 r5
      obtain ⟨w3, v3⟩ := (leaps_take_wf hS x2 r7 r8).2.2
      obtain ⟨w2, v2⟩ := r9
      obtain ⟨w1, v1⟩ := r6
      have v2' : l2 = (w2 ++ w3) ++ (D1 ++ post) := by rw [← v2, ← v3]; simp
      have v1' : l1 = (w1 ++ (w2 ++ w3)) ++ (D1 ++ post) := by rw [← v1, v2']; simp
      have hne : w1 ++ (w2 ++ w3) ≠ [] := by
        intro h0
        have := leap_less hS e4 r1 r2 (.inl rfl)
        rw [v1', v2', h0] at this
        simp at this
        omega
      have s1 := leaps_swap hS e1 (x := pre ++ [k, n]) (y := D1 ++ post) w0 hk0 (by simp) v1' (fun _ _ => .inl hne) (D2 ++ post)
      rw [List.append_assoc] at s1
      exact ⟨Nat.ne_of_lt hlt, is, c3, dd, a1, _, m1, a2, _, c1, _, s1, e2, e3,
        leap_swap hS e4 r1 r2 v1' v2' (.inr (.inl rfl)) (D2 ++ post), e5,
        leap_swap hS e6 r4 r5 v2' v3.symm (.inr (.inr rfl)) (D2 ++ post), e7⟩
  · cases t.eq_nil_or_concat with
    | inl h0 => subst h0; exact .inr (hsame (by simpa using ht))
    | inr h0 =>
      obtain ⟨t', z, rfl⟩ := h0
      rw [List.concat_eq_append, ← List.append_assoc] at ht
      obtain ⟨g1, g2⟩ := List.append_inj' ht rfl
      cases g2
      refine .inl ?_
      have hc : ∃ t'' , is = ((U ++ [i0]) ++ [(.dataEnd, k, d1)]) ++ t'' := by
        cases t'.eq_nil_or_concat with
        | inl h0 =>
          subst h0
          rw [List.append_nil] at g1
          obtain ⟨-, g3⟩ := List.append_inj' g1 rfl
          cases g3
        | inr h0 =>
          obtain ⟨t'', z, rfl⟩ := h0
          rw [List.concat_eq_append, ← List.append_assoc] at g1
          obtain ⟨g3, -⟩ := List.append_inj' g1 rfl
          exact ⟨t'', g3⟩
      obtain ⟨t'', rfl⟩ := hc
      obtain ⟨c1, c2, c3, x1, x2⟩ := leaps_split _ e1
      have z1 : c1 = { a with state := .blockEnd, current := none } ∧ c2 = post ∧ c3 = k := by
        rcases leaps_order x1 pW with ⟨t, ht, hx⟩ | ⟨t, ht, hx⟩ <;>
        · have : t = [] := by simpa using ht
          subst this
          cases hx
          exact ⟨rfl, rfl, rfl⟩
      obtain ⟨rfl, rfl, rfl⟩ := z1
      have e3' := e3
      simp only [starts_append, hsd, hsi] at e3'
      refine ⟨by omega, ((U ++ [i0]) ++ [(.dataEnd, c3, d2)]) ++ t'', k', dd, a1, l1, m1, a2, l2, a3, l3,
        leaps_append (leaps_append (hU _) (.cons (leap_blocks ha b2) (.nil _ _ _))) x2, ?_, ?_, e4, e5, e6, e7⟩
      · rw [← e2]
        simp only [ends_append, List.length_append]
        rfl
      · rw [← e3]
        simp only [starts_append]
        rfl

/-- **C101**, for `Decoder`. A program was told of image `i` (from 0) and its data come. `Decoder` reads both files, with
`skip_frame_decoding`. The frames that it returns for both are the same, but for the data of frame `i`. -/
theorem spoil_frames (K : C.Contract) {o : DecodeOptions} {pre D1 D2 post d1 d2 : List UInt8} {k n : UInt8} {cs : List UpdateCall}
    {c : UpdateCall} {t : FrameDataType} {s : SD C}
    (h : Drawing (SD.withOptions C o) (pre ++ k :: n :: (D1 ++ post)) (cs ++ [c]) s (D1 ++ post)) (hc : careful none (cs ++ [c]))
    (he : c.event = some (.frameMetadata t)) {i : Nat} (hi : announcedImages (gist [] (cs ++ [c])) = i + 1)
    (b1 : blocks n.toNat D1 = (d1, some [])) (b2 : blocks n.toNat D2 = (d2, some []))
    {r1 r2 : Reader} (hr1 : r1.Reliable) (hr2 : r2.Reliable) (y1 : r1.bytes = pre ++ k :: n :: (D1 ++ post))
    (y2 : r2.bytes = pre ++ k :: n :: (D2 ++ post)) {j m1 m2 : Nat} {f1 f2 : Frame} {v1 v2 : View}
    (hf1 : (Decoder.rawFilm C o r1 m1)[j + 1]? = some (.frame (some f1) v1))
    (hf2 : (Decoder.rawFilm C o r2 m2)[j + 1]? = some (.frame (some f2) v2)) :
    bare f1 = bare f2 ∧ (j ≠ i → f1.buffer = f2.buffer) ∧ (j = i → f1.buffer = k :: d1 ∧ f2.buffer = k :: d2) := by
  obtain ⟨U, i0, a, u1, u2, u3, u4⟩ := told_image K h hc he
  have hs := announced_shows u3
  rw [hi, starts_append] at hs
  have hsi : starts [i0] = 1 := by unfold starts; rw [List.countP_singleton, u2]; rfl
  have p1 := rawFilm_reads K.safe o hr1 hf1
  have p2 := rawFilm_reads K.safe o hr2 hf2
  rw [y1] at p1
  rw [y2] at p2
  rcases reads_spoil K.safe (SD.wf_withOptions _) rfl u1 u2 (i := i) (by omega) u4 b1 b2 p1 with ⟨q1, q2⟩ | ⟨q1, q2, q3⟩
  · obtain ⟨z1, z2⟩ := reads_det q2 p2
    exact ⟨z1, fun _ => z2, fun h => absurd h q1⟩
  · obtain ⟨z1, z2⟩ := reads_det q3 p2
    exact ⟨z1, fun h => absurd q1 h, fun _ => ⟨q2, z2.symm⟩⟩

end Gif.Loop
