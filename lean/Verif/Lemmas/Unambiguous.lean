import Verif.Spec.GifSyntax
/-!
The bytes of a file determine the file.
-/

namespace Gif.Spec.Unambiguous

open Gif.Spec

theorem le16_inj {a b : UInt16} {x y : List UInt8} (h : le16 a ++ x = le16 b ++ y) : a = b ∧ x = y := by
  simp only [le16, List.cons_append, List.nil_append, List.cons.injEq] at h
  obtain ⟨h1, h2, h3⟩ := h
  refine ⟨UInt16.toNat_inj.1 ?_, h3⟩
  have e1 := congrArg UInt8.toNat h1
  have e2 := congrArg UInt8.toNat h2
  have := a.toNat_lt
  have := b.toNat_lt
  simp only [UInt8.toNat_ofNat'] at e1 e2
  omega

theorem append_inj_of_length {a b x y : List UInt8} (hl : a.length = b.length) (h : a ++ x = b ++ y) : a = b ∧ x = y :=
  List.append_inj h hl

theorem subs_inj : ∀ (a b : List (List UInt8)) (x y : List UInt8), SubsOk a → SubsOk b →
    renderSubs a ++ x = renderSubs b ++ y → a = b ∧ x = y
  | [], [], x, y, _, _, h => by
    simp only [renderSubs, List.flatMap_nil, List.nil_append, List.cons_append, List.cons.injEq] at h
    exact ⟨rfl, h.2⟩
  | [], s :: b, x, y, _, hb, h => by
    simp only [renderSubs, List.flatMap_nil, List.flatMap_cons, List.nil_append, List.cons_append, List.cons.injEq] at h
    have := hb s (by simp)
    have e := congrArg UInt8.toNat h.1
    simp only [UInt8.toNat_ofNat'] at e
    have : (0 : UInt8).toNat = 0 := rfl
    omega
  | s :: a, [], x, y, ha, _, h => by
    simp only [renderSubs, List.flatMap_nil, List.flatMap_cons, List.nil_append, List.cons_append, List.cons.injEq] at h
    have := ha s (by simp)
    have e := congrArg UInt8.toNat h.1
    simp only [UInt8.toNat_ofNat'] at e
    have : (0 : UInt8).toNat = 0 := rfl
    omega
  | s :: a, t :: b, x, y, ha, hb, h => by
    simp only [renderSubs, List.flatMap_cons, List.cons_append, List.cons.injEq, List.append_assoc] at h
    have h1 := ha s (by simp)
    have h2 := hb t (by simp)
    have e := congrArg UInt8.toNat h.1
    simp only [UInt8.toNat_ofNat'] at e
    obtain ⟨e1, e2⟩ := List.append_inj h.2 (by omega)
    have ih := subs_inj a b x y (fun z hz => ha z (by simp [hz])) (fun z hz => hb z (by simp [hz]))
      (by simp only [renderSubs, List.append_assoc]; exact e2)
    exact ⟨by rw [e1, ih.1], ih.2⟩

theorem packed_toNat {i : Image} (h : i.Ok) :
    i.packed.toNat = (if i.table.isSome then 128 else 0) + (if i.interlaced then 64 else 0) + 8 * i.misc + i.size := by
  have h1 := h.1
  have h2 := h.2.1
  unfold Image.packed
  rw [UInt8.toNat_ofNat']
  split <;> split <;> omega

theorem table_length {size size' : Nat} {t t' : Option (List UInt8)} (hs : size = size') (ht : t.isSome = t'.isSome)
    (h : ∀ x, t = some x → x.length = 3 * 2 ^ (size + 1)) (h' : ∀ x, t' = some x → x.length = 3 * 2 ^ (size' + 1)) :
    (t.getD []).length = (t'.getD []).length := by
  cases t with
  | none => cases t' with
    | none => rfl
    | some _ => cases ht
  | some x => cases t' with
    | none => cases ht
    | some y =>
      show x.length = y.length
      rw [h x rfl, h' y rfl, hs]

theorem getD_inj {t t' : Option (List UInt8)} (ht : t.isSome = t'.isSome) (h : t.getD [] = t'.getD []) : t = t' := by
  cases t with
  | none => cases t' with
    | none => rfl
    | some _ => cases ht
  | some x => cases t' with
    | none => cases ht
    | some y => exact congrArg some h

theorem image_inj {i j : Image} (hi : i.Ok) (hj : j.Ok) {x y : List UInt8} (h : i.render ++ x = j.render ++ y) : i = j ∧ x = y := by
  unfold Image.render Image.renderHead at h
  simp only [List.append_assoc, List.cons_append, List.nil_append, List.cons.injEq, true_and] at h
  obtain ⟨h1, h⟩ := le16_inj h
  obtain ⟨h2, h⟩ := le16_inj h
  obtain ⟨h3, h⟩ := le16_inj h
  obtain ⟨h4, h⟩ := le16_inj h
  simp only [List.cons.injEq] at h
  obtain ⟨hp, h⟩ := h
  have hp := congrArg UInt8.toNat hp
  rw [packed_toNat hi, packed_toNat hj] at hp
  have a1 := hi.1
  have a2 := hi.2.1
  have b1 := hj.1
  have b2 := hj.2.1
  have hsz : i.size = j.size ∧ i.misc = j.misc ∧ i.interlaced = j.interlaced ∧ i.table.isSome = j.table.isSome := by
    cases hii : i.interlaced <;> cases hij : j.interlaced <;> cases hti : i.table.isSome <;> cases htj : j.table.isSome <;>
      simp only [hii, hij, hti, htj, if_true, if_false, Bool.false_eq_true] at hp <;> refine ⟨?_, ?_, ?_, ?_⟩ <;> first | rfl | omega
  obtain ⟨e1, e2, e3, e4⟩ := hsz
  obtain ⟨h5, h⟩ := List.append_inj h (table_length e1 e4 hi.2.2.1 hj.2.2.1)
  simp only [List.cons.injEq] at h
  obtain ⟨h6, h⟩ := h
  obtain ⟨h7, h8⟩ := subs_inj _ _ _ _ hi.2.2.2 hj.2.2.2 h
  have h9 := getD_inj e4 h5
  cases i
  cases j
  simp only at h1 h2 h3 h4 e1 e2 e3 h6 h7 h9
  subst h1 h2 h3 h4 e1 e2 e3 h6 h7 h9
  exact ⟨rfl, h8⟩

/-- A control extension as any other extension. -/
def plainly : Blk → Blk
  | .control c => .ext 0xF9 [[c.packed, UInt8.ofNat (c.delay.toNat % 256), UInt8.ofNat (c.delay.toNat / 256), c.trns]]
  | b => b

theorem render_plainly (b : Blk) : (plainly b).render = b.render := by
  cases b <;> rfl

/-- Blocks that can be told from their bytes. -/
def Clear : Blk → Prop
  | .control _ => True
  | .ext _ subs => SubsOk subs
  | .image i => i.Ok
  | .unknown _ _ => False

theorem clear_plainly {b : Blk} (h : Clear b) : Clear (plainly b) := by
  cases b with
  | control c =>
    intro s hs
    simp only [List.mem_singleton] at hs
    subst hs
    simp
  | _ => exact h

theorem blk_inj {a b : Blk} (ha : Clear a) (hb : Clear b) {x y : List UInt8} (h : a.render ++ x = b.render ++ y) :
    plainly a = plainly b ∧ x = y := by
  rw [← render_plainly a, ← render_plainly b] at h
  have hca := clear_plainly ha
  have hcb := clear_plainly hb
  have hna : ∀ c, plainly a ≠ .control c := by cases a <;> intro c h <;> cases h
  have hnb : ∀ c, plainly b ≠ .control c := by cases b <;> intro c h <;> cases h
  revert h hca hcb hna hnb
  generalize plainly a = a
  generalize plainly b = b
  intro h ha hb hna hnb
  cases a with
  | control c => exact absurd rfl (hna c)
  | unknown _ _ => exact ha.elim
  | ext l s => cases b with
    | control c => exact absurd rfl (hnb c)
    | unknown _ _ => exact hb.elim
    | ext l' s' =>
      simp only [Blk.render, List.cons_append, List.nil_append, List.cons.injEq, true_and] at h
      obtain ⟨h1, h2⟩ := subs_inj _ _ _ _ ha hb h.2
      exact ⟨by rw [h.1, h1], h2⟩
    | image j =>
      simp only [Blk.render, Image.render, Image.renderHead, List.cons_append, List.nil_append, List.append_assoc, List.cons.injEq] at h
      exact absurd h.1 (by decide)
  | image i => cases b with
    | control c => exact absurd rfl (hnb c)
    | unknown _ _ => exact hb.elim
    | ext l' s' =>
      simp only [Blk.render, Image.render, Image.renderHead, List.cons_append, List.nil_append, List.append_assoc, List.cons.injEq] at h
      exact absurd h.1 (by decide)
    | image j =>
      obtain ⟨h1, h2⟩ := image_inj ha hb h
      exact ⟨by rw [h1], h2⟩

/-- No block begins like the trailer. -/
theorem blk_head {b : Blk} (h : Clear b) : ∃ t l, b.render = t :: l ∧ t ≠ 0x3B := by
  cases b with
  | control c => exact ⟨_, _, rfl, by decide⟩
  | ext l s => exact ⟨_, _, rfl, by decide⟩
  | image i => exact ⟨0x2C, _, rfl, by decide⟩
  | unknown _ _ => exact h.elim

theorem blks_inj : ∀ (as bs : List Blk) (x y : List UInt8), (∀ b ∈ as, Clear b) → (∀ b ∈ bs, Clear b) →
    renderBlks as ++ 0x3B :: x = renderBlks bs ++ 0x3B :: y → as.map plainly = bs.map plainly ∧ x = y
  | [], [], _, _, _, _, h => by
    simp only [renderBlks, List.flatMap_nil, List.nil_append, List.cons.injEq] at h
    exact ⟨rfl, h.2⟩
  | [], b :: bs, _, _, _, hb, h => by
    obtain ⟨t, l, e, hn⟩ := blk_head (hb b (by simp))
    simp only [renderBlks, List.flatMap_nil, List.flatMap_cons, List.nil_append, e, List.cons_append, List.cons.injEq] at h
    exact absurd h.1.symm hn
  | a :: as, [], _, _, ha, _, h => by
    obtain ⟨t, l, e, hn⟩ := blk_head (ha a (by simp))
    simp only [renderBlks, List.flatMap_nil, List.flatMap_cons, List.nil_append, e, List.cons_append, List.cons.injEq] at h
    exact absurd h.1 hn
  | a :: as, b :: bs, x, y, ha, hb, h => by
    simp only [renderBlks, List.flatMap_cons, List.append_assoc] at h
    obtain ⟨h1, h2⟩ := blk_inj (ha a (by simp)) (hb b (by simp)) h
    obtain ⟨h3, h4⟩ := blks_inj as bs x y (fun z hz => ha z (by simp [hz])) (fun z hz => hb z (by simp [hz])) h2
    exact ⟨by rw [List.map_cons, List.map_cons, h1, h3], h4⟩

/-- Header, screen descriptor and colour table. -/
theorem head_inj {g g' : File} (hg : g.misc < 16 ∧ g.size < 8 ∧ ∀ t, g.table = some t → t.length = 3 * 2 ^ (g.size + 1))
    (hg' : g'.misc < 16 ∧ g'.size < 8 ∧ ∀ t, g'.table = some t → t.length = 3 * 2 ^ (g'.size + 1)) {x y : List UInt8}
    (h : g.renderHead ++ x = g'.renderHead ++ y) :
    { g with blocks := [] } = { g' with blocks := [] } ∧ x = y := by
  unfold File.renderHead at h
  simp only [List.append_assoc, List.cons_append, List.nil_append, List.cons.injEq, true_and] at h
  obtain ⟨h0, h⟩ := h
  obtain ⟨h1, h⟩ := le16_inj h
  obtain ⟨h2, h⟩ := le16_inj h
  simp only [List.cons.injEq] at h
  obtain ⟨hp, h3, h4, h⟩ := h
  have hp := congrArg UInt8.toNat hp
  have a1 := hg.1
  have a2 := hg.2.1
  have b1 := hg'.1
  have b2 := hg'.2.1
  have hv : g.v89 = g'.v89 := by
    revert h0
    cases g.v89 <;> cases g'.v89 <;> simp
  have hsz : g.size = g'.size ∧ g.misc = g'.misc ∧ g.table.isSome = g'.table.isSome := by
    unfold File.packed at hp
    rw [UInt8.toNat_ofNat', UInt8.toNat_ofNat'] at hp
    cases hti : g.table.isSome <;> cases htj : g'.table.isSome <;>
      simp only [hti, htj, if_true, if_false, Bool.false_eq_true] at hp <;> refine ⟨?_, ?_, ?_⟩ <;> first | rfl | omega
  obtain ⟨e1, e2, e4⟩ := hsz
  obtain ⟨h5, h10⟩ := List.append_inj h (table_length e1 e4 hg.2.2 hg'.2.2)
  have h9 := getD_inj e4 h5
  cases g
  cases g'
  simp only at h1 h2 h3 h4 e1 e2 hv h9
  subst h1 h2 h3 h4 e1 e2 hv h9
  exact ⟨rfl, h10⟩

end Gif.Spec.Unambiguous
