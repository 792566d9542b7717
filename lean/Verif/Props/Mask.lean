import Verif.Props.Frames
/-!
# C32: exactly which pixels of a frame made from RGBA pixels are transparent
-/

namespace Gif

/-- **C32** With at most 256 colours: no pixel with colour becomes transparent; a pixel becomes transparent exactly if its alpha
is zero and its colour that of the last pixel with alpha zero; so the claim of C32 holds of an image exactly if all its pixels
with alpha zero have the same colour. -/
theorem C32_exact (nq : NeuQuant) (width height : UInt16) (px S : List Rgba) (speed : Int)
    (hlen : px.length = width.toNat * height.toNat) (hsp : 1 ≤ speed ∧ speed ≤ 30)
    (hS : S.length ≤ 256) (hpx : ∀ p ∈ px, p.reduce ∈ S) :
    ∃ f out, Frame.fromRgbaSpeed nq width height (px.flatMap Rgba.bytes) speed = .ok (f, out) ∧
      f.buffer.length = px.length ∧
      (∀ i (hi : i < px.length) (hb : i < f.buffer.length), f.transparent = some f.buffer[i] ↔
        px[i].a = 0 ∧ ((px.filter fun p => decide (p.a = 0)).getLast?.map Rgba.rgb) = some px[i].rgb) ∧
      ((∀ i (hi : i < px.length) (hb : i < f.buffer.length), f.transparent = some f.buffer[i] ↔ px[i].a = 0) ↔
        ∀ p ∈ px, ∀ q ∈ px, p.a = 0 → q.a = 0 → p.rgb = q.rgb) := by
  obtain ⟨f, out, colors, h1, h2, h3, h4, h5, h6, h7, h8, h9, h10, h11⟩ :=
    C31_from_rgba nq width height px S speed hlen hsp hS hpx
  have key : ∀ i (hi : i < px.length) (hb : i < f.buffer.length), f.transparent = some f.buffer[i] ↔
      px[i].a = 0 ∧ ((px.filter fun p => decide (p.a = 0)).getLast?.map Rgba.rgb) = some px[i].rgb := by
    intro i hi hb
    rw [h10 i hi hb]
    cases hx : (px.filter fun p => decide (p.a = 0)).getLast? with
    | none => simp
    | some t =>
      have ht := List.mem_of_getLast? hx
      simp only [List.mem_filter, decide_eq_true_eq] at ht
      generalize px[i] = p
      obtain ⟨tr, tg, tb, ta⟩ := t
      obtain ⟨r, g, b, a⟩ := p
      simp only at ht
      obtain ⟨_, ht⟩ := ht
      subst ht
      by_cases h0 : a = 0 <;> simp [Rgba.reduce, Rgba.rgb, h0]
  refine ⟨f, out, h1, h8, key, ?_⟩
  constructor
  · intro hall
    have hp : ∀ p ∈ px, p.a = 0 → ((px.filter fun p => decide (p.a = 0)).getLast?.map Rgba.rgb) = some p.rgb := by
      intro p hp h0
      obtain ⟨i, hi, he⟩ := List.mem_iff_getElem.1 hp
      have hb : i < f.buffer.length := by omega
      have := ((key i hi hb).1 ((hall i hi hb).2 (by rw [he]; exact h0))).2
      rw [this, he]
    intro p hpm q hqm hpa hqa
    have e1 := hp p hpm hpa
    rw [hp q hqm hqa] at e1
    exact (Option.some.inj e1).symm
  · intro hsame i hi hb
    rw [key i hi hb]
    constructor
    · exact fun h => h.1
    · intro h0
      refine ⟨h0, ?_⟩
      cases hx : (px.filter fun p => decide (p.a = 0)).getLast? with
      | none =>
        rw [List.getLast?_eq_none_iff, List.filter_eq_nil_iff] at hx
        exact absurd h0 (by simpa using hx px[i] (List.getElem_mem hi))
      | some t =>
        have ht := List.mem_of_getLast? hx
        simp only [List.mem_filter, decide_eq_true_eq] at ht
        simp only [Option.map_some, Option.some.injEq]
        exact hsame t ht.1 px[i] (List.getElem_mem hi) ht.2 h0

theorem lastTransparent_eq (px : List Rgba) (acc : Option Rgba) :
    lastTransparent acc px = ((px.filter fun p => decide (p.a = 0)).getLast?).or acc := by
  induction px generalizing acc with
  | nil => rfl
  | cons p ps ih =>
    rw [lastTransparent, ih]
    by_cases h : p.a = 0
    · simp only [h, ne_eq, not_true_eq_false, if_false, decide_true, List.filter_cons_of_pos]
      rw [List.getLast?_cons]
      cases (ps.filter fun p => decide (p.a = 0)).getLast? <;> simp
    · simp [h]

/-- **C32** However many colours there are and whatever the quantiser does: a frame has a transparent index exactly if some pixel
has alpha zero, and then all pixels with alpha zero that have the colour of the last of them have this index. -/
theorem C32_any (nq : NeuQuant) (width height : UInt16) (px : List Rgba) (speed : Int)
    (hlen : px.length = width.toNat * height.toNat) (hsp : 1 ≤ speed ∧ speed ≤ 30) :
    ∃ f out, Frame.fromRgbaSpeed nq width height (px.flatMap Rgba.bytes) speed = .ok (f, out) ∧
      f.buffer.length = px.length ∧ (f.transparent = none ↔ ∀ p ∈ px, p.a ≠ 0) ∧
      (∀ i (hi : i < px.length) (hb : i < f.buffer.length), px[i].a = 0 →
        ((px.filter fun p => decide (p.a = 0)).getLast?.map Rgba.rgb) = some px[i].rgb → f.transparent = some f.buffer[i]) := by
  have hl4 : (px.flatMap Rgba.bytes).length = px.length * 4 := by
    clear hlen
    induction px with
    | nil => rfl
    | cons p ps ih => simp only [List.flatMap_cons, List.length_append, ih, Rgba.bytes, List.length_cons, List.length_nil]; omega
  have hnone : ∀ g : Rgba → UInt8, ((px.filter fun p => decide (p.a = 0)).getLast?.map g = none ↔ ∀ p ∈ px, p.a ≠ 0) := by
    intro g
    rw [Option.map_eq_none_iff, List.getLast?_eq_none_iff, List.filter_eq_nil_iff]
    simp
  have hsome : ∀ (g : Rgba → UInt8) i (hi : i < px.length), px[i].a = 0 →
      ((px.filter fun p => decide (p.a = 0)).getLast?.map Rgba.rgb) = some px[i].rgb →
      (px.filter fun p => decide (p.a = 0)).getLast?.map g = some (g (clampAlpha px[i])) := by
    intro g i hi h0 h1
    cases hx : (px.filter fun p => decide (p.a = 0)).getLast? with
    | none => rw [hx] at h1; cases h1
    | some t =>
      have ht := List.mem_of_getLast? hx
      simp only [List.mem_filter, decide_eq_true_eq] at ht
      rw [hx] at h1
      simp only [Option.map_some, Option.some.injEq, Rgba.rgb, List.cons.injEq, and_true] at h1
      simp only [Option.map_some, Option.some.injEq]
      congr 1
      generalize px[i] = p at h0 h1
      obtain ⟨tr, tg, tb, ta⟩ := t
      obtain ⟨r, g, b, a⟩ := p
      simp only at h0 h1 ht
      simp [clampAlpha, h0, h1, ht.2]
  unfold Frame.fromRgbaSpeed
  rw [if_neg (by rw [hl4, hlen]; simp), if_neg (by simp [hsp.1, hsp.2])]
  simp only [chunks4_bytes, lastTransparent_eq, Option.or_none]
  cases hc : collectColors [] (px.map clampAlpha) with
  | none =>
    refine ⟨_, _, rfl, by simp, hnone _, ?_⟩
    intro i hi hb h0 h1
    simp only [List.getElem_map]
    exact hsome _ i hi h0 h1
  | some c =>
    refine ⟨_, _, rfl, by simp, hnone _, ?_⟩
    intro i hi hb h0 h1
    simp only [List.getElem_map]
    exact hsome _ i hi h0 h1

set_option maxRecDepth 10000 in
/-- Pixels as in the theorems: two of three pixels with alpha zero, of different colours. The last one is transparent, the first
is not, so that C32 fails of this image. -/
example (nq : NeuQuant) : ∃ f out, Frame.fromRgba nq 3 1
      (([⟨1, 1, 1, 0⟩, ⟨2, 2, 2, 7⟩, ⟨3, 3, 3, 0⟩] : List Rgba).flatMap Rgba.bytes) = .ok (f, out) ∧
    f.transparent = some 2 ∧ f.buffer = [0, 1, 2] := ⟨_, _, rfl, rfl, rfl⟩

end Gif
