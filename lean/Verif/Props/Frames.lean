import Verif.Model.FrameNew
/-!
# Frame constructors: C31, C32, C34
-/

namespace Gif

/-- The four bytes of a pixel. -/
def Rgba.bytes (p : Rgba) : List UInt8 := [p.r, p.g, p.b, p.a]

/-- The colour of a pixel. -/
def Rgba.rgb (p : Rgba) : List UInt8 := [p.r, p.g, p.b]

/-- Alpha reduced to 0 or 255. -/
def Rgba.reduce (p : Rgba) : Rgba := { p with a := if p.a = 0 then 0 else 255 }

theorem chunks4_bytes (px : List Rgba) : chunks4 (px.flatMap Rgba.bytes) = px := by
  induction px with
  | nil => rfl
  | cons p ps ih => simp [List.flatMap_cons, Rgba.bytes, chunks4] at ih ⊢; exact ih

theorem clampAlpha_eq (p : Rgba) : clampAlpha p = p.reduce := by
  unfold clampAlpha Rgba.reduce
  by_cases h : p.a = 0
  · rcases p with ⟨r, g, b, a⟩; simp at h; simp [h]
  · simp [h]

theorem length_le_of_nodup_subset {α : Type} [DecidableEq α] (l S : List α) (hn : l.Nodup) (hs : ∀ x ∈ l, x ∈ S) :
    l.length ≤ S.length := by
  induction l generalizing S with
  | nil => simp
  | cons a l ih =>
    rw [List.nodup_cons] at hn
    have ha : a ∈ S := hs a (by simp)
    have := ih (S.erase a) hn.2 (by
      intro x hx
      have hxa : x ≠ a := by rintro rfl; exact hn.1 hx
      exact (List.mem_erase_of_ne hxa).2 (hs x (by simp [hx])))
    rw [List.length_erase_of_mem ha] at this
    have : 0 < S.length := List.length_pos_of_mem ha
    simp only [List.length_cons]; omega

theorem collectColors_some (S : List Rgba) (hS : S.length ≤ 256) : ∀ (l seen : List Rgba), seen.Nodup →
    (∀ x ∈ seen, x ∈ S) → (∀ x ∈ l, x ∈ S) →
    ∃ c, collectColors seen l = some c ∧ c.Nodup ∧ (∀ x, x ∈ c ↔ x ∈ seen ∨ x ∈ l) ∧ c.length ≤ 256 := by
  intro l
  induction l with
  | nil => intro seen hn hs _; exact ⟨seen, rfl, hn, by simp, Nat.le_trans (length_le_of_nodup_subset _ _ hn hs) hS⟩
  | cons p ps ih =>
    intro seen hn hs hl
    rw [collectColors]
    by_cases hp : p ∈ seen
    · rw [if_pos hp]
      obtain ⟨c, h1, h2, h3, h4⟩ := ih seen hn hs (fun x hx => hl x (by simp [hx]))
      refine ⟨c, h1, h2, ?_, h4⟩
      intro x
      rw [h3 x]
      simp only [List.mem_cons]
      constructor
      · rintro (h | h)
        · exact .inl h
        · exact .inr (.inr h)
      · rintro (h | rfl | h)
        · exact .inl h
        · exact .inl hp
        · exact .inr h
    · rw [if_neg hp]
      have hn' : (p :: seen).Nodup := List.nodup_cons.2 ⟨hp, hn⟩
      have hs' : ∀ x ∈ p :: seen, x ∈ S := by
        intro x hx
        rcases List.mem_cons.1 hx with rfl | hx
        · exact hl x (by simp)
        · exact hs x hx
      have := length_le_of_nodup_subset _ _ hn' hs'
      rw [if_neg (by omega)]
      obtain ⟨c, h1, h2, h3, h4⟩ := ih (p :: seen) hn' hs' (fun x hx => hl x (by simp [hx]))
      refine ⟨c, h1, h2, ?_, h4⟩
      intro x
      rw [h3 x]
      simp only [List.mem_cons]
      constructor
      · rintro ((h | h) | h)
        · exact .inr (.inl h)
        · exact .inl h
        · exact .inr (.inr h)
      · rintro (h | h | h)
        · exact .inl (.inr h)
        · exact .inl (.inl h)
        · exact .inr h

theorem paletteOf_eq (l : List Rgba) : paletteOf l = l.flatMap Rgba.rgb := by
  induction l with
  | nil => rfl
  | cons p ps ih => rw [paletteOf, ih]; rfl

theorem rgb_flatMap_drop (l : List Rgba) (i : Nat) : (l.flatMap Rgba.rgb).drop (3 * i) = (l.drop i).flatMap Rgba.rgb := by
  induction l generalizing i with
  | nil => simp
  | cons p ps ih =>
    cases i with
    | zero => rfl
    | succ i =>
      rw [show 3 * (i + 1) = 3 * i + 1 + 1 + 1 by omega]
      simp only [List.flatMap_cons, Rgba.rgb, List.cons_append, List.nil_append, List.drop_succ_cons]
      exact ih i

theorem lookupColor_spec (colors : List Rgba) (p : Rgba) (hp : p ∈ colors) (h256 : colors.length ≤ 256) :
    ∃ h : (lookupColor colors p).toNat < colors.length, colors[(lookupColor colors p).toNat] = p := by
  unfold lookupColor
  rw [List.take_of_length_le h256]
  cases hf : colors.findIdx? (fun q => decide (q = p)) with
  | none =>
    rw [List.findIdx?_eq_none_iff] at hf
    have := hf p hp
    simp at this
  | some i =>
    rw [List.findIdx?_eq_some_iff_getElem] at hf
    obtain ⟨hi, he, _⟩ := hf
    have : (UInt8.ofNat i).toNat = i := by simp; omega
    simp only [this]
    exact ⟨hi, by simpa using he⟩

theorem insertColor_perm (p : Rgba) (l : List Rgba) : (insertColor p l).Perm (p :: l) := by
  induction l with
  | nil => exact .refl _
  | cons q qs ih =>
    rw [insertColor]
    split
    · exact .refl _
    · exact (List.Perm.cons q ih).trans (List.Perm.swap p q qs)

theorem sortColors_perm (l : List Rgba) : (sortColors l).Perm l := by
  induction l with
  | nil => exact .refl _
  | cons p ps ih => exact (insertColor_perm p _).trans (List.Perm.cons p ih)

/-- C31: if the pixels have at most 256 distinct colours after alpha is reduced, `from_rgba_speed` builds a palette of
exactly these colours, and the palette entry of every pixel is its original RGB value. -/
theorem C31_from_rgba (nq : NeuQuant) (width height : UInt16) (px S : List Rgba) (speed : Int)
    (hlen : px.length = width.toNat * height.toNat) (hsp : 1 ≤ speed ∧ speed ≤ 30)
    (hS : S.length ≤ 256) (hpx : ∀ p ∈ px, p.reduce ∈ S) :
    ∃ (f : Frame) (out : List UInt8) (colors : List Rgba), Frame.fromRgbaSpeed nq width height (px.flatMap Rgba.bytes) speed = .ok (f, out) ∧
      f.width = width ∧ f.height = height ∧ f.palette = some (colors.flatMap Rgba.rgb) ∧
      colors.Nodup ∧ colors.length ≤ 256 ∧ (∀ c, c ∈ colors ↔ c ∈ px.map Rgba.reduce) ∧
      f.buffer.length = px.length ∧
      (∀ i (hi : i < px.length) (hb : i < f.buffer.length),
        ((colors.flatMap Rgba.rgb).drop (3 * f.buffer[i].toNat)).take 3 = px[i].rgb) ∧
      -- what transparency is made of, for C32
      (∀ i (hi : i < px.length) (hb : i < f.buffer.length), f.transparent = some f.buffer[i] ↔
        (px.filter fun p => p.a = 0).getLast? = some px[i].reduce) ∧
      f.interlaced = false ∧ f.left = 0 ∧ f.top = 0 ∧ f.delay = 0 ∧ f.dispose = .keep ∧ f.needsUserInput = false := by
  unfold Frame.fromRgbaSpeed
  have hl : (px.flatMap Rgba.bytes).length = px.length * 4 := by
    clear hlen hpx
    induction px with
    | nil => rfl
    | cons p ps ih => simp only [List.flatMap_cons, List.length_append, ih, Rgba.bytes, List.length_cons, List.length_nil]; omega
  rw [if_neg (by rw [hl, hlen]; simp), if_neg (by simp [hsp.1, hsp.2])]
  simp only [chunks4_bytes]
  have hmap : px.map clampAlpha = px.map Rgba.reduce := List.map_congr_left fun p _ => clampAlpha_eq p
  rw [hmap]
  obtain ⟨c, h1, h2, h3, h4⟩ := collectColors_some S hS (px.map Rgba.reduce) [] (by simp) (by simp) (by
    intro x hx
    obtain ⟨p, hp, rfl⟩ := List.mem_map.1 hx
    exact hpx p hp)
  rw [h1]
  have hperm := sortColors_perm c
  have hmem : ∀ x, x ∈ sortColors c ↔ x ∈ px.map Rgba.reduce := by
    intro x; rw [hperm.mem_iff, h3]; simp
  have hcl : (sortColors c).length ≤ 256 := by rw [hperm.length_eq]; exact h4
  have hnd : (sortColors c).Nodup := hperm.nodup_iff.2 h2
  have hbuf : ∀ i (hi : i < px.length) (hb : i < ((px.map Rgba.reduce).map (lookupColor (sortColors c))).length),
      ((px.map Rgba.reduce).map (lookupColor (sortColors c)))[i] = lookupColor (sortColors c) px[i].reduce := by
    intro i hi hb; simp
  have hinj : ∀ x y, x ∈ sortColors c → y ∈ sortColors c → lookupColor (sortColors c) x = lookupColor (sortColors c) y → x = y := by
    intro x y hx hy he
    obtain ⟨k1, e1⟩ := lookupColor_spec _ x hx hcl
    obtain ⟨k2, e2⟩ := lookupColor_spec _ y hy hcl
    rw [← e1, ← e2]
    simp only [he]
  have hlast : ∀ (l : List Rgba) (acc : Option Rgba), lastTransparent acc l = ((l.filter fun p => p.a = 0).getLast?).or acc := by
    intro l
    induction l with
    | nil => intro acc; simp [lastTransparent]
    | cons p ps ih =>
      intro acc
      rw [lastTransparent, ih]
      by_cases hp : p.a = 0
      · simp only [hp, ne_eq, not_true, if_false, List.filter_cons, decide_true, if_true]
        cases hx : (ps.filter fun p => decide (p.a = 0)) with
        | nil => simp
        | cons q qs => simp [List.getLast?_cons, List.getLast?_eq_some_getLast]
      · simp [hp]
  refine ⟨_, _, sortColors c, rfl, rfl, rfl, by simp [paletteOf_eq], hnd, hcl, hmem, by simp, ?_, ?_, rfl, rfl, rfl, rfl, rfl, rfl⟩
  · intro i hi hb
    simp only at hb ⊢
    rw [hbuf i hi hb, rgb_flatMap_drop]
    have hin : px[i].reduce ∈ sortColors c := (hmem _).2 (List.mem_map.2 ⟨_, List.getElem_mem hi, rfl⟩)
    obtain ⟨k1, e1⟩ := lookupColor_spec _ _ hin hcl
    rw [List.drop_eq_getElem_cons k1, List.flatMap_cons, e1]
    simp [Rgba.rgb, Rgba.reduce]
  · intro i hi hb
    simp only at hb ⊢
    rw [hbuf i hi hb, hlast, Option.or_none]
    have hin : px[i].reduce ∈ sortColors c := (hmem _).2 (List.mem_map.2 ⟨_, List.getElem_mem hi, rfl⟩)
    cases hx : (px.filter fun p => decide (p.a = 0)).getLast? with
    | none => simp
    | some t =>
      have ht := List.mem_of_getLast? hx
      simp only [List.mem_filter, decide_eq_true_eq] at ht
      have htr : t.reduce = t := by rcases t with ⟨r, g, b, a⟩; simp at ht; simp [Rgba.reduce, ht.2]
      have htin : t ∈ sortColors c := (hmem _).2 (List.mem_map.2 ⟨t, ht.1, htr⟩)
      simp only [Option.map_some, Option.some.injEq]
      constructor
      · intro h; exact hinj _ _ htin hin h
      · intro h; rw [h]

/-- The three bytes of RGB pixels. -/
theorem addAlpha_rgb (px : List Rgba) : addAlpha (px.flatMap Rgba.rgb) = (px.map fun p => { p with a := 255 }).flatMap Rgba.bytes := by
  induction px with
  | nil => rfl
  | cons p ps ih => simp [List.flatMap_cons, Rgba.rgb, Rgba.bytes, addAlpha] at ih ⊢; exact ih

/-- C31 for `from_rgb_speed`: at most 256 distinct RGB colours. -/
theorem C31_from_rgb (nq : NeuQuant) (width height : UInt16) (px S : List Rgba) (speed : Int)
    (hlen : px.length = width.toNat * height.toNat) (hsp : 1 ≤ speed ∧ speed ≤ 30)
    (hopaque : ∀ p ∈ px, p.a = 255) (hS : S.length ≤ 256) (hpx : ∀ p ∈ px, p ∈ S) :
    ∃ (f : Frame) (colors : List Rgba), Frame.fromRgbSpeed nq width height (px.flatMap Rgba.rgb) speed = .ok f ∧
      f.width = width ∧ f.height = height ∧ f.palette = some (colors.flatMap Rgba.rgb) ∧
      colors.Nodup ∧ colors.length ≤ 256 ∧ (∀ c, c ∈ colors ↔ c ∈ px) ∧
      f.buffer.length = px.length ∧
      (∀ i (hi : i < px.length) (hb : i < f.buffer.length),
        ((colors.flatMap Rgba.rgb).drop (3 * f.buffer[i].toNat)).take 3 = px[i].rgb) ∧
      f.transparent = none ∧
      f.interlaced = false ∧ f.left = 0 ∧ f.top = 0 ∧ f.delay = 0 ∧ f.dispose = .keep ∧ f.needsUserInput = false := by
  have hself : px.map (fun p => { p with a := 255 }) = px := by
    conv => rhs; rw [← List.map_id px]
    apply List.map_congr_left
    intro p hp
    have := hopaque p hp
    rcases p with ⟨r, g, b, a⟩
    simp at this; simp [this]
  have hred : ∀ p ∈ px, p.reduce = p := by
    intro p hp
    have := hopaque p hp
    rcases p with ⟨r, g, b, a⟩
    simp at this; simp [Rgba.reduce, this]
  have hl : (px.flatMap Rgba.rgb).length = px.length * 3 := by
    clear hlen hpx hopaque hself hred
    induction px with
    | nil => rfl
    | cons p ps ih => simp only [List.flatMap_cons, List.length_append, ih, Rgba.rgb, List.length_cons, List.length_nil]; omega
  obtain ⟨f, out, colors, h1, h2, h3, h4, h5, h6, h7, h8, h9, h10, h11⟩ := C31_from_rgba nq width height px S speed hlen hsp hS
    (fun p hp => by rw [hred p hp]; exact hpx p hp)
  unfold Frame.fromRgbSpeed
  rw [if_neg (by rw [hl, hlen]; simp), addAlpha_rgb, hself, h1]
  have hmapid : px.map Rgba.reduce = px := by
    conv => rhs; rw [← List.map_id px]
    exact List.map_congr_left hred
  rw [hmapid] at h7
  refine ⟨f, colors, rfl, h2, h3, h4, h5, h6, h7, h8, h9, ?_, h11⟩
  -- no transparent colour: the frame was made from opaque pixels only
  have hnone : (px.filter fun p => decide (p.a = 0)) = [] := by
    rw [List.filter_eq_nil_iff]
    intro p hp
    simp [hopaque p hp]
  unfold Frame.fromRgbaSpeed at h1
  have hl4 : (px.flatMap Rgba.bytes).length = px.length * 4 := by
    have := chunks4_bytes px
    clear hlen hpx hopaque hself hred hl h1 h2 h3 h4 h5 h6 h7 h8 h9 h10 h11 hmapid hnone this
    induction px with
    | nil => rfl
    | cons p ps ih => simp only [List.flatMap_cons, List.length_append, ih, Rgba.bytes, List.length_cons, List.length_nil]; omega
  rw [if_neg (by rw [hl4, hlen]; simp), if_neg (by simp [hsp.1, hsp.2])] at h1
  have hlt : ∀ (l : List Rgba) (acc : Option Rgba), (∀ p ∈ l, p.a = 255) → lastTransparent acc l = acc := by
    intro l
    induction l with
    | nil => intro acc _; rfl
    | cons p ps ih =>
      intro acc h
      rw [lastTransparent, ih _ (fun q hq => h q (by simp [hq]))]
      simp [h p (by simp)]
  simp only [chunks4_bytes, hlt px none hopaque, Option.map_none] at h1
  cases hc : collectColors [] (px.map clampAlpha) with
  | none =>
    simp only [hc, Outcome.ok.injEq, Prod.mk.injEq] at h1
    rw [← h1.1]
  | some c =>
    simp only [hc, Outcome.ok.injEq, Prod.mk.injEq] at h1
    rw [← h1.1]

set_option maxRecDepth 10000 in
example : (Frame.fromRgb ⟨fun _ _ _ => 0, fun _ _ => []⟩ 2 1 [1, 2, 3, 0, 2, 3]) = .ok
    { Frame.default with width := 2, height := 1, palette := some [0, 2, 3, 1, 2, 3], buffer := [1, 0], ownedCap := some 2 } := by
  decide

/-! ## C32 -/

set_option maxRecDepth 10000 in
/-- C32 does not hold in general: with two differently coloured alpha-0 pixels only the last one's palette entry is
the transparent one. -/
theorem C32_negation (nq : NeuQuant) : ∃ (f : Frame) (out : List UInt8),
    Frame.fromRgba nq 2 1 [1, 1, 1, 0, 2, 2, 2, 0] = .ok (f, out) ∧ f.buffer = [0, 1] ∧ f.transparent = some 1 :=
  ⟨_, _, rfl, rfl, rfl⟩

/-- C32, proved part: with at most 256 colours, and all alpha-0 pixels of the same colour, a pixel has the transparent
index exactly if its alpha was zero.
Missing from C32: alpha-0 pixels of different colours, and images that need NeuQuant. -/
theorem C32_mask_partial (nq : NeuQuant) (width height : UInt16) (px S : List Rgba) (speed : Int)
    (hlen : px.length = width.toNat * height.toNat) (hsp : 1 ≤ speed ∧ speed ≤ 30)
    (hS : S.length ≤ 256) (hpx : ∀ p ∈ px, p.reduce ∈ S)
    (hsame : ∀ p ∈ px, ∀ q ∈ px, p.a = 0 → q.a = 0 → p.rgb = q.rgb) :
    ∃ f out, Frame.fromRgbaSpeed nq width height (px.flatMap Rgba.bytes) speed = .ok (f, out) ∧
      f.buffer.length = px.length ∧
      ∀ i (hi : i < px.length) (hb : i < f.buffer.length), f.transparent = some f.buffer[i] ↔ px[i].a = 0 := by
  obtain ⟨f, out, colors, h1, h2, h3, h4, h5, h6, h7, h8, h9, h10, h11⟩ :=
    C31_from_rgba nq width height px S speed hlen hsp hS hpx
  refine ⟨f, out, h1, h8, fun i hi hb => ?_⟩
  rw [h10 i hi hb]
  constructor
  · intro h
    have ht := List.mem_of_getLast? h
    simp only [List.mem_filter, decide_eq_true_eq] at ht
    have := ht.2
    simp only [Rgba.reduce] at this
    by_cases h0 : px[i].a = 0
    · exact h0
    · simp [h0] at this
  · intro h0
    cases hx : (px.filter fun p => decide (p.a = 0)).getLast? with
    | none =>
      rw [List.getLast?_eq_none_iff, List.filter_eq_nil_iff] at hx
      exact absurd h0 (by simpa using hx px[i] (List.getElem_mem hi))
    | some t =>
      have ht := List.mem_of_getLast? hx
      simp only [List.mem_filter, decide_eq_true_eq] at ht
      have hrgb := hsame t ht.1 px[i] (List.getElem_mem hi) ht.2 h0
      simp only [Rgba.rgb, List.cons.injEq, and_true] at hrgb
      congr 1
      rcases t with ⟨r, g, b, a⟩
      simp only at hrgb ht
      simp [Rgba.reduce, h0, ht.2, hrgb]

set_option maxRecDepth 10000 in
example (nq : NeuQuant) : ∃ f out, Frame.fromRgba nq 3 1 [1, 1, 1, 0, 2, 2, 2, 7, 1, 1, 1, 0] = .ok (f, out) ∧
    f.transparent = some 0 ∧ f.buffer = [0, 1, 0] := ⟨_, _, rfl, rfl, rfl⟩

/-! ## C34 -/

/-- C34: `from_palette_pixels`. -/
theorem C34_from_palette_pixels (width height : UInt16) (pixels palette : List UInt8) (transparent : Option UInt8) :
    (Frame.fromPalettePixels width height pixels palette transparent = .panic ↔
      pixels.length ≠ width.toNat * height.toNat ∨ palette.length > 768) ∧
    (pixels.length = width.toNat * height.toNat → palette.length ≤ 768 →
      ∃ f, Frame.fromPalettePixels width height pixels palette transparent = .ok f ∧ f.width = width ∧
        f.height = height ∧ f.buffer = pixels ∧ f.palette = some palette ∧ f.transparent = transparent ∧
        f.left = 0 ∧ f.top = 0 ∧ f.delay = 0 ∧ f.dispose = .keep ∧ f.needsUserInput = false ∧ f.interlaced = false) := by
  unfold Frame.fromPalettePixels
  constructor
  · by_cases h1 : pixels.length = width.toNat * height.toNat
    · by_cases h2 : palette.length ≤ 768
      · simp [h1, h2]
      · simp [h1, h2]; omega
    · simp [h1, Ne.symm h1]
  · intro h1 h2
    rw [if_neg (by simp [h1]), if_neg (by simp [h2])]
    exact ⟨_, rfl, rfl, rfl, rfl, rfl, rfl, rfl, rfl, rfl, rfl, rfl, rfl⟩

/-- C34: `from_indexed_pixels`. -/
theorem C34_from_indexed_pixels (width height : UInt16) (pixels : List UInt8) (transparent : Option UInt8) :
    (Frame.fromIndexedPixels width height pixels transparent = .panic ↔
      pixels.length ≠ width.toNat * height.toNat) ∧
    (pixels.length = width.toNat * height.toNat →
      ∃ f, Frame.fromIndexedPixels width height pixels transparent = .ok f ∧ f.width = width ∧
        f.height = height ∧ f.buffer = pixels ∧ f.palette = none ∧ f.transparent = transparent ∧
        f.left = 0 ∧ f.top = 0 ∧ f.delay = 0 ∧ f.dispose = .keep ∧ f.needsUserInput = false ∧ f.interlaced = false) := by
  unfold Frame.fromIndexedPixels
  constructor
  · by_cases h1 : pixels.length = width.toNat * height.toNat
    · simp [h1]
    · simp [h1, Ne.symm h1]
  · intro h1
    rw [if_neg (by simp [h1])]
    exact ⟨_, rfl, rfl, rfl, rfl, rfl, rfl, rfl, rfl, rfl, rfl, rfl, rfl⟩

theorem chunks4_length (l : List UInt8) : (chunks4 l).length = l.length / 4 := by
  fun_induction chunks4 l with
  | case1 r g b a rest ih => simp only [List.length_cons, ih]; omega
  | case2 l h =>
    match l, h with
    | [], _ => rfl
    | [_], _ => simp
    | [_, _], _ => simp
    | [_, _, _], _ => simp
    | a :: b :: c :: d :: r, h => exact absurd rfl (h a b c d r)

/-- C34: `from_rgba_speed`, also for images that need NeuQuant: it panics exactly as documented, and otherwise gives one
index per pixel, the given size and default metadata. -/
theorem C34_from_rgba_speed (nq : NeuQuant) (width height : UInt16) (pixels : List UInt8) (speed : Int) :
    (Frame.fromRgbaSpeed nq width height pixels speed = .panic ↔
      pixels.length ≠ width.toNat * height.toNat * 4 ∨ speed < 1 ∨ 30 < speed) ∧
    (pixels.length = width.toNat * height.toNat * 4 → 1 ≤ speed → speed ≤ 30 →
      ∃ f out, Frame.fromRgbaSpeed nq width height pixels speed = .ok (f, out) ∧ f.width = width ∧
        f.height = height ∧ f.buffer.length = width.toNat * height.toNat ∧ f.palette.isSome ∧
        f.left = 0 ∧ f.top = 0 ∧ f.delay = 0 ∧ f.dispose = .keep ∧ f.needsUserInput = false ∧ f.interlaced = false) := by
  have hok : pixels.length = width.toNat * height.toNat * 4 → 1 ≤ speed → speed ≤ 30 →
      ∃ f out, Frame.fromRgbaSpeed nq width height pixels speed = .ok (f, out) ∧ f.width = width ∧
        f.height = height ∧ f.buffer.length = width.toNat * height.toNat ∧ f.palette.isSome ∧
        f.left = 0 ∧ f.top = 0 ∧ f.delay = 0 ∧ f.dispose = .keep ∧ f.needsUserInput = false ∧ f.interlaced = false := by
    intro h1 h2 h3
    have hl := chunks4_length pixels
    rw [h1] at hl
    have hl' : (chunks4 pixels).length = width.toNat * height.toNat := by omega
    unfold Frame.fromRgbaSpeed
    rw [if_neg (by simp [h1]), if_neg (by simp [h2, h3])]
    simp only
    split
    · exact ⟨_, _, rfl, rfl, rfl, by simp [hl'], rfl, rfl, rfl, rfl, rfl, rfl, rfl⟩
    · exact ⟨_, _, rfl, rfl, rfl, by simp [hl'], rfl, rfl, rfl, rfl, rfl, rfl, rfl⟩
  refine ⟨?_, hok⟩
  constructor
  · intro h
    by_cases h1 : pixels.length = width.toNat * height.toNat * 4
    · by_cases h2 : 1 ≤ speed
      · by_cases h3 : speed ≤ 30
        · obtain ⟨f, out, he, _⟩ := hok h1 h2 h3
          rw [he] at h; simp at h
        · right; right; omega
      · right; left; omega
    · exact .inl h1
  · intro h
    unfold Frame.fromRgbaSpeed
    by_cases h1 : pixels.length = width.toNat * height.toNat * 4
    · rw [if_neg (by simp [h1]), if_pos]
      rcases h with h | h | h
      · exact absurd h1 h
      · omega
      · omega
    · rw [if_pos (Ne.symm h1)]

theorem addAlpha_length (l : List UInt8) : (addAlpha l).length = l.length / 3 * 4 := by
  fun_induction addAlpha l with
  | case1 r g b rest ih => simp only [List.length_cons, ih]; omega
  | case2 l h =>
    match l, h with
    | [], _ => rfl
    | [_], _ => simp
    | [_, _], _ => simp
    | a :: b :: c :: r, h => exact absurd rfl (h a b c r)

/-- C34: `from_rgb_speed`. -/
theorem C34_from_rgb_speed (nq : NeuQuant) (width height : UInt16) (pixels : List UInt8) (speed : Int) :
    (Frame.fromRgbSpeed nq width height pixels speed = .panic ↔
      pixels.length ≠ width.toNat * height.toNat * 3 ∨ speed < 1 ∨ 30 < speed) ∧
    (pixels.length = width.toNat * height.toNat * 3 → 1 ≤ speed → speed ≤ 30 →
      ∃ f, Frame.fromRgbSpeed nq width height pixels speed = .ok f ∧ f.width = width ∧
        f.height = height ∧ f.buffer.length = width.toNat * height.toNat ∧ f.palette.isSome ∧
        f.left = 0 ∧ f.top = 0 ∧ f.delay = 0 ∧ f.dispose = .keep ∧ f.needsUserInput = false ∧ f.interlaced = false) := by
  obtain ⟨h1, h2⟩ := C34_from_rgba_speed nq width height (addAlpha pixels) speed
  by_cases hl : pixels.length = width.toNat * height.toNat * 3
  · have hl4 : (addAlpha pixels).length = width.toNat * height.toNat * 4 := by rw [addAlpha_length, hl]; omega
    have e : Frame.fromRgbSpeed nq width height pixels speed =
        match Frame.fromRgbaSpeed nq width height (addAlpha pixels) speed with
        | .ok (f, _) => .ok f
        | .err e => .err e
        | .panic => .panic
        | .diverge => .diverge := by
      unfold Frame.fromRgbSpeed
      rw [if_neg (by simp [hl])]
      cases Frame.fromRgbaSpeed nq width height (addAlpha pixels) speed <;> rfl
    rw [e]
    by_cases hs : 1 ≤ speed ∧ speed ≤ 30
    · obtain ⟨f, out, h3, h4⟩ := h2 hl4 hs.1 hs.2
      rw [h3]
      refine ⟨⟨fun h => (by cases h), fun h => ?_⟩, fun _ _ _ => ⟨f, rfl, h4⟩⟩
      rcases h with h | h | h
      · exact absurd hl h
      · omega
      · omega
    · have h3 := h1.mpr (.inr (by omega))
      rw [h3]
      refine ⟨⟨fun _ => .inr (by omega), fun _ => rfl⟩, fun _ a b => absurd ⟨a, b⟩ hs⟩
  · refine ⟨⟨fun _ => .inl hl, fun _ => ?_⟩, fun h => absurd h hl⟩
    unfold Frame.fromRgbSpeed
    rw [if_pos (Ne.symm hl)]

/-- C34: `from_rgb` and `from_rgba` give what the functions with a speed give with the speed 1. In particular they panic only if
the length is wrong. -/
theorem C34_default_speed (nq : NeuQuant) (width height : UInt16) (pixels : List UInt8) :
    (Frame.fromRgb nq width height pixels = Frame.fromRgbSpeed nq width height pixels 1 ∧
      (Frame.fromRgb nq width height pixels = .panic ↔ pixels.length ≠ width.toNat * height.toNat * 3)) ∧
    (Frame.fromRgba nq width height pixels = Frame.fromRgbaSpeed nq width height pixels 1 ∧
      (Frame.fromRgba nq width height pixels = .panic ↔ pixels.length ≠ width.toNat * height.toNat * 4)) := by
  refine ⟨⟨rfl, ?_⟩, rfl, ?_⟩
  · rw [show Frame.fromRgb nq width height pixels = Frame.fromRgbSpeed nq width height pixels 1 from rfl,
      (C34_from_rgb_speed nq width height pixels 1).1]
    omega
  · rw [show Frame.fromRgba nq width height pixels = Frame.fromRgbaSpeed nq width height pixels 1 from rfl,
      (C34_from_rgba_speed nq width height pixels 1).1]
    omega

example : Frame.fromPalettePixels 2 1 [0, 0] [1, 2, 3] none ≠ .panic := by decide

/-- Lengths that are right up to less than a pixel are rejected, too. -/
example : Frame.fromRgb ⟨fun _ _ _ => 0, fun _ _ => []⟩ 1 1 [1, 2, 3, 4] = .panic ∧
    Frame.fromRgb ⟨fun _ _ _ => 0, fun _ _ => []⟩ 1 1 [1, 2, 3] ≠ .panic := by decide

end Gif
