import Verif.Props.Frames
import Verif.Lemmas.EncOps
/-!
# Frames of images with any number of colours: C53

`Frame::from_rgba_speed` and `Frame::from_rgb_speed` of an image of any number of colours give a frame with a palette of at
most 256 colours in which every pixel has an entry, and `Encoder::write_frame` accepts it. `NeuQuant` is used exactly for the
images with more than 256 colours.
-/

namespace Gif

/-- What is assumed about `color_quant::NeuQuant`: the colour map has at most 256 colours of three bytes, and the index of a
pixel is one of them. (The crate asks for 256 colours, `src/common.rs:231`.) -/
def NeuQuant.Lawful (nq : NeuQuant) : Prop :=
  ∀ speed pixels, (nq.colorMapRgb speed pixels).length % 3 = 0 ∧ (nq.colorMapRgb speed pixels).length ≤ 768 ∧
    ∀ p, 3 * (nq.indexOf speed pixels p).toNat + 3 ≤ (nq.colorMapRgb speed pixels).length

/-- `n` different things occur in `l`. -/
def Distinct {α : Type} (l : List α) (n : Nat) : Prop := ∃ T : List α, T.Nodup ∧ T.length = n ∧ ∀ x ∈ T, x ∈ l

theorem collectColors_spec : ∀ (l seen : List Rgba), seen.Nodup → seen.length ≤ 256 →
    (∀ c, collectColors seen l = some c → c.Nodup ∧ c.length ≤ 256 ∧ ∀ x, x ∈ c ↔ x ∈ seen ∨ x ∈ l) ∧
    (collectColors seen l = none → Distinct (seen ++ l) 257) := by
  intro l
  induction l with
  | nil =>
    intro seen hn hl
    refine ⟨fun c h => ?_, fun h => by cases h⟩
    cases h
    exact ⟨hn, hl, by simp⟩
  | cons p ps ih =>
    intro seen hn hl
    rw [collectColors]
    by_cases hp : p ∈ seen
    · rw [if_pos hp]
      obtain ⟨h1, h2⟩ := ih seen hn hl
      refine ⟨fun c h => ?_, fun h => ?_⟩
      · obtain ⟨a, b, d⟩ := h1 c h
        refine ⟨a, b, fun x => (d x).trans ⟨fun hx => ?_, fun hx => ?_⟩⟩
        · rcases hx with hx | hx
          · exact .inl hx
          · exact .inr (List.mem_cons_of_mem _ hx)
        · rcases hx with hx | hx
          · exact .inl hx
          · rcases List.mem_cons.1 hx with rfl | hx
            · exact .inl hp
            · exact .inr hx
      · obtain ⟨T, a, b, d⟩ := h2 h
        refine ⟨T, a, b, fun x hx => ?_⟩
        rcases List.mem_append.1 (d x hx) with h | h
        · exact List.mem_append_left _ h
        · exact List.mem_append_right _ (List.mem_cons_of_mem _ h)
    · rw [if_neg hp]
      have hn' : (p :: seen).Nodup := List.nodup_cons.2 ⟨hp, hn⟩
      by_cases hg : (p :: seen).length > 256
      · rw [if_pos hg]
        refine ⟨(fun c h => by cases h), fun _ => ⟨p :: seen, hn', ?_, fun x hx => ?_⟩⟩
        · simp only [List.length_cons] at hg ⊢; omega
        · rcases List.mem_cons.1 hx with rfl | hx
          · simp
          · simp [hx]
      · rw [if_neg hg]
        obtain ⟨h1, h2⟩ := ih (p :: seen) hn' (by omega)
        refine ⟨fun c h => ?_, fun h => ?_⟩
        · obtain ⟨a, b, d⟩ := h1 c h
          refine ⟨a, b, fun x => (d x).trans ⟨fun hx => ?_, fun hx => ?_⟩⟩
          · rcases hx with hx | hx
            · rcases List.mem_cons.1 hx with rfl | hx
              · exact .inr (by simp)
              · exact .inl hx
            · exact .inr (List.mem_cons_of_mem _ hx)
          · rcases hx with hx | hx
            · exact .inl (List.mem_cons_of_mem _ hx)
            · rcases List.mem_cons.1 hx with rfl | hx
              · exact .inl (by simp)
              · exact .inr hx
        · obtain ⟨T, a, b, d⟩ := h2 h
          refine ⟨T, a, b, fun x hx => ?_⟩
          rcases List.mem_append.1 (d x hx) with h | h
          · rcases List.mem_cons.1 h with rfl | h
            · simp
            · simp [h]
          · simp [h]

/-- The colours are given up exactly if there are more than 256. -/
theorem collectColors_none (l : List Rgba) : collectColors [] l = none ↔ Distinct l 257 := by
  constructor
  · intro h
    exact (collectColors_spec l [] (by simp) (by simp)).2 h
  · rintro ⟨T, hn, hl, hs⟩
    cases hc : collectColors [] l with
    | none => rfl
    | some c =>
      obtain ⟨_, h2, h3⟩ := (collectColors_spec l [] (by simp) (by simp)).1 c hc
      have := length_le_of_nodup_subset T c hn fun x hx => (h3 x).2 (.inr (hs x hx))
      omega

theorem flatten4_bytes (px : List Rgba) : flatten4 px = px.flatMap Rgba.bytes := by
  induction px with
  | nil => rfl
  | cons p ps ih => rw [flatten4, ih]; rfl

theorem lastTransparent_mem (l : List Rgba) : ∀ (acc : Option Rgba) (t : Rgba), lastTransparent acc l = some t →
    acc = some t ∨ t ∈ l ∧ t.a = 0 := by
  induction l with
  | nil => intro acc t h; exact .inl h
  | cons p ps ih =>
    intro acc t h
    rw [lastTransparent] at h
    rcases ih _ t h with h | h
    · split at h
      · exact .inl h
      · rename_i hp
        cases h
        exact .inr ⟨by simp, by simpa using hp⟩
    · exact .inr ⟨List.mem_cons_of_mem _ h.1, h.2⟩

theorem rgb_length (l : List Rgba) : (l.flatMap Rgba.rgb).length = 3 * l.length := by
  induction l with
  | nil => rfl
  | cons p ps ih => simp only [List.flatMap_cons, List.length_append, ih, Rgba.rgb, List.length_cons, List.length_nil]; omega

theorem bytes_length (l : List Rgba) : (l.flatMap Rgba.bytes).length = 4 * l.length := by
  induction l with
  | nil => rfl
  | cons p ps ih => simp only [List.flatMap_cons, List.length_append, ih, Rgba.bytes, List.length_cons, List.length_nil]; omega

/-- A frame that can be written and shown: a palette of whole colours, at most 256, in which every pixel and the transparent
index have an entry, and a buffer of the size of the image. -/
structure Frame.Sound (f : Frame) : Prop where
  enough : f.buffer.length = f.width.toNat * f.height.toNat
  palette : ∃ pal, f.palette = some pal ∧ pal.length % 3 = 0 ∧ pal.length ≤ 768 ∧
    (∀ b ∈ f.buffer, 3 * b.toNat + 3 ≤ pal.length) ∧ (∀ t, f.transparent = some t → 3 * t.toNat + 3 ≤ pal.length)

/-- C53: the frame of any image, whatever its number of colours. -/
theorem from_rgba_sound (nq : NeuQuant) (hnq : nq.Lawful) (width height : UInt16) (pixels : List UInt8) (speed : Int)
    (f : Frame) (out : List UInt8) (h : Frame.fromRgbaSpeed nq width height pixels speed = .ok (f, out)) : f.Sound := by
  have hsize : pixels.length = width.toNat * height.toNat * 4 := by
    refine Classical.byContradiction fun hne => ?_
    have := (C34_from_rgba_speed nq width height pixels speed).1.2 (.inl hne)
    rw [this] at h; cases h
  have hlen : (chunks4 pixels).length = width.toNat * height.toNat := by rw [chunks4_length, hsize]; omega
  unfold Frame.fromRgbaSpeed at h
  rw [if_neg (by simp [hsize])] at h
  split at h
  · cases h
  simp only at h
  cases hc : collectColors [] ((chunks4 pixels).map clampAlpha) with
  | none =>
    simp only [hc] at h
    cases h
    obtain ⟨h1, h2, h3⟩ := hnq speed (flatten4 ((chunks4 pixels).map clampAlpha))
    refine ⟨by simp [hlen], _, rfl, h1, h2, fun b hb => ?_, fun t ht => ?_⟩
    · obtain ⟨p, _, rfl⟩ := List.mem_map.1 hb
      exact h3 p
    · simp only [Option.map_eq_some_iff] at ht
      obtain ⟨p, _, rfl⟩ := ht
      exact h3 p
  | some c =>
    simp only [hc] at h
    cases h
    obtain ⟨h1, h2, h3⟩ := (collectColors_spec ((chunks4 pixels).map clampAlpha) [] (by simp) (by simp)).1 c hc
    have hperm := sortColors_perm c
    have hcl : (sortColors c).length ≤ 256 := by rw [hperm.length_eq]; exact h2
    have hmem : ∀ p ∈ (chunks4 pixels).map clampAlpha, p ∈ sortColors c := fun p hp => hperm.mem_iff.2 ((h3 p).2 (.inr hp))
    have hin : ∀ p ∈ sortColors c, 3 * (lookupColor (sortColors c) p).toNat + 3 ≤ (paletteOf (sortColors c)).length := by
      intro p hp
      obtain ⟨k, _⟩ := lookupColor_spec _ p hp hcl
      rw [paletteOf_eq, rgb_length]; omega
    refine ⟨by simp [hlen], _, rfl, ?_, ?_, fun b hb => ?_, fun t ht => ?_⟩
    · rw [paletteOf_eq, rgb_length]; omega
    · rw [paletteOf_eq, rgb_length]; omega
    · obtain ⟨p, hp, rfl⟩ := List.mem_map.1 hb
      exact hin p (hmem p hp)
    · simp only [Option.map_eq_some_iff] at ht
      obtain ⟨p, hp, rfl⟩ := ht
      rcases lastTransparent_mem _ _ _ hp with h | h
      · cases h
      · refine hin p (hmem p (List.mem_map.2 ⟨p, h.1, ?_⟩))
        simp [clampAlpha, h.2]

/-- C53 for `from_rgb_speed`. -/
theorem from_rgb_sound (nq : NeuQuant) (hnq : nq.Lawful) (width height : UInt16) (pixels : List UInt8) (speed : Int)
    (f : Frame) (h : Frame.fromRgbSpeed nq width height pixels speed = .ok f) : f.Sound := by
  unfold Frame.fromRgbSpeed at h
  split at h
  · cases h
  cases hx : Frame.fromRgbaSpeed nq width height (addAlpha pixels) speed with
  | ok x =>
    obtain ⟨g, out⟩ := x
    rw [hx] at h
    cases h
    exact from_rgba_sound nq hnq width height _ speed f out hx
  | err e => rw [hx] at h; cases h
  | panic => rw [hx] at h; cases h
  | diverge => rw [hx] at h; cases h

/-- C53: `write_frame` accepts such a frame, whatever was written before, unless the writer fails. -/
theorem sound_frame_written (C : Codec) (e : Encoder) (s : Sink) (hs : e.w = some s) (hw : s.Working) (f : Frame) (hf : f.Sound) :
    (e.writeFrame C f).2 = .ok () := by
  obtain ⟨pal, hp, h3, h768, _⟩ := hf.palette
  have hsane : (EncOp.frame f).Sane := by
    show (f.width > 0 ∧ f.height > 0) ∨ f.buffer = []
    by_cases hz : f.width.toNat * f.height.toNat = 0
    · right
      exact List.eq_nil_of_length_eq_zero (hf.enough.trans hz)
    · left
      constructor
      · have : f.width.toNat ≠ 0 := fun h0 => hz (by rw [h0, Nat.zero_mul])
        exact UInt16.lt_iff_toNat_lt.2 (by show 0 < _; omega)
      · have : f.height.toNat ≠ 0 := fun h0 => hz (by rw [h0, Nat.mul_zero])
        exact UInt16.lt_iff_toNat_lt.2 (by show 0 < _; omega)
  obtain ⟨s', _, _, _, h⟩ := (does_op C e (.frame f) (by rw [hs]; simp) hsane).working hs hw
  have hr : opResult e.globalPalette (.frame f) = .ok () := by
    have hne : ¬ f.buffer.length < f.width.toNat * f.height.toNat := by rw [hf.enough]; omega
    have hpe : Encoder.paletteError e.globalPalette f = none := by
      unfold Encoder.paletteError
      rw [hp]
      simp only
      rw [if_pos (by omega)]
    simp only [opResult, if_neg hne, hpe]
  exact h.trans hr

/-- C53: `NeuQuant` is used exactly for the images with more than 256 colours (after alpha is reduced): then the palette and the
indices are those of `NeuQuant` on the pixels with reduced alpha, and the caller's pixels are reduced in either case. -/
theorem from_rgba_quantized (nq : NeuQuant) (width height : UInt16) (px : List Rgba) (speed : Int)
    (hlen : px.length = width.toNat * height.toNat) (hsp : 1 ≤ speed ∧ speed ≤ 30) :
    ∃ f, Frame.fromRgbaSpeed nq width height (px.flatMap Rgba.bytes) speed = .ok (f, (px.map Rgba.reduce).flatMap Rgba.bytes) ∧
      (Distinct (px.map Rgba.reduce) 257 →
        f.palette = some (nq.colorMapRgb speed ((px.map Rgba.reduce).flatMap Rgba.bytes)) ∧
        f.buffer = px.map fun p => nq.indexOf speed ((px.map Rgba.reduce).flatMap Rgba.bytes) p.reduce) ∧
      (¬ Distinct (px.map Rgba.reduce) 257 → ∃ colors : List Rgba, f.palette = some (colors.flatMap Rgba.rgb) ∧
        colors.Nodup ∧ ∀ c, c ∈ colors ↔ c ∈ px.map Rgba.reduce) := by
  have hmap : px.map clampAlpha = px.map Rgba.reduce := List.map_congr_left fun p _ => clampAlpha_eq p
  unfold Frame.fromRgbaSpeed
  rw [if_neg (by rw [bytes_length, hlen]; omega), if_neg (by simp [hsp.1, hsp.2])]
  simp only [chunks4_bytes, hmap, flatten4_bytes]
  cases hc : collectColors [] (px.map Rgba.reduce) with
  | none =>
    refine ⟨_, rfl, fun _ => ⟨rfl, ?_⟩, fun h => absurd ((collectColors_none _).1 hc) h⟩
    simp only [List.map_map]
    rfl
  | some c =>
    refine ⟨_, rfl, fun h => ?_, fun _ => ⟨sortColors c, ?_, ?_, ?_⟩⟩
    · rw [(collectColors_none _).2 h] at hc; cases hc
    · simp only [paletteOf_eq]
    · exact (sortColors_perm c).nodup_iff.2 ((collectColors_spec _ [] (by simp) (by simp)).1 c hc).1
    · intro x
      rw [(sortColors_perm c).mem_iff, ((collectColors_spec _ [] (by simp) (by simp)).1 c hc).2.2 x]
      simp

/-! ## Cases -/

/-- A quantizer with two colours. -/
def twoColours : NeuQuant where
  indexOf _ _ p := if p.r < 128 then 0 else 1
  colorMapRgb _ _ := [0, 0, 0, 255, 255, 255]

theorem twoColours_lawful : twoColours.Lawful := by
  intro speed pixels
  refine ⟨by simp [twoColours], by simp [twoColours], fun p => ?_⟩
  simp only [twoColours]
  split <;> decide

/-- 257 opaque colours: a red ramp, and green. -/
def manyColours : List Rgba := (List.range 256).map (fun i => ⟨UInt8.ofNat i, 0, 0, 255⟩) ++ [⟨0, 1, 0, 255⟩]

set_option maxRecDepth 100000 in
/-- An image of 257 colours is quantized, and the frame is accepted. -/
example : ∃ f out, Frame.fromRgbaSpeed twoColours 257 1 (manyColours.flatMap Rgba.bytes) 10 = .ok (f, out) ∧
    f.palette = some [0, 0, 0, 255, 255, 255] ∧ f.buffer.length = 257 ∧ f.Sound := by
  have hd : Distinct (manyColours.map Rgba.reduce) 257 :=
    ⟨manyColours, by decide +kernel, by decide +kernel, by decide +kernel⟩
  obtain ⟨f, h1, h2, _⟩ := from_rgba_quantized twoColours 257 1 manyColours 10 (by decide +kernel) (by decide)
  refine ⟨f, _, h1, (h2 hd).1, ?_, from_rgba_sound twoColours twoColours_lawful 257 1 _ 10 f _ h1⟩
  rw [(h2 hd).2, List.length_map]
  decide +kernel

end Gif
