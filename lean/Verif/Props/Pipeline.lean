import Verif.Props.RoundTripApi
import Verif.Props.Frames
/-!
C33: true-colour images through `Frame::from_rgb`, the encoder and a decoder in RGBA mode.
-/

namespace Gif

open Spec Encoder

variable {C : Codec}

theorem flatMap_range {α β : Type} : ∀ (l : List α) (g : Nat → List β) (h : α → List β),
    (∀ k (hk : k < l.length), g k = h l[k]) → (List.range l.length).flatMap g = l.flatMap h
  | [], _, _, _ => rfl
  | a :: l, g, h, hg => by
    rw [List.length_cons, List.range_succ_eq_map, List.flatMap_cons, List.flatMap_cons, List.flatMap_map,
      hg 0 (by simp), flatMap_range l _ h (fun k hk => hg (k + 1) (by simpa using hk))]
    rfl

theorem take_three {p q : List UInt8} {a : Nat} {x y z : UInt8} (h : (p.drop a).take 3 = [x, y, z]) :
    a + 3 ≤ p.length ∧ (p ++ q).getD a 0 = x ∧ (p ++ q).getD (a + 1) 0 = y ∧ (p ++ q).getD (a + 2) 0 = z := by
  have hl : ((p.drop a).take 3).length = 3 := by rw [h]; rfl
  rw [List.length_take, List.length_drop] at hl
  have hle : a + 3 ≤ p.length := by omega
  have get : ∀ j, j < 3 → (p ++ q).getD (a + j) 0 = ([x, y, z] : List UInt8).getD j 0 := by
    intro j hj
    rw [← h, List.getD_eq_getElem?_getD, List.getD_eq_getElem?_getD, List.getElem?_append_left (by omega), List.getElem?_take,
      if_pos hj, List.getElem?_drop]
  exact ⟨hle, get 0 (by omega), get 1 (by omega), get 2 (by omega)⟩

theorem rgb_length : ∀ colors : List Rgba, (colors.flatMap Rgba.rgb).length = 3 * colors.length
  | [] => rfl
  | p :: ps => by
    rw [List.flatMap_cons, List.length_append, rgb_length ps, List.length_cons]
    simp only [Rgba.rgb, List.length_cons, List.length_nil]
    omega

/-- The RGBA picture of a frame made from true-colour pixels. -/
theorem picture_colors {colors : List Rgba} {px : List Rgba} {f : Frame} {g : Option (List UInt8)}
    (hp : f.palette = some (padded (colors.flatMap Rgba.rgb))) (hc : colors.length ≤ 256) (buf : List UInt8)
    (hlen : px.length = f.width.toNat * f.height.toNat) (hb : buf.length = px.length)
    (hget : ∀ i (hi : i < px.length) (hb : i < buf.length),
      ((colors.flatMap Rgba.rgb).drop (3 * buf[i].toNat)).take 3 = px[i].rgb)
    (ht : f.transparent = none) (hi : f.interlaced = false) (hopaque : ∀ p ∈ px, p.a = 255) :
    picture .rgba g f buf = px.flatMap Rgba.bytes := by
  have hpl := rgb_length colors
  obtain ⟨k, _, _, _, hpad⟩ := padded_shape hpl hc
  have hpal : Spec.paletteOf g f = colors.flatMap Rgba.rgb ++ List.replicate (3 * (2 ^ k - colors.length)) 0 := by
    unfold Spec.paletteOf
    rw [hp, hpad]
    rfl
  have hord : pixelOrder f buf = buf := by
    unfold pixelOrder
    rw [hi]
    simp only [Bool.false_eq_true, if_false]
    rw [List.take_of_length_le (by omega)]
  unfold picture colours
  simp only
  rw [hpal, hord, ht]
  unfold rgbaPixels
  rw [hb]
  apply flatMap_range
  intro i hil
  have hib : i < buf.length := by omega
  have h3 := hget i hil hib
  have hopq := hopaque px[i] (List.getElem_mem hil)
  have hbuf : buf.getD i 0 = buf[i] := by
    rw [List.getD_eq_getElem?_getD, List.getElem?_eq_getElem hib]; rfl
  rw [hbuf]
  generalize px[i] = c at *
  obtain ⟨r, g', b, a⟩ := c
  simp only at hopq
  subst hopq
  obtain ⟨t1, t2, t3, t4⟩ := take_three (q := List.replicate (3 * (2 ^ k - colors.length)) 0) h3
  unfold rgbaPixel
  rw [if_pos (by rw [List.length_append]; omega), t2, t3, t4]
  rfl

/-- C33: every true-colour image with at most 256 colours comes back as it was, with alpha 255. The canvas, the global
palette and what follows the file in the stream do not matter. -/
theorem true_colour_pipeline (K : C.Contract) {o : DecodeOptions} (hs : o.skipFrameDecoding = false)
    (hce : o.checkForEndCode = false) (hcol : o.colorOutput = .rgba) (h5 : o.memoryLimit.sizeOk 5 = true) (np : Bool)
    (w h : UInt16) {pal : List UInt8} (hpal : pal.length / 3 ≤ 256) (nq : NeuQuant) (width height : UInt16) (px S : List Rgba)
    (speed : Int) (hlen : px.length = width.toNat * height.toNat) (hpos : 0 < width.toNat * height.toNat)
    (hsp : 1 ≤ speed ∧ speed ≤ 30) (hopaque : ∀ p ∈ px, p.a = 255) (hS : S.length ≤ 256) (hpx : ∀ p ∈ px, p ∈ S) :
    ∃ f, Frame.fromRgbSpeed nq width height (px.flatMap Rgba.rgb) speed = .ok f ∧ (Allowed C o w h f →
      ∃ file, encodeFile C np w h pal [.frame f] = (some file, [.ok ()]) ∧
        ∀ (junk : List UInt8) (r : Reader) (k : Nat), r.Reliable → r.bytes = file ++ junk →
          ∃ f' v v', Decoder.sessionFrom C o r (List.replicate (1 + k) .read) =
            .opened v :: .frame (some f') v' :: List.replicate k (.frame none v') ∧
            f'.width = width ∧ f'.height = height ∧ f'.left = 0 ∧ f'.top = 0 ∧ f'.buffer = px.flatMap Rgba.bytes) := by
  obtain ⟨f, colors, e1, e2, e3, e4, _, e6, _, e8, e9, e10, e11, e12, e13, _⟩ :=
    C31_from_rgb nq width height px S speed hlen hsp hopaque hS hpx
  refine ⟨f, e1, fun hal => ?_⟩
  have hpl := rgb_length colors
  have hd : Drawable pal f := by
    refine ⟨by rw [e2, e3]; exact hpos, by rw [e8, e2, e3, hlen]; omega, ?_⟩
    rw [e4]
    simp only
    omega
  obtain ⟨file, henc⟩ := encode_drawable C np w h hpal (fs := [f]) (by
    intro x hx
    rcases List.mem_singleton.mp hx with rfl
    exact hd)
  refine ⟨file, henc, ?_⟩
  intro junk r k hr hb
  have hsane : ∀ op ∈ [EncOp.frame f], op.Sane := by
    intro op hop
    rcases List.mem_singleton.mp hop with rfl
    exact (drawable_ok hd).2
  have hplain : ∀ op ∈ [EncOp.frame f], Plain o op := by
    intro op hop
    rcases List.mem_singleton.mp hop with rfl
    exact h5
  have hw := written_frames [f]
  have had : ∀ op ∈ written [EncOp.frame f] [.ok ()], Admissible C o w h op := by
    intro op hop
    have : op ∈ [EncOp.frame f] := by rw [← show written [EncOp.frame f] [.ok ()] = [.frame f] from hw]; exact hop
    rcases List.mem_singleton.mp this with rfl
    exact ⟨hal.1, fun g hg => by cases hg⟩
  have hc : Contents K o (written [EncOp.frame f] [.ok ()]) [f.buffer] := by
    rw [show written [EncOp.frame f] [.ok ()] = [.frame f] from hw]
    exact ⟨⟨hd.1, hal.2, rfl⟩, trivial⟩
  have := roundtrip_pixels K hs hce np hpal hsane hplain henc had (made_changed (C := C) np hpal hsane henc (by
    rw [show written [EncOp.frame f] _ = [.frame f] from hw]; simp)) hc hr hb k
  rw [show written [EncOp.frame f] _ = [.frame f] from hw] at this
  refine ⟨readBack o.colorOutput pal (f.makeLzwPreEncoded C) f.buffer, _, _, this, e2, e3, e12, e13, ?_⟩
  rw [hcol]
  exact picture_colors (f := { f.makeLzwPreEncoded C with palette := f.palette.map padded }) (by
    show f.palette.map padded = _
    rw [e4]; rfl) e6 f.buffer (by
      show px.length = f.width.toNat * f.height.toNat
      rw [hlen, e2, e3]) e8 e9 e10 e11 hopaque

end Gif
