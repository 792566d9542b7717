import Verif.Props.Pipeline
/-!
# C89: the programs of the documentation (`src/lib.rs:14-69`, `README.md`)
-/

namespace Gif

open Spec

variable {C : Codec}

namespace Documented

/-- `src/lib.rs:62-66`: the frame of a state: `Frame::default()` but for the size and the pixels. -/
def still (width height : UInt16) (s : List UInt8) : Frame :=
  { Frame.default with width := width, height := height, buffer := s }

/-- `src/lib.rs:61-68`: `set_repeat(Repeat::Infinite)`, and `write_frame` for every state, with `Frame::default()` but for the size
and the borrowed pixels. -/
def calls (width height : UInt16) (states : List (List UInt8)) : List EncOp :=
  .setRepeat .infinite :: states.map fun s => .frame (still width height s)

/-- `src/lib.rs:20-22`: RGBA output, otherwise the default options. -/
def options : DecodeOptions := { DecodeOptions.new with colorOutput := .rgba }

theorem written_calls (w h : UInt16) (states : List (List UInt8)) :
    written (calls w h states) (.ok () :: states.map fun _ => .ok ()) =
      states.map fun s => .frame (still w h s) := by
  unfold calls
  rw [written, if_neg (by simp [isFrame])]
  induction states with
  | nil => rfl
  | cons s ss ih => rw [List.map_cons, List.map_cons, written, if_pos ⟨rfl, rfl⟩, ih]

/-- The picture that a state stands for. -/
def colored (colors : List Rgba) (s : List UInt8) : List UInt8 :=
  s.flatMap fun i => (colors.getD i.toNat ⟨0, 0, 0, 0⟩).bytes

theorem drop_colors (colors : List Rgba) (i : Nat) (hi : i < colors.length) :
    ((colors.flatMap Rgba.rgb).drop (3 * i)).take 3 = (colors.getD i ⟨0, 0, 0, 0⟩).rgb := by
  induction colors generalizing i with
  | nil => simp at hi
  | cons c cs ih =>
    cases i with
    | zero => simp [Rgba.rgb]
    | succ i =>
      have := ih i (by simpa using hi)
      rw [List.flatMap_cons, show 3 * (i + 1) = 3 + 3 * i by omega, List.drop_append,
        List.drop_of_length_le (by simp [Rgba.rgb])]
      simpa [Rgba.rgb] using this

theorem beacon_colors (K : C.Contract) (np : Bool) (width height : UInt16) (colors : List Rgba) (states : List (List UInt8))
    (hc : 0 < colors.length ∧ colors.length ≤ 256) (hopaque : ∀ c ∈ colors, c.a = 255)
    (hpos : 0 < width.toNat * height.toNat) (hsize : 4 * (width.toNat * height.toNat) ≤ 50000000)
    (hs : ∀ s ∈ states, s.length = width.toNat * height.toNat ∧ ∀ i ∈ s, i.toNat < colors.length) :
    ∃ file, encodeFile C np width height (colors.flatMap Rgba.rgb) (calls width height states) =
        (some file, .ok () :: states.map fun _ => .ok ()) ∧
      ∀ (junk : List UInt8) (r : Reader) (k : Nat), r.Reliable → r.bytes = file ++ junk →
        ∃ (v : View) (fs : List (Frame × View)) (v' : View),
          Decoder.sessionFrom C options r (List.replicate (states.length + k) .read) =
            .opened v :: fs.map (fun x => .frame (some x.1) x.2) ++ List.replicate k (.frame none v') ∧
          v.width = width ∧ v.height = height ∧ v.repetition = .infinite ∧
          fs.map (fun x => (x.1.width, x.1.height, x.1.left, x.1.top, x.1.buffer)) =
            states.map (fun s => (width, height, 0, 0, colored colors s)) := by
  have hpl := rgb_length colors
  have hpal : (colors.flatMap Rgba.rgb).length / 3 ≤ 256 := by omega
  have hsane : ∀ op ∈ calls width height states, op.Sane := by
    intro op hop
    rcases List.mem_cons.1 hop with rfl | hop
    · trivial
    · obtain ⟨s, _, rfl⟩ := List.mem_map.1 hop
      left
      have h1 : width.toNat ≠ 0 := fun h => by rw [h] at hpos; omega
      have h2 : height.toNat ≠ 0 := fun h => by rw [h] at hpos; omega
      exact ⟨UInt16.lt_iff_toNat_lt.2 (Nat.pos_of_ne_zero h1), UInt16.lt_iff_toNat_lt.2 (Nat.pos_of_ne_zero h2)⟩
  have hchg : (encodeFile C np width height (colors.flatMap Rgba.rgb) []).1 ≠
      some (fileOf width height (colors.flatMap Rgba.rgb)
        ((calls width height states).flatMap (opBlks C (3 ≤ (colors.flatMap Rgba.rgb).length)))).render := by
    rw [encodeFile_eq C np width height _ [] hpal (by intro op h; cases h)]
    intro heq
    simp only [Option.some.injEq, File.render, List.append_cancel_right_eq] at heq
    have heq := List.append_cancel_left (as := (fileOf width height (colors.flatMap Rgba.rgb) []).renderHead) heq
    simp [fileOf, renderBlks, calls, opBlks, repeatBlks, Blk.render] at heq
  have hres : (calls width height states).map (opResult (3 ≤ (colors.flatMap Rgba.rgb).length)) =
      .ok () :: states.map fun _ => .ok () := by
    unfold calls
    rw [List.map_cons, List.map_map]
    refine congr (congrArg _ rfl) (List.map_congr_left fun s hsm => ?_)
    exact (drawable_ok (pal := colors.flatMap Rgba.rgb) (f := still width height s)
      ⟨hpos, by show _ ≤ s.length; rw [(hs s hsm).1]; exact Nat.le_refl _, by show 3 ≤ _; omega⟩).1
  have henc := encodeFile_eq C np width height (colors.flatMap Rgba.rgb) (calls width height states) hpal hsane
  rw [hres] at henc
  refine ⟨_, henc, ?_⟩
  intro junk r k hr hb
  have hw := written_calls width height states
  have hplain : ∀ op ∈ calls width height states, Plain options op := by
    intro op hop
    rcases List.mem_cons.1 hop with rfl | hop
    · show decide (15 ≤ 50000000) = true; decide
    · obtain ⟨s, _, rfl⟩ := List.mem_map.1 hop
      show decide (5 ≤ 50000000) = true; decide
  have had : ∀ op ∈ written (calls width height states) (.ok () :: states.map fun _ => .ok ()), Admissible C options width height op := by
    rw [hw]
    intro op hop
    obtain ⟨s, hsm, rfl⟩ := List.mem_map.1 hop
    exact ⟨fun h => (by cases h), fun g hg => by cases hg⟩
  have hcont : ∀ l : List (List UInt8), (∀ s ∈ l, s ∈ states) → Contents K options
      (l.map fun s => .frame (still width height s)) l := by
    intro l
    induction l with
    | nil => intro _; trivial
    | cons s l ih =>
      intro hl
      refine ⟨⟨hpos, ⟨width.toNat * height.toNat * 4, ?_⟩, rfl⟩, ih fun x hx => hl x (List.mem_cons_of_mem _ hx)⟩
      show (if width.toNat * height.toNat * 4 ≤ 2 ^ 64 - 1 then
        if width.toNat * height.toNat * 4 > 50000000 then none else some (width.toNat * height.toNat * 4) else none) = _
      have a1 : width.toNat * height.toNat * 4 ≤ 2 ^ 64 - 1 := by omega
      have a2 : ¬ width.toNat * height.toNat * 4 > 50000000 := by omega
      rw [if_pos a1, if_neg a2]
  have hcc := hcont states fun s hs => hs
  rw [← hw] at hcc
  have key := roundtrip_pixels K (o := options) rfl rfl np hpal hsane hplain henc had
    hchg hcc hr hb k
  rw [hw, List.length_map] at key
  have hrep : repetitions (calls width height states) (.ok () :: states.map fun _ => .ok ()) (.finite 0) = .infinite := by
    have aux : ∀ l : List (List UInt8), repetitions
        (l.map fun s => .frame (still width height s))
        (l.map fun _ => .ok ()) .infinite = .infinite := by
      intro l
      induction l with
      | nil => rfl
      | cons s l ih => exact if_pos ⟨rfl, rfl⟩
    exact aux states
  rw [hrep] at key
  generalize hz : List.zipWith (fun op px => readBack options.colorOutput (colors.flatMap Rgba.rgb) (compressed C op) px)
    (states.map fun s => .frame (still width height s)) states = fs at key
  refine ⟨screen width height (colors.flatMap Rgba.rgb) .infinite Frame.default,
    fs.map (fun f => (f, screen width height (colors.flatMap Rgba.rgb) .infinite f)),
    screen width height (colors.flatMap Rgba.rgb) .infinite (fs.getLast?.getD Frame.default), key.trans ?_, rfl, rfl, rfl, ?_⟩
  · rw [projection, List.map_map]; rfl
  · rw [List.map_map, ← hz, List.zipWith_map_left, List.zipWith_self, List.map_map]
    refine List.map_congr_left fun s hsm => ?_
    show ((width, height, 0, 0, picture .rgba (some (padded (colors.flatMap Rgba.rgb)))
      ({ (compressed C (.frame (still width height s))) with palette := none }) s) : UInt16 × UInt16 × UInt16 × UInt16 × List UInt8) = _
    congr 4
    obtain ⟨h1, h2⟩ := hs s hsm
    have hpic := picture_colors (colors := colors) (px := s.map fun i => colors.getD i.toNat ⟨0, 0, 0, 0⟩)
      (f := { Frame.default with width := width, height := height, buffer := s, palette := some (padded (colors.flatMap Rgba.rgb)) })
      (g := none) rfl hc.2 s (by rw [List.length_map, h1]) (by rw [List.length_map])
      (by
        intro i hi hb
        rw [List.getElem_map]
        exact drop_colors colors _ (h2 _ (List.getElem_mem _)))
      rfl rfl (by
        intro p hp
        obtain ⟨i, hi, rfl⟩ := List.mem_map.1 hp
        have := h2 i hi
        rw [List.getD_eq_getElem?_getD, List.getElem?_eq_getElem this, Option.getD_some]
        exact hopaque _ (List.getElem_mem _))
    rw [List.flatMap_map] at hpic
    exact hpic

/-- A colour map as a list of colours. -/
theorem map_colors : ∀ (n : Nat) (map : List UInt8), map.length = 3 * n →
    ∃ colors : List Rgba, colors.length = n ∧ (∀ c ∈ colors, c.a = 255) ∧ colors.flatMap Rgba.rgb = map
  | 0, map, h => ⟨[], rfl, fun _ h => (by cases h), (List.length_eq_zero_iff.1 h).symm⟩
  | n + 1, r :: g :: b :: map, h => by
    obtain ⟨cs, h1, h2, h3⟩ := map_colors n map (by simp only [List.length_cons] at h; omega)
    refine ⟨⟨r, g, b, 255⟩ :: cs, by rw [List.length_cons, h1], ?_, by rw [List.flatMap_cons, h3]; rfl⟩
    intro c hc
    rcases List.mem_cons.1 hc with rfl | hc
    · rfl
    · exact h2 c hc
  | n + 1, [], h => by simp at h
  | n + 1, [_], h => by simp only [List.length_cons, List.length_nil] at h; omega
  | n + 1, [_, _], h => by simp only [List.length_cons, List.length_nil] at h; omega

/-- The RGBA picture that the pixels of a state stand for: for each pixel the three bytes of its colour, and 255. -/
def image (colorMap : List UInt8) (s : List UInt8) : List UInt8 :=
  s.flatMap fun i => (colorMap.drop (3 * i.toNat)).take 3 ++ [255]

theorem colored_image {colors : List Rgba} (ho : ∀ c ∈ colors, c.a = 255) (s : List UInt8) (h : ∀ i ∈ s, i.toNat < colors.length) :
    colored colors s = image (colors.flatMap Rgba.rgb) s := by
  unfold colored image
  induction s with
  | nil => rfl
  | cons i s ih =>
    have hi := h i List.mem_cons_self
    rw [List.flatMap_cons, List.flatMap_cons, ih fun j hj => h j (List.mem_cons_of_mem _ hj), drop_colors colors _ hi]
    congr 1
    have : (colors.getD i.toNat ⟨0, 0, 0, 0⟩).a = 255 := by
      rw [List.getD_eq_getElem?_getD, List.getElem?_eq_getElem hi, Option.getD_some]
      exact ho _ (List.getElem_mem _)
    simp only [Rgba.bytes, Rgba.rgb, this]; rfl

/-- **C89**: the programs of the documentation. For every colour map with up to 256 colours, every size and every list of states
whose pixels are in the map: none of the calls fails, and the program that reads the file in RGBA finds the size, an endless loop,
and for each state a frame with the colours of its pixels. -/
theorem beacon (K : C.Contract) (np : Bool) (width height : UInt16) (n : Nat) (colorMap : List UInt8) (states : List (List UInt8))
    (hc : colorMap.length = 3 * n) (hn : 0 < n ∧ n ≤ 256)
    (hpos : 0 < width.toNat * height.toNat) (hsize : 4 * (width.toNat * height.toNat) ≤ 50000000)
    (hs : ∀ s ∈ states, s.length = width.toNat * height.toNat ∧ ∀ i ∈ s, i.toNat < n) :
    ∃ file, encodeFile C np width height colorMap (calls width height states) = (some file, .ok () :: states.map fun _ => .ok ()) ∧
      ∀ (junk : List UInt8) (r : Reader) (k : Nat), r.Reliable → r.bytes = file ++ junk →
        ∃ (v : View) (fs : List (Frame × View)) (v' : View),
          Decoder.sessionFrom C options r (List.replicate (states.length + k) .read) =
            .opened v :: fs.map (fun x => .frame (some x.1) x.2) ++ List.replicate k (.frame none v') ∧
          v.width = width ∧ v.height = height ∧ v.repetition = .infinite ∧
          fs.map (fun x => (x.1.width, x.1.height, x.1.left, x.1.top, x.1.buffer)) =
            states.map (fun s => (width, height, 0, 0, image colorMap s)) := by
  obtain ⟨colors, h1, h2, rfl⟩ := map_colors n colorMap hc
  obtain ⟨file, henc, hread⟩ := beacon_colors K np width height colors states (by omega) h2 hpos hsize
    (by rw [h1]; exact hs)
  refine ⟨file, henc, fun junk r k hr hb => ?_⟩
  obtain ⟨v, fs, v', a1, a2, a3, a4, a5⟩ := hread junk r k hr hb
  refine ⟨v, fs, v', a1, a2, a3, a4, a5.trans (List.map_congr_left fun s hsm => ?_)⟩
  rw [colored_image h2 s (by rw [h1]; exact (hs s hsm).2)]

/-- `src/lib.rs:44-58` -/
def beaconStates : List (List UInt8) := [[
    0, 0, 0, 0, 0, 0,
    0, 1, 1, 0, 0, 0,
    0, 1, 1, 0, 0, 0,
    0, 0, 0, 1, 1, 0,
    0, 0, 0, 1, 1, 0,
    0, 0, 0, 0, 0, 0], [
    0, 0, 0, 0, 0, 0,
    0, 1, 1, 0, 0, 0,
    0, 1, 0, 0, 0, 0,
    0, 0, 0, 0, 1, 0,
    0, 0, 0, 1, 1, 0,
    0, 0, 0, 0, 0, 0]]

/-- The example of the documentation meets the hypotheses of `beacon`. -/
theorem beacon_example : [0xFF, 0xFF, 0xFF, 0, 0, 0].length = 3 * 2 ∧ (0 < 2 ∧ 2 ≤ 256) ∧
    0 < (6 : UInt16).toNat * (6 : UInt16).toNat ∧ 4 * ((6 : UInt16).toNat * (6 : UInt16).toNat) ≤ 50000000 ∧
    (∀ s ∈ beaconStates, s.length = (6 : UInt16).toNat * (6 : UInt16).toNat ∧ ∀ i ∈ s, i.toNat < 2) := by
  decide +kernel

/-- What the first pixels of the second state look like. -/
example : (image [0xFF, 0xFF, 0xFF, 0, 0, 0] (beaconStates.getD 1 [])).take 32 =
    [255, 255, 255, 255, 255, 255, 255, 255, 255, 255, 255, 255, 255, 255, 255, 255,
     255, 255, 255, 255, 255, 255, 255, 255, 255, 255, 255, 255, 0, 0, 0, 255] := by decide +kernel

end Documented

end Gif
