import Verif.Spec.Join
import Verif.Props.Tint
import Verif.Props.Transcode
import Verif.Props.ScenePixels
import Verif.Props.Rewrite
/-!
# C94: frames of several files in one animation
-/

namespace Gif.Join

variable {C : Codec}

open Spec

/-- The call, as one of the calls of a film. -/
def actOf : Call → Act
  | .info => .info
  | .read => .read

theorem film_calls (C : Codec) : ∀ (cs : List Call) (d : Decoder C) (live : Bool),
    Decoder.film (cs.map actOf) d live = (Decoder.session cs d).map .seen := by
  intro cs
  induction cs with
  | nil => intro d live; rfl
  | cons c cs ih =>
    intro d live
    cases c with
    | info =>
      simp only [List.map_cons, actOf, Decoder.film, Decoder.session, Decoder.act, Decoder.see]
      generalize d.nextFrameInfo = x
      obtain ⟨d', out⟩ := x
      cases out with
      | ok f => simp only [List.map_cons, List.singleton_append, ih]
      | err e => rfl
      | panic => rfl
      | diverge => rfl
    | read =>
      simp only [List.map_cons, actOf, Decoder.film, Decoder.session, Decoder.act, Decoder.see]
      generalize d.readNextFrame = x
      obtain ⟨d', out⟩ := x
      cases out with
      | ok f => simp only [List.map_cons, List.singleton_append, ih]
      | err e => rfl
      | panic => rfl
      | diverge => rfl

theorem filmFrom_calls (C : Codec) (o : DecodeOptions) (r : Reader) (cs : List Call) :
    Decoder.filmFrom C o r (cs.map actOf) = (Decoder.sessionFrom C o r cs).map .seen := by
  unfold Decoder.filmFrom Decoder.sessionFrom
  generalize Decoder.readInfo C o r = x
  obtain ⟨d, out⟩ := x
  cases out with
  | ok u => simp only [List.map_cons, film_calls]
  | err e => rfl
  | panic => rfl
  | diverge => rfl

theorem tinted_at {limit : MemoryLimit} {v : View} {a b : List Got} (h : TintedFilm limit v a b) : ∀ {i : Nat} {g g' : Frame} {w w' : View},
    a[i]? = some (.seen (.frame (some g) w)) → b[i]? = some (.seen (.frame (some g') w')) → g' = tint w.globalPalette g := by
  induction h with
  | nil v => intro i g g' w w' h1; simp at h1
  | opened _ ih | info _ _ ih | full _ _ ih | rest _ _ _ ih | image _ _ ih =>
    intro i g g' w w' h1 h2
    cases i with
    | zero => simp at h1
    | succ i => exact ih (by simpa using h1) (by simpa using h2)
  | frame f _ ih =>
    intro i g g' w w' h1 h2
    cases i with
    | zero =>
      simp only [List.getElem?_cons_zero, Option.some.injEq, Got.seen.injEq, Seen.frame.injEq] at h1 h2
      obtain ⟨rfl, rfl⟩ := h1
      simpa using h2.1.symm
    | succ i => exact ih (by simpa using h1) (by simpa using h2)
  | failed v e | noPixels v e | large f _ | largeFailed v e _ =>
    intro i g g' w w' h1 h2
    cases i with
    | zero => simp at h2
    | succ i => simp at h2

theorem session_frame (hS : C.Safe) {o : DecodeOptions} {w h : UInt16} {pal : Option (List UInt8)} : ∀ (cs : List Call) (d : Decoder C),
    Decoder.Steady o w h pal d → ∀ {f : Frame} {v : View}, Seen.frame (some f) v ∈ Decoder.session cs d →
      Sound o w h pal f ∧ v.globalPalette = pal := by
  intro cs
  induction cs with
  | nil => intro d _ f v hf; cases hf
  | cons c cs ih =>
    intro d hd f v hf
    rw [Decoder.session] at hf
    cases c with
    | info =>
      have h1 := Decoder.nextFrameInfo_steady hS hd
      simp only [Decoder.see] at hf
      generalize d.nextFrameInfo = x at *
      obtain ⟨d', out⟩ := x
      cases out with
      | ok found =>
        rcases List.mem_cons.mp hf with hf | hf
        · cases hf
        · exact ih d' h1 hf
      | err e => simp at hf
      | panic => simp at hf
      | diverge => simp at hf
    | read =>
      obtain ⟨h1, h2⟩ := Decoder.readNextFrame_steady hS hd
      simp only [Decoder.see] at hf
      generalize d.readNextFrame = x at *
      obtain ⟨d', out⟩ := x
      cases out with
      | ok g =>
        rcases List.mem_cons.mp hf with hf | hf
        · cases hf
          exact ⟨h2 _ rfl, h1.pal⟩
        · exact ih d' h1 hf
      | err e => simp at hf
      | panic => simp at hf
      | diverge => simp at hf

theorem sessionFrom_frame (hS : C.Safe) {o : DecodeOptions} {r : Reader} {cs : List Call} {f : Frame} {v : View}
    (h : Seen.frame (some f) v ∈ Decoder.sessionFrom C o r cs) :
    (∃ w h, Sound o w h v.globalPalette f) ∧ ∀ p, v.globalPalette = some p → TableLength p.length := by
  have hs := Decoder.readInfo_steady (C := C) hS o r
  unfold Decoder.sessionFrom at h
  generalize Decoder.readInfo C o r = x at *
  obtain ⟨d, out⟩ := x
  cases out with
  | err e => simp at h
  | panic => simp at h
  | diverge => simp at h
  | ok u =>
    cases u
    obtain ⟨h1, h2⟩ := hs rfl
    rcases List.mem_cons.mp h with h | h
    · cases h
    · obtain ⟨h3, h4⟩ := session_frame hS cs d h1 h
      rw [h4]
      exact ⟨⟨_, _, h3⟩, h2⟩

/-- What is known of a clip. -/
structure Fit (x : Clip) : Prop where
  table : ∃ p, x.placed.palette = some p ∧ TableLength p.length ∧ x.image = colours .rgba p x.frame.transparent x.frame.buffer
  flat : x.frame.interlaced = false
  full : x.frame.buffer.length = x.frame.width.toNat * x.frame.height.toNat
  owned : x.frame.ownedCap = some x.frame.buffer.length

theorem read_fit (hS : C.Safe) {x : Clip} (h : x.Read C) : Fit x := by
  obtain ⟨o, r, cs, i, v, v', f, ho, h1, h2, h3, h4⟩ := h
  obtain ⟨⟨w, hh, hs⟩, ht⟩ := sessionFrom_frame hS (List.mem_of_getElem? h1)
  have htint := Decoder.rgba_session hS o ho r (cs.map actOf) v
  rw [filmFrom_calls, filmFrom_calls] at htint
  have hf := tinted_at htint (i := i) (by rw [List.getElem?_map, h1]; rfl) (by rw [List.getElem?_map, h3]; rfl)
  obtain ⟨p1, p2, _⟩ := hs.pixels ho
  refine ⟨?_, p1, by simpa using p2, hs.owned⟩
  have himg : x.image = colours .rgba (paletteOf x.global x.frame) x.frame.transparent x.frame.buffer := by
    rw [← h4, hf, h2]
    rfl
  rw [himg]
  unfold Clip.placed paletteOf
  cases hp : x.frame.palette with
  | some p => exact ⟨p, rfl, hs.table p hp, rfl⟩
  | none =>
    rcases hs.coloured with h | h
    · exact absurd hp h
    · rw [h2] at h ht
      cases hg : x.global with
      | none => exact absurd hg h
      | some p => exact ⟨p, rfl, ht p hg, rfl⟩

/-- The frame in the given kind of output. -/
def output (x : Clip) : ColorOutput → Frame
  | .indexed => x.placed
  | .rgba => x.coloured

theorem readBack_placed {x : Clip} (hx : Fit x) (pal : List UInt8) (c : ColorOutput) :
    readBack c pal (compressed C (.frame x.placed)) x.placed.buffer = output x c := by
  obtain ⟨⟨p, h1, h2, h3⟩, h4, h5, h6⟩ := hx
  have hp := (tableLength_padded h2).1
  have hi : x.placed.interlaced = false := h4
  have hl : x.placed.buffer.length = x.placed.width.toNat * x.placed.height.toNat := h5
  have ho : x.placed.ownedCap = some x.placed.buffer.length := h6
  have ht : x.image = colours .rgba p x.placed.transparent x.placed.buffer := h3
  cases c with
  | indexed =>
    have := readBack_indexed C pal x.placed hi (by omega)
    refine this.trans ?_
    unfold trimmed
    rw [h1, Option.map_some, hp, ← hl, List.take_length, ← ho, ← h1]
    rfl
  | rgba =>
    have hpic : picture .rgba (some (padded pal)) { (x.placed.makeLzwPreEncoded C) with palette := x.placed.palette.map padded }
        x.placed.buffer = x.image := by
      rw [ht]
      unfold picture paletteOf pixelOrder
      simp only [Frame.makeLzwPreEncoded, hi, Bool.false_eq_true, if_false, h1, Option.map_some, hp]
      rw [← hl, List.take_length]
      rfl
    show shown _ _ _ _ = _
    unfold shown
    show _ = x.coloured
    unfold Clip.coloured
    simp only [compressed, Frame.makeLzwPreEncoded] at hpic ⊢
    rw [hpic, h1, Option.map_some, hp, ← h1]

theorem size_given (m : MemoryLimit) (c : ColorOutput) {w h : UInt16} (hm : m.sizeOk (w.toNat * h.toNat * channels c) = true) :
    ∃ n, m.bufferSize c w h = some n := by
  have hw := w.toNat_lt
  have hh := h.toNat_lt
  have hp : w.toNat * h.toNat ≤ 65535 * 65535 := Nat.mul_le_mul (by omega) (by omega)
  unfold MemoryLimit.bufferSize MemoryLimit.bufferSizeOn
  cases c <;> simp only [channels] at hm ⊢ <;> rw [if_pos (by omega)] <;> cases m with
  | unlimited => exact ⟨_, rfl⟩
  | bytes n hn =>
    simp only [MemoryLimit.sizeOk, decide_eq_true_eq] at hm
    simp only
    rw [if_neg (by omega)]
    exact ⟨_, rfl⟩

theorem output_length {x : Clip} (hx : Fit x) (c : ColorOutput) :
    (output x c).buffer.length = x.frame.width.toNat * x.frame.height.toNat * channels c := by
  obtain ⟨⟨p, h1, h2, h3⟩, h4, h5, h6⟩ := hx
  cases c with
  | indexed => simpa [output, Clip.placed, channels] using h5
  | rgba =>
    show x.image.length = _
    rw [h3, colours_length, h5, channels]

theorem placed_drawable {x : Clip} (hx : Fit x) (pal : List UInt8) (hpx : 0 < x.frame.width.toNat * x.frame.height.toNat) :
    Drawable pal x.placed := by
  obtain ⟨⟨p, h1, h2, h3⟩, h4, h5, h6⟩ := hx
  refine ⟨hpx, Nat.le_of_eq h5.symm, ?_⟩
  rw [h1]
  exact (tableLength_padded h2).2.1

/-- **C94.** Frames that were read from any files, one or several, damaged or not, with any palettes, can be put into one animation: a
program that gives each frame the palette in force as its own, and places, delays and disposes of it as it likes, gets a file without
an error from the encoder, whatever the size and the global palette of the animation; and a decoder gives these frames, each with the
palette indices that it had in its first file, or, if it is asked for RGBA, with the very pixels that an RGBA decoder gives of the first
file. -/
theorem joined (K : C.Contract) (np : Bool) (w h : UInt16) {pal : List UInt8} (hpal : pal.length / 3 ≤ 256) (rep : Repeat) {xs : List Clip}
    (hne : xs ≠ []) (hread : ∀ x ∈ xs, x.Read C) (hpx : ∀ x ∈ xs, 0 < x.frame.width.toNat * x.frame.height.toNat) :
    ∃ file, encodeFile C np w h pal (.setRepeat rep :: xs.map fun x => .frame x.placed) =
        (some file, List.replicate (xs.length + 1) (.ok ())) ∧
      ∀ (p : DecodeOptions), p.skipFrameDecoding = false → p.checkForEndCode = false → p.memoryLimit.sizeOk 15 = true →
        (p.checkFrameConsistency = true → ∀ x ∈ xs, x.left.toNat + x.frame.width.toNat ≤ w.toNat ∧
          x.top.toNat + x.frame.height.toNat ≤ h.toNat) →
      ∀ (junk : List UInt8) (r : Reader) (k : Nat), r.Reliable → r.bytes = file ++ junk →
        ((∀ x ∈ xs, p.memoryLimit.sizeOk x.frame.buffer.length = true) →
          Decoder.sessionFrom C { p with colorOutput := .indexed } r (List.replicate (xs.length + k) .read) =
            projection w h pal rep (xs.map Clip.placed) k) ∧
        ((∀ x ∈ xs, p.memoryLimit.sizeOk x.image.length = true) →
          Decoder.sessionFrom C { p with colorOutput := .rgba } r (List.replicate (xs.length + k) .read) =
            projection w h pal rep (xs.map Clip.coloured) k) := by
  have hfit : ∀ x ∈ xs, Fit x := fun x hx => read_fit K.safe (hread x hx)
  have hdraw : ∀ x ∈ xs, Drawable pal x.placed := fun x hx => placed_drawable (hfit x hx) pal (hpx x hx)
  have hmap : (xs.map fun x => EncOp.frame x.placed) = (xs.map Clip.placed).map EncOp.frame := by rw [List.map_map]; rfl
  rw [hmap]
  have hsane : ∀ op ∈ EncOp.setRepeat rep :: (xs.map Clip.placed).map EncOp.frame, op.Sane := by
    intro op hop
    rcases List.mem_cons.mp hop with rfl | hop
    · trivial
    · obtain ⟨f, hfm, rfl⟩ := List.mem_map.mp hop
      obtain ⟨x, hx, rfl⟩ := List.mem_map.mp hfm
      exact (drawable_ok (hdraw x hx)).2
  have hres : (EncOp.setRepeat rep :: (xs.map Clip.placed).map EncOp.frame).map (opResult (3 ≤ pal.length)) =
      .ok () :: (xs.map Clip.placed).map fun _ => .ok () := by
    rw [List.map_cons, List.map_map]
    congr 1
    apply List.map_congr_left
    intro f hfm
    obtain ⟨x, hx, rfl⟩ := List.mem_map.mp hfm
    exact (drawable_ok (hdraw x hx)).1
  have hrep : (.ok () :: (xs.map Clip.placed).map fun _ => .ok () : List (EOut Unit)) = List.replicate (xs.length + 1) (.ok ()) := by
    rw [List.replicate_succ, List.map_const', List.length_map]
  have henc := encodeFile_eq C np w h pal _ hpal hsane
  rw [hres] at henc
  refine ⟨_, by rw [← hrep]; exact henc, ?_⟩
  intro p hp hce h15 hcc junk r k hr hb
  have hw : written (.setRepeat rep :: (xs.map Clip.placed).map .frame) (.ok () :: (xs.map Clip.placed).map fun _ => .ok ()) =
      (xs.map Clip.placed).map .frame := by
    rw [written, if_neg (by rintro ⟨h, _⟩; cases h), written_frames]
  have hrp : repetitions (.setRepeat rep :: (xs.map Clip.placed).map .frame) (.ok () :: (xs.map Clip.placed).map fun _ => .ok ())
      (.finite 0) = rep := by
    rw [repetitions, if_neg (by rintro ⟨h, _⟩; cases h), repetitions_frames]
    show (if rep = .finite 0 then none else some rep).getD (.finite 0) = _
    by_cases h : rep = .finite 0
    · rw [if_pos h, h]; rfl
    · rw [if_neg h]; rfl
  have hch := made_changed (C := C) np hpal hsane henc (by rw [hw]; simpa using hne)
  have key : ∀ c, (∀ x ∈ xs, p.memoryLimit.sizeOk (output x c).buffer.length = true) →
      Decoder.sessionFrom C { p with colorOutput := c } r (List.replicate (xs.length + k) .read) =
        projection w h pal rep (xs.map (output · c)) k := by
    intro c hsz
    have hpl : ∀ op ∈ EncOp.setRepeat rep :: (xs.map Clip.placed).map EncOp.frame, Plain { p with colorOutput := c } op := by
      intro op hop
      rcases List.mem_cons.mp hop with rfl | hop
      · exact h15
      · obtain ⟨f, hfm, rfl⟩ := List.mem_map.mp hop
        exact SD.sizeOk_mono _ (by omega) h15
    have had : ∀ op ∈ written (.setRepeat rep :: (xs.map Clip.placed).map .frame) (.ok () :: (xs.map Clip.placed).map fun _ => .ok ()),
        Admissible C { p with colorOutput := c } w h op := by
      rw [hw]
      intro op hop
      obtain ⟨f, hfm, rfl⟩ := List.mem_map.mp hop
      obtain ⟨x, hx, rfl⟩ := List.mem_map.mp hfm
      exact ⟨fun h => hcc h x hx, fun g hg => by cases hg⟩
    have hc : ∀ l : List Clip, (∀ x ∈ l, x ∈ xs) → Contents K { p with colorOutput := c } ((l.map Clip.placed).map .frame)
        (l.map (·.placed.buffer)) := by
      intro l
      induction l with
      | nil => intro _; exact trivial
      | cons x l ih =>
        intro hl
        have hm := hl x List.mem_cons_self
        refine ⟨⟨hpx x hm, ?_, rfl⟩, ih (fun g hg => hl g (List.mem_cons_of_mem _ hg))⟩
        have h2 := hsz x hm
        rw [output_length (hfit x hm)] at h2
        exact size_given _ c h2
    have := roundtrip_pixels K (o := { p with colorOutput := c }) hp hce np hpal hsane hpl henc had hch (pxs := xs.map (·.placed.buffer))
      (by rw [hw]; exact hc xs (fun _ h => h)) hr hb k
    rw [hw, hrp, List.length_map, List.length_map] at this
    rw [this, List.map_map, List.zipWith_map]
    congr 1
    clear this hc had hpl hsz hch hrp hw hb hcc henc hrep hres hsane hmap hdraw hpx hread hne
    induction xs with
    | nil => rfl
    | cons x xs ih =>
      rw [List.zipWith_cons_cons, List.map_cons, ih fun y hy => hfit y (List.mem_cons_of_mem _ hy)]
      congr 1
      exact readBack_placed (hfit x List.mem_cons_self) pal c
  exact ⟨key .indexed, key .rgba⟩

theorem watch_at {K : C.Contract} {c : ColorOutput} {limit : MemoryLimit} : ∀ (k : Nat) (cur : View) (live : Option (List UInt8))
    (raw : List Seen) (outs : List Pixels), ExpandAll K (rawFrames raw) outs → ∀ {i : Nat} {f g : Frame} {v v' : View},
    raw[i]? = some (.frame (some g) v) → (watch c limit (List.replicate k .read) cur live raw outs)[i]? = some (.seen (.frame (some f) v')) →
    ∃ px, Expands K g px ∧ deliver c limit v.globalPalette g px = .ok f := by
  intro k
  induction k with
  | zero => intro cur live raw outs _ i f g v v' _ h; simp [watch] at h
  | succ k ih =>
    intro cur live raw outs hex i f g v v' h1 h2
    rw [List.replicate_succ] at h2
    cases raw with
    | nil => simp at h1
    | cons a raw =>
      cases a with
      | opened w => simp [watch] at h2
      | info b w => simp [watch] at h2
      | crashed => simp [watch] at h2
      | failed e =>
        simp only [watch] at h2
        cases i with
        | zero => simp at h2
        | succ i => simp at h2
      | frame o w =>
        cases o with
        | none =>
          simp only [watch] at h2
          cases i with
          | zero => simp at h2
          | succ i => exact ih _ none raw outs hex (i := i) (by simpa using h1) (by simpa using h2)
        | some q =>
          cases outs with
          | nil => exact hex.elim
          | cons px outs =>
            obtain ⟨e1, e2⟩ := hex
            simp only [watch] at h2
            cases hd : deliver c limit w.globalPalette q px with
            | error e =>
              rw [hd] at h2
              cases i with
              | zero => simp at h2
              | succ i => simp at h2
            | ok p =>
              rw [hd] at h2
              cases i with
              | zero =>
                simp only [List.getElem?_cons_zero, Option.some.injEq, Seen.frame.injEq, Got.seen.injEq] at h1 h2
                obtain ⟨rfl, rfl⟩ := h1
                obtain ⟨rfl, -⟩ := h2
                exact ⟨px, e1, hd⟩
              | succ i => exact ih _ none raw outs e2 (i := i) (by simpa using h1) (by simpa using h2)

theorem sessionFrom_head {o : DecodeOptions} {r : Reader} {cs : List Call} {i : Nat} {f : Frame} {v : View}
    (h : (Decoder.sessionFrom C o r cs)[i]? = some (.frame (some f) v)) :
    ∃ v0 rest j, Decoder.sessionFrom C o r cs = .opened v0 :: rest ∧ i = j + 1 := by
  unfold Decoder.sessionFrom at *
  generalize Decoder.readInfo C o r = x at *
  obtain ⟨d, out⟩ := x
  cases out with
  | ok u =>
    cases i with
    | zero => simp at h
    | succ j => exact ⟨_, _, j, rfl, rfl⟩
  | err e | panic | diverge => cases i <;> simp at h

/-- What is known of a clip with compressed data. -/
structure RawFit (K : C.Contract) (x : Clip) (px : List UInt8) : Prop where
  table : ∃ p, x.placed.palette = some p ∧ TableLength p.length
  image : x.image = picture .rgba x.global x.frame px
  full : x.frame.width.toNat * x.frame.height.toNat ≤ px.length
  pixels : 0 < x.frame.width.toNat * x.frame.height.toNat
  data : ∃ m data e, x.frame.buffer = m :: data ∧ K.Yields (C.new m) data px e ∧ e ≠ .invalid ∧ 1 ≤ m.toNat ∧ m.toNat ≤ 11
  owned : x.frame.ownedCap = some x.frame.buffer.length

theorem skipped_fit {K : C.Contract} {x : Clip} (h : x.Skipped K) : ∃ px, RawFit K x px := by
  obtain ⟨o, r, n, i, v, v', f, hr, hc, hs, hce, hsane, h1, h2, h3, h4⟩ := h
  obtain ⟨outs, hex, hf⟩ := Decoder.filmFrom_screening K o hs hce hr (List.replicate n .read) n
    (Nat.le_of_eq (Decoder.seeks_reads _)) hsane (.inr (by intro a ha; exact .inr (List.eq_of_mem_replicate ha)))
  have hfilm := Decoder.follows_nil (hf hr (more := []) (by simp))
  rw [Decoder.filmFrom_session] at hfilm
  obtain ⟨⟨w, hh, hsound⟩, ht⟩ := sessionFrom_frame K.safe (List.mem_of_getElem? h1)
  obtain ⟨-, m, data, hb, hm1, hm2⟩ := hsound.raw rfl
  have hgot : ((Decoder.sessionFrom C o r (List.replicate n .read)).map Got.seen)[i]? = some (.seen (.frame (some f) v')) := by
    rw [List.getElem?_map, h3]; rfl
  rw [hfilm] at hgot
  obtain ⟨v0, raw, j, hraw, rfl⟩ := sessionFrom_head h1
  have hraw : Decoder.rawFilm C o r n = .opened v0 :: raw := hraw
  rw [hraw] at hex hgot h1
  simp only [Decoder.screening, hc] at hgot
  obtain ⟨px, e1, e2⟩ := watch_at n v0 none raw outs (K := K) hex (by simpa using h1) (by simpa using hgot)
  obtain ⟨⟨m', data', b1, b2⟩, b3, -⟩ := e1
  rw [hb] at b1
  cases b1
  rw [h2] at ht e2 hsound
  refine ⟨px.1, ?_⟩
  unfold deliver at e2
  split at e2
  · cases e2
  · split at e2
    · cases e2
    · split at e2
      · cases e2
      · next n1 n2 =>
        cases e2
        refine ⟨?_, h4.symm, by omega, b3, ⟨_, _, px.2, hb, b2, n1, hm1, hm2⟩, hsound.owned⟩
        unfold Clip.placed
        cases hp : x.frame.palette with
        | some p => exact ⟨p, rfl, hsound.table p hp⟩
        | none =>
          rcases hsound.coloured with h | h
          · exact absurd hp h
          · cases hg : x.global with
            | none => exact absurd hg h
            | some p => exact ⟨p, rfl, ht p hg⟩

theorem readBack_raw {K : C.Contract} {x : Clip} {px : List UInt8} (hx : RawFit K x px) (pal : List UInt8) :
    readBack .rgba pal x.placed px = x.coloured := by
  obtain ⟨⟨p, h1, h2⟩, h3, -, -, -, -⟩ := hx
  have hp := (tableLength_padded h2).1
  have hpic : picture .rgba (some (padded pal)) { x.placed with palette := x.placed.palette.map padded } px = x.image := by
    rw [h3]
    unfold picture
    have hpal : paletteOf (some (padded pal)) { x.placed with palette := x.placed.palette.map padded } = paletteOf x.global x.frame := by
      unfold paletteOf
      simp only [h1, Option.map_some, hp]
      simp only [Clip.placed] at h1
      cases hq : x.frame.palette with
      | some q =>
        rw [hq] at h1
        cases h1
        rfl
      | none =>
        rw [hq] at h1
        simp only at h1
        rw [h1]
        rfl
    rw [hpal]
    rfl
  unfold readBack shown Clip.coloured
  rw [hpic, h1, Option.map_some, hp, ← h1]

/-- **C94** for frames that are not decompressed: they can be put into one animation in the same way, with
`write_lzw_pre_encoded_frame`. A decoder with `skip_frame_decoding` gives the frames as they were written, and an RGBA decoder gives
the pixels that it gives of the first files. The conditions on the data are those of C24. -/
theorem joined_raw (K : C.Contract) (np : Bool) (w h : UInt16) {pal : List UInt8} (hpal : pal.length / 3 ≤ 256) (rep : Repeat) {xs : List Clip}
    (hne : xs ≠ []) (hread : ∀ x ∈ xs, x.Skipped K) (hcode : ∀ x ∈ xs, x.frame.buffer.head? ≠ some 1)
    (hdata : ∀ x ∈ xs, 2 ≤ x.frame.buffer.length) :
    ∃ file, encodeFile C np w h pal (.setRepeat rep :: xs.map fun x => .preEncoded x.placed) =
        (some file, List.replicate (xs.length + 1) (.ok ())) ∧
      ∀ (p : DecodeOptions), p.memoryLimit.sizeOk 15 = true →
        (p.checkFrameConsistency = true → ∀ x ∈ xs, x.left.toNat + x.frame.width.toNat ≤ w.toNat ∧
          x.top.toNat + x.frame.height.toNat ≤ h.toNat) →
      ∀ (junk : List UInt8) (r : Reader) (k : Nat), r.Reliable → r.bytes = file ++ junk →
        ((∀ x ∈ xs, p.memoryLimit.sizeOk x.frame.buffer.length = true) →
          Decoder.rawFilm C p r (xs.length + k) = projection w h pal rep (xs.map Clip.placed) k) ∧
        (p.skipFrameDecoding = false → p.checkForEndCode = false → (∀ x ∈ xs, p.memoryLimit.sizeOk x.image.length = true) →
          Decoder.sessionFrom C { p with colorOutput := .rgba } r (List.replicate (xs.length + k) .read) =
            projection w h pal rep (xs.map Clip.coloured) k) := by
  obtain ⟨px, hfit⟩ : ∃ px : Clip → List UInt8, ∀ x ∈ xs, RawFit K x (px x) := by
    have : ∀ x : Clip, ∃ px, x ∈ xs → RawFit K x px := by
      intro x
      by_cases hx : x ∈ xs
      · obtain ⟨px, hp⟩ := skipped_fit (hread x hx)
        exact ⟨px, fun _ => hp⟩
      · exact ⟨[], fun h => absurd h hx⟩
    exact ⟨fun x => (this x).choose, fun x hx => (this x).choose_spec hx⟩
  have hmap : (xs.map fun x => EncOp.preEncoded x.placed) = (xs.map Clip.placed).map EncOp.preEncoded := by rw [List.map_map]; rfl
  rw [hmap]
  have hok : ∀ x ∈ xs, opResult (3 ≤ pal.length) (.preEncoded x.placed) = .ok () := by
    intro x hx
    obtain ⟨⟨q, h1, h2⟩, -, -, -, ⟨m, data, e, hb, -, -, hm1, hm2⟩, -⟩ := hfit x hx
    have hb' : x.placed.buffer = m :: data := hb
    have hbad : ¬ Encoder.badCodeSize x.placed := by
      have := hcode x hx
      unfold Encoder.badCodeSize
      rw [hb] at this
      rw [hb']
      have hne1 : m.toNat ≠ 1 := fun h => this (by rw [show m = 1 from UInt8.toNat.inj h]; rfl)
      simp only [UInt8.lt_iff_toNat_lt, GT.gt]
      simp
      omega
    have hpe : Encoder.paletteError (3 ≤ pal.length) x.placed = none := by
      unfold Encoder.paletteError
      rw [h1]
      simp only
      rw [if_pos (tableLength_padded h2).2.1]
    simp only [opResult, if_neg hbad, hpe]
  have hsane : ∀ op ∈ EncOp.setRepeat rep :: (xs.map Clip.placed).map EncOp.preEncoded, op.Sane := by
    intro op hop
    rcases List.mem_cons.mp hop with rfl | hop
    · trivial
    · obtain ⟨f, hfm, rfl⟩ := List.mem_map.mp hop
      trivial
  have hres : (EncOp.setRepeat rep :: (xs.map Clip.placed).map EncOp.preEncoded).map (opResult (3 ≤ pal.length)) =
      List.replicate (xs.length + 1) (.ok ()) := by
    rw [List.map_cons, List.map_map, List.map_map, List.replicate_succ]
    congr 1
    have : xs.map ((opResult (3 ≤ pal.length) ∘ EncOp.preEncoded) ∘ Clip.placed) = xs.map fun _ => .ok () :=
      List.map_congr_left fun x hx => hok x hx
    rw [this, List.map_const']
  have henc := encodeFile_eq C np w h pal _ hpal hsane
  rw [hres] at henc
  refine ⟨_, henc, ?_⟩
  intro p h15 hcc junk r k hr hb
  have hw := written_rewrite ⟨w, h, none, none, rep, Frame.default⟩ (xs.map Clip.placed) xs.length (by rw [List.length_map])
  have hrp := repetitions_rewrite ⟨w, h, none, none, rep, Frame.default⟩ (xs.map Clip.placed) xs.length (by rw [List.length_map])
  simp only [rewriteOps] at hw hrp
  have hch := made_changed (C := C) np hpal hsane henc (by rw [hw]; simpa using hne)
  have hpl : ∀ c, ∀ op ∈ EncOp.setRepeat rep :: (xs.map Clip.placed).map EncOp.preEncoded, Plain { p with colorOutput := c } op := by
    intro c op hop
    rcases List.mem_cons.mp hop with rfl | hop
    · exact h15
    · obtain ⟨f, hfm, rfl⟩ := List.mem_map.mp hop
      exact SD.sizeOk_mono _ (by omega) h15
  have had : ∀ c, ∀ op ∈ (xs.map Clip.placed).map EncOp.preEncoded, Admissible C { p with colorOutput := c } w h op := by
    intro c op hop
    obtain ⟨f, hfm, rfl⟩ := List.mem_map.mp hop
    obtain ⟨x, hx, rfl⟩ := List.mem_map.mp hfm
    exact ⟨fun h => hcc h x hx, fun g hg => by cases hg; exact hdata x hx⟩
  constructor
  · intro hmem
    have hld : ∀ op ∈ (xs.map Clip.placed).map EncOp.preEncoded, Held C p op := by
      intro op hop
      obtain ⟨f, hfm, rfl⟩ := List.mem_map.mp hop
      obtain ⟨x, hx, rfl⟩ := List.mem_map.mp hfm
      exact hmem x hx
    have := roundtrip_raw K (o := p) np hpal hsane (hpl p.colorOutput) henc (by rw [hw]; exact had p.colorOutput) (by rw [hw]; exact hld)
      hch hr hb k
    rw [hw, List.length_map, List.length_map, hrp] at this
    rw [this]
    congr 1
    rw [List.map_map, List.map_map]
    apply List.map_congr_left
    intro x hx
    obtain ⟨⟨q, h1, h2⟩, -, -, -, -, ho⟩ := hfit x hx
    have ho' : x.placed.ownedCap = some x.placed.buffer.length := ho
    show readRaw x.placed = x.placed
    unfold readRaw
    rw [h1, Option.map_some, (tableLength_padded h2).1, ← h1, ← ho']
  · intro hp hce hsz
    have hc : ∀ l : List Clip, (∀ x ∈ l, x ∈ xs) → Contents K { p with colorOutput := .rgba } ((l.map Clip.placed).map .preEncoded)
        (l.map px) := by
      intro l
      induction l with
      | nil => intro _; exact trivial
      | cons x l ih =>
        intro hl
        have hm := hl x List.mem_cons_self
        obtain ⟨-, himg, hfull, hpos, ⟨m, data, e, hb, hy, he, -, -⟩, -⟩ := hfit x hm
        refine ⟨⟨hpos, ?_, hfull, m, data, e, hb, hy, he⟩, ih (fun g hg => hl g (List.mem_cons_of_mem _ hg))⟩
        have h2 := hsz x hm
        rw [himg, picture, colours_length, Converter.pixelOrder_length hfull] at h2
        exact size_given _ .rgba h2
    have := roundtrip_pixels K (o := { p with colorOutput := .rgba }) hp hce np hpal hsane (hpl _) henc (by rw [hw]; exact had _) hch
      (pxs := xs.map px) (by rw [hw]; exact hc xs (fun _ h => h)) hr hb k
    rw [hw, hrp, List.length_map, List.length_map] at this
    rw [this, List.map_map, List.zipWith_map]
    congr 1
    clear this hc had hpl hsz hch hrp hw hb hcc henc hres hsane hok hmap hdata hcode hread hne
    induction xs with
    | nil => rfl
    | cons x xs ih =>
      rw [List.zipWith_cons_cons, List.map_cons, ih fun y hy => hfit y (List.mem_cons_of_mem _ hy)]
      congr 1
      exact readBack_raw (hfit x List.mem_cons_self) pal

end Gif.Join
