import Verif.Props.RoundTripApi
/-!
C24: rewriting a file frame by frame without decompressing it.
-/

namespace Gif

open Spec Encoder

variable {C : Codec}

/-- Colour tables of the format need no padding. -/
theorem padded_table {t : List UInt8} {s : Nat} (hs : s < 8) (ht : t.length = 3 * 2 ^ (s + 1)) : padded t = t := by
  have h256 : 2 ^ (s + 1) ≤ 256 := by
    have : 2 ^ (s + 1) ≤ 2 ^ 8 := Nat.pow_le_pow_right (by omega) (by omega)
    simpa using this
  obtain ⟨k, h1, h2, h3, h4⟩ := padded_shape ht h256
  have h5 := h3 (s + 1) (by omega) (Nat.le_refl _)
  have h6 : 2 ^ k ≤ 2 ^ (s + 1) := Nat.pow_le_pow_right (by omega) h5
  rw [h4, show 2 ^ k - 2 ^ (s + 1) = 0 by omega]
  simp

theorem frames_ok {b : List Blk} {P : Image → Prop} (hb : ∀ i, Blk.image i ∈ b → P i) : ∀ gr, ∀ x ∈ Spec.frames gr b, P x.2 := by
  induction b with
  | nil => intro gr x hx; cases hx
  | cons a b ih =>
    intro gr x hx
    have ih' := ih (fun i hi => hb i (List.mem_cons_of_mem _ hi))
    cases a with
    | control c => exact ih' _ x hx
    | ext l s => exact ih' _ x hx
    | unknown t s => exact ih' _ x hx
    | image i =>
      rcases List.mem_cons.mp hx with rfl | hx
      · exact hb i List.mem_cons_self
      · exact ih' _ x hx

/-- The frames of a file that the decoder reads. -/
structure Rewritable (o : DecodeOptions) (g : File) (x : Graphic × Image) : Prop where
  size : x.2.size < 8
  table : ∀ t, x.2.table = some t → t.length = 3 * 2 ^ (x.2.size + 1)
  data : x.2.subs.flatten ≠ []
  low : 2 ≤ x.2.minCode.toNat
  high : x.2.minCode.toNat ≤ 11
  coloured : x.2.table = none → g.table ≠ none
  fits : o.memoryLimit.sizeOk x.2.data.length = true
  inside : o.checkFrameConsistency = true → g.Contains x.2

theorem rewritable {o : DecodeOptions} {g : File} (hg : g.Readable o) (hacc : ∀ x ∈ g.frames, g.verdict o x.2 = none)
    (hmin : ∀ x ∈ g.frames, 2 ≤ x.2.minCode) : ∀ x ∈ g.frames, Rewritable o g x := by
  intro x hx
  have h1 : x.2.Ok := frames_ok (fun i hi => hg.ok.2.2.2 _ hi) _ x hx
  have h2 : x.2.subs ≠ [] := frames_ok (fun i hi => hg.fits _ hi) _ x hx
  have hv := hacc x hx
  unfold File.verdict at hv
  cases hh : g.headVerdict o x.2 with
  | some e => rw [hh] at hv; cases hv
  | none =>
    rw [hh] at hv
    simp only at hv
    unfold File.headVerdict at hh
    by_cases c1 : o.checkFrameConsistency = true ∧ ¬ g.Contains x.2
    · rw [if_pos c1] at hh; cases hh
    · rw [if_neg c1] at hh
      by_cases c2 : x.2.minCode.toNat < 1 ∨ 11 < x.2.minCode.toNat
      · rw [if_pos c2] at hh; cases hh
      · rw [if_neg c2] at hh
        by_cases c3 : x.2.table = none ∧ g.table = none
        · rw [if_pos c3] at hh; cases hh
        · refine ⟨h1.2.1, h1.2.2.1, ?_, ?_, by omega, fun h h' => c3 ⟨h, h'⟩, ?_, ?_⟩
          · obtain ⟨b, bs, hbs⟩ := List.exists_cons_of_ne_nil h2
            have := h1.2.2.2 b (by rw [hbs]; exact List.mem_cons_self)
            rw [hbs, List.flatten_cons]
            intro hn
            have := (List.append_eq_nil_iff.mp hn).1
            subst this
            simp at *
          · have := UInt8.le_iff_toNat_le.mp (hmin x hx)
            simpa using this
          · apply Decidable.byContradiction
            intro hn
            rw [if_neg hn] at hv
            cases hv
          · intro hcc
            exact Decidable.byContradiction fun hn => c1 ⟨hcc, hn⟩

theorem readRaw_rawFrame {o : DecodeOptions} {g : File} {x : Graphic × Image} (h : Rewritable o g x) : readRaw (rawFrame x) = rawFrame x := by
  have hp : x.2.table.map padded = x.2.table := by
    cases ht : x.2.table with
    | none => rfl
    | some t => rw [Option.map_some, padded_table h.size (h.table t ht)]
  unfold readRaw rawFrame headFrame
  simp only [hp]

theorem file_table {g : File} (hg : g.Ok) {t : List UInt8} (ht : g.table = some t) :
    padded t = t ∧ t.length / 3 ≤ 256 ∧ 3 ≤ t.length := by
  have h1 := hg.2.2.1 t ht
  have h2 := hg.2.1
  have h256 : 2 ^ (g.size + 1) ≤ 2 ^ 8 := Nat.pow_le_pow_right (by omega) (by omega)
  have h0 : 2 ^ 1 ≤ 2 ^ (g.size + 1) := Nat.pow_le_pow_right (by omega) (by omega)
  exact ⟨padded_table h2 h1, by omega, by omega⟩

theorem rewrite_ok {o : DecodeOptions} {g : File} (hg : g.Ok) {x : Graphic × Image} (h : Rewritable o g x) :
    opResult (3 ≤ (g.table.getD []).length) (.preEncoded (rawFrame x)) = .ok () := by
  have hbad : ¬ badCodeSize (rawFrame x) := by
    show ¬ badCodeSize { headFrame x with buffer := x.2.minCode :: x.2.subs.flatten, ownedCap := some x.2.data.length }
    unfold badCodeSize
    have := h.low
    have := h.high
    simp only [UInt8.lt_iff_toNat_lt, GT.gt]
    simp
    omega
  have hp : paletteError (3 ≤ (g.table.getD []).length) (rawFrame x) = none := by
    unfold paletteError
    show (match x.2.table with
      | some p => if p.length / 3 ≤ 256 then none else some (EncodingError.format .tooManyColors)
      | none => if (decide (3 ≤ (g.table.getD []).length)) = true then none else some (EncodingError.format .missingColorPalette)) = none
    cases ht : x.2.table with
    | some t =>
      have h1 := h.table t ht
      have h256 : 2 ^ (x.2.size + 1) ≤ 2 ^ 8 := Nat.pow_le_pow_right (by omega) (by have := h.size; omega)
      simp only
      rw [if_pos (by omega)]
    | none =>
      cases hgt : g.table with
      | none => exact absurd hgt (h.coloured ht)
      | some t =>
        have := (file_table hg hgt).2.2
        simp [this]
  simp only [opResult, if_neg hbad, hp]

/-- The calls that rewrite frames. -/
def rewriteOps (v : View) (fs : List Frame) : List EncOp := .setRepeat v.repetition :: fs.map .preEncoded

theorem rewrite_results {o : DecodeOptions} {g : File} (hg : g.Ok) (v : View) : ∀ xs : List (Graphic × Image), (∀ x ∈ xs, Rewritable o g x) →
    (rewriteOps v (xs.map rawFrame)).map (opResult (3 ≤ (g.table.getD []).length)) = List.replicate (xs.length + 1) (.ok ()) := by
  intro xs hxs
  unfold rewriteOps
  rw [List.map_cons, List.replicate_succ]
  congr 1
  induction xs with
  | nil => rfl
  | cons x xs ih =>
    rw [List.map_cons, List.map_cons, List.map_cons, rewrite_ok hg (hxs x List.mem_cons_self), List.length_cons, List.replicate_succ,
      ih (fun y hy => hxs y (List.mem_cons_of_mem _ hy))]

theorem written_rewrite (v : View) (fs : List Frame) : ∀ n, n = fs.length →
    written (rewriteOps v fs) (List.replicate (n + 1) (.ok ())) = fs.map .preEncoded := by
  have key : ∀ fs : List Frame, written (fs.map .preEncoded) (List.replicate fs.length (.ok ())) = fs.map .preEncoded := by
    intro fs
    induction fs with
    | nil => rfl
    | cons f fs ih => rw [List.length_cons, List.replicate_succ, List.map_cons, written, if_pos ⟨rfl, rfl⟩, ih]
  rintro n rfl
  unfold rewriteOps
  rw [List.replicate_succ, written, if_neg (by rintro ⟨h, _⟩; cases h), key]

theorem repetitions_rewrite (v : View) (fs : List Frame) : ∀ n, n = fs.length →
    repetitions (rewriteOps v fs) (List.replicate (n + 1) (.ok ())) (.finite 0) = v.repetition := by
  rintro n rfl
  unfold rewriteOps
  rw [List.replicate_succ, repetitions, if_neg (by rintro ⟨h, _⟩; cases h)]
  have : ∀ cur, repetitions (fs.map .preEncoded) (List.replicate fs.length (.ok ())) cur = cur := by
    intro cur
    cases fs with
    | nil => rfl
    | cons f fs => rw [List.length_cons, List.replicate_succ, List.map_cons, repetitions, if_pos ⟨rfl, rfl⟩]
  rw [this]
  show (if v.repetition = .finite 0 then none else some v.repetition).getD (.finite 0) = _
  by_cases h : v.repetition = .finite 0
  · rw [if_pos h, h]; rfl
  · rw [if_neg h]; rfl

section

variable {o : DecodeOptions} {g : File}

theorem rewrite_setup (hg : g.Readable o) (hre : ∀ x ∈ g.frames, Rewritable o g x) (h5 : o.memoryLimit.sizeOk 5 = true)
    (h15 : o.memoryLimit.sizeOk 15 = true) (np : Bool) :
    (g.table.getD []).length / 3 ≤ 256 ∧
    (∀ op ∈ rewriteOps (g.view Frame.default) (g.frames.map rawFrame), op.Sane) ∧
    (∀ op ∈ rewriteOps (g.view Frame.default) (g.frames.map rawFrame), Plain o op) ∧
    (∀ op ∈ (g.frames.map rawFrame).map EncOp.preEncoded, Admissible C o g.width g.height op) ∧
    ∃ file, encodeFile C np g.width g.height (g.table.getD []) (rewriteOps (g.view Frame.default) (g.frames.map rawFrame)) =
      (some file, List.replicate (g.frames.length + 1) (.ok ())) := by
  have hpal : (g.table.getD []).length / 3 ≤ 256 := by
    cases ht : g.table with
    | none => simp
    | some t => exact (file_table hg.ok ht).2.1
  have hsane : ∀ op ∈ rewriteOps (g.view Frame.default) (g.frames.map rawFrame), op.Sane := by
    intro op hop
    rcases List.mem_cons.mp hop with rfl | hop
    · trivial
    · obtain ⟨f, _, rfl⟩ := List.mem_map.mp hop
      trivial
  refine ⟨hpal, hsane, ?_, ?_, ?_⟩
  · intro op hop
    rcases List.mem_cons.mp hop with rfl | hop
    · exact h15
    · obtain ⟨f, _, rfl⟩ := List.mem_map.mp hop
      exact h5
  · intro op hop
    obtain ⟨f, hf, rfl⟩ := List.mem_map.mp hop
    obtain ⟨x, hx, rfl⟩ := List.mem_map.mp hf
    have hr := hre x hx
    refine ⟨fun h => hr.inside h, ?_⟩
    intro g' hg'
    cases hg'
    show 2 ≤ (x.2.minCode :: x.2.subs.flatten).length
    have := hr.data
    have : 0 < x.2.subs.flatten.length := List.length_pos_iff.mpr this
    rw [List.length_cons]
    omega
  · rw [encodeFile_eq C np _ _ _ _ hpal hsane, rewrite_results hg.ok _ _ hre]
    exact ⟨_, rfl⟩

/-- C24: the file that `write_lzw_pre_encoded_frame` makes of the frames read with `skip_frame_decoding` has the same frames
with the same metadata, palettes and compressed data, the same size, loop count and, if there is one, global palette. `v` and
`fs` are what the decoder gives of the first file. What is missing: images with a code size of 1, for which the claim is
false (`RoundTripCases.lean`); the files that C04 excludes. -/
theorem rewrite_partial (K : C.Contract) (hg : g.Readable o) (hacc : ∀ x ∈ g.frames, g.verdict o x.2 = none)
    (hmin : ∀ x ∈ g.frames, 2 ≤ x.2.minCode) (hne : g.frames ≠ []) (h5 : o.memoryLimit.sizeOk 5 = true)
    (h15 : o.memoryLimit.sizeOk 15 = true) (np : Bool) {junk : List UInt8} {r : Reader} (hr : r.Reliable)
    (hb : r.bytes = g.render ++ junk) :
    ∃ v rest fs, Decoder.rawFilm C o r g.frames.length = .opened v :: rest ∧ Spec.rawFrames rest = fs ∧ fs.length = g.frames.length ∧
    ∃ file v', encodeFile C np v.width v.height (v.globalPalette.getD []) (.setRepeat v.repetition :: fs.map .preEncoded) =
        (some file, List.replicate (fs.length + 1) (.ok ())) ∧
      v'.width = v.width ∧ v'.height = v.height ∧ v'.repetition = v.repetition ∧
      (v.globalPalette ≠ none → v'.globalPalette = v.globalPalette) ∧
      ∀ (junk' : List UInt8) (r' : Reader) (k : Nat), r'.Reliable → r'.bytes = file ++ junk' →
        Decoder.rawFilm C o r' (fs.length + k) =
          .opened v' :: fs.map (fun f => .frame (some f) { v' with currentFrame := f }) ++
            List.replicate k (.frame none { v' with currentFrame := fs.getLast?.getD Frame.default }) := by
  have hraw := Decoder.grammar_raw_frames (C := C) K.safe hg hacc hr hb 0
  have hre := rewritable hg hacc hmin
  obtain ⟨hpal, hsane, hpl, had, file, henc⟩ := rewrite_setup (C := C) hg hre h5 h15 np
  rw [Nat.add_zero] at hraw
  refine ⟨g.view Frame.default, (g.frames.map rawFrame).map (fun f => .frame (some f) (g.view f)), g.frames.map rawFrame, ?_, ?_,
    by simp, file, screen g.width g.height (g.table.getD []) (g.view Frame.default).repetition Frame.default, ?_, rfl, rfl, rfl, ?_, ?_⟩
  · rw [hraw]
    simp [File.screenplay]
  · have := rawFrames_map (fun f : Frame => f) (fun f => g.view f) (g.frames.map rawFrame)
    rw [List.map_id'] at this
    exact this
  · rw [List.length_map]
    exact henc
  · intro hgp
    cases ht : g.table with
    | none => exact absurd ht hgp
    | some t =>
      show some (padded ((some t).getD [])) = g.table
      rw [ht]
      exact congrArg some (file_table hg.ok ht).1
  · intro junk' r' k hr' hb'
    have hlen : g.frames.length = (g.frames.map rawFrame).length := by simp
    have hw := written_rewrite (g.view Frame.default) (g.frames.map rawFrame) g.frames.length hlen
    have := roundtrip_raw K (o := o) np hpal hsane hpl henc (by rw [hw]; exact had) (by
        rw [hw]
        intro op hop
        obtain ⟨f, hf, rfl⟩ := List.mem_map.mp hop
        obtain ⟨x, hx, rfl⟩ := List.mem_map.mp hf
        exact (hre x hx).fits)
      (made_changed (C := C) np hpal hsane henc (by rw [hw]; simpa using hne)) hr' hb' k
    rw [hw, List.length_map, repetitions_rewrite _ _ _ hlen] at this
    rw [this]
    have hsame : ((g.frames.map rawFrame).map EncOp.preEncoded).map (fun op => readRaw (compressed C op)) = g.frames.map rawFrame := by
      rw [List.map_map, List.map_map]
      apply List.map_congr_left
      intro x hx
      exact readRaw_rawFrame (hre x hx)
    rw [hsame]
    rfl

theorem shown_global {c : ColorOutput} {a b : Option (List UInt8)} {f : Frame} {px : List UInt8} (h : f.palette ≠ none ∨ a = b) :
    shown c a f px = shown c b f px := by
  have : Spec.paletteOf a f = Spec.paletteOf b f := by
    rcases h with h | rfl
    · unfold Spec.paletteOf
      cases hp : f.palette with
      | none => exact absurd hp h
      | some p => rfl
    · rfl
  unfold shown picture
  rw [this]

/-- C24 with the pixels: a decoder of pixels gives the same frames of both files. -/
theorem rewrite_pixels_partial (K : C.Contract) (hs : o.skipFrameDecoding = false) (hce : o.checkForEndCode = false)
    (hg : g.Readable o) {pxs : List (List UInt8)} (hpx : g.ShowAll K o g.frames pxs)
    (hld : ∀ x ∈ g.frames, o.memoryLimit.sizeOk x.2.data.length = true) (hmin : ∀ x ∈ g.frames, 2 ≤ x.2.minCode) (hne : g.frames ≠ []) (h5 : o.memoryLimit.sizeOk 5 = true)
    (h15 : o.memoryLimit.sizeOk 15 = true) (np : Bool) {junk : List UInt8} {r : Reader} (hr : r.Reliable)
    (hb : r.bytes = g.render ++ junk) :
    ∃ v rest fs, Decoder.rawFilm C o r g.frames.length = .opened v :: rest ∧ Spec.rawFrames rest = fs ∧
    ∃ file, encodeFile C np v.width v.height (v.globalPalette.getD []) (.setRepeat v.repetition :: fs.map .preEncoded) =
        (some file, List.replicate (fs.length + 1) (.ok ())) ∧
      ∀ (junk' : List UInt8) (r' : Reader), r'.Reliable → r'.bytes = file ++ junk' →
        ∀ k, Spec.rawFrames (Decoder.sessionFrom C o r' (List.replicate (fs.length + k) .read)) =
          Spec.rawFrames (Decoder.sessionFrom C o r (List.replicate (fs.length + k) .read)) ∧
        (Spec.rawFrames (Decoder.sessionFrom C o r (List.replicate (fs.length + k) .read))).length = fs.length := by
  have hacc := fun x hx => verdict_fits (showAll_verdict K o g _ _ hpx x hx) (hld x hx)
  have hraw := Decoder.grammar_raw_frames (C := C) K.safe hg hacc hr hb 0
  have hre := rewritable hg hacc hmin
  obtain ⟨hpal, hsane, hpl, had, file, henc⟩ := rewrite_setup (C := C) hg hre h5 h15 np
  rw [Nat.add_zero] at hraw
  refine ⟨g.view Frame.default, (g.frames.map rawFrame).map (fun f => .frame (some f) (g.view f)), g.frames.map rawFrame, ?_, ?_,
    file, ?_, ?_⟩
  · rw [hraw]
    simp [File.screenplay]
  · have := rawFrames_map (fun f : Frame => f) (fun f => g.view f) (g.frames.map rawFrame)
    rw [List.map_id'] at this
    exact this
  · rw [List.length_map]
    exact henc
  · intro junk' r' hr' hb' k
    have hlen : g.frames.length = (g.frames.map rawFrame).length := by simp
    have hw := written_rewrite (g.view Frame.default) (g.frames.map rawFrame) g.frames.length hlen
    have hcont : ∀ (xs : List (Graphic × Image)) (pxs : List (List UInt8)), g.ShowAll K o xs pxs →
        Contents K o ((xs.map rawFrame).map EncOp.preEncoded) pxs := by
      intro xs
      induction xs with
      | nil => intro pxs h; cases pxs with
        | nil => trivial
        | cons _ _ => exact h.elim
      | cons x xs ih =>
        intro pxs h
        cases pxs with
        | nil => exact h.elim
        | cons px pxs =>
          obtain ⟨⟨h1, h2, h3, h4, e, h5, h6⟩, hrest⟩ := h
          exact ⟨⟨h2, h3, h4, _, _, e, rfl, h6, h5⟩, ih pxs hrest⟩
    have h2 := roundtrip_pixels K hs hce np hpal hsane hpl henc (by rw [hw]; exact had)
      (made_changed (C := C) np hpal hsane henc (by rw [hw]; simpa using hne)) (pxs := pxs) (by rw [hw]; exact hcont _ _ hpx) hr' hb' k
    have h1 := Decoder.grammar_frames_partial K hs hce hg hpx hr hb k
    rw [hw, List.length_map] at h2
    rw [List.length_map] at h2 ⊢
    rw [h1, h2]
    have hz : List.zipWith (fun op px => readBack o.colorOutput (g.table.getD []) (compressed C op) px)
        ((g.frames.map rawFrame).map EncOp.preEncoded) pxs = g.pictures o.colorOutput pxs := by
      unfold File.pictures
      clear h1 h2 hpx hcont hw hlen hb' had hpl hsane henc hraw hacc hmin hne hld
      revert pxs hre
      generalize g.frames = xs
      intro pxs hre
      induction xs generalizing pxs with
      | nil => rfl
      | cons x xs ih =>
        cases pxs with
        | nil => rfl
        | cons px pxs =>
          rw [List.map_cons, List.map_cons, List.zipWith_cons_cons, List.zipWith_cons_cons,
            ih (fun y hy => hre y (List.mem_cons_of_mem _ hy))]
          congr 1
          have hx := hre x List.mem_cons_self
          have hp : x.2.table.map padded = x.2.table := by
            cases ht : x.2.table with
            | none => rfl
            | some t => rw [Option.map_some, padded_table hx.size (hx.table t ht)]
          show shown _ _ { rawFrame x with palette := x.2.table.map padded } px = _
          rw [hp]
          apply shown_global
          cases ht : x.2.table with
          | some t => left; exact Option.some_ne_none _
          | none =>
            right
            cases hgt : g.table with
            | none => exact absurd hgt (hx.coloured ht)
            | some t => exact congrArg some (file_table hg.ok hgt).1
    rw [hz]
    have hf : ∀ (v : Frame → View) (v0 : View) (fs : List Frame) (w0 : View), Spec.rawFrames (.opened v0 :: fs.map (fun f => .frame (some f) (v f)) ++
        List.replicate k (.frame none w0)) = fs := by
      intro v v0 fs w0
      rw [List.cons_append]
      show Spec.rawFrames (fs.map (fun f => Seen.frame (some f) (v f)) ++ List.replicate k (.frame none w0)) = fs
      rw [rawFrames_append, rawFrames_none, List.append_nil]
      have := rawFrames_map (fun f : Frame => f) v fs
      rwa [List.map_id'] at this
    unfold projection File.screenplay
    rw [hf, hf]
    refine ⟨rfl, ?_⟩
    unfold File.pictures
    rw [List.length_zipWith, showAll_length K o g _ _ hpx, Nat.min_self]

end

end Gif
