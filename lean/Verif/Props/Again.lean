import Verif.Props.Transcode
import Verif.Props.RoundTripCases
/-!
C63: a file of this library, read and written again, is the same file, byte for byte.
-/

namespace Gif

open Spec Encoder

variable {C : Codec}

/-! ## Padded palettes -/

theorem padded_again {t : List UInt8} (h : t.length / 3 ≤ 256) :
    (padded t).length / 3 ≤ 256 ∧ 3 ≤ (padded t).length ∧ padded (padded t) = padded t ∧
    (flagSize ((padded t).length / 3)).toNat = (flagSize (t.length / 3)).toNat := by
  obtain ⟨h8, _, _⟩ := flagSize_spec _ h
  have hl : (padded t).length = 3 * 2 ^ ((flagSize (t.length / 3)).toNat + 1) := by
    rw [padded_length t h, tableColours_eq _ h]
  have h256 : 2 ^ ((flagSize (t.length / 3)).toNat + 1) ≤ 2 ^ 8 := Nat.pow_le_pow_right (by omega) (by omega)
  have h2 : 2 ^ 1 ≤ 2 ^ ((flagSize (t.length / 3)).toNat + 1) := Nat.pow_le_pow_right (by omega) (by omega)
  have hd : (padded t).length / 3 = 2 ^ ((flagSize (t.length / 3)).toNat + 1) := by omega
  refine ⟨by omega, by omega, padded_table h8 hl, ?_⟩
  rw [hd]
  obtain ⟨_, g2, g3⟩ := flagSize_spec (2 ^ ((flagSize (t.length / 3)).toNat + 1)) (by omega)
  have hle := g3 _ (by omega) (Nat.le_refl _)
  have hge := (Nat.pow_le_pow_iff_right (by omega : 1 < 2)).mp g2
  omega

theorem fileOf_padded (w h : UInt16) {pal : List UInt8} (hpal : pal.length / 3 ≤ 256) (b : List Blk) :
    fileOf w h (padded pal) b = fileOf w h pal b := by
  obtain ⟨a1, _, a3, a4⟩ := padded_again hpal
  unfold fileOf
  rw [a4, padTable_eq _ a1, padTable_eq _ hpal, a3]

theorem imageOf_padded {f : Frame} (hp : ∀ p, f.palette = some p → p.length / 3 ≤ 256) (cap : Option Nat) (b buf : List UInt8) :
    imageOf { f with palette := f.palette.map padded, ownedCap := cap, buffer := b } buf = imageOf f buf := by
  unfold imageOf
  cases hf : f.palette with
  | none => rfl
  | some p =>
    obtain ⟨a1, _, a3, a4⟩ := padded_again (hp p hf)
    simp only [Option.map_some, a4, padTable_eq _ a1, padTable_eq _ (hp p hf), a3]

theorem paletteError_padded {g : Bool} {f : Frame} (h : paletteError g f = none) (cap : Option Nat) (b : List UInt8) :
    paletteError true { f with palette := f.palette.map padded, ownedCap := cap, buffer := b } = none := by
  have hp := paletteError_none h
  unfold paletteError
  cases hf : f.palette with
  | none => rfl
  | some p => simp only [Option.map_some, if_pos (padded_again (hp p hf)).1]

/-! ## Raw frames -/

/-- Writing a raw frame again adds the same blocks. -/
theorem opBlks_again (K : C.Contract) {g : Bool} {op : EncOp} (hf : isFrame op = true) (hr : opResult g op = .ok ()) :
    opResult true (.preEncoded (readRaw (compressed C op))) = .ok () ∧
    opBlks C true (.preEncoded (readRaw (compressed C op))) = opBlks C g op := by
  have hpe := paletteError_of_ok (C := C) hf hr
  have hbad : ¬ badCodeSize (readRaw (compressed C op)) := by
    show ¬ badCodeSize { compressed C op with palette := _, ownedCap := _ }
    cases op with
    | setRepeat r => cases hf
    | extension x => cases hf
    | rawExtension l d => cases hf
    | frame f =>
      obtain ⟨m, data, hm, _, h2, h8, _⟩ := encode_ne K f
      show ¬ badCodeSize { f.makeLzwPreEncoded C with palette := _, ownedCap := _ }
      unfold badCodeSize
      simp only [hm]
      rw [UInt8.le_iff_toNat_le] at h2 h8
      simp only [UInt8.lt_iff_toNat_lt, GT.gt]
      simp at h2 h8 ⊢
      omega
    | preEncoded f =>
      intro hb
      have hb' : badCodeSize f := hb
      simp only [opResult, if_pos hb'] at hr
      cases hr
  have hpe' : paletteError true (readRaw (compressed C op)) = none := paletteError_padded hpe _ _
  have hok : opResult true (.preEncoded (readRaw (compressed C op))) = .ok () := by
    simp only [opResult, if_neg hbad, hpe']
  refine ⟨hok, ?_⟩
  rw [opBlks_frame C true _ rfl hok, opBlks_frame C g op hf hr]
  show [Blk.control (ctrlOf (readRaw (compressed C op))), .image (imageOf (readRaw (compressed C op)) (compressed C op).buffer)] = _
  have := imageOf_padded (paletteError_none hpe) (some (compressed C op).buffer.length) (compressed C op).buffer (compressed C op).buffer
  rw [show imageOf (readRaw (compressed C op)) (compressed C op).buffer = _ from this]
  rfl

/-- The encoder makes the same file of padded palettes and of calls that add the same blocks. -/
theorem encodeFile_again (np : Bool) (w h : UInt16) {pal : List UInt8} (hpal : pal.length / 3 ≤ 256) {ops ops' : List EncOp}
    (hsane : ∀ op ∈ ops, op.Sane) (hsane' : ∀ op ∈ ops', op.Sane)
    (hb : ops'.flatMap (opBlks C true) = ops.flatMap (opBlks C (3 ≤ pal.length)))
    (hr : ops'.map (opResult true) = ops.map (opResult (3 ≤ pal.length))) :
    encodeFile C np w h (padded pal) ops' = encodeFile C np w h pal ops := by
  obtain ⟨a1, a2, _, _⟩ := padded_again hpal
  rw [encodeFile_eq C np w h _ _ a1 hsane', encodeFile_eq C np w h _ _ hpal hsane]
  have : decide (3 ≤ (padded pal).length) = true := decide_eq_true a2
  rw [this, hb, hr, fileOf_padded w h hpal]

theorem written_all : ∀ fs : List EncOp, (∀ op ∈ fs, isFrame op = true) → written fs (List.replicate fs.length (.ok ())) = fs
  | [], _ => rfl
  | op :: fs, h => by
    rw [List.length_cons, List.replicate_succ, written, if_pos ⟨h op List.mem_cons_self, rfl⟩,
      written_all fs fun x hx => h x (List.mem_cons_of_mem _ hx)]

theorem repetitions_all (fs : List EncOp) (h : ∀ op ∈ fs, isFrame op = true) (cur : Repeat) :
    repetitions fs (List.replicate fs.length (.ok ())) cur = cur := by
  cases fs with
  | nil => rfl
  | cons op fs => rw [List.length_cons, List.replicate_succ, repetitions, if_pos ⟨h op List.mem_cons_self, rfl⟩]

theorem repetitions_set (rep : Repeat) (fs : List EncOp) (h : ∀ op ∈ fs, isFrame op = true) :
    repetitions (.setRepeat rep :: fs) (List.replicate (fs.length + 1) (.ok ())) (.finite 0) = rep := by
  rw [List.replicate_succ, repetitions, if_neg (by rintro ⟨h, _⟩; cases h), repetitions_all fs h]
  show (if rep = .finite 0 then none else some rep).getD (.finite 0) = _
  by_cases h : rep = .finite 0
  · rw [if_pos h, h]; rfl
  · rw [if_neg h]; rfl

theorem written_set (rep : Repeat) (fs : List EncOp) (h : ∀ op ∈ fs, isFrame op = true) :
    written (.setRepeat rep :: fs) (List.replicate (fs.length + 1) (.ok ())) = fs := by
  rw [List.replicate_succ, written, if_neg (by rintro ⟨h, _⟩; cases h), written_all fs h]

/-- What `projection` holds. -/
theorem projection_frames (w h : UInt16) (pal : List UInt8) (rep : Repeat) (fs : List Frame) (k : Nat) :
    ∃ rest, projection w h pal rep fs k = .opened (screen w h pal rep Frame.default) :: rest ∧ rawFrames rest = fs := by
  refine ⟨fs.map (fun f => .frame (some f) (screen w h pal rep f)) ++
    List.replicate k (.frame none (screen w h pal rep (fs.getLast?.getD Frame.default))), rfl, ?_⟩
  have := rawFrames_map (fun f : Frame => f) (fun f => screen w h pal rep f) fs
  rw [List.map_id'] at this
  rw [Spec.rawFrames_append, Spec.rawFrames_none, List.append_nil]
  exact this

/-- C63: a file made of a loop count and frames, read with `skip_frame_decoding` and written again with
`write_lzw_pre_encoded_frame`, is the same file, byte for byte. `v` and `rest` are what the decoder shows. -/
theorem rewrite_identical (K : C.Contract) {o : DecodeOptions} (np np' : Bool) {w h : UInt16} {pal : List UInt8}
    (hpal : pal.length / 3 ≤ 256) {rep : Repeat} {fs : List EncOp} (hne : fs ≠ []) (hfr : ∀ op ∈ fs, isFrame op = true)
    (hsane : ∀ op ∈ fs, op.Sane) {file : List UInt8}
    (henc : encodeFile C np w h pal (.setRepeat rep :: fs) = (some file, List.replicate (fs.length + 1) (.ok ())))
    (had : ∀ op ∈ fs, Admissible C o w h op)
    (hld : ∀ op ∈ fs, Held C o op) (h15 : o.memoryLimit.sizeOk 15 = true) {junk : List UInt8} {r : Reader}
    (hr : r.Reliable) (hb : r.bytes = file ++ junk) (k : Nat) :
    ∃ v rest, Decoder.rawFilm C o r (fs.length + k) = .opened v :: rest ∧
      encodeFile C np' v.width v.height (v.globalPalette.getD []) (.setRepeat v.repetition :: (rawFrames rest).map .preEncoded) =
        (some file, List.replicate (fs.length + 1) (.ok ())) := by
  have hsane1 : ∀ op ∈ EncOp.setRepeat rep :: fs, op.Sane := by
    intro op hop
    rcases List.mem_cons.mp hop with rfl | hop
    · trivial
    · exact hsane op hop
  have hpl : ∀ op ∈ EncOp.setRepeat rep :: fs, Plain o op := by
    intro op hop
    rcases List.mem_cons.mp hop with rfl | hop
    · exact h15
    · have := hfr op hop
      have h5 : o.memoryLimit.sizeOk 5 = true := SD.sizeOk_mono _ (by omega) h15
      cases op <;> first | exact h5 | cases this
  have hw := written_set rep fs hfr
  have hfilm := roundtrip_raw K (o := o) np hpal hsane1 hpl henc (by rw [hw]; exact had) (by rw [hw]; exact hld)
    (made_changed (C := C) np hpal hsane1 henc (by rw [hw]; exact hne)) hr hb k
  rw [hw, repetitions_set rep fs hfr] at hfilm
  obtain ⟨rest, hp, hrest⟩ := projection_frames w h pal rep (fs.map fun op => readRaw (compressed C op)) k
  refine ⟨_, rest, hfilm.trans hp, ?_⟩
  rw [hrest]
  show encodeFile C np' w h (padded pal) (.setRepeat rep :: _) = _
  have henc' := henc
  rw [encodeFile_eq C np w h pal _ hpal hsane1] at henc'
  have hres := (Prod.mk.inj henc').2
  have hok : ∀ op ∈ fs, opResult (3 ≤ pal.length) op = .ok () := by
    intro op hop
    have : opResult (3 ≤ pal.length) op ∈ (EncOp.setRepeat rep :: fs).map (opResult (3 ≤ pal.length)) :=
      List.mem_map_of_mem (List.mem_cons_of_mem _ hop)
    rw [hres] at this
    exact List.eq_of_mem_replicate this
  have hnp : encodeFile C np w h pal (.setRepeat rep :: fs) = encodeFile C np' w h pal (.setRepeat rep :: fs) := by
    rw [encodeFile_eq C np w h pal _ hpal hsane1, encodeFile_eq C np' w h pal _ hpal hsane1]
  rw [← henc, hnp]
  have hblk : ∀ l : List EncOp, (∀ op ∈ l, op ∈ fs) →
      ((l.map fun op => readRaw (compressed C op)).map EncOp.preEncoded).flatMap (opBlks C true) =
        l.flatMap (opBlks C (3 ≤ pal.length)) ∧
      ((l.map fun op => readRaw (compressed C op)).map EncOp.preEncoded).map (opResult true) =
        l.map (opResult (3 ≤ pal.length)) := by
    intro l
    induction l with
    | nil => intro _; exact ⟨rfl, rfl⟩
    | cons op l ih =>
      intro hl
      have hm := hl op List.mem_cons_self
      obtain ⟨i1, i2⟩ := ih fun x hx => hl x (List.mem_cons_of_mem _ hx)
      obtain ⟨b1, b2⟩ := opBlks_again K (hfr op hm) (hok op hm)
      simp only [List.map_cons, List.flatMap_cons]
      rw [i1, i2, b1, b2, hok op hm]
      exact ⟨rfl, rfl⟩
  obtain ⟨e1, e2⟩ := hblk fs fun _ h => h
  apply encodeFile_again np' w h hpal hsane1
  · intro op hop
    rcases List.mem_cons.mp hop with rfl | hop
    · trivial
    · obtain ⟨f, _, rfl⟩ := List.mem_map.mp hop
      trivial
  · rw [List.flatMap_cons, List.flatMap_cons, e1]; rfl
  · rw [List.map_cons, List.map_cons, e2]; rfl

/-! ## Pixels -/

/-- Writing the pixels of a frame again adds the same blocks. -/
theorem opBlks_trimmed {pal : List UInt8} {f : Frame} (hd : Drawable pal f)
    (hl : f.buffer.length = f.width.toNat * f.height.toNat) :
    opResult true (.frame (trimmed f)) = .ok () ∧
    opBlks C true (.frame (trimmed f)) = opBlks C (3 ≤ pal.length) (.frame f) := by
  have hok := (drawable_ok hd).1
  have hpe : paletteError (3 ≤ pal.length) f = none := paletteError_of_ok (C := C) (op := .frame f) rfl hok
  have ht : trimmed f = { f with palette := f.palette.map padded, ownedCap := some f.buffer.length } := by
    unfold trimmed
    rw [← hl, List.take_length]
  have hpe' : paletteError true (trimmed f) = none := by
    rw [ht]; exact paletteError_padded hpe _ _
  have hlen : ¬ (trimmed f).buffer.length < (trimmed f).width.toNat * (trimmed f).height.toNat := by
    rw [ht]; simp only; omega
  have hok' : opResult true (.frame (trimmed f)) = .ok () := by
    simp only [opResult, if_neg hlen, hpe']
  refine ⟨hok', ?_⟩
  rw [opBlks_frame C true _ rfl hok', opBlks_frame C _ (.frame f) rfl hok]
  have := imageOf_padded (paletteError_none hpe) (some f.buffer.length) f.buffer (f.makeLzwPreEncoded C).buffer
  rw [ht]
  show [Blk.control (ctrlOf f), .image (imageOf { f with palette := f.palette.map padded, ownedCap := some f.buffer.length }
    (f.makeLzwPreEncoded C).buffer)] = _
  rw [this]
  rfl

/-- C63: a file made of a loop count and frames, decoded (in indexed mode) and encoded again, is the same file, byte for
byte. What the statement leaves out: interlaced frames, which are read back without the flag, and pixels behind the last
row, which are not read back (`reencode_differs`). -/
theorem reencode_identical (K : C.Contract) {o : DecodeOptions} (hs : o.skipFrameDecoding = false)
    (hce : o.checkForEndCode = false) (hcol : o.colorOutput = .indexed) (np np' : Bool) {w h : UInt16} {pal : List UInt8}
    (hpal : pal.length / 3 ≤ 256) {rep : Repeat} {fs : List Frame} (hne : fs ≠ []) (hf : ∀ f ∈ fs, Drawable pal f)
    (hi : ∀ f ∈ fs, f.interlaced = false) (hl : ∀ f ∈ fs, f.buffer.length = f.width.toNat * f.height.toNat)
    (h15 : o.memoryLimit.sizeOk 15 = true) (hal : ∀ f ∈ fs, Allowed C o w h f) :
    ∃ file, encodeFile C np w h pal (.setRepeat rep :: fs.map .frame) = (some file, List.replicate (fs.length + 1) (.ok ())) ∧
      ∀ (junk : List UInt8) (r : Reader) (k : Nat), r.Reliable → r.bytes = file ++ junk →
        ∃ v rest, Decoder.sessionFrom C o r (List.replicate (fs.length + k) .read) = .opened v :: rest ∧
          encodeFile C np' v.width v.height (v.globalPalette.getD []) (.setRepeat v.repetition :: (rawFrames rest).map .frame) =
            (some file, List.replicate (fs.length + 1) (.ok ())) := by
  have hsane : ∀ op ∈ EncOp.setRepeat rep :: fs.map EncOp.frame, op.Sane := by
    intro op hop
    rcases List.mem_cons.mp hop with rfl | hop
    · trivial
    · obtain ⟨f, hfm, rfl⟩ := List.mem_map.mp hop
      exact (drawable_ok (hf f hfm)).2
  have hisf : ∀ op ∈ fs.map EncOp.frame, isFrame op = true := by
    intro op hop
    obtain ⟨f, hfm, rfl⟩ := List.mem_map.mp hop
    rfl
  have hres : (EncOp.setRepeat rep :: fs.map EncOp.frame).map (opResult (3 ≤ pal.length)) = List.replicate (fs.length + 1) (.ok ()) := by
    rw [List.map_cons, List.map_map, List.replicate_succ]
    congr 1
    rw [← List.map_const']
    exact List.map_congr_left fun f hfm => (drawable_ok (hf f hfm)).1
  have henc := encodeFile_eq C np w h pal _ hpal hsane
  rw [hres] at henc
  refine ⟨_, henc, ?_⟩
  intro junk r k hr hb
  have hpl : ∀ op ∈ EncOp.setRepeat rep :: fs.map EncOp.frame, Plain o op := by
    intro op hop
    rcases List.mem_cons.mp hop with rfl | hop
    · exact h15
    · obtain ⟨f, hfm, rfl⟩ := List.mem_map.mp hop
      exact SD.sizeOk_mono _ (by omega) h15
  have hw := written_set rep (fs.map EncOp.frame) hisf
  have hrp := repetitions_set rep (fs.map EncOp.frame) hisf
  rw [List.length_map] at hw hrp
  have had : ∀ op ∈ fs.map EncOp.frame, Admissible C o w h op := by
    intro op hop
    obtain ⟨f, hfm, rfl⟩ := List.mem_map.mp hop
    exact ⟨(hal f hfm).1, fun g hg => by cases hg⟩
  have hc : ∀ l : List Frame, (∀ f ∈ l, f ∈ fs) → Contents K o (l.map .frame) (l.map (·.buffer)) := by
    intro l
    induction l with
    | nil => intro _; exact trivial
    | cons f l ih =>
      intro hl
      have hm := hl f List.mem_cons_self
      exact ⟨⟨(hf f hm).1, (hal f hm).2, rfl⟩, ih (fun g hg => hl g (List.mem_cons_of_mem _ hg))⟩
  have hch := made_changed (C := C) np hpal hsane henc (by rw [hw]; simpa using hne)
  have hfilm := roundtrip_pixels K hs hce np hpal hsane hpl henc (by rw [hw]; exact had) hch (pxs := fs.map (·.buffer))
    (by rw [hw]; exact hc fs (fun _ h => h)) hr hb k
  rw [hw, hrp, List.length_map, hcol] at hfilm
  have hzip : ∀ l : List Frame, (∀ f ∈ l, f ∈ fs) →
      List.zipWith (fun op px => readBack .indexed pal (compressed C op) px) (l.map EncOp.frame) (l.map (·.buffer)) = l.map trimmed := by
    intro l
    induction l with
    | nil => intro _; rfl
    | cons f l ih =>
      intro hlm
      have hm := hlm f List.mem_cons_self
      rw [List.map_cons, List.map_cons, List.zipWith_cons_cons, List.map_cons, ih fun g hg => hlm g (List.mem_cons_of_mem _ hg)]
      congr 1
      exact readBack_indexed C pal f (hi f hm) (hf f hm).2.1
  rw [hzip fs fun _ h => h] at hfilm
  obtain ⟨rest, hp, hrest⟩ := projection_frames w h pal rep (fs.map trimmed) k
  refine ⟨_, rest, hfilm.trans hp, ?_⟩
  rw [hrest]
  show encodeFile C np' w h (padded pal) (.setRepeat rep :: _) = _
  have hnp : encodeFile C np w h pal (.setRepeat rep :: fs.map EncOp.frame) = encodeFile C np' w h pal (.setRepeat rep :: fs.map EncOp.frame) := by
    rw [encodeFile_eq C np w h pal _ hpal hsane, encodeFile_eq C np' w h pal _ hpal hsane]
  rw [← henc, hnp]
  have hblk : ∀ l : List Frame, (∀ f ∈ l, f ∈ fs) →
      ((l.map trimmed).map EncOp.frame).flatMap (opBlks C true) = (l.map EncOp.frame).flatMap (opBlks C (3 ≤ pal.length)) ∧
      ((l.map trimmed).map EncOp.frame).map (opResult true) = (l.map EncOp.frame).map (opResult (3 ≤ pal.length)) := by
    intro l
    induction l with
    | nil => intro _; exact ⟨rfl, rfl⟩
    | cons f l ih =>
      intro hlm
      have hm := hlm f List.mem_cons_self
      obtain ⟨i1, i2⟩ := ih fun x hx => hlm x (List.mem_cons_of_mem _ hx)
      obtain ⟨b1, b2⟩ := opBlks_trimmed (C := C) (hf f hm) (hl f hm)
      simp only [List.map_cons, List.flatMap_cons]
      rw [i1, i2, b1, b2, (drawable_ok (hf f hm)).1]
      exact ⟨rfl, rfl⟩
  obtain ⟨e1, e2⟩ := hblk fs fun _ h => h
  apply encodeFile_again np' w h hpal hsane
  · intro op hop
    rcases List.mem_cons.mp hop with rfl | hop
    · trivial
    · obtain ⟨f, hfm, rfl⟩ := List.mem_map.mp hop
      obtain ⟨f', hfm', rfl⟩ := List.mem_map.mp hfm
      have := (drawable_ok (hf f' hfm')).2
      rcases this with h | h
      · exact .inl h
      · right
        show (f'.buffer.take _) = []
        rw [h, List.take_nil]
  · rw [List.flatMap_cons, List.flatMap_cons, e1]; rfl
  · rw [List.map_cons, List.map_cons, e2]; rfl

/-! ## Files of others -/

/-- C63 for every file: raw frames that were read from any file, with any calls, and were written to a new file: reading and
writing that file again gives the same file. -/
theorem rewrite_stable (K : C.Contract) {o p : DecodeOptions} (ho : o.skipFrameDecoding = true)
    (hcc : p.checkFrameConsistency = true → o.checkFrameConsistency = true) {r : Reader} {cs : List Call} {v : View} {rest : List Seen}
    (hses : Decoder.sessionFrom C o r cs = .opened v :: rest) {gs : List Frame} (hgs : ∀ g ∈ gs, g ∈ rawFrames rest) (hne : gs ≠ [])
    (hcode : ∀ g ∈ gs, g.buffer.head? ≠ some 1) (hdata : ∀ g ∈ gs, 2 ≤ g.buffer.length) (np np' : Bool) (rep : Repeat)
    (h15 : p.memoryLimit.sizeOk 15 = true) (hmem : ∀ g ∈ gs, p.memoryLimit.sizeOk g.buffer.length = true) :
    ∃ file, encodeFile C np v.width v.height (v.globalPalette.getD []) (.setRepeat rep :: gs.map .preEncoded) =
        (some file, List.replicate (gs.length + 1) (.ok ())) ∧
      ∀ (junk : List UInt8) (r' : Reader) (k : Nat), r'.Reliable → r'.bytes = file ++ junk →
        ∃ v' rest', Decoder.rawFilm C p r' (gs.length + k) = .opened v' :: rest' ∧
          encodeFile C np' v'.width v'.height (v'.globalPalette.getD []) (.setRepeat v'.repetition :: (rawFrames rest').map .preEncoded) =
            (some file, List.replicate (gs.length + 1) (.ok ())) := by
  obtain ⟨hpalT, hfr⟩ := Decoder.sessionFrom_sound K.safe hses
  obtain ⟨file, _, henc, _⟩ := rewrite_any_partial K ho hcc hses hgs hne hcode hdata np rep h15 hmem
  refine ⟨file, henc, ?_⟩
  intro junk r' k hr' hb'
  have hpal : (v.globalPalette.getD []).length / 3 ≤ 256 := by
    cases hv : v.globalPalette with
    | none => simp
    | some t => exact (tableLength_padded (hpalT t hv)).2.1
  have := rewrite_identical K (o := p) np np' hpal (rep := rep) (fs := gs.map .preEncoded) (file := file) (by simpa using hne)
    (by intro op hop; obtain ⟨f, _, rfl⟩ := List.mem_map.mp hop; rfl)
    (by intro op hop; obtain ⟨f, _, rfl⟩ := List.mem_map.mp hop; trivial)
    (by rw [List.length_map]; exact henc)
    (by
      intro op hop
      obtain ⟨f, hfm, rfl⟩ := List.mem_map.mp hop
      exact ⟨fun h => (hfr f (hgs f hfm)).inside (hcc h), fun g hg => by cases hg; exact hdata _ hfm⟩)
    (by
      intro op hop
      obtain ⟨f, hfm, rfl⟩ := List.mem_map.mp hop
      exact hmem f hfm)
    h15 hr' hb' k
  rw [List.length_map] at this
  exact this

/-- C63 for every file: frames that were decoded, from any file, with any calls, and were written to a new file: decoding and
encoding that file again gives the same file. -/
theorem reencode_stable (K : C.Contract) {o p : DecodeOptions} (ho : o.skipFrameDecoding = false) (hoc : o.colorOutput = .indexed)
    (hp : p.skipFrameDecoding = false) (hpc : p.colorOutput = .indexed) (hce : p.checkForEndCode = false)
    (hcc : p.checkFrameConsistency = true → o.checkFrameConsistency = true) {r : Reader} {cs : List Call} {v : View} {rest : List Seen}
    (hses : Decoder.sessionFrom C o r cs = .opened v :: rest) {gs : List Frame} (hgs : ∀ g ∈ gs, g ∈ rawFrames rest) (hne : gs ≠ [])
    (hpx : ∀ g ∈ gs, 0 < g.width.toNat * g.height.toNat) (np np' : Bool) (rep : Repeat) (h15 : p.memoryLimit.sizeOk 15 = true)
    (hmem : ∀ g ∈ gs, p.memoryLimit.sizeOk g.buffer.length = true) :
    ∃ file, encodeFile C np v.width v.height (v.globalPalette.getD []) (.setRepeat rep :: gs.map .frame) =
        (some file, List.replicate (gs.length + 1) (.ok ())) ∧
      ∀ (junk : List UInt8) (r' : Reader) (k : Nat), r'.Reliable → r'.bytes = file ++ junk →
        ∃ v' rest', Decoder.sessionFrom C p r' (List.replicate (gs.length + k) .read) = .opened v' :: rest' ∧
          encodeFile C np' v'.width v'.height (v'.globalPalette.getD []) (.setRepeat v'.repetition :: (rawFrames rest').map .frame) =
            (some file, List.replicate (gs.length + 1) (.ok ())) := by
  obtain ⟨hpalT, hfr⟩ := Decoder.sessionFrom_sound K.safe hses
  have hs : ∀ g ∈ gs, Sound o v.width v.height v.globalPalette g := fun g hg => hfr g (hgs g hg)
  have hpal : (v.globalPalette.getD []).length / 3 ≤ 256 := by
    cases hv : v.globalPalette with
    | none => simp
    | some t => exact (tableLength_padded (hpalT t hv)).2.1
  have hlen : ∀ g ∈ gs, g.buffer.length = g.width.toNat * g.height.toNat := by
    intro g hg
    have := ((hs g hg).pixels ho).2.1
    rw [hoc] at this
    simpa using this
  have hdraw : ∀ g ∈ gs, Drawable (v.globalPalette.getD []) g := by
    intro g hg
    refine ⟨hpx g hg, by rw [hlen g hg]; exact Nat.le_refl _, ?_⟩
    cases hq : g.palette with
    | some q => exact (tableLength_padded ((hs g hg).table q hq)).2.1
    | none =>
      rcases (hs g hg).coloured with h | h
      · exact absurd hq h
      · cases hv : v.globalPalette with
        | none => exact absurd hv h
        | some t => exact (tableLength_padded (hpalT t hv)).2.2
  refine reencode_identical K hp hce hpc np np' hpal hne hdraw (fun g hg => ((hs g hg).pixels ho).1) hlen h15 ?_
  intro g hg
  have h2 := hmem g hg
  rw [hlen g hg] at h2
  refine ⟨fun h => (hs g hg).inside (hcc h), ?_⟩
  rw [hpc]
  exact ⟨_, indexed_size _ h2⟩

end Gif
