import Verif.Lemmas.RoundTrip
import Verif.Props.Grammar
/-!
C05, C06, C07, C24, C27, C42: files written by the encoder and read back.
-/

namespace Gif

open Spec Encoder

section

variable {C : Codec}

/-- The file that the encoder writes. -/
def madeFile (C : Codec) (w h : UInt16) (pal : List UInt8) (ops : List EncOp) : File :=
  fileOf w h pal (ops.flatMap (opBlks C (3 ≤ pal.length)))

theorem made_frames (w h : UInt16) (pal : List UInt8) (ops : List EncOp) :
    (madeFile C w h pal ops).frames = (written ops (ops.map (opResult (3 ≤ pal.length)))).map (frameOf C) :=
  frames_ops C _ ops _

theorem made_readable (K : C.Contract) {o : DecodeOptions} {w h : UInt16} {pal : List UInt8} (hpal : pal.length / 3 ≤ 256)
    {ops : List EncOp} (hpl : ∀ op ∈ ops, Plain o op)
    (had : ∀ op ∈ written ops (ops.map (opResult (3 ≤ pal.length))), Admissible C o w h op)
    (hne : (madeFile C w h pal ops).blocks ≠ []) : (madeFile C w h pal ops).Readable o := by
  have key : ∀ b ∈ ops.flatMap (opBlks C (3 ≤ pal.length)), b.Ok ∧ b.Fits o := by
    intro b hb
    obtain ⟨op, hop, hb⟩ := List.mem_flatMap.mp hb
    refine opBlks_fits K (w := w) (h := h) (hpl op hop) (fun h1 h2 => had op ?_) b hb
    have : ∀ ops : List EncOp, op ∈ ops → op ∈ written ops (ops.map (opResult (3 ≤ pal.length))) := by
      intro ops
      induction ops with
      | nil => intro h; cases h
      | cons a ops ih =>
        intro hm
        rw [List.map_cons, written]
        rcases List.mem_cons.mp hm with rfl | hm
        · rw [if_pos ⟨h1, h2⟩]; exact List.mem_cons_self
        · by_cases ha : isFrame a = true ∧ opResult (3 ≤ pal.length) a = .ok ()
          · rw [if_pos ha]; exact List.mem_cons_of_mem _ (ih hm)
          · rw [if_neg ha]; exact ih hm
    exact this ops hop
  exact ⟨fileOf_ok w h pal hpal _ (fun b hb => (key b hb).1), hne, fun b hb => (key b hb).2,
    skippable_of _ _ _ fun b hb => by
      obtain ⟨op, _, hb⟩ := List.mem_flatMap.mp hb
      exact opBlks_known C _ op b hb⟩

theorem tableColours_ge (n : Nat) : 2 ≤ tableColours n := by
  unfold tableColours
  split <;> (try split) <;> (try split) <;> (try split) <;> (try split) <;> (try split) <;> (try split) <;> omega

theorem padded_length (t : List UInt8) (h : t.length / 3 ≤ 256) : (padded t).length = 3 * tableColours (t.length / 3) := by
  rw [← padTable_eq t h, padTable_length t h, tableColours_eq _ h]

/-- If the calls change the file, they write blocks. -/
theorem made_blocks (np : Bool) {w h : UInt16} {pal : List UInt8} (hpal : pal.length / 3 ≤ 256) {ops : List EncOp}
    (hne : (encodeFile C np w h pal []).1 ≠ some (madeFile C w h pal ops).render) : (madeFile C w h pal ops).blocks ≠ [] := by
  intro hn
  apply hne
  rw [encodeFile_eq C np w h pal [] hpal (by intro op h; cases h)]
  have : ops.flatMap (opBlks C (3 ≤ pal.length)) = [] := hn
  unfold madeFile
  rw [this]
  rfl

/-- If frames were accepted, the file has changed. -/
theorem made_changed (np : Bool) {w h : UInt16} {pal : List UInt8} (hpal : pal.length / 3 ≤ 256) {ops : List EncOp}
    (hsane : ∀ op ∈ ops, op.Sane) {file : List UInt8} {rs : List (EOut Unit)}
    (henc : encodeFile C np w h pal ops = (some file, rs)) (hne : written ops rs ≠ []) :
    (encodeFile C np w h pal []).1 ≠ some file := by
  rw [encodeFile_eq C np w h pal ops hpal hsane] at henc
  simp only [Prod.mk.injEq, Option.some.injEq] at henc
  obtain ⟨rfl, rfl⟩ := henc
  rw [encodeFile_eq C np w h pal [] hpal (by intro op h; cases h)]
  intro heq
  simp only [Option.some.injEq, File.render, List.append_cancel_right_eq] at heq
  have h1 : (fileOf w h pal (([] : List EncOp).flatMap (opBlks C (3 ≤ pal.length)))).renderHead =
    (fileOf w h pal (ops.flatMap (opBlks C (3 ≤ pal.length)))).renderHead := rfl
  rw [h1, List.append_cancel_left_eq] at heq
  have h2 : renderBlks (ops.flatMap (opBlks C (3 ≤ pal.length))) = [] := heq.symm
  apply hne
  have h3 : ops.flatMap (opBlks C (3 ≤ pal.length)) = [] := by
    cases hb : ops.flatMap (opBlks C (3 ≤ pal.length)) with
    | nil => rfl
    | cons b bs =>
      rw [hb, renderBlks, List.flatMap_cons] at h2
      have := (List.append_eq_nil_iff.mp h2).1
      cases b <;> simp [Blk.render, Control.render, Image.render, Image.renderHead] at this
  have h4 := frames_ops C (3 ≤ pal.length) ops .default
  rw [h3] at h4
  exact List.map_eq_nil_iff.mp h4.symm

/-- What the accessors show of the file. -/
theorem made_view (w h : UInt16) (pal : List UInt8) (hpal : pal.length / 3 ≤ 256) (ops : List EncOp) (f : Frame) :
    (madeFile C w h pal ops).view f =
      screen w h pal (repetitions ops (ops.map (opResult (3 ≤ pal.length))) (.finite 0)) f := by
  have h1 : loopsOf (madeFile C w h pal ops).loops = repetitions ops (ops.map (opResult (3 ≤ pal.length))) (.finite 0) :=
    loops_ops C _ ops _
  have h2 : (madeFile C w h pal ops).table = some (padded pal) := by
    show some (padTable pal) = _
    rw [padTable_eq pal hpal]
  have h3 : (madeFile C w h pal ops).backgroundColour = some 0 := by
    unfold File.backgroundColour
    rw [h2]
    simp only
    rw [if_pos]
    · rfl
    · show (0 : UInt8).toNat < _
      have := tableColours_ge (pal.length / 3)
      rw [padded_length pal hpal]
      show 0 < _
      omega
  unfold File.view screen
  rw [h1, h2, h3]
  rfl

theorem buffer_ne (K : C.Contract) {o : DecodeOptions} {w h : UInt16} {op : EncOp} (hf : isFrame op = true)
    (ha : Admissible C o w h op) : (compressed C op).buffer ≠ [] := by
  cases op with
  | frame f =>
    obtain ⟨m, data, hm, _⟩ := encode_ne K f
    show (f.makeLzwPreEncoded C).buffer ≠ []
    rw [hm]
    simp
  | preEncoded f =>
    have := ha.2 f rfl
    show f.buffer ≠ []
    intro h
    rw [h] at this
    simp at this
  | setRepeat r => cases hf
  | extension x => cases hf
  | rawExtension l d => cases hf

theorem frameOf_data {op : EncOp} (hb : (compressed C op).buffer ≠ []) : (frameOf C op).2.data = (compressed C op).buffer := by
  obtain ⟨m, data, hmd⟩ := List.exists_cons_of_ne_nil hb
  unfold frameOf imageOf Image.data
  simp only [hmd, List.headD_cons, List.tail_cons, subsOf_flatten]

theorem made_verdict (K : C.Contract) {o : DecodeOptions} {w h : UInt16} {pal : List UInt8} {g : Bool} {ops : List EncOp} {op : EncOp}
    (hf : isFrame op = true) (hr : opResult g op = .ok ()) (ha : Admissible C o w h op) :
    (madeFile C w h pal ops).headVerdict o (frameOf C op).2 = none := by
  have hcode : ¬ ((frameOf C op).2.minCode.toNat < 1 ∨ 11 < (frameOf C op).2.minCode.toNat) := by
    show ¬ (((compressed C op).buffer.headD 2).toNat < 1 ∨ 11 < ((compressed C op).buffer.headD 2).toNat)
    cases op with
    | frame f =>
      obtain ⟨m, data, hm, _, h2, h8, _⟩ := encode_ne K f
      show ¬ (((f.makeLzwPreEncoded C).buffer.headD 2).toNat < 1 ∨ 11 < ((f.makeLzwPreEncoded C).buffer.headD 2).toNat)
      rw [hm]
      have := UInt8.le_iff_toNat_le.mp h2
      have := UInt8.le_iff_toNat_le.mp h8
      simp only [List.headD_cons]
      change 2 ≤ m.toNat at *
      simp at *
      omega
    | preEncoded f =>
      unfold opResult at hr
      by_cases hbad : badCodeSize f
      · simp only [if_pos hbad] at hr; cases hr
      · show ¬ ((f.buffer.headD 2).toNat < 1 ∨ 11 < (f.buffer.headD 2).toNat)
        unfold badCodeSize at hbad
        cases hfb : f.buffer with
        | nil => decide
        | cons m data =>
          rw [hfb] at hbad
          simp only [UInt8.lt_iff_toNat_lt, GT.gt] at hbad
          simp only [List.headD_cons]
          simp at hbad ⊢
          omega
    | setRepeat r => cases hf
    | extension x => cases hf
    | rawExtension l d => cases hf
  unfold File.headVerdict
  rw [if_neg, if_neg hcode, if_neg]
  · rintro ⟨_, h2⟩; cases h2
  · rintro ⟨h1, h2⟩; exact h2 (ha.1 h1)

theorem made_held (K : C.Contract) {o : DecodeOptions} {w h : UInt16} {pal : List UInt8} {g : Bool} {ops : List EncOp} {op : EncOp}
    (hf : isFrame op = true) (hr : opResult g op = .ok ()) (ha : Admissible C o w h op) (hl : Held C o op) :
    (madeFile C w h pal ops).verdict o (frameOf C op).2 = none := by
  unfold File.verdict
  simp only [made_verdict K hf hr ha, frameOf_data (buffer_ne K hf ha)]
  exact if_pos hl

/-- Writing and reading back with `skip_frame_decoding`: the frames that were accepted, with their compressed data. -/
theorem roundtrip_raw (K : C.Contract) {o : DecodeOptions} (np : Bool) {w h : UInt16} {pal : List UInt8}
    (hpal : pal.length / 3 ≤ 256) {ops : List EncOp} (hsane : ∀ op ∈ ops, op.Sane) (hpl : ∀ op ∈ ops, Plain o op)
    {file : List UInt8} {rs : List (EOut Unit)} (henc : encodeFile C np w h pal ops = (some file, rs))
    (had : ∀ op ∈ written ops rs, Admissible C o w h op) (hld : ∀ op ∈ written ops rs, Held C o op)
    (hne : (encodeFile C np w h pal []).1 ≠ some file) {junk : List UInt8} {r : Reader}
    (hr : r.Reliable) (hb : r.bytes = file ++ junk) (k : Nat) :
    Decoder.rawFilm C o r ((written ops rs).length + k) =
      projection w h pal (repetitions ops rs (.finite 0)) ((written ops rs).map fun op => readRaw (compressed C op)) k := by
  rw [encodeFile_eq C np w h pal ops hpal hsane] at henc
  simp only [Prod.mk.injEq, Option.some.injEq] at henc
  obtain ⟨rfl, rfl⟩ := henc
  have hfr := made_frames (C := C) w h pal ops
  have hblk := made_blocks np hpal hne
  have hrd := made_readable K (h := h) hpal hpl had hblk
  have hacc : ∀ x ∈ (madeFile C w h pal ops).frames, (madeFile C w h pal ops).verdict o x.2 = none := by
    rw [hfr]
    intro x hx
    obtain ⟨op, hop, rfl⟩ := List.mem_map.mp hx
    obtain ⟨_, m2, m3⟩ := written_mem _ ops op hop
    exact made_held K m2 m3 (had op hop) (hld op hop)
  have := Decoder.grammar_raw_frames (C := C) K.safe hrd hacc hr hb k
  rw [hfr, List.length_map] at this
  rw [this]
  have hmap : ((written ops (ops.map (opResult (3 ≤ pal.length)))).map (frameOf C)).map rawFrame =
      (written ops (ops.map (opResult (3 ≤ pal.length)))).map (fun op => readRaw (compressed C op)) := by
    rw [List.map_map]
    apply List.map_congr_left
    intro op hop
    obtain ⟨_, m2, m3⟩ := written_mem _ ops op hop
    exact rawFrame_frameOf (paletteError_of_ok m2 m3) (buffer_ne K m2 (had op hop))
  rw [hmap]
  unfold File.screenplay projection
  simp only [made_view w h pal hpal ops]

theorem contents_show (K : C.Contract) {o : DecodeOptions} {w h : UInt16} {pal : List UInt8} {g : Bool} {all : List EncOp} :
    ∀ (ops : List EncOp) (pxs : List (List UInt8)), (∀ op ∈ ops, isFrame op = true ∧ opResult g op = .ok () ∧ Admissible C o w h op) →
      Contents K o ops pxs → (madeFile C w h pal all).ShowAll K o (ops.map (frameOf C)) pxs
  | [], [], _, _ => trivial
  | [], _ :: _, _, h => h.elim
  | _ :: _, [], _, h => h.elim
  | op :: ops, px :: pxs, hall, hc => by
    obtain ⟨h1, h2, h3⟩ := hall op List.mem_cons_self
    refine ⟨?_, contents_show K ops pxs (fun x hx => hall x (List.mem_cons_of_mem _ hx)) hc.2⟩
    obtain ⟨c1, c2, c3⟩ := hc.1
    have hsub : ∀ m data, (compressed C op).buffer = m :: data → (frameOf C op).2.minCode = m ∧ (frameOf C op).2.subs.flatten = data := by
      intro m data hmd
      unfold frameOf imageOf
      simp only [hmd, List.headD_cons, List.tail_cons, subsOf_flatten, and_self]
    have hshow : (compressed C op).width.toNat * (compressed C op).height.toNat ≤ px.length ∧
        ∃ m data e, (compressed C op).buffer = m :: data ∧ K.Yields (C.new m) data px e ∧ e ≠ .invalid := by
      cases op with
      | frame f =>
        subst c3
        obtain ⟨m, data, hm, _, _, _, hy⟩ := encode_ne K f
        refine ⟨?_, m, data, .ended, hm, hy, by simp⟩
        show f.width.toNat * f.height.toNat ≤ f.buffer.length
        unfold opResult at h2
        by_cases hlt : f.buffer.length < f.width.toNat * f.height.toNat
        · simp only [if_pos hlt] at h2; cases h2
        · omega
      | preEncoded f => exact c3
      | setRepeat r => cases h1
      | extension x => cases h1
      | rawExtension l d => cases h1
    obtain ⟨s1, m, data, e, s2, s3, s4⟩ := hshow
    obtain ⟨e1, e2⟩ := hsub m data s2
    exact ⟨made_verdict K h1 h2 h3, c1, c2, s1, e, s4, by rw [e1, e2]; exact s3⟩

/-- Writing and reading back, with the pixels. -/
theorem roundtrip_pixels (K : C.Contract) {o : DecodeOptions} (hs : o.skipFrameDecoding = false) (hce : o.checkForEndCode = false)
    (np : Bool) {w h : UInt16} {pal : List UInt8}
    (hpal : pal.length / 3 ≤ 256) {ops : List EncOp} (hsane : ∀ op ∈ ops, op.Sane) (hpl : ∀ op ∈ ops, Plain o op)
    {file : List UInt8} {rs : List (EOut Unit)} (henc : encodeFile C np w h pal ops = (some file, rs))
    (had : ∀ op ∈ written ops rs, Admissible C o w h op) (hne : (encodeFile C np w h pal []).1 ≠ some file) {pxs : List (List UInt8)}
    (hc : Contents K o (written ops rs) pxs) {junk : List UInt8} {r : Reader}
    (hr : r.Reliable) (hb : r.bytes = file ++ junk) (k : Nat) :
    Decoder.sessionFrom C o r (List.replicate ((written ops rs).length + k) .read) =
      projection w h pal (repetitions ops rs (.finite 0))
        (List.zipWith (fun op px => readBack o.colorOutput pal (compressed C op) px) (written ops rs) pxs) k := by
  rw [encodeFile_eq C np w h pal ops hpal hsane] at henc
  simp only [Prod.mk.injEq, Option.some.injEq] at henc
  obtain ⟨rfl, rfl⟩ := henc
  have hfr := made_frames (C := C) w h pal ops
  have hblk := made_blocks np hpal hne
  have hrd := made_readable K (h := h) hpal hpl had hblk
  have hall : ∀ op ∈ written ops (ops.map (opResult (3 ≤ pal.length))), isFrame op = true ∧
      opResult (3 ≤ pal.length) op = .ok () ∧ Admissible C o w h op := by
    intro op hop
    obtain ⟨_, m2, m3⟩ := written_mem _ ops op hop
    exact ⟨m2, m3, had op hop⟩
  have hshow := contents_show K (pal := pal) (all := ops) _ _ hall hc
  rw [← hfr] at hshow
  have := Decoder.grammar_frames_partial K hs hce hrd hshow hr hb k
  have hlen : (madeFile C w h pal ops).frames.length = (written ops (ops.map (opResult (3 ≤ pal.length)))).length := by
    rw [hfr, List.length_map]
  rw [hlen] at this
  rw [this]
  have htab : (madeFile C w h pal ops).table = some (padded pal) := by
    show some (padTable pal) = _
    rw [padTable_eq pal hpal]
  have hmap : (madeFile C w h pal ops).pictures o.colorOutput pxs = List.zipWith
      (fun op px => readBack o.colorOutput pal (compressed C op) px) (written ops (ops.map (opResult (3 ≤ pal.length)))) pxs := by
    unfold File.pictures
    rw [hfr, htab]
    clear hc hshow this
    generalize written ops (ops.map (opResult (3 ≤ pal.length))) = ws at *
    clear hfr hlen hne
    induction ws generalizing pxs with
    | nil => rfl
    | cons op ws ih =>
      cases pxs with
      | nil => rfl
      | cons px pxs =>
        obtain ⟨m2, m3, m4⟩ := hall op List.mem_cons_self
        rw [List.map_cons, List.zipWith_cons_cons, List.zipWith_cons_cons, ih (fun x hx => had x (List.mem_cons_of_mem _ hx))
          (fun x hx => hall x (List.mem_cons_of_mem _ hx)), rawFrame_frameOf (paletteError_of_ok m2 m3) (buffer_ne K m2 m4)]
        rfl
  rw [hmap]
  unfold File.screenplay projection
  simp only [made_view w h pal hpal ops]

end

end Gif
