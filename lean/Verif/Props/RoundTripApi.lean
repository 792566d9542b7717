import Verif.Props.RoundTrip
import Verif.Props.EncoderIo
/-!
C05, C06, C07, C27, C42, C47: consequences of the round trips for single questions.
-/

namespace Gif

open Spec Encoder

variable {C : Codec}

/-! ## C05 -/

namespace Spec

/-- A frame that `write_frame` has to accept: it has pixels, the buffer holds them, and there are colours for them, at most
256. -/
def Drawable (pal : List UInt8) (f : Frame) : Prop :=
  0 < f.width.toNat * f.height.toNat ∧ f.width.toNat * f.height.toNat ≤ f.buffer.length ∧
  match f.palette with
  | some p => p.length / 3 ≤ 256
  | none => 3 ≤ pal.length

/-- The frame as it is read back in indexed mode: the palette is padded, the buffer cut to the size of the image. -/
def trimmed (f : Frame) : Frame :=
  { f with
    palette := f.palette.map padded
    buffer := f.buffer.take (f.width.toNat * f.height.toNat)
    ownedCap := some (f.width.toNat * f.height.toNat) }

/-- What the options of the decoder require of the frame. -/
def Allowed (C : Codec) (o : DecodeOptions) (w h : UInt16) (f : Frame) : Prop :=
  (o.checkFrameConsistency = true → f.left.toNat + f.width.toNat ≤ w.toNat ∧ f.top.toNat + f.height.toNat ≤ h.toNat) ∧
  ∃ n, o.memoryLimit.bufferSize o.colorOutput f.width f.height = some n

end Spec

theorem drawable_ok {pal : List UInt8} {f : Frame} (h : Drawable pal f) :
    opResult (3 ≤ pal.length) (.frame f) = .ok () ∧ EncOp.Sane (.frame f) := by
  obtain ⟨h1, h2, h3⟩ := h
  constructor
  · have hlt : ¬ f.buffer.length < f.width.toNat * f.height.toNat := by omega
    cases hp : f.palette with
    | some p =>
      rw [hp] at h3
      simp only at h3
      simp only [opResult, paletteError, if_neg hlt, hp, if_pos h3]
    | none =>
      rw [hp] at h3
      simp only at h3
      simp [opResult, paletteError, if_neg hlt, hp, h3]
  · left
    constructor
    · apply Decidable.byContradiction
      intro hn
      have : f.width = 0 := by
        apply UInt16.toNat.inj
        have : ¬ 0 < f.width.toNat := fun h => hn (UInt16.lt_iff_toNat_lt.mpr h)
        simp; omega
      rw [this] at h1
      simp at h1
    · apply Decidable.byContradiction
      intro hn
      have : f.height = 0 := by
        apply UInt16.toNat.inj
        have : ¬ 0 < f.height.toNat := fun h => hn (UInt16.lt_iff_toNat_lt.mpr h)
        simp; omega
      rw [this] at h1
      simp at h1

theorem written_frames (rs : List Frame) : written (rs.map .frame) (rs.map fun _ => .ok ()) = rs.map .frame := by
  induction rs with
  | nil => rfl
  | cons f rs ih => rw [List.map_cons, List.map_cons, written, if_pos ⟨rfl, rfl⟩, ih]

theorem repetitions_frames (rs : List Frame) (cur : Repeat) :
    repetitions (rs.map .frame) (rs.map fun _ => .ok ()) cur = cur := by
  cases rs with
  | nil => rfl
  | cons f rs => rw [List.map_cons, List.map_cons, repetitions, if_pos ⟨rfl, rfl⟩]

/-- The result of encoding frames that have to be accepted. -/
theorem encode_drawable (C : Codec) (np : Bool) (w h : UInt16) {pal : List UInt8} (hpal : pal.length / 3 ≤ 256) {fs : List Frame}
    (hf : ∀ f ∈ fs, Drawable pal f) :
    ∃ file, encodeFile C np w h pal (fs.map .frame) = (some file, fs.map fun _ => .ok ()) := by
  have hs : ∀ op ∈ fs.map EncOp.frame, op.Sane := by
    intro op hop
    obtain ⟨f, hfm, rfl⟩ := List.mem_map.mp hop
    exact (drawable_ok (hf f hfm)).2
  rw [encodeFile_eq C np w h pal _ hpal hs, List.map_map]
  refine ⟨_, congrArg _ ?_⟩
  apply List.map_congr_left
  intro f hfm
  exact (drawable_ok (hf f hfm)).1

theorem readBack_indexed (C : Codec) (pal : List UInt8) (f : Frame) (hi : f.interlaced = false)
    (hl : f.width.toNat * f.height.toNat ≤ f.buffer.length) :
    readBack .indexed pal (f.makeLzwPreEncoded C) f.buffer = trimmed f := by
  have hp : picture .indexed (some (padded pal)) { f.makeLzwPreEncoded C with palette := f.palette.map padded } f.buffer =
      f.buffer.take (f.width.toNat * f.height.toNat) := by
    unfold picture colours pixelOrder
    simp only [Frame.makeLzwPreEncoded, hi, Bool.false_eq_true, if_false]
  unfold readBack shown trimmed
  simp only [Frame.makeLzwPreEncoded] at hp ⊢
  rw [hp, List.length_take, Nat.min_eq_left hl]
  cases f
  simp only at hi
  subst hi
  rfl

/-- C05: writing frames and decoding the file gives the frames back: number, order, metadata, pixels. What is missing:
interlaced frames, for which the claim is false (`RoundTripCases.lean`), and frames without pixels (C48). What becomes of
them, RGBA output and other calls of the encoder between the frames: `roundtrip_pixels`. -/
theorem encode_decode_partial (K : C.Contract) {o : DecodeOptions} (hs : o.skipFrameDecoding = false)
    (hce : o.checkForEndCode = false) (hcol : o.colorOutput = .indexed) (np : Bool) {w h : UInt16} {pal : List UInt8}
    (hpal : pal.length / 3 ≤ 256) {fs : List Frame} (hne : fs ≠ []) (hf : ∀ f ∈ fs, Drawable pal f)
    (hi : ∀ f ∈ fs, f.interlaced = false) (h5 : o.memoryLimit.sizeOk 5 = true) (hal : ∀ f ∈ fs, Allowed C o w h f) :
    ∃ file, encodeFile C np w h pal (fs.map .frame) = (some file, fs.map fun _ => .ok ()) ∧
      ∀ (junk : List UInt8) (r : Reader) (k : Nat), r.Reliable → r.bytes = file ++ junk →
        Decoder.sessionFrom C o r (List.replicate (fs.length + k) .read) =
          projection w h pal (.finite 0) (fs.map trimmed) k := by
  obtain ⟨file, henc⟩ := encode_drawable C np w h hpal hf
  refine ⟨file, henc, ?_⟩
  intro junk r k hr hb
  have hsane : ∀ op ∈ fs.map EncOp.frame, op.Sane := by
    intro op hop
    obtain ⟨f, hfm, rfl⟩ := List.mem_map.mp hop
    exact (drawable_ok (hf f hfm)).2
  have hpl : ∀ op ∈ fs.map EncOp.frame, Plain o op := by
    intro op hop
    obtain ⟨f, hfm, rfl⟩ := List.mem_map.mp hop
    exact h5
  have hw := written_frames fs
  have had : ∀ op ∈ written (fs.map .frame) (fs.map fun _ => .ok ()), Admissible C o w h op := by
    rw [hw]
    intro op hop
    obtain ⟨f, hfm, rfl⟩ := List.mem_map.mp hop
    exact ⟨(hal f hfm).1, fun g hg => by cases hg⟩
  have hc : ∀ l : List Frame, (∀ f ∈ l, f ∈ fs) → Contents K o (l.map .frame) (l.map (·.buffer)) := by
    intro l
    induction l with
    | nil => intro _; exact trivial
    | cons f l ih =>
      intro hl
      have hm := hl f List.mem_cons_self
      exact ⟨⟨(hf f hm).1, (hal f hm).2, rfl⟩, ih (fun g hg => hl g (List.mem_cons_of_mem _ hg))⟩
  have hch := made_changed (C := C) np hpal hsane henc (by rw [hw]; simpa using hne)
  have := roundtrip_pixels K hs hce np hpal hsane hpl henc had hch (pxs := fs.map (·.buffer)) (by rw [hw]; exact hc fs (fun _ h => h))
    hr hb k
  rw [hw, repetitions_frames, List.length_map] at this
  rw [this]
  congr 1
  rw [List.zipWith_map, hcol]
  clear this hch had hpl hsane henc hal hne hc hw hb
  induction fs with
  | nil => rfl
  | cons f fs ih =>
    rw [List.zipWith_cons_cons, List.map_cons, ih (fun g hg => hf g (List.mem_cons_of_mem _ hg)) (fun g hg => hi g (List.mem_cons_of_mem _ hg))]
    congr 1
    exact readBack_indexed C pal f (hi f List.mem_cons_self) (hf f List.mem_cons_self).2.1

/-! ## C06 -/

/-- What the accessors show after `read_info`. -/
theorem Decoder.open_view (K : C.Contract) {o : DecodeOptions} {g : File} (hg : g.Readable o) {junk : List UInt8} {r : Reader} (hr : r.Reliable) (hb : r.bytes = g.render ++ junk) :
    (Decoder.readInfo C o r).2 = .ok () ∧ (Decoder.readInfo C o r).1.view = g.view Frame.default := by
  cases hs : o.skipFrameDecoding with
  | true =>
    obtain ⟨h1, _, _, h4⟩ := Decoder.stage_open (C := C) K.safe hs hg hr hb
    exact ⟨h1, h4⟩
  | false =>
    have hg' : g.Readable { o with skipFrameDecoding := true } :=
      hg.congr rfl rfl
    obtain ⟨h1, h2, h3, h4⟩ := Decoder.stage_open (C := C) K.safe (o := { o with skipFrameDecoding := true }) rfl hg' hr hb
    rcases Decoder.both_readInfo K ⟨o.checkForEndCode, False⟩ o hs rfl o.checkForEndCode hr hr (more := []) (by simp) True with ⟨h, _⟩ | ⟨hok, hall⟩
    · exact absurd rfl h
    · obtain ⟨p1, p2, p3, p4, p5⟩ := hall (hok.trans h1)
      refine ⟨hok.trans h1, ?_⟩
      rw [Decoder.pair_view p1 (p3.trans h2), h4]
      rfl

theorem encodeFile_results (C : Codec) (np : Bool) (w h : UInt16) (pal : List UInt8) (ops : List EncOp) (hpal : pal.length / 3 ≤ 256)
    (hsane : ∀ op ∈ ops, op.Sane) : (encodeFile C np w h pal ops).2 = ops.map (opResult (3 ≤ pal.length)) := by
  rw [encodeFile_eq C np w h pal ops hpal hsane]

/-- What the accessors show after `read_info` of a file of the encoder. -/
theorem roundtrip_open (K : C.Contract) {o : DecodeOptions}
    (np : Bool) {w h : UInt16} {pal : List UInt8} (hpal : pal.length / 3 ≤ 256) {ops : List EncOp} (hsane : ∀ op ∈ ops, op.Sane)
    (hpl : ∀ op ∈ ops, Plain o op) {file : List UInt8} {rs : List (EOut Unit)}
    (henc : encodeFile C np w h pal ops = (some file, rs)) (had : ∀ op ∈ written ops rs, Admissible C o w h op)
    (hne : (encodeFile C np w h pal []).1 ≠ some file) {junk : List UInt8} {r : Reader} (hr : r.Reliable)
    (hb : r.bytes = file ++ junk) :
    (Decoder.readInfo C o r).2 = .ok () ∧
    (Decoder.readInfo C o r).1.view = screen w h pal (repetitions ops rs (.finite 0)) Frame.default := by
  rw [encodeFile_eq C np w h pal ops hpal hsane] at henc
  simp only [Prod.mk.injEq, Option.some.injEq] at henc
  obtain ⟨rfl, rfl⟩ := henc
  have hrd := made_readable K (h := h) hpal hpl had (made_blocks np hpal hne)
  rw [← made_view (C := C) w h pal hpal ops]
  exact Decoder.open_view K hrd hr hb

theorem repetitions_append_rejected (g : Bool) : ∀ (a c : List EncOp) (cur : Repeat), written a (a.map (opResult g)) = [] →
    repetitions (a ++ c) ((a ++ c).map (opResult g)) cur =
      repetitions c (c.map (opResult g)) (repetitions a (a.map (opResult g)) cur)
  | [], c, cur, _ => rfl
  | op :: a, c, cur, h => by
    rw [List.map_cons, written] at h
    by_cases hop : isFrame op = true ∧ opResult g op = .ok ()
    · rw [if_pos hop] at h; cases h
    · rw [if_neg hop] at h
      rw [List.cons_append, List.map_cons, List.map_cons, repetitions, repetitions, if_neg hop, if_neg hop]
      exact repetitions_append_rejected g a c _ h

theorem repetitions_quiet (g : Bool) : ∀ (b c : List EncOp) (cur : Repeat), (∀ op ∈ b, repetitionOf op = none) →
    (c = [] ∨ written b (b.map (opResult g)) ≠ []) →
    repetitions (b ++ c) ((b ++ c).map (opResult g)) cur = cur
  | [], c, cur, _, hc => by
    rcases hc with rfl | hc
    · rfl
    · exact absurd rfl hc
  | op :: b, c, cur, hq, hc => by
    rw [List.cons_append, List.map_cons, repetitions]
    by_cases hop : isFrame op = true ∧ opResult g op = .ok ()
    · rw [if_pos hop]
    · rw [if_neg hop, hq op List.mem_cons_self]
      refine repetitions_quiet g b c cur (fun x hx => hq x (List.mem_cons_of_mem _ hx)) ?_
      rcases hc with rfl | hc
      · exact .inl rfl
      · right
        rw [List.map_cons, written, if_neg hop] at hc
        exact hc

theorem repetitions_silent (g : Bool) (b : List EncOp) (cur : Repeat) (hq : ∀ op ∈ b, repetitionOf op = none) :
    repetitions b (b.map (opResult g)) cur = cur := by
  have := repetitions_quiet g b [] cur hq (.inl rfl)
  rwa [List.append_nil] at this

theorem written_append (g : Bool) : ∀ (a b : List EncOp), written (a ++ b) ((a ++ b).map (opResult g)) =
    written a (a.map (opResult g)) ++ written b (b.map (opResult g))
  | [], b => rfl
  | op :: a, b => by
    rw [List.cons_append, List.map_cons, List.map_cons, written, written, written_append g a b]
    split <;> rfl

/-- C06: if `set_repeat(r)` is called before any frame was written, and no other loop count is written between it and the
first frame, then `Decoder::repeat` returns `r` after `read_info`. What is missing: `r = Repeat::Finite(0)` after an earlier
loop count, for which the claim is false (`RoundTripCases.lean`). -/
theorem repeat_survives_partial (K : C.Contract) {o : DecodeOptions}
    (np : Bool) {w h : UInt16} {pal : List UInt8} (hpal : pal.length / 3 ≤ 256) {a b c : List EncOp} {rep : Repeat}
    (hsane : ∀ op ∈ a ++ .setRepeat rep :: b ++ c, op.Sane) (hpl : ∀ op ∈ a ++ .setRepeat rep :: b ++ c, Plain o op)
    -- no frame before
    (ha : written a (encodeFile C np w h pal a).2 = [])
    -- no other loop count after it, up to a frame
    (hb : ∀ op ∈ b, repetitionOf op = none)
    (hc : c = [] ∨ written (a ++ .setRepeat rep :: b) (encodeFile C np w h pal (a ++ .setRepeat rep :: b)).2 ≠ [])
    (h0 : rep ≠ .finite 0 ∨ ∀ op ∈ a, repetitionOf op = none)
    {file : List UInt8} {rs : List (EOut Unit)} (henc : encodeFile C np w h pal (a ++ .setRepeat rep :: b ++ c) = (some file, rs))
    (had : ∀ op ∈ written (a ++ .setRepeat rep :: b ++ c) rs, Admissible C o w h op)
    (hne : (encodeFile C np w h pal []).1 ≠ some file) {junk : List UInt8} {r : Reader} (hr : r.Reliable)
    (hbytes : r.bytes = file ++ junk) :
    (Decoder.readInfo C o r).2 = .ok () ∧ (Decoder.readInfo C o r).1.view.repetition = rep := by
  obtain ⟨h1, h2⟩ := roundtrip_open K np hpal hsane hpl henc had hne hr hbytes
  refine ⟨h1, ?_⟩
  rw [h2]
  show repetitions _ rs (.finite 0) = rep
  have hrs := encodeFile_results C np w h pal _ hpal hsane
  rw [henc] at hrs
  simp only at hrs
  subst hrs
  rw [encodeFile_results C np w h pal a hpal (fun op h => hsane op (by simp [h]))] at ha
  rw [encodeFile_results C np w h pal (a ++ .setRepeat rep :: b) hpal (fun op h => hsane op (by
    rcases List.mem_append.mp h with h | h
    · simp [h]
    · rcases List.mem_cons.mp h with h | h <;> simp [h])), written_append, ha] at hc
  rw [List.append_assoc, repetitions_append_rejected _ a _ _ ha, List.cons_append, List.map_cons, repetitions,
    if_neg (by rintro ⟨h, _⟩; cases h)]
  rw [repetitions_quiet _ b c _ hb]
  · show (if rep = .finite 0 then none else some rep).getD _ = rep
    by_cases hz : rep = .finite 0
    · rw [if_pos hz, Option.getD_none, repetitions_silent _ a _ (h0.resolve_left (fun h => h hz)), hz]
    · rw [if_neg hz]; rfl
  · rcases hc with rfl | hc
    · exact .inl rfl
    · right
      rw [List.nil_append, List.map_cons, written, if_neg (by rintro ⟨h, _⟩; cases h)] at hc
      exact hc

/-! ## C07 -/

/-- The padded palette: the whole colours, black up to a power of two, at least two and not more than necessary. -/
theorem padded_shape {t : List UInt8} {n : Nat} (ht : t.length = 3 * n) (hn : n ≤ 256) :
    ∃ k, 1 ≤ k ∧ n ≤ 2 ^ k ∧ (∀ j, 1 ≤ j → n ≤ 2 ^ j → k ≤ j) ∧ padded t = t ++ List.replicate (3 * (2 ^ k - n)) 0 := by
  have hd : t.length / 3 = n := by omega
  have key : ∀ k, 1 ≤ k → n ≤ 2 ^ k → tableColours n = 2 ^ k → (k = 1 ∨ 2 ^ (k - 1) < n) →
      ∃ k, 1 ≤ k ∧ n ≤ 2 ^ k ∧ (∀ j, 1 ≤ j → n ≤ 2 ^ j → k ≤ j) ∧ padded t = t ++ List.replicate (3 * (2 ^ k - n)) 0 := by
    intro k h1 h2 h3 h4
    refine ⟨k, h1, h2, ?_, ?_⟩
    · intro j hj hnj
      rcases h4 with rfl | h4
      · exact hj
      · apply Decidable.byContradiction
        intro hlt
        have : 2 ^ j ≤ 2 ^ (k - 1) := Nat.pow_le_pow_right (by omega) (by omega)
        omega
    · unfold padded
      rw [hd, h3, List.take_of_length_le (by omega)]
  unfold tableColours at key
  by_cases c1 : n ≤ 2
  · exact key 1 (by omega) (by omega) (by rw [if_pos c1]) (.inl rfl)
  by_cases c2 : n ≤ 4
  · exact key 2 (by omega) (by omega) (by rw [if_neg c1, if_pos c2]) (.inr (by omega))
  by_cases c3 : n ≤ 8
  · exact key 3 (by omega) (by omega) (by rw [if_neg c1, if_neg c2, if_pos c3]) (.inr (by omega))
  by_cases c4 : n ≤ 16
  · exact key 4 (by omega) (by omega) (by rw [if_neg c1, if_neg c2, if_neg c3, if_pos c4]) (.inr (by omega))
  by_cases c5 : n ≤ 32
  · exact key 5 (by omega) (by omega) (by rw [if_neg c1, if_neg c2, if_neg c3, if_neg c4, if_pos c5]) (.inr (by omega))
  by_cases c6 : n ≤ 64
  · exact key 6 (by omega) (by omega) (by rw [if_neg c1, if_neg c2, if_neg c3, if_neg c4, if_neg c5, if_pos c6]) (.inr (by omega))
  by_cases c7 : n ≤ 128
  · exact key 7 (by omega) (by omega) (by
      rw [if_neg c1, if_neg c2, if_neg c3, if_neg c4, if_neg c5, if_neg c6, if_pos c7]) (.inr (by omega))
  · exact key 8 (by omega) (by omega) (by
      rw [if_neg c1, if_neg c2, if_neg c3, if_neg c4, if_neg c5, if_neg c6, if_neg c7]) (.inr (by omega))

theorem projection_nth (w h : UInt16) (pal : List UInt8) (rep : Repeat) (fs : List Frame) (k i : Nat) {f : Frame} (hf : fs[i]? = some f) :
    (projection w h pal rep fs k)[i + 1]? = some (.frame (some f) (screen w h pal rep f)) := by
  have hi : i < fs.length := by
    apply Decidable.byContradiction
    intro h
    rw [List.getElem?_eq_none (by omega)] at hf
    cases hf
  unfold projection
  rw [List.cons_append, List.getElem?_cons_succ, List.getElem?_append_left (by simpa using hi), List.getElem?_map, hf]
  rfl

theorem contents_nth (K : C.Contract) {o : DecodeOptions} : ∀ (ops : List EncOp) (pxs : List (List UInt8)) (i : Nat) (op : EncOp),
    Contents K o ops pxs → ops[i]? = some op → ∃ px, pxs[i]? = some px
  | [], _, i, op, _, h => by simp at h
  | _ :: _, [], _, _, hc, _ => hc.elim
  | a :: ops, px :: pxs, 0, op, _, _ => ⟨px, rfl⟩
  | a :: ops, px :: pxs, i + 1, op, hc, h => by
    obtain ⟨p, hp⟩ := contents_nth K ops pxs i op hc.2 (by simpa using h)
    exact ⟨p, by simpa using hp⟩

/-- C42, C07: what the `i`-th accepted frame is read back with. All fields of the control extension are unchanged, whatever
they are. -/
theorem control_fields (K : C.Contract) {o : DecodeOptions} (hs : o.skipFrameDecoding = false) (hce : o.checkForEndCode = false)
    (np : Bool) {w h : UInt16} {pal : List UInt8}
    (hpal : pal.length / 3 ≤ 256) {ops : List EncOp} (hsane : ∀ op ∈ ops, op.Sane) (hpl : ∀ op ∈ ops, Plain o op)
    {file : List UInt8} {rs : List (EOut Unit)} (henc : encodeFile C np w h pal ops = (some file, rs))
    (had : ∀ op ∈ written ops rs, Admissible C o w h op) {pxs : List (List UInt8)}
    (hc : Contents K o (written ops rs) pxs) {junk : List UInt8} {r : Reader}
    (hr : r.Reliable) (hb : r.bytes = file ++ junk) {i : Nat} {f : Frame}
    (hi : (written ops rs)[i]? = some (.frame f) ∨ (written ops rs)[i]? = some (.preEncoded f)) :
    ∃ f' v, (Decoder.sessionFrom C o r (List.replicate (written ops rs).length .read))[i + 1]? = some (.frame (some f') v) ∧
      f'.delay = f.delay ∧ f'.dispose = f.dispose ∧ f'.transparent = f.transparent ∧ f'.needsUserInput = f.needsUserInput ∧
      f'.palette = f.palette.map padded := by
  obtain ⟨op, hop, hcomp⟩ : ∃ op, (written ops rs)[i]? = some op ∧ (compressed C op).delay = f.delay ∧
      (compressed C op).dispose = f.dispose ∧ (compressed C op).transparent = f.transparent ∧
      (compressed C op).needsUserInput = f.needsUserInput ∧ (compressed C op).palette = f.palette := by
    rcases hi with hi | hi
    · exact ⟨_, hi, rfl, rfl, rfl, rfl, rfl⟩
    · exact ⟨_, hi, rfl, rfl, rfl, rfl, rfl⟩
  have hne : written ops rs ≠ [] := by
    intro h; rw [h] at hop; simp at hop
  have := roundtrip_pixels K hs hce np hpal hsane hpl henc had (made_changed (C := C) np hpal hsane henc hne) hc hr hb 0
  rw [Nat.add_zero] at this
  obtain ⟨px, hpx⟩ := contents_nth K _ _ i op hc hop
  refine ⟨readBack o.colorOutput pal (compressed C op) px,
    screen w h pal (repetitions ops rs (.finite 0)) (readBack o.colorOutput pal (compressed C op) px), ?_, hcomp.1, hcomp.2.1, hcomp.2.2.1, hcomp.2.2.2.1, ?_⟩
  · rw [this]
    apply projection_nth
    rw [List.getElem?_zipWith, hop, hpx]
  · show (compressed C op).palette.map padded = _
    rw [hcomp.2.2.2.2]

/-- The same with `skip_frame_decoding`, without conditions on the pixels. -/
theorem control_fields_raw (K : C.Contract) {o : DecodeOptions} (np : Bool) {w h : UInt16} {pal : List UInt8}
    (hpal : pal.length / 3 ≤ 256) {ops : List EncOp} (hsane : ∀ op ∈ ops, op.Sane) (hpl : ∀ op ∈ ops, Plain o op)
    {file : List UInt8} {rs : List (EOut Unit)} (henc : encodeFile C np w h pal ops = (some file, rs))
    (had : ∀ op ∈ written ops rs, Admissible C o w h op) (hld : ∀ op ∈ written ops rs, Held C o op) {junk : List UInt8} {r : Reader}
    (hr : r.Reliable) (hb : r.bytes = file ++ junk) {i : Nat} {f : Frame}
    (hi : (written ops rs)[i]? = some (.frame f) ∨ (written ops rs)[i]? = some (.preEncoded f)) :
    ∃ f' v, (Decoder.rawFilm C o r (written ops rs).length)[i + 1]? = some (.frame (some f') v) ∧
      f'.delay = f.delay ∧ f'.dispose = f.dispose ∧ f'.transparent = f.transparent ∧ f'.needsUserInput = f.needsUserInput ∧
      f'.palette = f.palette.map padded := by
  obtain ⟨op, hop, hcomp⟩ : ∃ op, (written ops rs)[i]? = some op ∧ (compressed C op).delay = f.delay ∧
      (compressed C op).dispose = f.dispose ∧ (compressed C op).transparent = f.transparent ∧
      (compressed C op).needsUserInput = f.needsUserInput ∧ (compressed C op).palette = f.palette := by
    rcases hi with hi | hi
    · exact ⟨_, hi, rfl, rfl, rfl, rfl, rfl⟩
    · exact ⟨_, hi, rfl, rfl, rfl, rfl, rfl⟩
  have hne : written ops rs ≠ [] := by
    intro h; rw [h] at hop; simp at hop
  have := roundtrip_raw K (o := o) np hpal hsane hpl henc had hld (made_changed (C := C) np hpal hsane henc hne) hr hb 0
  rw [Nat.add_zero] at this
  refine ⟨readRaw (compressed C op), screen w h pal (repetitions ops rs (.finite 0)) (readRaw (compressed C op)), ?_, hcomp.1, hcomp.2.1, hcomp.2.2.1, hcomp.2.2.2.1, ?_⟩
  · rw [this]
    apply projection_nth
    rw [List.getElem?_map, hop]
    rfl
  · show (compressed C op).palette.map padded = _
    rw [hcomp.2.2.2.2]

/-- C07, global palette: colours, black, a power of two. -/
theorem global_palette_survives (K : C.Contract) {o : DecodeOptions}
    (np : Bool) {w h : UInt16} {pal : List UInt8} {n : Nat} (hpal : pal.length = 3 * n) (hn : n ≤ 256) {ops : List EncOp}
    (hsane : ∀ op ∈ ops, op.Sane) (hpl : ∀ op ∈ ops, Plain o op) {file : List UInt8} {rs : List (EOut Unit)}
    (henc : encodeFile C np w h pal ops = (some file, rs)) (had : ∀ op ∈ written ops rs, Admissible C o w h op)
    (hne : (encodeFile C np w h pal []).1 ≠ some file) {junk : List UInt8} {r : Reader} (hr : r.Reliable)
    (hb : r.bytes = file ++ junk) :
    (Decoder.readInfo C o r).2 = .ok () ∧ ∃ k, 1 ≤ k ∧ n ≤ 2 ^ k ∧ (∀ j, 1 ≤ j → n ≤ 2 ^ j → k ≤ j) ∧
      (Decoder.readInfo C o r).1.view.globalPalette = some (pal ++ List.replicate (3 * (2 ^ k - n)) 0) := by
  obtain ⟨h1, h2⟩ := roundtrip_open K np (by omega) hsane hpl henc had hne hr hb
  obtain ⟨k, a1, a2, a3, a4⟩ := padded_shape hpal hn
  refine ⟨h1, k, a1, a2, a3, ?_⟩
  rw [h2, ← a4]
  rfl

/-- C07, local palettes. -/
theorem local_palette_survives (K : C.Contract) {o : DecodeOptions} (hs : o.skipFrameDecoding = false)
    (hce : o.checkForEndCode = false) (np : Bool) {w h : UInt16} {pal : List UInt8}
    (hpal : pal.length / 3 ≤ 256) {ops : List EncOp} (hsane : ∀ op ∈ ops, op.Sane) (hpl : ∀ op ∈ ops, Plain o op)
    {file : List UInt8} {rs : List (EOut Unit)} (henc : encodeFile C np w h pal ops = (some file, rs))
    (had : ∀ op ∈ written ops rs, Admissible C o w h op) {pxs : List (List UInt8)}
    (hc : Contents K o (written ops rs) pxs) {junk : List UInt8} {r : Reader}
    (hr : r.Reliable) (hb : r.bytes = file ++ junk) {i n : Nat} {f : Frame} {p : List UInt8}
    (hi : (written ops rs)[i]? = some (.frame f) ∨ (written ops rs)[i]? = some (.preEncoded f))
    (hp : f.palette = some p) (hlen : p.length = 3 * n) (hn : n ≤ 256) :
    ∃ f' v, (Decoder.sessionFrom C o r (List.replicate (written ops rs).length .read))[i + 1]? = some (.frame (some f') v) ∧
      ∃ k, 1 ≤ k ∧ n ≤ 2 ^ k ∧ (∀ j, 1 ≤ j → n ≤ 2 ^ j → k ≤ j) ∧
        f'.palette = some (p ++ List.replicate (3 * (2 ^ k - n)) 0) := by
  obtain ⟨f', v, h1, _, _, _, _, h2⟩ := control_fields K hs hce np hpal hsane hpl henc had hc hr hb hi
  obtain ⟨k, a1, a2, a3, a4⟩ := padded_shape hlen hn
  refine ⟨f', v, h1, k, a1, a2, a3, ?_⟩
  rw [h2, hp, ← a4]
  rfl

/-- C07: more than 256 colours are rejected by `Encoder::new`, by `write_frame` and by `write_lzw_pre_encoded_frame`. -/
theorem palette_rejected (C : Codec) (np : Bool) (s : Sink) (hw : s.Working) (w h : UInt16) (p : List UInt8)
    (hp : 256 < p.length / 3) :
    (Encoder.new np s w h p).2 = .err (.format .tooManyColors) ∧
    ∀ (e : Encoder) (f : Frame), e.w = some s → f.palette = some p →
      (EncOp.Sane (.frame f) → f.width.toNat * f.height.toNat ≤ f.buffer.length →
        (e.writeFrame C f).2 = .err (.format .tooManyColors)) ∧
      ((∀ m data, f.buffer = m :: data → 2 ≤ m ∧ m ≤ 11) →
        (e.writeLzwPreEncodedFrame f).2 = .err (.format .tooManyColors)) := by
  obtain ⟨e, s', h1, _⟩ := C30_negation np s hw w h p hp
  refine ⟨by rw [h1], ?_⟩
  intro e f he hf
  have hpe : paletteError e.globalPalette f = some (.format .tooManyColors) := by
    unfold paletteError
    rw [hf]
    simp only
    rw [if_neg (by omega)]
  constructor
  · intro hsane hlen
    obtain ⟨s1, k1, k2, k3, k4⟩ := (does_op C e (.frame f) (by simp [he]) hsane).working he hw
    have : (e.writeFrame C f).2 = opResult e.globalPalette (.frame f) := k4
    rw [this]
    have hlt : ¬ f.buffer.length < f.width.toNat * f.height.toNat := by omega
    simp only [opResult, if_neg hlt, hpe]
  · intro hm
    obtain ⟨s1, k1, k2, k3, k4⟩ := (does_op C e (.preEncoded f) (by simp [he]) trivial).working he hw
    have : (e.writeLzwPreEncodedFrame f).2 = opResult e.globalPalette (.preEncoded f) := k4
    rw [this]
    have hbad : ¬ badCodeSize f := by
      unfold badCodeSize
      cases hfb : f.buffer with
      | nil => simp
      | cons m data =>
        have := hm m data hfb
        simp only [UInt8.le_iff_toNat_le, UInt8.lt_iff_toNat_lt, GT.gt] at this ⊢
        simp at this ⊢
        omega
    simp only [opResult, if_neg hbad, hpe]

/-! ## C42 -/

/-- The disposal method of the packed field of a control extension. -/
def Spec.disposalBits (packed : UInt8) : DisposalMethod :=
  if packed.toNat / 4 % 8 = 1 then .keep else if packed.toNat / 4 % 8 = 2 then .background
  else if packed.toNat / 4 % 8 = 3 then .previous else .any

/-- C42, reading: whatever the fields of a control extension are, the next image gets them; reserved disposal methods are
`Any`. -/
theorem control_read (hS : C.Safe) {o : DecodeOptions} {g : Spec.File} (hg : g.Readable o)
    (hacc : ∀ x ∈ g.frames, g.verdict o x.2 = none) {junk : List UInt8} {r : Reader} (hr : r.Reliable)
    (hb : r.bytes = g.render ++ junk) {pre post : List Spec.Blk} {exts : List (UInt8 × List (List UInt8))} {c : Control} {i : Spec.Image}
    (hbs : g.blocks = pre ++ .control c :: exts.map (fun x => .ext x.1 x.2) ++ .image i :: post)
    (hpre : pre = [] ∨ ∃ p j, pre = p ++ [.image j]) :
    ∃ f v, (Decoder.rawFilm C o r g.frames.length)[(Spec.images pre).length + 1]? = some (.frame (some f) v) ∧
      f.delay = c.delay ∧ f.dispose = Spec.disposalBits c.packed ∧
      f.needsUserInput = decide (c.packed.toNat / 2 % 2 = 1) ∧
      f.transparent = if c.packed.toNat % 2 = 1 then some c.trns else none := by
  have hm : Spec.images (.control c :: exts.map (fun x => .ext x.1 x.2)) = [] := by
    unfold Spec.images
    rw [List.filterMap_cons]
    simp only
    induction exts with
    | nil => rfl
    | cons x xs ih => simp
  have hl : Spec.lastGraphic (.control c :: exts.map (fun x => .ext x.1 x.2)) = c.graphic := by
    unfold Spec.lastGraphic
    rw [List.filterMap_cons]
    simp only
    rw [List.filterMap_map, List.filterMap_eq_nil_iff.mpr (by intro a _; rfl)]
    rfl
  obtain ⟨v, h⟩ := Decoder.metadata_local_raw_partial hS hg hacc hr hb hbs hpre hm
  refine ⟨_, v, h, ?_, ?_, ?_, ?_⟩
  · simp only [hl]; rfl
  · simp only [hl]
    unfold Control.graphic Spec.disposalBits
    simp only
    split
    · rename_i hd; simp [disposalOf, hd]
    · rename_i hd; simp [disposalOf, hd]
    · rename_i hd; simp [disposalOf, hd]
    · rename_i h1 h2 h3
      rw [if_neg h1, if_neg h2, if_neg h3]
      rfl
  · simp only [hl]; rfl
  · simp only [hl]; rfl

/-! ## C47 -/

/-- C47: a file to which something other than frames was written contains no frames. What is missing: the file without any
block, for which the claim is false (`RoundTripCases.lean`). -/
theorem no_frames_partial (K : C.Contract) {o : DecodeOptions} (hs : o.skipFrameDecoding = false) (hce : o.checkForEndCode = false)
    (np : Bool) {w h : UInt16} {pal : List UInt8} (hpal : pal.length / 3 ≤ 256) {ops : List EncOp} (hsane : ∀ op ∈ ops, op.Sane)
    (hpl : ∀ op ∈ ops, Plain o op) {file : List UInt8} {rs : List (EOut Unit)}
    (henc : encodeFile C np w h pal ops = (some file, rs)) (hno : written ops rs = [])
    (hne : (encodeFile C np w h pal []).1 ≠ some file) {junk : List UInt8} {r : Reader} (hr : r.Reliable)
    (hb : r.bytes = file ++ junk) (k : Nat) :
    Decoder.sessionFrom C o r (List.replicate k .read) =
      .opened (screen w h pal (repetitions ops rs (.finite 0)) Frame.default) ::
        List.replicate k (.frame none (screen w h pal (repetitions ops rs (.finite 0)) Frame.default)) := by
  have := roundtrip_pixels K hs hce np hpal hsane hpl henc (by rw [hno]; intro op h; cases h) hne (pxs := [])
    (by rw [hno]; exact trivial) hr hb k
  rw [hno] at this
  simpa [projection] using this

end Gif
