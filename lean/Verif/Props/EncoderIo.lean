import Verif.Lemmas.EncOps
/-!
# The encoder and its writer: C20, C21, C25, C26, C28, C29, C30
-/

namespace Gif

open Spec

/-- Writer without bytes that accepts everything. -/
def Sink.clean : Sink := { written := [], plan := [] }

/-- The same encoder with a writer that accepts everything. -/
def Encoder.faultless (e : Encoder) : Encoder := { e with w := e.w.map fun s => { s with plan := [] } }

/-- A codec for examples: the "compressed" data is the data. -/
def idCodec : Codec where
  σ := Unit
  new _ := ()
  reset _ := ()
  hasEnded _ := false
  decodeBytes _ inp cap := { st := (), consumed := min inp.length cap, out := inp.take cap, status := .ok }
  encode _ d := d

/-- A frame for examples: 2x1 pixels, own palette. -/
def exFrame : Frame := { Frame.default with width := 2, height := 1, palette := some [1, 2, 3, 4, 5, 6], buffer := [0, 1] }

/-- An encoder for examples. -/
def exEncoder (g : Bool) (plan : List (Option (Nat × Nat))) : Encoder :=
  { w := some { written := [7], plan := plan }, globalPalette := g, width := 2, height := 1, buffer := [] }

/-! ## C20 -/

/-- C20: what `make_lzw_pre_encoded` stores is a code size between 2 and 8 that is large enough for every pixel and as
small as possible, and the compressed pixels. -/
theorem C20_code_size (C : Codec) (f : Frame) :
    ∃ m : UInt8, (f.makeLzwPreEncoded C).buffer = m :: C.encode m f.buffer ∧ 2 ≤ m.toNat ∧ m.toNat ≤ 8 ∧
      (∀ b ∈ f.buffer, b.toNat < 2 ^ m.toNat) ∧
      ((∀ b ∈ f.buffer, b.toNat < 4) → m = 2) ∧
      (∀ k, 2 ≤ k → (∀ b ∈ f.buffer, b.toNat < 2 ^ k) → m.toNat ≤ k) := by
  obtain ⟨h1, h2, h3, h4⟩ := minCodeSizeFor_spec f.buffer
  refine ⟨minCodeSizeFor f.buffer, ?_, h1, h2, h3, ?_, ?_⟩
  · simp only [Frame.makeLzwPreEncoded]; exact Encoder.lzwEncode_nil C _
  · intro h
    have := h4 2 (Nat.le_refl 2) h
    exact UInt8.toNat_inj.1 (Nat.le_antisymm this h1)
  · exact h4

example : ((exFrame.makeLzwPreEncoded idCodec).buffer) = [2, 0, 1] := by decide

/-- C20, C25: what `write_frame` writes for an accepted frame is a graphic control extension and an image whose code
size is the one of C20, and whose sub-blocks are legal and hold the compressed pixels. -/
theorem C20_C25_write_frame (C : Codec) (e : Encoder) (s : Sink) (f : Frame) (hs : e.w = some s) (hw : s.Working)
    (hd : (f.width > 0 ∧ f.height > 0) ∨ f.buffer = []) (hok : (e.writeFrame C f).2 = .ok ()) :
    ∃ (s' : Sink) (c : Control) (i : Image) (m : UInt8), (e.writeFrame C f).1.w = some s' ∧
      s'.written = s.written ++ c.render ++ i.renderHead ++ renderSubs i.subs ∧
      i.minCode = m ∧ (f.makeLzwPreEncoded C).buffer = m :: C.encode m f.buffer ∧
      SubsOk i.subs ∧ i.subs.flatten = C.encode m f.buffer := by
  have hdo := does_op C e (.frame f) (by simp [hs]) hd
  obtain ⟨s', h1, h2, _, h4⟩ := hdo.working hs hw
  have h4' : (e.writeFrame C f).2 = opResult e.globalPalette (.frame f) := h4
  rw [h4'] at hok
  unfold opResult at hok
  by_cases hb : f.buffer.length < f.width.toNat * f.height.toNat
  · simp [if_pos hb] at hok
  · simp only [if_neg hb] at hok
    cases hp : Encoder.paletteError e.globalPalette f with
    | some err => simp [hp] at hok
    | none =>
      refine ⟨s', ctrlOf f, imageOf f (lzwEncode C f.buffer []), minCodeSizeFor f.buffer, h1, ?_, ?_, ?_, ?_, ?_⟩
      · rw [h2, opChunks_flatten]
        simp [opBlks, if_neg hb, hp, renderBlks, blksOf, Blk.render, Image.render]
      · simp [imageOf, Encoder.lzwEncode_nil]
      · simp only [Frame.makeLzwPreEncoded]; exact Encoder.lzwEncode_nil C _
      · exact subsOf_ok _
      · simp [imageOf, Encoder.lzwEncode_nil, subsOf_flatten]

example : ((exEncoder true []).writeFrame idCodec exFrame).2 = .ok () := by decide

/-! ## C25 -/

/-- C25 for pre-encoded frames: the data after the code size is cut into legal sub-blocks. -/
theorem C25_pre_encoded (e : Encoder) (s : Sink) (f : Frame) (hs : e.w = some s) (hw : s.Working)
    (hok : (e.writeLzwPreEncodedFrame f).2 = .ok ()) :
    ∃ (s' : Sink) (c : Control) (i : Image), (e.writeLzwPreEncodedFrame f).1.w = some s' ∧
      s'.written = s.written ++ c.render ++ i.renderHead ++ renderSubs i.subs ∧
      i.minCode = f.buffer.headD 2 ∧ SubsOk i.subs ∧ i.subs.flatten = f.buffer.tail := by
  have hdo := does_op idCodec e (.preEncoded f) (by simp [hs]) trivial
  obtain ⟨s', h1, h2, _, h4⟩ := hdo.working hs hw
  have h4' : (e.writeLzwPreEncodedFrame f).2 = opResult e.globalPalette (.preEncoded f) := h4
  rw [h4'] at hok
  unfold opResult at hok
  by_cases hb : Encoder.badCodeSize f
  · simp [if_pos hb] at hok
  · simp only [if_neg hb] at hok
    cases hp : Encoder.paletteError e.globalPalette f with
    | some err => simp [hp] at hok
    | none =>
      refine ⟨s', ctrlOf f, imageOf f f.buffer, h1, ?_, rfl, subsOf_ok _, subsOf_flatten _⟩
      rw [h2, opChunks_flatten]
      simp [opBlks, if_neg hb, hp, renderBlks, blksOf, Blk.render, Image.render]

set_option maxRecDepth 100000 in
example : ((exEncoder true []).writeLzwPreEncodedFrame { exFrame with buffer := 2 :: List.replicate 300 9 }).2 = .ok () := by
  decide

/-- C25 for raw extensions: introducer, label, legal sub-blocks with the given data, terminator. -/
theorem C25_raw_extension (e : Encoder) (s : Sink) (label : UInt8) (data : List (List UInt8)) (hs : e.w = some s)
    (hw : s.Working) :
    ∃ (s' : Sink) (subs : List (List UInt8)), e.writeRawExtension label data = ({ e with w := some s' }, .ok ()) ∧
      s'.written = s.written ++ [0x21, label] ++ renderSubs subs ∧ SubsOk subs ∧ subs.flatten = data.flatten := by
  have hdo := does_op idCodec e (.rawExtension label data) (by simp [hs]) trivial
  obtain ⟨s', h1, h2, _, h4⟩ := hdo.working hs hw
  refine ⟨s', data.flatMap subsOf, ?_, ?_, ?_, ?_⟩
  · have h1' : (e.writeRawExtension label data).1.w = some s' := h1
    have h4' : (e.writeRawExtension label data).2 = .ok () := h4
    rw [← h4', ← h1']
    unfold Encoder.writeRawExtension Encoder.withWriter
    rw [hs]
  · rw [h2, opChunks_flatten]; simp [opBlks, renderBlks, Blk.render]
  · intro b hb
    obtain ⟨d, _, hd⟩ := List.mem_flatMap.1 hb
    exact subsOf_ok d b hd
  · clear h1 h2 h4 hdo
    induction data with
    | nil => rfl
    | cons d ds ih => simp [List.flatMap_cons, subsOf_flatten, ih]

example : Sink.clean.Working := by intro p hp; simp [Sink.clean] at hp

/-! ## C21 -/

/-- C21: writing the pre-encoded frame has, on every writer (also one that fails), the same effect on the writer and
the same result as `write_frame`, as long as the frame has enough pixels. -/
theorem C21_pre_encoding (C : Codec) (e : Encoder) (f : Frame) (hw : e.w ≠ none)
    (hb : f.width.toNat * f.height.toNat ≤ f.buffer.length) (hd : (f.width > 0 ∧ f.height > 0) ∨ f.buffer = []) :
    (e.writeLzwPreEncodedFrame (f.makeLzwPreEncoded C)).1.w = (e.writeFrame C f).1.w ∧
    (e.writeLzwPreEncodedFrame (f.makeLzwPreEncoded C)).2 = (e.writeFrame C f).2 := by
  obtain ⟨s, hs⟩ := Option.ne_none_iff_exists'.1 hw
  have h1 := (does_op C e (.frame f) hw hd).run s hs
  have h2 := (does_op C e (.preEncoded (f.makeLzwPreEncoded C)) hw trivial).run s hs
  have hgood : ¬ Encoder.badCodeSize (f.makeLzwPreEncoded C) := by
    obtain ⟨m, hm, h2, h8, _⟩ := C20_code_size C f
    unfold Encoder.badCodeSize
    rw [hm]
    simp only [not_or, UInt8.lt_iff_toNat_lt, gt_iff_lt]
    simp; omega
  have hpe : Encoder.paletteError e.globalPalette (f.makeLzwPreEncoded C) = Encoder.paletteError e.globalPalette f := rfl
  have hc : opChunks C e.globalPalette (.preEncoded (f.makeLzwPreEncoded C)) = opChunks C e.globalPalette (.frame f) := by
    simp only [opChunks, if_neg hgood, if_neg (Nat.not_lt.2 hb), hpe]
    rfl
  have hr : opResult e.globalPalette (.preEncoded (f.makeLzwPreEncoded C)) = opResult e.globalPalette (.frame f) := by
    simp only [opResult, if_neg hgood, if_neg (Nat.not_lt.2 hb), hpe]
  rw [hc, hr] at h2
  exact ⟨h2.1.trans h1.1.symm, h2.2.trans h1.2.symm⟩

/-- A frame call replaced by pre-encoding and writing the result. -/
def EncOp.preEncode (C : Codec) : EncOp → EncOp
  | .frame f => .preEncoded (f.makeLzwPreEncoded C)
  | op => op

/-- A frame with enough pixels. -/
def EncOp.Enough : EncOp → Prop
  | .frame f => f.width.toNat * f.height.toNat ≤ f.buffer.length
  | _ => True

/-- Two encoders that differ at most in their scratch buffer. -/
def Encoder.Same (a b : Encoder) : Prop :=
  a.w = b.w ∧ a.globalPalette = b.globalPalette ∧ a.width = b.width ∧ a.height = b.height

theorem C21_op (C : Codec) (a b : Encoder) (op : EncOp) (hab : a.Same b) (hw : a.w ≠ none) (hs : op.Sane) (he : op.Enough) :
    ((op.preEncode C).run C a).1.Same (op.run C b).1 ∧ ((op.preEncode C).run C a).2 = (op.run C b).2 ∧
      ((op.preEncode C).run C a).1.w ≠ none := by
  obtain ⟨h1, h2, h3, h4⟩ := hab
  obtain ⟨s, hsk⟩ := Option.ne_none_iff_exists'.1 hw
  have hsb : b.w = some s := h1 ▸ hsk
  have hps : (op.preEncode C).Sane := by cases op <;> trivial
  have da := does_op C a (op.preEncode C) hw hps
  have db := does_op C b op (h1 ▸ hw) hs
  -- the same call on `a`
  have da' := does_op C a op hw hs
  have hsame : ((op.preEncode C).run C a).1.w = (op.run C a).1.w ∧ ((op.preEncode C).run C a).2 = (op.run C a).2 := by
    cases op with
    | frame f => exact C21_pre_encoding C a f hw he hs
    | _ => exact ⟨rfl, rfl⟩
  have ra := da'.run s hsk
  have rb := db.run s hsb
  rw [h2] at ra
  refine ⟨⟨?_, ?_, ?_, ?_⟩, ?_, ?_⟩
  · rw [hsame.1, ra.1, rb.1]
  · rw [da.palette, db.palette, h2]
  · rw [da.width, db.width, h3]
  · rw [da.height, db.height, h4]
  · rw [hsame.2, ra.2, rb.2]
  · rw [hsame.1, ra.1]; simp

/-- C21 for whole sessions: pre-encoding all frames of a session changes neither the output nor any result. -/
theorem C21_session (C : Codec) (ops : List EncOp) (a b : Encoder) (hab : a.Same b) (hw : a.w ≠ none)
    (hs : ∀ op ∈ ops, op.Sane) (he : ∀ op ∈ ops, op.Enough) :
    (runOps C a (ops.map (EncOp.preEncode C))).1.Same (runOps C b ops).1 ∧
    (runOps C a (ops.map (EncOp.preEncode C))).2 = (runOps C b ops).2 := by
  induction ops generalizing a b with
  | nil => exact ⟨hab, rfl⟩
  | cons op ops ih =>
    obtain ⟨h1, h2, h3⟩ := C21_op C a b op hab hw (hs op (by simp)) (he op (by simp))
    obtain ⟨k1, k2⟩ := ih _ _ h1 h3 (fun o ho => hs o (by simp [ho])) (fun o ho => he o (by simp [ho]))
    exact ⟨k1, by simp only [List.map_cons, runOps]; rw [h2, k2]⟩

example : exFrame.width.toNat * exFrame.height.toNat ≤ exFrame.buffer.length ∧ exFrame.width > 0 ∧ exFrame.height > 0 := by
  decide

/-! ## C26 -/

/-- The full claim of C26 does not hold: a frame without palette, on an encoder without global palette, is rejected
after its graphic control extension has been written. -/
theorem C26_negation : ∃ (e : Encoder) (f : Frame) (s s' : Sink),
    e.w = some s ∧ s.Working ∧ e.writeFrame idCodec f =
      ({ e with w := some s' }, .err (.format .missingColorPalette)) ∧ s'.written = s.written ++ [0x21, 0xF9, 4, 4, 0, 0, 0, 0] := by
  refine ⟨exEncoder false [], { exFrame with palette := none }, { written := [7], plan := [] },
    { written := [7, 0x21, 0xF9, 4, 4, 0, 0, 0, 0], plan := [] }, rfl, by intro p hp; simp at hp, by decide, rfl⟩

/-- C26, proved part: a frame rejected for its buffer size or code size leaves no bytes; a frame rejected for its palette
leaves exactly its graphic control extension (8 bytes) and nothing of the image. These are all the rejections.
Missing from C26: the palette rejections leave those 8 bytes. -/
theorem C26_rejected_partial (C : Codec) (e : Encoder) (s : Sink) (f : Frame) (pre : Bool) (err : EncodingError)
    (hs : e.w = some s) (hw : s.Working) (hd : pre = true ∨ (f.width > 0 ∧ f.height > 0) ∨ f.buffer = [])
    (hr : (if pre then e.writeLzwPreEncodedFrame f else e.writeFrame C f).2 = .err err) :
    ∃ s', (if pre then e.writeLzwPreEncodedFrame f else e.writeFrame C f).1.w = some s' ∧
      ((err = .io .invalidInput ∨ err = .format .invalidMinCodeSize) ∧ s'.written = s.written ∨
       (err = .format .missingColorPalette ∨ err = .format .tooManyColors) ∧
         ∃ c : Control, s'.written = s.written ++ c.render) := by
  have herr : ∀ e', Encoder.paletteError e.globalPalette f = some e' →
      e' = .format .missingColorPalette ∨ e' = .format .tooManyColors := by
    intro e' he
    unfold Encoder.paletteError at he
    cases hp : f.palette with
    | some p => rw [hp] at he; simp only at he; split at he <;> simp at he; exact .inr he.symm
    | none => rw [hp] at he; simp only at he; split at he <;> simp at he; exact .inl he.symm
  have hne : e.w ≠ none := by simp [hs]
  have hkey : ∃ op : EncOp, op.Sane ∧ (if pre then e.writeLzwPreEncodedFrame f else e.writeFrame C f) = op.run C e ∧
      (op = .frame f ∨ op = .preEncoded f) := by
    cases pre with
    | true => exact ⟨.preEncoded f, trivial, rfl, .inr rfl⟩
    | false => exact ⟨.frame f, by simpa [EncOp.Sane] using hd, rfl, .inl rfl⟩
  obtain ⟨op, hsane, hrun, hop⟩ := hkey
  rw [hrun] at hr ⊢
  obtain ⟨s', h1, h2, _, h4⟩ := (does_op C e op hne hsane).working hs hw
  refine ⟨s', h1, ?_⟩
  rw [h4] at hr
  rw [h2, opChunks_flatten]
  rcases hop with rfl | rfl
  · unfold opResult at hr
    unfold opBlks
    by_cases hb : f.buffer.length < f.width.toNat * f.height.toNat
    · simp only [if_pos hb, EOut.err.injEq] at hr ⊢
      exact .inl ⟨.inl hr.symm, by simp [renderBlks]⟩
    · simp only [if_neg hb] at hr ⊢
      cases hp : Encoder.paletteError e.globalPalette f with
      | none => simp [hp] at hr
      | some e' =>
        simp only [hp, EOut.err.injEq] at hr
        exact .inr ⟨hr ▸ herr e' hp, ctrlOf f, by simp [renderBlks, Blk.render]⟩
  · unfold opResult at hr
    unfold opBlks
    by_cases hb : Encoder.badCodeSize f
    · simp only [if_pos hb, EOut.err.injEq] at hr ⊢
      exact .inl ⟨.inr hr.symm, by simp [renderBlks]⟩
    · simp only [if_neg hb] at hr ⊢
      cases hp : Encoder.paletteError e.globalPalette f with
      | none => simp [hp] at hr
      | some e' =>
        simp only [hp, EOut.err.injEq] at hr
        exact .inr ⟨hr ▸ herr e' hp, ctrlOf f, by simp [renderBlks, Blk.render]⟩

example : ((exEncoder true []).writeLzwPreEncodedFrame { exFrame with buffer := [12] }).2 =
    .err (.format .invalidMinCodeSize) := by decide
example : ((exEncoder true []).writeFrame idCodec { exFrame with height := 2 }).2 = .err (.io .invalidInput) := by decide

/-! ## C28 -/

/-- C28 for one call: either the call does what it does with a faultless writer, or it returns the writer's own error
and the writer has received a proper prefix. -/
theorem C28_call (C : Codec) (e : Encoder) (s : Sink) (op : EncOp) (hs : e.w = some s) :
    ∃ s' s₀, (op.run C e).1.w = some s' ∧ (op.run C e.faultless).1.w = some s₀ ∧
      (s'.written = s₀.written ∧ (op.run C e).2 = (op.run C e.faultless).2 ∨
       s'.written <+: s₀.written ∧ s'.written ≠ s₀.written ∧ ¬ s.Working ∧
         ∃ code, (op.run C e).2 = .err (.io (.writer code))) := by
  have hs0 : e.faultless.w = some { s with plan := [] } := by simp [Encoder.faultless, hs]
  by_cases hsane : op.Sane
  · have h0 : Sink.Working { s with plan := [] } := by intro p hp; simp at hp
    have d := does_op C e op (by simp [hs]) hsane
    obtain ⟨s₀, k1, k2, _, k4⟩ := (does_op C e.faultless op (by simp [hs0]) hsane).working hs0 h0
    have hg : e.faultless.globalPalette = e.globalPalette := rfl
    rw [hg] at k2 k4
    rcases d.cases hs with ⟨s', _, h2, h3, h4⟩ | ⟨s', code, pre, _, h2, h3, h4, h5, h6, h7⟩
    · exact ⟨s', s₀, h2, k1, .inl ⟨by rw [h3, k2], by rw [h4, k4]⟩⟩
    · refine ⟨s', s₀, h2, k1, .inr ⟨?_, ?_, h6, code, h7⟩⟩
      · rw [h3, k2]
        obtain ⟨t, ht⟩ := h4
        exact ⟨t, by simp [← ht]⟩
      · rw [h3, k2]
        intro h; exact h5 (List.append_cancel_left h)
  · cases op with
    | frame f =>
      have hb : ¬ f.buffer.length < f.width.toNat * f.height.toNat := by
        intro h
        have h1 : f.width.toNat ≠ 0 := by intro h0; simp [h0] at h
        have h2 : f.height.toNat ≠ 0 := by intro h0; simp [h0] at h
        apply hsane
        left
        simp only [gt_iff_lt, UInt16.lt_iff_toNat_lt]
        simp; omega
      have hd : ¬ ((f.width > 0 ∧ f.height > 0) ∨ f.buffer.isEmpty) := by
        intro h; apply hsane; simpa [EncOp.Sane] using h
      have h1 : ∀ e : Encoder, EncOp.run C e (.frame f) = (e, .panic) := by
        intro e
        simp only [EncOp.run, Encoder.writeFrame]
        rw [if_neg hb, if_pos hd]
      rw [h1, h1]
      exact ⟨_, _, hs, hs0, .inl ⟨rfl, rfl⟩⟩
    | setRepeat r => exact absurd trivial hsane
    | extension x => exact absurd trivial hsane
    | rawExtension l d => exact absurd trivial hsane
    | preEncoded f => exact absurd trivial hsane

/-- The calls up to (and including) the first one that returns an error of the writer. -/
def runUntilIo (C : Codec) : Encoder → List EncOp → Encoder × List (EOut Unit)
  | e, [] => (e, [])
  | e, op :: ops =>
    match op.run C e with
    | (e, .err (.io (.writer code))) => (e, [.err (.io (.writer code))])
    | (e, r) =>
      let (e, rs) := runUntilIo C e ops
      (e, r :: rs)

/-- C28 for a session that stops at the first error of the writer: what the writer has received is a prefix of what a
faultless writer receives in the whole session, and all results before the error are those of the faultless session. -/
theorem C28_session (C : Codec) (ops : List EncOp) (e : Encoder) (s : Sink) (hs : e.w = some s) (hsane : ∀ op ∈ ops, op.Sane) :
    ∃ s' s₀, (runUntilIo C e ops).1.w = some s' ∧ (runOps C e.faultless ops).1.w = some s₀ ∧
      s'.written <+: s₀.written ∧
      ((runUntilIo C e ops).2 = (runOps C e.faultless ops).2 ∨
        ∃ rs code, (runUntilIo C e ops).2 = rs ++ [.err (.io (.writer code))] ∧ rs <+: (runOps C e.faultless ops).2) := by
  induction ops generalizing e s with
  | nil => exact ⟨s, { s with plan := [] }, hs, by simp [runOps, Encoder.faultless, hs], List.prefix_refl _, .inl rfl⟩
  | cons op ops ih =>
    have hs0 : e.faultless.w = some { s with plan := [] } := by simp [Encoder.faultless, hs]
    have hw0 : Sink.Working { s with plan := [] } := by intro p hp; simp at hp
    have d := does_op C e op (by simp [hs]) (hsane op (by simp))
    have d0 := does_op C e.faultless op (by simp [hs0]) (hsane op (by simp))
    obtain ⟨s₀, k1, k2, k3, k4⟩ := d0.working hs0 hw0
    have hg : e.faultless.globalPalette = e.globalPalette := rfl
    rw [hg] at k2 k4
    rcases d.cases hs with ⟨s', _, h2, h3, h4⟩ | ⟨s', code, pre, _, h2, h3, h4, h5, h6, h7⟩
    · -- this call succeeds as without faults
      have hnio : ∀ code, opResult e.globalPalette op ≠ .err (.io (.writer code)) := by
        intro code h
        have herr : ∀ f e', Encoder.paletteError e.globalPalette f = some e' → ∃ x, e' = .format x := by
          intro f e' he
          unfold Encoder.paletteError at he
          cases hp : f.palette with
          | some p => rw [hp] at he; simp only at he; split at he <;> simp at he; exact ⟨_, he.symm⟩
          | none => rw [hp] at he; simp only at he; split at he <;> simp at he; exact ⟨_, he.symm⟩
        cases op with
        | frame f =>
          simp only [opResult] at h
          split at h
          · simp at h
          · cases hp : Encoder.paletteError e.globalPalette f with
            | none => simp [hp] at h
            | some e' => obtain ⟨x, rfl⟩ := herr f e' hp; simp [hp] at h
        | preEncoded f =>
          simp only [opResult] at h
          split at h
          · simp at h
          · cases hp : Encoder.paletteError e.globalPalette f with
            | none => simp [hp] at h
            | some e' => obtain ⟨x, rfl⟩ := herr f e' hp; simp [hp] at h
        | _ => simp [opResult] at h
      obtain ⟨t, t₀, i1, i2, i3, i4⟩ := ih (op.run C e).1 s' h2 (fun o ho => hsane o (by simp [ho]))
      have hstep : runUntilIo C e (op :: ops) =
          ((runUntilIo C (op.run C e).1 ops).1, (op.run C e).2 :: (runUntilIo C (op.run C e).1 ops).2) := by
        rw [runUntilIo]
        rcases hr : op.run C e with ⟨e', r⟩
        have hr2 : r = opResult e.globalPalette op := by rw [← h4, hr]
        cases r with
        | ok a => rfl
        | panic => rfl
        | err x =>
          cases x with
          | format y => rfl
          | io y =>
            cases y with
            | writer code => exact absurd hr2.symm (hnio code)
            | _ => rfl
      -- the faultless session continues from an encoder that is the faultless version of this one
      have hsame : ∀ (a b : Encoder), a.Same b → a.w ≠ none →
          (runOps C a ops).1.w = (runOps C b ops).1.w ∧ (runOps C a ops).2 = (runOps C b ops).2 := by
        have : ∀ ops : List EncOp, (∀ o ∈ ops, o.Sane) → ∀ (a b : Encoder), a.Same b → a.w ≠ none →
            (runOps C a ops).1.w = (runOps C b ops).1.w ∧ (runOps C a ops).2 = (runOps C b ops).2 := by
          intro ops
          induction ops with
          | nil => intro _ a b hab _; exact ⟨hab.1, rfl⟩
          | cons o ops ih2 =>
            intro hss a b hab hne
            obtain ⟨sa, hsa⟩ := Option.ne_none_iff_exists'.1 hne
            have hsb : b.w = some sa := hab.1 ▸ hsa
            have da := does_op C a o hne (hss o (by simp))
            have db := does_op C b o (hab.1 ▸ hne) (hss o (by simp))
            have ra := da.run sa hsa
            have rb := db.run sa hsb
            rw [hab.2.1] at ra
            have hab' : (o.run C a).1.Same (o.run C b).1 :=
              ⟨by rw [ra.1, rb.1], by rw [da.palette, db.palette, hab.2.1], by rw [da.width, db.width, hab.2.2.1],
                by rw [da.height, db.height, hab.2.2.2]⟩
            obtain ⟨x1, x2⟩ := ih2 (fun o ho => hss o (by simp [ho])) _ _ hab' (by rw [ra.1]; simp)
            refine ⟨x1, ?_⟩
            simp only [runOps]
            rw [ra.2, rb.2, x2]
        exact this ops (fun o ho => hsane o (by simp [ho]))
      have hst : (op.run C e).1.faultless.Same { (op.run C e.faultless).1 with w := some { s₀ with plan := [] } } := by
        refine ⟨?_, ?_, ?_, ?_⟩
        · simp [Encoder.faultless, h2, h3, k2]
        · exact d.palette.trans d0.palette.symm
        · exact d.width.trans d0.width.symm
        · exact d.height.trans d0.height.symm
      have hpl : s₀.plan = [] := by
        have : ∀ (c : List (List UInt8)) (x : Sink), x.plan = [] → (runChunks c x).1.plan = [] := by
          intro c
          induction c with
          | nil => intro x hx; exact hx
          | cons b c ihc =>
            intro x hx
            have : W.writeAll b x = ((W.writeAll b x).1, .ok ()) ∧ (W.writeAll b x).1.plan = [] := by
              unfold W.writeAll
              rw [hx]
              split <;> simp_all
            rw [runChunks, W.bind, this.1]
            exact ihc _ this.2
        have hx := d0.run _ hs0
        rw [k1] at hx
        have hx1 := hx.1
        simp only [Option.some.injEq] at hx1
        rcases hrc : runChunks (opChunks C e.faultless.globalPalette op) { s with plan := [] } with ⟨sx, rx⟩
        have hpx := this (opChunks C e.faultless.globalPalette op) { s with plan := [] } rfl
        rw [hrc] at hpx
        rw [hx1]
        unfold W.bind
        rw [hrc]
        cases rx <;> exact hpx
      have hself : ({ (op.run C e.faultless).1 with w := some { s₀ with plan := [] } } : Encoder) = (op.run C e.faultless).1 := by
        have hs0eq : ({ s₀ with plan := [] } : Sink) = s₀ := by rcases s₀ with ⟨a, b⟩; simp at hpl; simp [hpl]
        rw [hs0eq]
        rcases hx : (op.run C e.faultless).1 with ⟨a, b, c, d, f⟩
        rw [hx] at k1
        simp at k1
        simp [k1]
      rw [hself] at hst
      obtain ⟨y1, y2⟩ := hsame _ _ hst (by simp [Encoder.faultless, h2])
      rw [y1] at i2
      rw [y2] at i4
      refine ⟨t, t₀, by rw [hstep]; exact i1, i2, i3, ?_⟩
      rw [hstep]
      simp only [runOps, h4, k4]
      rcases i4 with i4 | ⟨rs, code, j1, j2⟩
      · exact .inl (by rw [i4])
      · exact .inr ⟨opResult e.globalPalette op :: rs, code, by simp [j1], by simpa using j2⟩
    · -- the writer fails in this call
      obtain ⟨t₀, l1, l2, l3, l4⟩ := runOps_working C ops (op.run C e.faultless).1 s₀ k1 k3
        (fun o ho => hsane o (by simp [ho]))
      have hstep : runUntilIo C e (op :: ops) = ((op.run C e).1, [.err (.io (.writer code))]) := by
        rw [runUntilIo]
        rcases hr : op.run C e with ⟨e', r⟩
        have hr2 : r = .err (.io (.writer code)) := by rw [← h7, hr]
        subst hr2
        rfl
      refine ⟨s', t₀, by rw [hstep]; exact h2, l1, ?_, .inr ⟨[], code, by rw [hstep]; rfl, List.nil_prefix⟩⟩
      rw [h3, l3, k2]
      obtain ⟨u, hu⟩ := h4
      exact ⟨u ++ renderBlks (ops.flatMap (opBlks C (op.run C e.faultless).1.globalPalette)), by simp [← hu]⟩

example : (runUntilIo idCodec (exEncoder true [none, none, none, some (3, 5)]) [.frame exFrame, .frame exFrame]).2 =
    [.err (.io (.writer 5))] := by decide
example : (runUntilIo idCodec (exEncoder true [none, none, none, some (3, 5)]) [.frame exFrame, .frame exFrame]).1.w =
    some { written := [7, 0x21, 0xF9, 4, 4, 0, 0, 0, 0, 0x2C, 0, 0], plan := [] } := by decide

/-- C28 for `into_inner`: if the writer refuses the trailer, its error is returned and nothing but possibly the trailer
(written by the destructor's second attempt) was added. -/
theorem C28_into_inner (np : Bool) (e : Encoder) (s : Sink) (code : Nat) (hs : e.w = some s)
    (hr : (e.intoInner np).2 = .err (.io (.writer code))) :
    ∃ s', (e.intoInner np).1.w = some s' ∧ s'.written <+: s.written ++ [0x3B] := by
  have d := Encoder.does_writeTrailer e
  rcases d.cases hs with ⟨s₁, _, h2, h3, h4⟩ | ⟨s₁, code', pre, _, h2, h3, h4, h5, h6, h7⟩
  · rcases hx : e.writeTrailer with ⟨e₁, r⟩
    rw [hx] at h2 h4
    simp only at h2 h4
    subst h4
    simp [Encoder.intoInner, hx, h2, Encoder.drop] at hr
  · have hpre : pre = [] := by
      obtain ⟨t, ht⟩ := h4
      cases pre with
      | nil => rfl
      | cons a as =>
        exfalso; apply h5
        simp at ht ⊢
        exact ⟨ht.1, ht.2.1⟩
    subst hpre
    rcases hx : e.writeTrailer with ⟨e₁, r⟩
    rw [hx] at h2 h7
    simp only at h2 h7
    subst h7
    simp only [List.append_nil] at h3
    have d2 := Encoder.does_writeTrailer e₁
    have hdrop : ∃ s₂, (e₁.drop np).1.w = some s₂ ∧ s₂.written <+: s.written ++ [0x3B] := by
      unfold Encoder.drop
      rw [h2]
      simp only
      rcases d2.cases h2 with ⟨s₂, _, g2, g3, g4⟩ | ⟨s₂, code', pre, _, g2, g3, g4, _⟩
      · rcases hy : e₁.writeTrailer with ⟨e₂, r⟩
        rw [hy] at g2 g4
        simp only at g2 g4
        subst g4
        exact ⟨s₂, g2, by rw [g3, h3]; exact List.prefix_refl _⟩
      · rcases hy : e₁.writeTrailer with ⟨e₂, r⟩
        rw [hy] at g2
        refine ⟨s₂, by cases r <;> exact g2, ?_⟩
        rw [g3, h3]
        obtain ⟨t, ht⟩ := g4
        exact ⟨t, by simp [ht]⟩
    obtain ⟨s₂, q1, q2⟩ := hdrop
    refine ⟨s₂, ?_, q2⟩
    simp only [Encoder.intoInner, hx]
    rcases hz : e₁.drop np with ⟨e₂, r⟩
    rw [hz] at q1
    cases r <;> exact q1

example : ((exEncoder true [some (0, 9)]).intoInner true).2 = .err (.io (.writer 9)) := by decide

/-- For `Encoder::new` the claim of C28 does not hold literally: when the writer fails while the header is written and
then recovers, the destructor appends a trailer to the partial header. -/
theorem C28_new_negation : ∃ (s s' : Sink) (e : Encoder),
    Encoder.new true s 1 1 [0, 0, 0] = (e, .err (.io (.writer 5))) ∧ e.w = some s' ∧
      ¬ s'.written <+: ((Encoder.new true Sink.clean 1 1 [0, 0, 0]).1.w.getD Sink.clean).written := by
  refine ⟨{ written := [], plan := [some (3, 5)] }, { written := [0x47, 0x49, 0x46, 0x3B], plan := [] },
    { w := some { written := [0x47, 0x49, 0x46, 0x3B], plan := [] }, globalPalette := true, width := 1, height := 1,
      buffer := [] }, by decide, rfl, by decide⟩

/-- C28 for `Encoder::new`, proved part: the error returned is the writer's, and what was written is a proper prefix of
the header, followed by nothing or by one trailer byte from the destructor.
Missing from C28: that last byte. -/
theorem C28_new_partial (s : Sink) (width height : UInt16) (palette : List UInt8) (hp : palette.length / 3 ≤ 256)
    (e : Encoder) (r : EOut Unit) (hn : Encoder.new true s width height palette = (e, r)) :
    ∃ s' s₀ e₀, e.w = some s' ∧ Encoder.new true { s with plan := [] } width height palette = (e₀, .ok ()) ∧
      e₀.w = some s₀ ∧
      (r = .ok () ∧ s'.written = s₀.written ∨
        ∃ code pre, r = .err (.io (.writer code)) ∧ pre <+: s₀.written ∧ pre ≠ s₀.written ∧
          (s'.written = pre ∨ s'.written = pre ++ [0x3B])) := by
  have d := Encoder.does_writeGlobalPalette s width height palette hp
  have d0 := Encoder.does_writeGlobalPalette { s with plan := [] } width height palette hp
  have hw0 : Sink.Working { s with plan := [] } := by intro p hp; simp at hp
  obtain ⟨s₀, k1, k2, k3, k4⟩ := d0.working rfl hw0
  have hnew : ∀ s, Encoder.new true s width height palette =
      match (Encoder.fresh s width height false).writeGlobalPalette palette with
      | (e, .ok ()) => (e, .ok ())
      | (e, .err err) =>
        match e.drop true with
        | (e, .panic) => (e, .panic)
        | (e, _) => (e, .err err)
      | (e, .panic) => (e, .panic) := fun _ => rfl
  have hnew0 : Encoder.new true { s with plan := [] } width height palette =
      (((Encoder.fresh { s with plan := [] } width height false).writeGlobalPalette palette).1, .ok ()) := by
    rw [hnew]
    rcases hx : (Encoder.fresh { s with plan := [] } width height false).writeGlobalPalette palette with ⟨e₀, r₀⟩
    rw [hx] at k4
    simp only at k4
    subst k4
    rfl
  rw [hnew] at hn
  rcases d.cases rfl with ⟨s', _, h2, h3, h4⟩ | ⟨s', code, pre, _, h2, h3, h4, h5, h6, h7⟩
  · rcases hx : (Encoder.fresh s width height false).writeGlobalPalette palette with ⟨e₁, r₁⟩
    rw [hx] at h2 h4 hn
    simp only at h2 h4
    subst h4
    simp only [Prod.mk.injEq] at hn
    refine ⟨s', s₀, _, hn.1 ▸ h2, hnew0, k1, .inl ⟨hn.2.symm, ?_⟩⟩
    rw [h3, k2]
  · rcases hx : (Encoder.fresh s width height false).writeGlobalPalette palette with ⟨e₁, r₁⟩
    rw [hx] at h2 h7 hn
    simp only at h2 h7
    subst h7
    have d2 := Encoder.does_writeTrailer e₁
    have hpre : s.written ++ pre <+: s₀.written ∧ s.written ++ pre ≠ s₀.written := by
      rw [k2]
      obtain ⟨t, ht⟩ := h4
      refine ⟨⟨t, by simp [← ht]⟩, fun h => h5 (List.append_cancel_left h)⟩
    have hdrop : ∃ e₂ s₂, e₁.drop true = (e₂, .ok ()) ∧ e₂.w = some s₂ ∧
        (s₂.written = s.written ++ pre ∨ s₂.written = s.written ++ pre ++ [0x3B]) := by
      unfold Encoder.drop
      rw [h2]
      simp only
      rcases d2.cases h2 with ⟨s₂, _, g2, g3, g4⟩ | ⟨s₂, code', pre', _, g2, g3, g4, g5, _, g7⟩
      · rcases hy : e₁.writeTrailer with ⟨e₂, r⟩
        rw [hy] at g2 g4
        simp only at g2 g4
        subst g4
        exact ⟨e₂, s₂, rfl, g2, .inr (by rw [g3, h3]; simp)⟩
      · rcases hy : e₁.writeTrailer with ⟨e₂, r⟩
        rw [hy] at g2 g7
        simp only at g2 g7
        subst g7
        have hpre' : pre' = [] := by
          obtain ⟨t, ht⟩ := g4
          cases pre' with
          | nil => rfl
          | cons a as => exfalso; apply g5; simp at ht ⊢; exact ⟨ht.1, ht.2.1⟩
        subst hpre'
        exact ⟨e₂, s₂, rfl, g2, .inl (by rw [g3, h3]; simp)⟩
    obtain ⟨e₂, s₂, q1, q2, q3⟩ := hdrop
    simp only [q1, Prod.mk.injEq] at hn
    exact ⟨s₂, s₀, _, hn.1 ▸ q2, hnew0, k1, .inr ⟨code, s.written ++ pre, hn.2.symm, hpre.1, hpre.2, q3⟩⟩

example : (Encoder.new true { written := [], plan := [some (3, 5)] } 1 1 [0, 0, 0]).2 = .err (.io (.writer 5)) := by decide

/-! ## C29 -/

/-- C29: `into_inner` appends exactly the trailer and hands out the writer; the encoder left for the destructor has no
writer any more. -/
theorem C29_into_inner (np : Bool) (e : Encoder) (s : Sink) (hs : e.w = some s) (hw : s.Working) :
    ∃ s', (e.intoInner np).2 = .ok s' ∧ s'.written = s.written ++ [0x3B] ∧ (e.intoInner np).1.w = none ∧
      (e.intoInner np).1.drop np = ((e.intoInner np).1, .ok ()) := by
  obtain ⟨s', h1, h2, h3, h4⟩ := (Encoder.does_writeTrailer e).working hs hw
  rcases hx : e.writeTrailer with ⟨e₁, r⟩
  rw [hx] at h1 h4
  simp only at h1 h4
  subst h4
  refine ⟨s', ?_, by simpa using h2, ?_, ?_⟩ <;> simp [Encoder.intoInner, hx, h1, Encoder.drop]

/-- C29: dropping the encoder appends exactly the trailer. -/
theorem C29_drop (np : Bool) (e : Encoder) (s : Sink) (hs : e.w = some s) (hw : s.Working) :
    ∃ s', (e.drop np).2 = .ok () ∧ (e.drop np).1.w = some s' ∧ s'.written = s.written ++ [0x3B] := by
  obtain ⟨s', h1, h2, h3, h4⟩ := (Encoder.does_writeTrailer e).working hs hw
  rcases hx : e.writeTrailer with ⟨e₁, r⟩
  rw [hx] at h1 h4
  simp only at h1 h4
  subst h4
  refine ⟨s', ?_, ?_, by simpa using h2⟩ <;> simp [Encoder.drop, hs, hx, h1]

example : (exEncoder true []).w = some ⟨[7], []⟩ ∧ Sink.Working ⟨[7], []⟩ := ⟨rfl, by intro p hp; simp at hp⟩

/-! ## C30 -/

/-- The claim of C30 does not hold: the destructor of the half-made encoder writes a trailer byte. -/
theorem C30_negation (np : Bool) (s : Sink) (hw : s.Working) (width height : UInt16) (palette : List UInt8)
    (hp : 256 < palette.length / 3) :
    ∃ e s', Encoder.new np s width height palette = (e, .err (.format .tooManyColors)) ∧ e.w = some s' ∧
      s'.written = s.written ++ [0x3B] := by
  have h1 : (Encoder.fresh s width height false).writeGlobalPalette palette =
      (Encoder.fresh s width height false, .err (.format .tooManyColors)) := by
    unfold Encoder.writeGlobalPalette
    rw [checkColorTable_err palette hp]
  obtain ⟨s', k1, k2, k3⟩ := C29_drop np (Encoder.fresh s width height false) s rfl hw
  refine ⟨((Encoder.fresh s width height false).drop np).1, s', ?_, k2, k3⟩
  have : Encoder.new np s width height palette =
      match (Encoder.fresh s width height false).writeGlobalPalette palette with
      | (e, .ok ()) => (e, .ok ())
      | (e, .err err) =>
        match e.drop np with
        | (e, .panic) => (e, .panic)
        | (e, _) => (e, .err err)
      | (e, .panic) => (e, .panic) := rfl
  rw [this, h1]
  simp only
  rcases hx : (Encoder.fresh s width height false).drop np with ⟨e, r⟩
  rw [hx] at k1
  simp only at k1
  subst k1
  rfl

/-- C30, proved part: `Encoder::new` fails for its palette exactly when that has more than 256 colours, and then the
only thing written is (at most) the destructor's trailer byte; no part of a header is.
Missing from C30: that one byte. -/
theorem C30_new_partial (s : Sink) (width height : UInt16) (palette : List UInt8) (hp : 256 < palette.length / 3) :
    ∃ e s', Encoder.new true s width height palette = (e, .err (.format .tooManyColors)) ∧ e.w = some s' ∧
      (s'.written = s.written ∨ s'.written = s.written ++ [0x3B]) := by
  have h1 : (Encoder.fresh s width height false).writeGlobalPalette palette =
      (Encoder.fresh s width height false, .err (.format .tooManyColors)) := by
    unfold Encoder.writeGlobalPalette
    rw [checkColorTable_err palette hp]
  have hnew : Encoder.new true s width height palette =
      match (Encoder.fresh s width height false).writeGlobalPalette palette with
      | (e, .ok ()) => (e, .ok ())
      | (e, .err err) =>
        match e.drop true with
        | (e, .panic) => (e, .panic)
        | (e, _) => (e, .err err)
      | (e, .panic) => (e, .panic) := rfl
  rw [hnew, h1]
  simp only [Encoder.drop]
  have hfw : (Encoder.fresh s width height false).w = some s := rfl
  simp only [hfw]
  rcases (Encoder.does_writeTrailer (Encoder.fresh s width height false)).cases hfw with
    ⟨s', _, h2, h3, h4⟩ | ⟨s', code', pre', _, h2, h3, g4, g5, _, h4⟩
  · rcases hy : (Encoder.fresh s width height false).writeTrailer with ⟨e₂, r⟩
    rw [hy] at h2 h4
    simp only at h2 h4
    subst h4
    exact ⟨e₂, s', rfl, h2, .inr (by simpa using h3)⟩
  · rcases hy : (Encoder.fresh s width height false).writeTrailer with ⟨e₂, r⟩
    rw [hy] at h2 h4
    simp only at h2 h4
    subst h4
    have hpre' : pre' = [] := by
      obtain ⟨t, ht⟩ := g4
      cases pre' with
      | nil => rfl
      | cons a as => exfalso; apply g5; simp at ht ⊢; exact ⟨ht.1, ht.2.1⟩
    subst hpre'
    exact ⟨e₂, s', rfl, h2, .inl (by simpa using h3)⟩

example : 256 < (List.replicate 771 (0 : UInt8)).length / 3 := by rw [List.length_replicate]; decide

/-! ## C46, the encoder's side -/

theorem not_ok_of_does {e : Encoder} {res : Encoder × EOut Unit} {c : List (List UInt8)} {r : EOut Unit}
    (h : Encoder.Does e res c r) {s : Sink} (hs : e.w = some s) (hr : r ≠ .ok ()) : res.2 ≠ .ok () := by
  obtain ⟨_, h2⟩ := h.run s hs
  rw [h2]
  unfold W.bind
  rcases runChunks c s with ⟨s', _ | _ | _⟩
  · simpa [W.ofOut] using hr
  · simp
  · simp

/-- C46, encoder: an encoder that was created with an empty global palette, after any sequence of calls and on any writer,
refuses every frame without a palette of its own. When the writer works and the buffer is large enough, the error is
`MissingColorPalette`. -/
theorem C46_encoder (C : Codec) (np : Bool) (w₀ : Sink) (width height : UInt16) (ops : List EncOp)
    (hsane : ∀ op ∈ ops, op.Sane) (f : Frame) (hp : f.palette = none)
    (hd : (f.width > 0 ∧ f.height > 0) ∨ f.buffer = []) (hnew : (Encoder.new np w₀ width height []).2 = .ok ()) :
    let e := (runOps C (Encoder.new np w₀ width height []).1 ops).1
    (e.writeFrame C f).2 ≠ .ok () ∧ (e.writeLzwPreEncodedFrame f).2 ≠ .ok () ∧
    (∀ s, e.w = some s → s.Working → f.width.toNat * f.height.toNat ≤ f.buffer.length →
      (e.writeFrame C f).2 = .err (.format .missingColorPalette)) := by
  have hinit : (Encoder.new np w₀ width height []).1.globalPalette = false ∧
      (Encoder.new np w₀ width height []).1.w ≠ none := by
    have h := Encoder.does_writeGlobalPalette w₀ width height [] (by decide)
    have hn : Encoder.new np w₀ width height [] =
        match (Encoder.fresh w₀ width height false).writeGlobalPalette [] with
        | (e, .ok ()) => (e, .ok ())
        | (e, .err err) =>
          match e.drop np with
          | (e, .panic) => (e, .panic)
          | (e, _) => (e, .err err)
        | (e, .panic) => (e, .panic) := rfl
    rw [hn] at hnew ⊢
    have h1 := (h.run w₀ rfl).1
    have h2 := h.palette
    generalize (Encoder.fresh w₀ width height false).writeGlobalPalette [] = x at *
    obtain ⟨e, r⟩ := x
    cases r with
    | ok u => exact ⟨h2, by rw [h1]; simp⟩
    | err err =>
      simp only at hnew
      split at hnew <;> cases hnew
    | panic => cases hnew
  have hrun : ∀ (ops : List EncOp) (e : Encoder), (∀ op ∈ ops, op.Sane) → e.globalPalette = false → e.w ≠ none →
      (runOps C e ops).1.globalPalette = false ∧ (runOps C e ops).1.w ≠ none := by
    intro ops
    induction ops with
    | nil => intro e _ h1 h2; exact ⟨h1, h2⟩
    | cons op ops ih =>
      intro e hs h1 h2
      have hdo := does_op C e op h2 (hs op List.mem_cons_self)
      obtain ⟨s, hs'⟩ := Option.ne_none_iff_exists'.1 h2
      exact ih _ (fun o ho => hs o (List.mem_cons_of_mem _ ho)) (hdo.palette.trans h1)
        (fun hn => by have := (hdo.run s hs').1.symm.trans hn; simp at this)
  obtain ⟨hg, hw⟩ := hrun ops _ hsane hinit.1 hinit.2
  intro e
  have hpe : Encoder.paletteError e.globalPalette f = some (.format .missingColorPalette) := by
    unfold Encoder.paletteError; rw [hp, hg]; rfl
  obtain ⟨s, hs⟩ := Option.ne_none_iff_exists'.1 hw
  refine ⟨not_ok_of_does (does_op C e (.frame f) hw hd) hs ?_,
    not_ok_of_does (does_op C e (.preEncoded f) hw trivial) hs ?_, ?_⟩
  · simp only [opResult]
    split
    · simp
    · simp [hpe]
  · simp only [opResult]
    split
    · simp
    · simp [hpe]
  · intro s hs hwk hb
    obtain ⟨_, _, _, _, h4⟩ := (does_op C e (.frame f) hw hd).working hs hwk
    refine h4.trans ?_
    simp only [opResult]
    rw [if_neg (by omega), hpe]

/-- The hypotheses of `C46_encoder` are met by an encoder on a writer that works. -/
example : (Encoder.new true { written := [], plan := [] } 2 2 []).2 = .ok () ∧
    ((runOps idCodec (Encoder.new true { written := [], plan := [] } 2 2 []).1 [.setRepeat .infinite, .frame exFrame]).1.writeFrame
      idCodec { exFrame with palette := none }).2 = .err (.format .missingColorPalette) := by
  decide

end Gif
