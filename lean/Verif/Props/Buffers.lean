import Verif.Lemmas.Room
import Verif.Spec.Paint
import Verif.Props.Chunks
/-!
# C66: what happens to the buffers of the caller
-/

namespace Gif

open Spec (painted Coloured pixelOrder paletteOf)

theorem Converter.convert_painted (c : Converter) (f : Frame) (idx old : List UInt8) (h : old.length = c.chan * idx.length) :
    c.convert f idx old = painted c.colorOutput (paletteOf c.globalPalette f) f.transparent idx old := by
  unfold Converter.convert painted Converter.chan at *
  cases hc : c.colorOutput with
  | indexed => rfl
  | rgba =>
    simp only [hc] at h ⊢
    rw [Converter.expandPixels_eq _ _ _ _ h]
    unfold paletteOf Converter.effectivePalette
    cases f.palette <;> rfl

/-- If every index has a colour, nothing of the old contents remains. -/
theorem Spec.painted_coloured {c : ColorOutput} {palette : List UInt8} {idx : List UInt8} (h : Coloured c palette idx) (tr : Option UInt8)
    (x y : List UInt8) : painted c palette tr idx x = painted c palette tr idx y := by
  unfold painted
  cases c with
  | indexed => rfl
  | rgba =>
    simp only
    unfold Spec.rgbaPixels
    rw [List.flatMap_def, List.flatMap_def]
    congr 1
    apply List.map_congr_left
    intro k hk
    have hk : k < idx.length := List.mem_range.1 hk
    have hm : idx.getD k 0 ∈ idx := by
      rw [List.getD_eq_getElem?_getD, List.getElem?_eq_getElem hk]
      exact List.getElem_mem hk
    unfold Spec.rgbaPixel
    rw [if_pos (h rfl _ hm), if_pos (h rfl _ hm)]

theorem Spec.coloured_full {c : ColorOutput} {palette : List UInt8} (h : c = .rgba → 768 ≤ palette.length) (idx : List UInt8) :
    Coloured c palette idx := by
  intro hc i _
  have := h hc
  have := i.toNat_lt
  omega

namespace Converter

variable {τ : Type}

/-- What `read_into_buffer` does with a buffer. -/
structure IntoSpec (c : Converter) (f : Frame) (run : List UInt8 → τ × List UInt8 × Outcome Unit) : Prop where
  length : ∀ buf, (run buf).2.1.length = buf.length
  behind : ∀ buf, (run buf).2.1.drop (c.bufferSize f) = buf.drop (c.bufferSize f)
  room : ∀ buf, (run buf).2.2 = .ok () → c.bufferSize f ≤ buf.length
  blind : ∀ b1 b2, c.bufferSize f ≤ b1.length → c.bufferSize f ≤ b2.length → (run b1).1 = (run b2).1 ∧ (run b1).2.2 = (run b2).2.2
  paints : ∃ idx : List UInt8, ∀ buf, (run buf).2.2 = .ok () → idx.length = f.width.toNat * f.height.toNat ∧
    (run buf).2.1.take (c.bufferSize f) =
      painted c.colorOutput (paletteOf c.globalPalette f) f.transparent idx (buf.take (c.bufferSize f))

theorem readIntoBuffer_spec (c : Converter) (f : Frame) (cb : Callback τ) (t : τ) : c.IntoSpec f (c.readIntoBuffer f cb t) := by
  obtain ⟨t', px, r, h1, h2⟩ := c.readIntoBuffer_paint f cb t
  have hk := c.readIntoBuffer_kept f cb t
  refine ⟨fun buf => (hk buf).1.1, fun buf => (hk buf).1.2, fun buf => (hk buf).2, fun b1 b2 l1 l2 => ?_,
    pixelOrder f px, fun buf hok => ?_⟩
  · obtain ⟨_, e1, -⟩ := h2 b1 l1
    obtain ⟨_, e2, -⟩ := h2 b2 l2
    rw [e1, e2]
    exact ⟨rfl, rfl⟩
  · have hsz := (hk buf).2 hok
    obtain ⟨buf', e1, e2⟩ := h2 buf hsz
    rw [e1] at hok ⊢
    simp only at hok ⊢
    have hl := pixelOrder_length (f := f) (l := px) (by rw [h1 hok]; omega)
    refine ⟨hl, ?_⟩
    have ho : (buf.take (c.bufferSize f)).length = c.chan * (pixelOrder f px).length := by
      rw [List.length_take, hl, ← bufferSize_eq]; omega
    rw [e2 hok, convert_painted _ _ _ _ ho, List.take_append_of_le_length, List.take_of_length_le]
    all_goals
      rw [← convert_painted _ _ _ _ ho, convert_length c f _ _ ho, ho, hl, ← bufferSize_eq]
      exact Nat.le_refl _

end Converter

namespace Decoder

variable {C : Codec}

/-- **C66** for `read_into_buffer`, whatever the decoder has read before and whatever its reader does: the length of the buffer
stays, nothing is written behind the first `buffer_size()` bytes, and `Ok` is returned only if the buffer has as many. -/
theorem into_keeps (d : Decoder C) (buf : List UInt8) :
    (d.readIntoBuffer buf).2.1.length = buf.length ∧
    (d.readIntoBuffer buf).2.1.drop d.bufferSize = buf.drop d.bufferSize ∧
    ((d.readIntoBuffer buf).2.2 = .ok () → d.bufferSize ≤ buf.length) :=
  have h := d.conv.readIntoBuffer_spec d.currentFrame RD.decodeNextBytes d.rd
  ⟨h.length buf, h.behind buf, h.room buf⟩

/-- **C66**: what `read_into_buffer` returns and what the decoder does afterwards is the same for all buffers with room for the
frame, whatever they contain. -/
theorem into_blind (d : Decoder C) (b1 b2 : List UInt8) (h1 : d.bufferSize ≤ b1.length) (h2 : d.bufferSize ≤ b2.length) :
    (d.readIntoBuffer b1).1 = (d.readIntoBuffer b2).1 ∧ (d.readIntoBuffer b1).2.2 = (d.readIntoBuffer b2).2.2 := by
  obtain ⟨e1, e2⟩ := (d.conv.readIntoBuffer_spec d.currentFrame RD.decodeNextBytes d.rd).blind b1 b2 h1 h2
  unfold readIntoBuffer
  exact ⟨by simp only [e1], e2⟩

/-- **C66**: a buffer that is too small for a frame that is not interlaced is refused before anything is read or written. -/
theorem into_refuses (d : Decoder C) (buf : List UInt8) (hi : d.currentFrame.interlaced = false) (h : buf.length < d.bufferSize) :
    d.readIntoBuffer buf = (d, buf, .fmtErr .bufferTooSmall) := by
  have h' : ¬ d.conv.bufferSize d.currentFrame ≤ buf.length := by
    have : d.bufferSize = d.conv.bufferSize d.currentFrame := rfl
    omega
  unfold readIntoBuffer Converter.readIntoBuffer
  rw [if_neg (by rw [hi]; decide)]
  simp only
  rw [if_neg h']

/-- **C66**, the contents: there are indices, the same for every buffer, that are painted over what was in the buffer. In RGBA mode an
index without a colour leaves the old bytes. -/
theorem into_paints (d : Decoder C) : ∃ idx : List UInt8, ∀ buf, (d.readIntoBuffer buf).2.2 = .ok () →
    idx.length = d.currentFrame.width.toNat * d.currentFrame.height.toNat ∧
    (d.readIntoBuffer buf).2.1 = painted d.conv.colorOutput (paletteOf d.globalPalette d.currentFrame) d.currentFrame.transparent idx
      (buf.take d.bufferSize) ++ buf.drop d.bufferSize := by
  obtain ⟨idx, h⟩ := (d.conv.readIntoBuffer_spec d.currentFrame RD.decodeNextBytes d.rd).paints
  refine ⟨idx, fun buf hok => ?_⟩
  obtain ⟨h1, h2⟩ := h buf hok
  refine ⟨h1, ?_⟩
  rw [← (into_keeps d buf).2.1]
  have h2 : (d.readIntoBuffer buf).2.1.take d.bufferSize = painted d.conv.colorOutput (paletteOf d.globalPalette d.currentFrame)
    d.currentFrame.transparent idx (buf.take d.bufferSize) := h2
  rw [← h2]
  exact (List.take_append_drop _ _).symm

/-- **C66**, the contents, in part: palette indices, and colours from a palette of 256 colours, replace what was in the buffer. What
is missing: smaller palettes in RGBA mode, for which the claim is false of the code (`into_leaves_old_pixels`). -/
theorem into_replaces_partial (d : Decoder C)
    (hp : d.conv.colorOutput = .rgba → 768 ≤ (paletteOf d.globalPalette d.currentFrame).length) (b1 b2 : List UInt8) {d' : Decoder C}
    {b : List UInt8} (h1 : d.readIntoBuffer b1 = (d', b, .ok ())) (h2 : d.bufferSize ≤ b2.length) :
    d.readIntoBuffer b2 = (d', b.take d.bufferSize ++ b2.drop d.bufferSize, .ok ()) := by
  obtain ⟨idx, h⟩ := into_paints d
  have hr := (into_keeps d b1).2.2 (by rw [h1])
  obtain ⟨e1, e2⟩ := into_blind d b1 b2 hr h2
  have hok1 : (d.readIntoBuffer b1).2.2 = .ok () := by rw [h1]
  have k2 := (h b2 (e2 ▸ hok1)).2
  have kl := (into_keeps d b1).1
  have kd := (into_keeps d b1).2.1
  have k1 := (h b1 hok1).2
  rw [Spec.painted_coloured (Spec.coloured_full hp idx) _ _ (b2.take d.bufferSize)] at k1
  have hb : b.take d.bufferSize = painted d.conv.colorOutput (paletteOf d.globalPalette d.currentFrame) d.currentFrame.transparent idx
      (b2.take d.bufferSize) := by
    have e : (d.readIntoBuffer b1).2.1 = b := by rw [h1]
    rw [e] at k1 kl kd
    rw [k1] at kl
    rw [k1, List.take_append_of_le_length, List.take_of_length_le]
    all_goals
      simp only [List.length_append, List.length_drop] at kl
      omega
  rw [hb, ← k2]
  rw [h1] at e1 e2
  rw [Prod.ext_iff, Prod.ext_iff]
  exact ⟨e1.symm, rfl, e2.symm⟩

/-- **C66** for `fill_buffer`: the length stays; buffers of the same length get the same result and leave the same decoder, whatever
they contain; if the call succeeds, some indices, the same for all of them, are painted at the front, and nothing behind them is
touched. They fill the whole buffer if `Ok(true)` is returned. -/
theorem fill_blind (d : Decoder C) (n : Nat) : ∃ (d' : Decoder C) (x : Outcome Bool) (idx : List UInt8),
    Spec.channels d.conv.colorOutput * idx.length ≤ n ∧ (x = .ok true → Spec.channels d.conv.colorOutput * idx.length = n) ∧
    ∀ buf : List UInt8, buf.length = n → ∃ buf', d.fillBuffer buf = (d', buf', x) ∧ buf'.length = n ∧ (∀ more, x = .ok more → buf' =
      painted d.conv.colorOutput (paletteOf d.globalPalette d.currentFrame) d.currentFrame.transparent idx
        (buf.take (Spec.channels d.conv.colorOutput * idx.length)) ++ buf.drop (Spec.channels d.conv.colorOutput * idx.length)) := by
  obtain ⟨t', px, r, h1, h2, h3⟩ := d.conv.fillBuffer_room d.currentFrame RD.decodeNextBytes d.rd n
  have hch : d.conv.chan = Spec.channels d.conv.colorOutput := by
    unfold Converter.chan Spec.channels; cases d.conv.colorOutput <;> rfl
  rw [hch] at h1 h2
  refine ⟨{ d with rd := t' }, r, px, h1, fun h => (h2 h).1, fun buf hb => ?_⟩
  have hl := d.conv.fillBuffer_length d.currentFrame RD.decodeNextBytes d.rd buf
  have he := h3 buf hb
  rw [hch, Converter.convert_painted _ _ _ _ (by rw [List.length_take, hch]; omega)] at he
  unfold fillBuffer
  rw [he] at hl ⊢
  exact ⟨_, rfl, by rw [← hb]; exact hl, fun _ _ => rfl⟩

end Decoder

namespace FrameDecoder

variable {C : Codec}

theorem decodeIntoBuffer_cases (d : FrameDecoder C) (f : Frame) :
    (∃ lzw data, ∀ buf, d.decodeIntoBuffer f buf = ({ d with lzw := (d.conv.readIntoBuffer f pull (lzw, data) buf).1.1 },
      (d.conv.readIntoBuffer f pull (lzw, data) buf).2.1, (d.conv.readIntoBuffer f pull (lzw, data) buf).2.2)) ∨
    (∃ d' x, x ≠ .ok () ∧ ∀ buf, d.decodeIntoBuffer f buf = (d', buf, x)) := by
  have key : ∀ (m : UInt8) (data : List UInt8), (f.buffer = [] ∧ m = 2 ∧ data = [] ∨ f.buffer = m :: data) →
      (∃ lzw, d.lzw.reset m = (lzw, .ok ()) ∧ ∀ buf, d.decodeIntoBuffer f buf =
        ({ d with lzw := (d.conv.readIntoBuffer f pull (lzw, data) buf).1.1 },
        (d.conv.readIntoBuffer f pull (lzw, data) buf).2.1, (d.conv.readIntoBuffer f pull (lzw, data) buf).2.2)) ∨
      (∃ d' x, x ≠ .ok () ∧ ∀ buf, d.decodeIntoBuffer f buf = (d', buf, x)) := by
    intro m data h
    match hr : d.lzw.reset m with
    | (lzw, .ok ()) =>
      refine .inl ⟨lzw, rfl, fun buf => ?_⟩
      rcases h with ⟨h, rfl, rfl⟩ | h <;> simp only [decodeIntoBuffer, h, hr]
    | (lzw, .err e) =>
      refine .inr ⟨{ d with lzw := lzw }, .err e, by simp, fun buf => ?_⟩
      rcases h with ⟨h, rfl, rfl⟩ | h <;> simp only [decodeIntoBuffer, h, hr]
    | (lzw, .panic) =>
      refine .inr ⟨{ d with lzw := lzw }, .panic, by simp, fun buf => ?_⟩
      rcases h with ⟨h, rfl, rfl⟩ | h <;> simp only [decodeIntoBuffer, h, hr]
    | (lzw, .diverge) =>
      refine .inr ⟨{ d with lzw := lzw }, .diverge, by simp, fun buf => ?_⟩
      rcases h with ⟨h, rfl, rfl⟩ | h <;> simp only [decodeIntoBuffer, h, hr]
  match hb : f.buffer with
  | [] =>
    rcases key 2 [] (.inl ⟨hb, rfl, rfl⟩) with ⟨lzw, -, h⟩ | h
    · exact .inl ⟨lzw, [], h⟩
    · exact .inr h
  | m :: data =>
    rcases key m data (.inr hb) with ⟨lzw, -, h⟩ | h
    · exact .inl ⟨lzw, data, h⟩
    · exact .inr h

/-- **C66** for `decode_lzw_encoded_frame_into_buffer`. -/
theorem into_keeps (d : FrameDecoder C) (f : Frame) (buf : List UInt8) :
    (d.decodeIntoBuffer f buf).2.1.length = buf.length ∧
    (d.decodeIntoBuffer f buf).2.1.drop (d.conv.bufferSize f) = buf.drop (d.conv.bufferSize f) ∧
    ((d.decodeIntoBuffer f buf).2.2 = .ok () → d.conv.bufferSize f ≤ buf.length) := by
  rcases decodeIntoBuffer_cases d f with ⟨lzw, data, h⟩ | ⟨d', x, hx, h⟩
  · have hs := d.conv.readIntoBuffer_spec f pull (lzw, data)
    rw [h]
    exact ⟨hs.length buf, hs.behind buf, hs.room buf⟩
  · rw [h]
    exact ⟨rfl, rfl, fun h => absurd h hx⟩

/-- **C66** for `decode_lzw_encoded_frame_into_buffer`: any two buffers with room give the same result and leave the same decoder;
there are indices, the same for all buffers, that are painted over their contents. -/
theorem into_blind (d : FrameDecoder C) (f : Frame) : ∃ (d' : FrameDecoder C) (x : Outcome Unit) (idx : List UInt8),
    ∀ buf : List UInt8, d.conv.bufferSize f ≤ buf.length → ∃ buf', d.decodeIntoBuffer f buf = (d', buf', x) ∧
      (x = .ok () → idx.length = f.width.toNat * f.height.toNat ∧
        buf' = painted d.conv.colorOutput (paletteOf d.conv.globalPalette f) f.transparent idx (buf.take (d.conv.bufferSize f)) ++
          buf.drop (d.conv.bufferSize f)) := by
  rcases decodeIntoBuffer_cases d f with ⟨lzw, data, h⟩ | ⟨d', x, hx, h⟩
  · have hs := d.conv.readIntoBuffer_spec f pull (lzw, data)
    obtain ⟨idx, hp⟩ := hs.paints
    refine ⟨{ d with lzw := (d.conv.readIntoBuffer f pull (lzw, data) (List.replicate (d.conv.bufferSize f) 0)).1.1 },
      (d.conv.readIntoBuffer f pull (lzw, data) (List.replicate (d.conv.bufferSize f) 0)).2.2, idx, fun buf hb => ?_⟩
    obtain ⟨e1, e2⟩ := hs.blind buf (List.replicate (d.conv.bufferSize f) 0) hb (by simp)
    refine ⟨(d.conv.readIntoBuffer f pull (lzw, data) buf).2.1, ?_, fun hok => ?_⟩
    · rw [h, ← e1, ← e2]
    · obtain ⟨p1, p2⟩ := hp buf (e2.trans hok)
      refine ⟨p1, ?_⟩
      rw [← hs.behind buf, ← p2]
      exact (List.take_append_drop _ _).symm
  · exact ⟨d', x, [], fun buf _ => ⟨buf, h buf, fun h => absurd h hx⟩⟩

end FrameDecoder

end Gif
