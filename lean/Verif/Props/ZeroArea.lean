import Verif.Props.Iterator
import Verif.Props.RoundTripCases
/-!
# C48: frames without pixels, in any file
-/

namespace Gif

variable {C : Codec}

namespace Converter

variable {τ : Type}

theorem fillBuffer_nil_rgba (c : Converter) (hc : c.colorOutput = .rgba) (f : Frame) (cb : Callback τ) (t : τ) :
    c.fillBuffer f cb t [] = (t, [], .fmtErr .oddSizedBuffer) := by
  unfold fillBuffer fillLoop
  simp [hc]

/-- In RGBA mode the error is always the same, and the source is not touched. -/
theorem readIntoBuffer_nil_rgba (c : Converter) (hc : c.colorOutput = .rgba) (f : Frame) (h0 : f.width = 0 ∨ f.height = 0)
    (hn : ¬ (f.interlaced = true ∧ f.height = 0)) (cb : Callback τ) (t : τ) :
    c.readIntoBuffer f cb t [] = (t, [], .fmtErr .oddSizedBuffer) := by
  have hfill := fillBuffer_nil_rgba c hc f cb t
  unfold readIntoBuffer
  by_cases hi : f.interlaced = true
  · rw [if_pos hi]
    have hh : f.height ≠ 0 := fun h => hn ⟨hi, h⟩
    have hpos : 0 < f.height.toNat := by
      rcases Nat.eq_zero_or_pos f.height.toNat with h | h
      · exact absurd (UInt16.toNat_inj.1 (by simpa using h)) hh
      · exact h
    have hw : f.width = 0 := h0.resolve_right hh
    have hl : c.lineLength f = 0 := by
      unfold lineLength
      rw [hw, hc]
      rfl
    have h1 := nextRow_first f.height.toNat hpos
    unfold readRows
    generalize InterlaceIter.nextRow { len := f.height.toNat, next := 0, pass := 0 } = x at h1
    obtain ⟨it, row⟩ := x
    simp only at h1
    subst h1
    simp [hl, hfill, Outcome.fmtErr]
  · rw [if_neg hi]
    have hs : c.bufferSize f = 0 := by
      unfold bufferSize lineLength
      rcases h0 with h | h <;> rw [h, hc] <;> simp
    simp [hs, hfill, Outcome.fmtErr]

/-- `read_frame` of a frame without area that is not an interlaced frame without rows. -/
theorem readFrame_zero (c : Converter) (f : Frame) (h0 : f.width = 0 ∨ f.height = 0) (hn : ¬ (f.interlaced = true ∧ f.height = 0))
    {cb : Callback τ} {P : τ → Prop} (hg : cb.Good P) (t : τ) (hP : P t) :
    (∃ e, (c.readFrame f cb t).2.2 = .err e) ∧
      (c.colorOutput = .rgba → (c.readFrame f cb t).2.2 = .fmtErr .oddSizedBuffer ∧ (c.readFrame f cb t).1 = t) := by
  obtain ⟨_, g2, g3⟩ := readFrame_good c f hg t hP
  have hs : c.bufferSize f = 0 := by
    unfold bufferSize lineLength
    rcases h0 with h | h <;> rw [h] <;> simp
    split <;> simp
  constructor
  · have hne := mt (readFrame_nil c f hg t hP).1 hn
    cases hx : (c.readFrame f cb t).2.2 with
    | ok u =>
      have := (g3 hx).1
      rw [hs] at this
      exact absurd ⟨hx, List.length_eq_zero_iff.1 this⟩ hne
    | err e => exact ⟨e, rfl⟩
    | panic => rw [hx] at g2; cases g2
    | diverge => rw [hx] at g2; cases g2
  · intro hc
    have hv : frameBuffer f 0 = [] := List.length_eq_zero_iff.1 (frameBuffer_length f 0)
    unfold readFrame
    rcases checkBufferSize_cases c f with ⟨q1, _⟩ | ⟨_, q2⟩
    · rw [q1, hs]
      simp only [hv]
      have hr := readIntoBuffer_nil_rgba c hc { f with buffer := [], ownedCap := none } h0 hn cb t
      rw [hr]
      exact ⟨rfl, rfl⟩
    · rw [hs] at q2
      unfold MemoryLimit.sizeOk at q2
      split at q2 <;> simp at q2

end Converter

namespace Decoder

/-- **C48** A frame without area, in any file, after any calls, is never read as pixels, unless it is interlaced and has no rows:
`read_next_frame` returns an error. In RGBA mode the error is that of a buffer of odd size, and nothing of the image data has been
read. (An interlaced frame without rows is read as a frame without bytes: `frame_without_bytes`.) -/
theorem zero_area_rejected (hS : C.Safe) {o : DecodeOptions} {r : Reader} {d : Decoder C} (h : Reach o r d)
    (hf : d.nextFrameInfo.2 = .ok true) (hp : d.nextFrameInfo.1.dataType = .pixels)
    (h0 : d.nextFrameInfo.1.currentFrame.width = 0 ∨ d.nextFrameInfo.1.currentFrame.height = 0)
    (hn : ¬ (d.nextFrameInfo.1.currentFrame.interlaced = true ∧ d.nextFrameInfo.1.currentFrame.height = 0)) :
    (∃ e, d.readNextFrame.2 = .err e) ∧
      (o.colorOutput = .rgba → d.readNextFrame.2 = .fmtErr .oddSizedBuffer ∧ d.readNextFrame.1.rd = d.nextFrameInfo.1.rd) := by
  have hr := Decoder.reach_inv hS h
  have hi := hr.1
  have hcol : d.conv.colorOutput = o.colorOutput := by rw [hr.2.1]; exact (readInfo_conv hS o r).2
  obtain ⟨h1, _, h3, h4, _, _, _, _⟩ := frameRun_spec hS (nextFrameInfo_run hS d hi.rd) hi.rd
  have hlim : d.nextFrameInfo.1.rd.sd.memoryLimit = d.nextFrameInfo.1.conv.memoryLimit := by
    rw [opts_limit h3, h4]; exact hi.limit
  rw [← hcol, ← h4]
  unfold readNextFrame
  generalize d.nextFrameInfo = x at *
  obtain ⟨d1, out⟩ := x
  simp only at *
  subst hf
  simp only [hp]
  obtain ⟨⟨e, k1⟩, k2⟩ := Converter.readFrame_zero d1.conv d1.currentFrame h0 hn
    (decodeNextBytes_good' hS d1.conv.memoryLimit) d1.rd ⟨h1, hlim⟩
  generalize d1.conv.readFrame d1.currentFrame RD.decodeNextBytes d1.rd = y at *
  obtain ⟨rd, f, res⟩ := y
  simp only at k1 k2
  subst k1
  exact ⟨⟨e, rfl⟩, fun hc => ⟨(by have := (k2 hc).1; simp only [Outcome.fmtErr, Outcome.err.injEq] at this ⊢; exact this), (k2 hc).2⟩⟩

set_option maxRecDepth 100000 in
/-- A file of the encoder with such a frame. -/
example :
    let d := (Decoder.readInfo Ref.lzw { DecodeOptions.new with colorOutput := .rgba } (readerOn emptyFile)).1
    d.nextFrameInfo.2 = .ok true ∧ d.nextFrameInfo.1.dataType = .pixels ∧ d.nextFrameInfo.1.currentFrame.height = 0 ∧
      d.nextFrameInfo.1.currentFrame.interlaced = false := by
  decide +kernel

end Decoder

end Gif
