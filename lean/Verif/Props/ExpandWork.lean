import Verif.Lemmas.ExpandWork
import Verif.Ref.Safe
import Verif.Model.Encoder
/-!
# C78 for `FrameDecoder`
-/

namespace Gif.FrameDecoder

variable {C : Codec}

theorem countedPull_over : (pull (C := C)).Over countedPull Prod.fst := fun _ _ => rfl

/-- One run of the callback: calls against bytes. -/
theorem pullLoop_calls (hS : C.Safe) (cap : Nat) : ∀ (fuel : Nat) (t : LzwReader C × List UInt8), t.2.length < fuel →
    (∀ t' bytes, pullLoop cap fuel t = (t', .ok bytes) →
      pullCalls cap fuel t + t'.2.length ≤ t.2.length + 1 ) ∧
    (∀ t' e, pullLoop cap fuel t = (t', .err e) → pullCalls cap fuel t + t'.2.length ≤ t.2.length + 1) := by
  intro fuel
  induction fuel with
  | zero => intro t h; omega
  | succ fuel ih =>
    rintro ⟨lzw, data⟩ hf
    rw [pullLoop, pullCalls]
    match hx : lzw.decodeBytes data (.slice cap) with
    | (lzw', .ok (read, bytes)) =>
      obtain ⟨b1, _, _⟩ := SD.decodeBytes_bounds hS hx
      simp only
      split
      · refine ⟨?_, by intro t' e h; cases h⟩
        intro t' b h
        cases h
        simp only [List.length_drop]
        omega
      · rename_i hc
        have h0 : read ≠ 0 := fun h => hc (.inr (.inl h))
        have hl : (data.drop read).length = data.length - read := List.length_drop
        have := ih (lzw', data.drop read) (by simp only at hf ⊢; omega)
        simp only at this ⊢
        rw [hl] at this
        refine ⟨fun t' b h => ?_, fun t' e h => ?_⟩
        · have := this.1 t' b h; omega
        · have := this.2 t' e h; omega
    | (lzw', .err e) =>
      refine ⟨by intro t' b h; (try cases h), ?_⟩
      intro t' e h
      cases h
      simp only
      omega
    | (lzw', .panic) => exact ⟨(by intro t' b h; cases h), (by intro t' e h; cases h)⟩
    | (lzw', .diverge) => exact ⟨(by intro t' b h; cases h), (by intro t' e h; cases h)⟩

/-- The callback is paid with bytes and pixels, but for the last call. -/
theorem countedPull_toll (hS : C.Safe) : (countedPull (C := C)).Toll (fun t => t.1.1.decoder.isSome)
    (fun t => t.2 + t.1.2.length) where
  good := fun t cap hI => pull_good hS t.1 cap hI
  ok := fun t cap bytes hI h => by
    have k := (pullLoop_calls hS cap (t.1.2.length + 1) t.1 (by omega)).1 (pull t.1 cap).1 bytes
      (by rw [← h]; rfl)
    show t.2 + pullCalls cap (t.1.2.length + 1) t.1 + (pull t.1 cap).1.2.length ≤ _ ∧
      (_ → t.2 + pullCalls cap (t.1.2.length + 1) t.1 + (pull t.1 cap).1.2.length ≤ _)
    omega
  err := fun t cap e hI h => by
    have k := (pullLoop_calls hS cap (t.1.2.length + 1) t.1 (by omega)).2 (pull t.1 cap).1 e
      (by rw [← h]; rfl)
    show t.2 + pullCalls cap (t.1.2.length + 1) t.1 + (pull t.1 cap).1.2.length ≤ _
    omega

/-- **C78** for `decode_lzw_encoded_frame_into_buffer`: the LZW decoder is called at most once for a byte of compressed data,
once for a pixel of the frame, and once more; whatever the frame, its data and the buffer, and whatever was decoded before. -/
theorem into_calls_linear (hS : C.Safe) (d : FrameDecoder C) (f : Frame) (buf : List UInt8) :
    d.intoCalls f buf ≤ (f.buffer.length - 1) + f.width.toNat * f.height.toNat + 1 := by
  unfold intoCalls
  split
  · rename_i lzw hr
    have hd := SD.reset_decoder hr
    have h1 := Converter.readIntoBuffer_toll d.conv f (countedPull_toll hS) ((lzw, f.buffer.drop 1), 0) buf hd
    simp only [List.length_drop] at h1
    have h2 : toll (d.conv.readIntoBuffer f countedPull ((lzw, f.buffer.drop 1), 0) buf).2.2 ≤ 1 := by
      unfold toll
      split <;> simp [Short.short]
    omega
  · omega

/-- **C78** for `decode_lzw_encoded_frame`. -/
theorem frame_calls_linear (hS : C.Safe) (d : FrameDecoder C) (f : Frame) :
    d.frameCalls f ≤ (f.buffer.length - 1) + f.width.toNat * f.height.toNat + 1 := by
  unfold frameCalls
  split
  · exact into_calls_linear hS d f _
  · omega

/-- The counter counts the calls of the model: leaving it out gives what `decode_lzw_encoded_frame_into_buffer` gives. -/
theorem into_calls_faithful (d : FrameDecoder C) (f : Frame) (buf : List UInt8) (lzw : LzwReader C)
    (h : d.lzw.reset (f.buffer.headD 2) = (lzw, .ok ())) :
    (d.decodeIntoBuffer f buf).2 = (d.conv.readIntoBuffer f countedPull ((lzw, f.buffer.drop 1), 0) buf).2 := by
  have hr := Converter.readIntoBuffer_over d.conv f (countedPull_over (C := C)) ((lzw, f.buffer.drop 1), 0) buf
  unfold decodeIntoBuffer
  cases hb : f.buffer with
  | nil =>
    rw [hb] at h hr
    simp only [List.headD_nil, List.drop_nil] at h hr ⊢
    rw [h]
    simp only
    rw [hr]
  | cons m data =>
    rw [hb] at h hr
    simp only [List.headD_cons, List.drop_succ_cons, List.drop_zero] at h hr ⊢
    rw [h]
    simp only
    rw [hr]

/-- Six pixels from three bytes of codes. The bound is 3 + 6 + 1. -/
example : let f := { Frame.default with width := 3, height := 2, buffer := [1, 2, 3, 0, 1, 2] }.makeLzwPreEncoded Ref.lzw
    f.buffer.length = 4 ∧ (FrameDecoder.new Ref.lzw .new).frameCalls f = 1 ∧
    (((FrameDecoder.new Ref.lzw .new).decodeFrame f).2.1.buffer = [1, 2, 3, 0, 1, 2]) := by decide +kernel

/-- An interlaced frame without data: one call that gives nothing, and the error. -/
example : let f := { Frame.default with width := 3, height := 2, interlaced := true, buffer := [] }
    (FrameDecoder.new Ref.lzw .new).frameCalls f = 1 ∧
    (match ((FrameDecoder.new Ref.lzw .new).decodeFrame f).2.2 with
      | .err (.format .imageTruncated) => true
      | _ => false) = true := by decide +kernel

end Gif.FrameDecoder
