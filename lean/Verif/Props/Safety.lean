import Verif.Lemmas.DecRun
import Verif.Spec.History
import Verif.Ref.Safe
/-!
# Safety of the high-level decoder: C11, C12, C13, C38, C39 (first part), C40, C46

They quantify over every reader (any bytes, any cut into reads, any read errors), all options, and every history of calls.
The only assumption about the LZW codec is memory safety.
-/

namespace Gif

variable {C : Codec}

namespace Decoder

theorem perform_inv (hS : C.Safe) (d : Decoder C) (hi : d.Inv) (op : Op) :
    (d.perform op).1.Inv ∧ (d.perform op).2.returns = true ∧ (d.perform op).1.conv = d.conv ∧
      (d.perform op).1.bgColor = d.bgColor := by
  cases op with
  | nextFrameInfo =>
    obtain ⟨h1, h2⟩ := inv_nextFrameInfo hS d hi
    obtain ⟨_, _, _, h4, h5, _⟩ := frameRun_spec hS (nextFrameInfo_run hS d hi.rd) hi.rd
    simp only [perform]
    generalize d.nextFrameInfo = x at *
    obtain ⟨d', r⟩ := x
    cases r with
    | ok b => exact ⟨h1, rfl, h4, h5⟩
    | err e => exact ⟨h1, rfl, h4, h5⟩
    | panic => cases h2
    | diverge => cases h2
  | readNextFrame =>
    obtain ⟨h1, h2, h4, h5, _⟩ := readNextFrame_spec hS d hi
    simp only [perform]
    generalize d.readNextFrame = x at *
    obtain ⟨d', r⟩ := x
    cases r with
    | ok b => exact ⟨h1, rfl, h4, h5⟩
    | err e => exact ⟨h1, rfl, h4, h5⟩
    | panic => cases h2
    | diverge => cases h2
  | readIntoBuffer buf =>
    obtain ⟨h1, h2, h3⟩ := inv_readIntoBuffer hS d buf hi
    exact ⟨h1, h2, rfl, rfl⟩
  | fillBuffer buf =>
    obtain ⟨h1, h2, h3⟩ := inv_fillBuffer hS d buf hi
    simp only [perform]
    have hc : (d.fillBuffer buf).1.conv = d.conv := rfl
    have hb : (d.fillBuffer buf).1.bgColor = d.bgColor := rfl
    generalize d.fillBuffer buf = x at *
    obtain ⟨d', b, r⟩ := x
    cases r with
    | ok b => exact ⟨h1, rfl, hc, hb⟩
    | err e => exact ⟨h1, rfl, hc, hb⟩
    | panic => cases h2
    | diverge => cases h2

theorem reach_inv (hS : C.Safe) {o : DecodeOptions} {r : Reader} {d : Decoder C} (h : Reach o r d) :
    d.Inv ∧ d.conv = (readInfo C o r).1.conv ∧ d.bgColor = (readInfo C o r).1.bgColor := by
  induction h with
  | opened h => exact ⟨(inv_readInfo hS o r).1, rfl, rfl⟩
  | @op d h op hr ih =>
    obtain ⟨h1, _, h3, h4⟩ := perform_inv hS d ih.1 op
    exact ⟨h1, h3.trans ih.2.1, h4.trans ih.2.2⟩

/-! ## C11, C12 -/

/-- C11: `read_info` and every call on every reachable decoder never panic. -/
theorem no_panic (hS : C.Safe) (o : DecodeOptions) (r : Reader) :
    (readInfo C o r).2 ≠ .panic ∧ ∀ (d : Decoder C), Reach o r d → ∀ op, (d.perform op).2 ≠ .panic := by
  constructor
  · intro h
    have := (inv_readInfo hS o r).2
    rw [h] at this; cases this
  · intro d hd op h
    have := (perform_inv hS d (reach_inv hS hd).1 op).2.1
    rw [h] at this; cases this

/-- C12: `read_info` and every call on every reachable decoder return: no loop of the model runs out of its fuel, which is
linear in the remaining input and the size of the buffers. -/
theorem calls_terminate (hS : C.Safe) (o : DecodeOptions) (r : Reader) :
    (readInfo C o r).2 ≠ .diverge ∧ ∀ (d : Decoder C), Reach o r d → ∀ op, (d.perform op).2 ≠ .diverge := by
  constructor
  · intro h
    have := (inv_readInfo hS o r).2
    rw [h] at this; cases this
  · intro d hd op h
    have := (perform_inv hS d (reach_inv hS hd).1 op).2.1
    rw [h] at this; cases this

end Decoder

namespace DecoderIter

theorem next_inv (hS : C.Safe) (it : DecoderIter C) (hi : it.inner.Inv) :
    it.next.1.inner.Inv ∧ it.next.2.returns = true := by
  unfold next
  split
  · exact ⟨hi, rfl⟩
  · obtain ⟨h1, h2, _⟩ := Decoder.readNextFrame_spec hS it.inner hi
    generalize it.inner.readNextFrame = x at *
    obtain ⟨d, r⟩ := x
    have hk : (d.takeCurrentFrame).1.Inv := by
      unfold Decoder.takeCurrentFrame
      split
      · exact h1
      · exact ⟨h1.rd, h1.limit⟩
    cases r with
    | ok f =>
      cases f with
      | some f =>
        simp only
        generalize d.takeCurrentFrame = y at *
        obtain ⟨d', g⟩ := y
        cases g <;> exact ⟨hk, rfl⟩
      | none => exact ⟨h1, rfl⟩
    | err e => exact ⟨h1, rfl⟩
    | panic => cases h2
    | diverge => cases h2

theorem reach_inv (hS : C.Safe) {o : DecodeOptions} {r : Reader} {it : DecoderIter C} (h : Reach o r it) : it.inner.Inv := by
  induction h with
  | new h => exact (Decoder.reach_inv hS h).1
  | next h hr ih => exact (next_inv hS _ ih).1

/-- C11 for the iterator. -/
theorem next_no_panic (hS : C.Safe) {o : DecodeOptions} {r : Reader} {it : DecoderIter C} (h : Reach o r it) :
    it.next.2 ≠ .panic := by
  intro hp
  have := (next_inv hS it (reach_inv hS h)).2
  rw [hp] at this; cases this

/-- C12 for the iterator. -/
theorem next_terminates (hS : C.Safe) {o : DecodeOptions} {r : Reader} {it : DecoderIter C} (h : Reach o r it) :
    it.next.2 ≠ .diverge := by
  intro hp
  have := (next_inv hS it (reach_inv hS h)).2
  rw [hp] at this; cases this

end DecoderIter

namespace FrameDecoder

/-- The data callback of `FrameDecoder`. -/
theorem pull_good (hS : C.Safe) : (pull (C := C)).Good (fun t => t.1.decoder.isSome) := by
  intro t cap hP
  have key : ∀ (fuel : Nat) (t : LzwReader C × List UInt8), t.1.decoder.isSome → t.2.length < fuel →
      (pullLoop cap fuel t).1.1.decoder.isSome ∧ (pullLoop cap fuel t).2.returns = true ∧
      ∀ bytes, (pullLoop cap fuel t).2 = .ok bytes → bytes.length ≤ cap := by
    intro fuel
    induction fuel with
    | zero => intro t _ h; omega
    | succ fuel ih =>
      rintro ⟨lzw, data⟩ hd hf
      rw [pullLoop]
      have hret : (lzw.decodeBytes data (.slice cap)).2.returns = true := by
        unfold LzwReader.decodeBytes
        cases hx : lzw.decoder with
        | none => rw [hx] at hd; cases hd
        | some d => simp only; split <;> (try split) <;> rfl
      match hx : lzw.decodeBytes data (.slice cap) with
      | (lzw', .ok (read, bytes)) =>
        have hd' := SD.decodeBytes_decoder hx hd
        obtain ⟨b1, b2, _⟩ := SD.decodeBytes_bounds hS hx
        simp only
        split
        · refine ⟨hd', rfl, ?_⟩
          intro bytes' hb
          cases hb
          exact b2
        · rename_i hc
          have h0 : read ≠ 0 := fun h => hc (.inr (.inl h))
          exact ih (lzw', data.drop read) hd' (by simp only [List.length_drop] at hf ⊢; omega)
      | (lzw', .err e) => exact ⟨SD.decodeBytes_decoder hx hd, rfl, by intro b h; cases h⟩
      | (lzw', .panic) => rw [hx] at hret; cases hret
      | (lzw', .diverge) => rw [hx] at hret; cases hret
  exact key _ t hP (Nat.lt_succ_self _)

theorem decodeIntoBuffer_returns (hS : C.Safe) (d : FrameDecoder C) (f : Frame) (buf : List UInt8) :
    (d.decodeIntoBuffer f buf).2.2.returns = true ∧ (d.decodeIntoBuffer f buf).2.1.length = buf.length ∧
      (d.decodeIntoBuffer f buf).1.conv = d.conv := by
  have key : ∀ (m : UInt8) (data : List UInt8) (x : FrameDecoder C × List UInt8 × Outcome Unit),
      x = (match d.lzw.reset m with
        | (lzw, .ok ()) =>
          match d.conv.readIntoBuffer f pull (lzw, data) buf with
          | ((lzw, _), buf, r) => ({ d with lzw := lzw }, buf, r)
        | (lzw, .err e) => ({ d with lzw := lzw }, buf, .err e)
        | (lzw, .panic) => ({ d with lzw := lzw }, buf, .panic)
        | (lzw, .diverge) => ({ d with lzw := lzw }, buf, .diverge)) →
      x.2.2.returns = true ∧ x.2.1.length = buf.length ∧ x.1.conv = d.conv := by
    intro m data x hx
    subst hx
    match hr : d.lzw.reset m with
    | (lzw, .ok ()) =>
      have hd := SD.reset_decoder hr
      obtain ⟨_, g2, g3⟩ := Converter.readIntoBuffer_good d.conv f (pull_good hS) (lzw, data) buf hd
      exact ⟨g2, g3, rfl⟩
    | (lzw, .err e) => exact ⟨rfl, rfl, rfl⟩
    | (lzw, .panic) =>
      unfold LzwReader.reset at hr
      split at hr
      · split at hr
        · split at hr <;> cases hr
        · cases hr
      · cases hr
    | (lzw, .diverge) =>
      unfold LzwReader.reset at hr
      split at hr
      · split at hr
        · split at hr <;> cases hr
        · cases hr
      · cases hr
  unfold decodeIntoBuffer
  cases f.buffer with
  | nil => exact key 2 [] _ rfl
  | cons m data => exact key m data _ rfl

theorem decodeFrame_spec (hS : C.Safe) (d : FrameDecoder C) (f : Frame) :
    (d.decodeFrame f).2.2.returns = true ∧ (d.decodeFrame f).1.conv = d.conv ∧
      ((d.decodeFrame f).2.2 = .ok () → (d.decodeFrame f).2.1.buffer.length = d.conv.bufferSize f ∧
        d.conv.memoryLimit.sizeOk (d.conv.bufferSize f) = true) := by
  unfold decodeFrame
  rcases Converter.checkBufferSize_cases d.conv f with ⟨h1, h2⟩ | ⟨h1, h2⟩
  · rw [h1]
    simp only
    obtain ⟨g1, g2, g3⟩ := decodeIntoBuffer_returns hS d f (List.replicate (d.conv.bufferSize f) 0)
    rw [List.length_replicate] at g2
    match hr : d.decodeIntoBuffer f (List.replicate (d.conv.bufferSize f) 0) with
    | (d', vec, .ok ()) => rw [hr] at g2 g3; exact ⟨rfl, g3, fun _ => ⟨g2, h2⟩⟩
    | (d', vec, .err e) => rw [hr] at g3; exact ⟨rfl, g3, by simp⟩
    | (d', vec, .panic) => rw [hr] at g1; cases g1
    | (d', vec, .diverge) => rw [hr] at g1; cases g1
  · rw [h1]
    exact ⟨rfl, rfl, by simp⟩

/-- C11 and C12 for `FrameDecoder`: its two decoding calls return, whatever frame they are given. -/
theorem calls_return (hS : C.Safe) (d : FrameDecoder C) (f : Frame) (buf : List UInt8) :
    (d.decodeFrame f).2.2.returns = true ∧ (d.decodeIntoBuffer f buf).2.2.returns = true :=
  ⟨(decodeFrame_spec hS d f).1, (decodeIntoBuffer_returns hS d f buf).1⟩

/-- C13 for `FrameDecoder`. -/
theorem frame_within_limit (hS : C.Safe) {o : DecodeOptions} {d : FrameDecoder C} (h : Reach o d) {n : Nat} {hn : 0 < n}
    (hl : o.memoryLimit = .bytes n hn) (f : Frame) (hok : (d.decodeFrame f).2.2 = .ok ()) :
    (d.decodeFrame f).2.1.buffer.length ≤ n := by
  have hc : ∀ {d : FrameDecoder C}, Reach o d → d.conv.memoryLimit = o.memoryLimit := by
    intro d h
    induction h with
    | new => rfl
    | setGlobalPalette h p ih => exact ih
    | decodeFrame h f hr ih => rw [(decodeFrame_spec hS _ f).2.1]; exact ih
    | decodeIntoBuffer h f buf hr ih => rw [(decodeIntoBuffer_returns hS _ f buf).2.2]; exact ih
  obtain ⟨h1, h2⟩ := (decodeFrame_spec hS d f).2.2 hok
  rw [h1]
  rw [hc h, hl] at h2
  simpa [MemoryLimit.sizeOk] using h2

end FrameDecoder

namespace Decoder

/-! ## C13 -/

theorem readInfo_conv (hS : C.Safe) (o : DecodeOptions) (r : Reader) :
    (readInfo C o r).1.conv.memoryLimit = o.memoryLimit ∧ (readInfo C o r).1.conv.colorOutput = o.colorOutput := by
  have hr := initLoop_run hS _ (withNoInit C o r) (inv_withNoInit o r).rd (meas_lt_fuel _)
  obtain ⟨_, _, _, h4, h5, _⟩ := initRun_spec hS hr (inv_withNoInit o r).rd
  have key : ∀ d : Decoder C, d.checkBg.conv = d.conv := by
    intro d
    unfold checkBg
    split
    · split <;> rfl
    · rfl
  unfold readInfo init
  generalize initLoop (withNoInit C o r).rd.eventFuel (withNoInit C o r) = x at *
  obtain ⟨d, out⟩ := x
  simp only at h4 h5
  cases out with
  | ok u => cases u; simp only [key]; exact ⟨h4, h5⟩
  | err e => exact ⟨h4, h5⟩
  | panic => exact ⟨h4, h5⟩
  | diverge => exact ⟨h4, h5⟩

/-- C13: with `MemoryLimit::Bytes(n)` no frame that `read_next_frame` returns, in whatever mode and at whatever point of a
history, has a buffer of more than `n` bytes. -/
theorem frame_within_limit (hS : C.Safe) {o : DecodeOptions} {r : Reader} {d : Decoder C} (h : Reach o r d) {n : Nat}
    {hn : 0 < n} (hl : o.memoryLimit = .bytes n hn) {f : Frame} (hf : d.readNextFrame.2 = .ok (some f)) :
    f.buffer.length ≤ n := by
  obtain ⟨hi, hc, _⟩ := reach_inv hS h
  obtain ⟨_, _, _, _, _, h6, _⟩ := readNextFrame_spec hS d hi
  obtain ⟨_, h2, _⟩ := h6 f hf
  rw [hc, (readInfo_conv hS o r).1, hl] at h2
  simpa [MemoryLimit.sizeOk] using h2

/-- C13, the other half: in pixel mode the returned buffer has exactly the size of the frame, so a frame that is larger
than the limit is an error (the Rust code reports it as `OutOfMemory`). -/
theorem large_frame_is_error (hS : C.Safe) {o : DecodeOptions} {r : Reader} {d : Decoder C} (h : Reach o r d) {n : Nat}
    {hn : 0 < n} (hl : o.memoryLimit = .bytes n hn) (hfi : d.nextFrameInfo.2 = .ok true)
    (hdt : d.nextFrameInfo.1.dataType = .pixels) (hbig : n < d.nextFrameInfo.1.bufferSize) :
    d.readNextFrame.2 = .ioErr .outOfMemory := by
  obtain ⟨hi, hc, _⟩ := reach_inv hS h
  obtain ⟨_, _, _, h4, _⟩ := frameRun_spec hS (nextFrameInfo_run hS d hi.rd) hi.rd
  unfold readNextFrame
  generalize hx : d.nextFrameInfo = x at *
  obtain ⟨d1, out⟩ := x
  simp only at hfi hdt hbig h4
  subst hfi
  simp only [hdt]
  have hcb : d1.conv.checkBufferSize d1.currentFrame = .ioErr .outOfMemory := by
    rcases Converter.checkBufferSize_cases d1.conv d1.currentFrame with ⟨_, h2⟩ | ⟨h1, _⟩
    · rw [h4, hc, (readInfo_conv hS o r).1, hl] at h2
      simp only [MemoryLimit.sizeOk, decide_eq_true_eq] at h2
      have : d1.bufferSize = (readInfo C o r).1.conv.bufferSize d1.currentFrame := by
        unfold bufferSize; rw [h4, hc]
      omega
    · exact h1
  unfold Converter.readFrame
  rw [hcb]

/-! ## C46 -/

/-- C46: `next_frame_info` and `read_next_frame` never return a frame without a palette. -/
theorem frame_has_palette (hS : C.Safe) {o : DecodeOptions} {r : Reader} {d : Decoder C} (h : Reach o r d) :
    (d.nextFrameInfo.2 = .ok true → d.nextFrameInfo.1.palette ≠ .fmtErr .noColorTable ∧
      (d.nextFrameInfo.1.currentFrame.palette ≠ none ∨ d.nextFrameInfo.1.globalPalette ≠ none)) ∧
    (∀ f, d.readNextFrame.2 = .ok (some f) → f.palette ≠ none ∨ d.readNextFrame.1.globalPalette ≠ none) := by
  obtain ⟨hi, _⟩ := reach_inv hS h
  constructor
  · intro hx
    obtain ⟨_, _, _, h4, _, _, h7, _⟩ := frameRun_spec hS (nextFrameInfo_run hS d hi.rd) hi.rd
    have h8 := (h7 hx).2.2
    have : d.globalPalette = d.nextFrameInfo.1.globalPalette := by unfold globalPalette; rw [h4]
    rw [this] at h8
    refine ⟨?_, h8⟩
    unfold palette
    split
    · simp
    · split
      · simp
      · rename_i hb
        exfalso
        rcases h8 with h8 | h8
        · exact h8 ‹_›
        · exact h8 hb
  · intro f hf
    obtain ⟨_, _, h3, _, _, h6, _⟩ := readNextFrame_spec hS d hi
    have h8 := (h6 f hf).2.2.1
    have : d.globalPalette = d.readNextFrame.1.globalPalette := by unfold globalPalette; rw [h3]
    rw [this] at h8
    exact h8

/-! ## C40 -/

/-- C40: when there is a global palette, `bg_color()` is `None` or the index of one of its colours. -/
theorem bg_color_valid (hS : C.Safe) {o : DecodeOptions} {r : Reader} {d : Decoder C} (h : Reach o r d)
    {p : List UInt8} (hp : d.globalPalette = some p) {c : UInt8} (hc : d.bgColor = some c) :
    3 * c.toNat + 3 ≤ p.length := by
  obtain ⟨_, h1, h2⟩ := reach_inv hS h
  have hok : ∀ {d : Decoder C}, Reach o r d → (readInfo C o r).2 = .ok () := by
    intro d h
    induction h with
    | opened h => exact h
    | op h op hr ih => exact ih
  have hok := hok h
  have hp' : (readInfo C o r).1.conv.globalPalette = some p := by rw [← h1]; exact hp
  rw [h2] at hc
  have hconv : ∀ d0 : Decoder C, d0.checkBg.conv = d0.conv := by
    intro d0
    unfold checkBg
    split
    · split <;> rfl
    · rfl
  unfold readInfo init at hok hp' hc
  generalize initLoop (withNoInit C o r).rd.eventFuel (withNoInit C o r) = x at hok hp' hc
  obtain ⟨d0, out⟩ := x
  cases out with
  | ok u =>
    cases u
    simp only at hp' hc
    rw [hconv] at hp'
    unfold checkBg at hc
    rw [hp'] at hc
    simp only at hc
    split at hc
    · cases hc
    · rename_i hlt
      rw [hc] at hlt
      simp only [Option.getD_some] at hlt
      omega
  | err e => simp at hok
  | panic => simp at hok
  | diverge => simp at hok

/-! ## C39, first part -/

/-- A decoder at the end answers without touching its reader. -/
theorem at_end (d : Decoder C) (h : d.rd.atEof = true) :
    d.nextFrameInfo = (d, .ok false) ∧ d.readNextFrame = (d, .ok none) := by
  have h1 : d.rd.decodeNext .none = (d.rd, .ok none) := by
    unfold RD.decodeNext
    rw [show d.rd.reader.src.length + 3 = (d.rd.reader.src.length + 2) + 1 from rfl, RD.decodeNextLoop, if_pos h]
  have h2 : d.nextFrameInfo = (d, .ok false) := by
    unfold nextFrameInfo RD.eventFuel
    rw [show 4 * d.rd.reader.bytes.length + 8 = (4 * d.rd.reader.bytes.length + 7) + 1 from rfl, nextFrameLoop, h1]
  refine ⟨h2, ?_⟩
  unfold readNextFrame
  rw [h2]

/-- C39, first part: once `read_next_frame` has returned `Ok(None)`, all later calls return `Ok(None)` and nothing is read
from the reader any more: the decoder, which includes the reader, does not change at all. -/
theorem stays_at_end (hS : C.Safe) {o : DecodeOptions} {r : Reader} {d : Decoder C} (h : Reach o r d)
    (hn : d.readNextFrame.2 = .ok none) :
    d.readNextFrame.1.readNextFrame = (d.readNextFrame.1, .ok none) ∧
    d.readNextFrame.1.nextFrameInfo = (d.readNextFrame.1, .ok false) := by
  obtain ⟨hi, _⟩ := reach_inv hS h
  obtain ⟨_, _, _, _, _, _, h7⟩ := readNextFrame_spec hS d hi
  have := at_end _ (h7 hn).1
  exact ⟨this.2, this.1⟩

end Decoder

namespace DecoderIter

/-! ## C38 -/

/-- Two decoders that differ at most in the frame they last handed out. -/
def Same (a b : Decoder C) : Prop := a.rd = b.rd ∧ a.conv = b.conv

theorem nextFrameLoop_same : ∀ (fuel : Nat) (a b : Decoder C), Same a b →
    (a.nextFrameLoop fuel).2 = (b.nextFrameLoop fuel).2 ∧ Same (a.nextFrameLoop fuel).1 (b.nextFrameLoop fuel).1 ∧
    ((a.nextFrameLoop fuel).2 = .ok true → (a.nextFrameLoop fuel).1.currentFrame = (b.nextFrameLoop fuel).1.currentFrame ∧
      (a.nextFrameLoop fuel).1.dataType = (b.nextFrameLoop fuel).1.dataType) := by
  intro fuel
  induction fuel with
  | zero => intro a b h; exact ⟨rfl, h, fun h => by cases h⟩
  | succ fuel ih =>
    intro a b h
    obtain ⟨h1, h2⟩ := h
    rw [Decoder.nextFrameLoop, Decoder.nextFrameLoop, h1]
    match hx : b.rd.decodeNext .none with
    | (rd, .ok none) => exact ⟨rfl, ⟨rfl, h2⟩, fun h => by cases h⟩
    | (rd, .err e) => exact ⟨rfl, ⟨rfl, h2⟩, fun h => by cases h⟩
    | (rd, .panic) => exact ⟨rfl, ⟨rfl, h2⟩, fun h => by cases h⟩
    | (rd, .diverge) => exact ⟨rfl, ⟨rfl, h2⟩, fun h => by cases h⟩
    | (rd, .ok (some ev)) =>
      cases ev with
      | frameMetadata t =>
        simp only
        cases hc : rd.sd.current with
        | none => exact ⟨rfl, ⟨rfl, h2⟩, fun h => by cases h⟩
        | some f =>
          have same : ∀ (p q : Bool) (a' b' : Decoder C), p = q → Same a' b' → a'.currentFrame = b'.currentFrame →
              a'.dataType = b'.dataType →
              let x : Decoder C × Outcome Bool := if a'.currentFrame.palette.isNone ∧ p then (a', .fmtErr .noColorTable)
                else (a', .ok true)
              let y : Decoder C × Outcome Bool := if b'.currentFrame.palette.isNone ∧ q then (b', .fmtErr .noColorTable)
                else (b', .ok true)
              x.2 = y.2 ∧ Same x.1 y.1 ∧ (x.2 = .ok true → x.1.currentFrame = y.1.currentFrame ∧
                x.1.dataType = y.1.dataType) := by
            intro p q a' b' hpq h1 h2 h3
            subst hpq
            simp only [h2]
            by_cases hp : b'.currentFrame.palette.isNone ∧ p
            · simp only [if_pos hp]; exact ⟨trivial, h1, fun _ => ⟨h2, h3⟩⟩
            · simp only [if_neg hp]; exact ⟨trivial, h1, fun _ => ⟨h2, h3⟩⟩
          let rd' : RD C := { rd with sd := { rd.sd with current := some f.afterTake } }
          exact same _ _ { a with rd := rd', currentFrame := f.take, dataType := t }
            { b with rd := rd', currentFrame := f.take, dataType := t }
            (congrArg (fun c : Converter => c.globalPalette.isNone) h2) ⟨rfl, h2⟩ rfl rfl
      | _ => exact ih { a with rd := rd } { b with rd := rd } ⟨rfl, h2⟩

theorem readNextFrame_same (a b : Decoder C) (h : Same a b) :
    a.readNextFrame.2 = b.readNextFrame.2 ∧ Same a.readNextFrame.1 b.readNextFrame.1 := by
  have key := nextFrameLoop_same a.rd.eventFuel a b h
  have hf : b.nextFrameInfo = b.nextFrameLoop a.rd.eventFuel := by
    unfold Decoder.nextFrameInfo; rw [h.1]
  unfold Decoder.readNextFrame
  rw [hf]
  unfold Decoder.nextFrameInfo
  generalize a.nextFrameLoop a.rd.eventFuel = x at *
  generalize b.nextFrameLoop a.rd.eventFuel = y at *
  obtain ⟨a', ra⟩ := x
  obtain ⟨b', rb⟩ := y
  obtain ⟨k1, ⟨k2, k3⟩, k4⟩ := key
  simp only at k1 k2 k3 k4
  subst k1
  cases ra with
  | ok t =>
    cases t with
    | true =>
      obtain ⟨k5, k6⟩ := k4 rfl
      simp only [k2, k3, k5, k6]
      split
      · split <;> exact ⟨rfl, rfl, by simp⟩
      · split <;> exact ⟨rfl, rfl, by simp⟩
    | false => exact ⟨rfl, k2, k3⟩
  | err e => exact ⟨rfl, k2, k3⟩
  | panic => exact ⟨rfl, k2, k3⟩
  | diverge => exact ⟨rfl, k2, k3⟩

/-- What `n` calls of `next()` should yield: the results of `read_next_frame` up to the first `Ok(None)` or error, then
`None`. -/
def expected : Nat → Decoder C → List (Option (Except DecodingError Frame))
  | 0, _ => []
  | n + 1, d =>
    match d.readNextFrame.2 with
    | .ok (some f) => some (.ok f) :: expected n d.readNextFrame.1
    | .err e => some (.error e) :: List.replicate n none
    | _ => none :: List.replicate n none

/-- What `n` calls of `next()` yield. -/
def items : Nat → DecoderIter C → List (Option (Except DecodingError Frame))
  | 0, _ => []
  | n + 1, it =>
    (match it.next.2 with
      | .ok x => x
      | _ => none) :: items n it.next.1

theorem items_ended : ∀ (n : Nat) (it : DecoderIter C), it.ended = true → items n it = List.replicate n none := by
  intro n
  induction n with
  | zero => intro it _; rfl
  | succ n ih =>
    intro it h
    have : it.next = (it, .ok none) := by unfold next; rw [if_pos h]
    rw [items, this, ih it h]
    rfl

/-- C38 (partial): the iterator yields exactly what `read_next_frame` returns, then at most one error, then `None` forever,
provided no frame of the file has an empty area.

Missing from C38: frames with an empty area, where it is false, see `iterator_not_fused`. -/
theorem iterator_agrees_partial (hS : C.Safe) {o : DecodeOptions} {r : Reader} {d : Decoder C} (h : Decoder.Reach o r d)
    (n : Nat) (hne : ∀ f, some (.ok f) ∈ expected n d → f.width ≠ 0 ∧ f.height ≠ 0) :
    items n (new d) = expected n d := by
  have key : ∀ (n : Nat) (it : DecoderIter C) (d : Decoder C), it.ended = false → Same it.inner d → d.Inv →
      it.inner.Inv → (∀ f, some (.ok f) ∈ expected n d → f.width ≠ 0 ∧ f.height ≠ 0) → items n it = expected n d := by
    intro n
    induction n with
    | zero => intros; rfl
    | succ n ih =>
      intro it d he hsame hi hi' hne
      obtain ⟨s1, s2⟩ := readNextFrame_same it.inner d hsame
      obtain ⟨g1, g2, g3, g4, g5, g6, g7⟩ := Decoder.readNextFrame_spec hS d hi
      obtain ⟨q1, q2, q3, q4, q5, q6, q7⟩ := Decoder.readNextFrame_spec hS it.inner hi'
      rw [items, expected]
      rw [expected] at hne
      unfold next
      rw [if_neg (by simp [he])]
      generalize hx : it.inner.readNextFrame = x at *
      generalize hy : d.readNextFrame = y at *
      obtain ⟨d1, r1⟩ := x
      obtain ⟨d2, r2⟩ := y
      simp only at *
      subst s1
      cases r1 with
      | ok f =>
        cases f with
        | none => simp only; rw [items_ended _ _ rfl]
        | some f =>
          simp only at hne ⊢
          obtain ⟨w, hh⟩ := hne f List.mem_cons_self
          obtain ⟨a1, a2, a3, a4, a5, a6⟩ := q6 f rfl
          have hbuf : d1.currentFrame.buffer ≠ [] := by
            rw [a1]
            intro hb
            cases hdt : it.inner.nextFrameInfo.1.dataType with
            | pixels =>
              have := a5 hdt
              rw [hb] at this
              unfold Converter.bufferSize Converter.lineLength at this
              have hw : f.width.toNat ≠ 0 := fun h => w (UInt16.toNat_inj.1 (by simpa using h))
              have hh' : f.height.toNat ≠ 0 := fun h => hh (UInt16.toNat_inj.1 (by simpa using h))
              have hp : 0 < f.width.toNat * f.height.toNat :=
                Nat.mul_pos (Nat.pos_of_ne_zero hw) (Nat.pos_of_ne_zero hh')
              have hp4 : 0 < f.width.toNat * 4 * f.height.toNat :=
                Nat.mul_pos (Nat.mul_pos (Nat.pos_of_ne_zero hw) (by decide)) (Nat.pos_of_ne_zero hh')
              split at this <;> simp only [List.length_nil] at this <;> omega
            | lzw m =>
              obtain ⟨data, hd⟩ := a6 m hdt
              rw [hb] at hd; cases hd
          have ht : d1.takeCurrentFrame = ({ d1 with currentFrame := d1.currentFrame.afterTake }, some d1.currentFrame.take) := by
            unfold Decoder.takeCurrentFrame
            rw [if_neg (by simpa using hbuf)]
          rw [ht]
          simp only [Frame.take, a1]
          rw [ih { inner := { d1 with currentFrame := f.afterTake }, ended := it.ended } d2 he s2 g1 ⟨q1.rd, q1.limit⟩
            (fun f hf => hne f (List.mem_cons_of_mem _ hf))]
      | err e => simp only; rw [items_ended _ _ rfl]
      | panic => cases g2
      | diverge => cases g2
  have hi := (Decoder.reach_inv hS h).1
  exact key n (new d) d rfl ⟨rfl, rfl⟩ hi hi hne

/-- A file of two images: the first is interlaced and has height 0, the second is an ordinary 1x1 image. -/
def emptyFirstFrame : List UInt8 :=
  [0x47, 0x49, 0x46, 0x38, 0x39, 0x61, 1, 0, 1, 0, 0x80, 0, 0, 10, 20, 30, 40, 50, 60,
   0x2C, 0, 0, 0, 0, 1, 0, 0, 0, 0x40, 2, 1, 0x2C, 0,
   0x2C, 0, 0, 0, 0, 1, 0, 1, 0, 0, 2, 2, 0x4C, 0x01, 0, 0x3B]

/-- The decoder of that file. -/
def emptyFirstDecoder : Decoder Ref.lzw :=
  (Decoder.readInfo Ref.lzw DecodeOptions.new { buf := [], src := [.data emptyFirstFrame] }).1

set_option maxRecDepth 100000 in
/-- C38, the rest is false: on this file the iterator first yields `None` although `read_next_frame` returns two frames, and
after `None` it yields a frame: it is not fused. -/
theorem iterator_not_fused :
    Decoder.Reach DecodeOptions.new { buf := [], src := [.data emptyFirstFrame] } emptyFirstDecoder ∧
    (items 4 (new emptyFirstDecoder)).map (Option.map fun x => x.toOption.map Frame.buffer) =
      [none, some (some [1]), none, none] ∧
    (expected 4 emptyFirstDecoder).map (Option.map fun x => x.toOption.map Frame.buffer) =
      [some (some []), some (some [1]), none, none] :=
  ⟨.opened (by decide +kernel), by decide +kernel, by decide +kernel⟩

end DecoderIter

namespace Decoder

/-! ## A concrete decoder that meets the hypotheses -/

/-- An animation with two 2x1 frames, the second with a local palette, behind a reader that hands over odd pieces. -/
def sampleReader : Reader :=
  { buf := [], src := [.data [0x47, 0x49, 0x46, 0x38, 0x39], .data [0x61, 2, 0, 1, 0, 0x80, 1, 0, 10, 20, 30, 40, 50],
      .data [60, 0x2C, 0, 0, 0, 0, 2, 0, 1, 0, 0, 2, 2, 0x4C], .err 7, .data [0x0A, 0],
      .data [0x2C, 0, 0, 0, 0, 2, 0, 1, 0, 0x80, 1, 2, 3, 4, 5, 6, 2, 2, 0x4C, 0x0A, 0, 0x3B, 99]] }

/-- Its decoder, with a limit of two bytes. -/
def sampleOptions : DecodeOptions := { DecodeOptions.new with memoryLimit := .bytes 2 (by decide) }

/-- The decoder after `read_info`. -/
def sample : Decoder Ref.lzw := (readInfo Ref.lzw sampleOptions sampleReader).1

set_option maxRecDepth 100000 in
/-- The hypotheses of C11-C13, C39, C40 and C46 are met: `read_info` succeeds, there is a global palette and a valid
background colour; the read error is reported, and after it the frames and the end follow. -/
example : Reach sampleOptions sampleReader sample ∧ sample.globalPalette = some [10, 20, 30, 40, 50, 60] ∧
    sample.bgColor = some 1 ∧
    sample.readNextFrame.2 = .ioErr (.reader 7) ∧
    sample.readNextFrame.1.nextFrameInfo.2 = .ok true ∧
    sample.readNextFrame.1.nextFrameInfo.1.palette = .ok [1, 2, 3, 4, 5, 6] ∧
    sample.readNextFrame.1.readNextFrame.1.readNextFrame.2 = .ok none ∧
    sample.readNextFrame.1.readNextFrame.1.readNextFrame.1.rd.reader.bytes = [99] :=
  ⟨.opened (by decide +kernel), by decide +kernel, by decide +kernel, by decide +kernel, by decide +kernel,
    by decide +kernel, by decide +kernel, by decide +kernel⟩

end Decoder

end Gif
