import Verif.Lemmas.WorkSum
import Verif.Lemmas.History
import Verif.Lemmas.Remain
import Verif.Props.Safety
import Verif.Ref.Lzw
/-!
# The work of a decoder is linear in the bytes it reads and the pixels it may deliver (C78)
-/

namespace Gif

variable {C : Codec}

namespace Decoder

theorem initLoop_work (hS : C.Safe) (N : Nat) : ∀ (fuel : Nat) (d : Decoder C), d.rd.Inv → d.rd.reader.bytes.length ≤ N →
    initWork fuel d.rd + (initLoop fuel d).1.rd.meas ≤ d.rd.meas + fee (4 * N + 4) (initLoop fuel d).2 := by
  intro fuel
  induction fuel with
  | zero => intro d _ _; simp [initWork, initLoop, fee]
  | succ fuel ih =>
    intro d hi hN
    obtain ⟨k1, k2, k3⟩ := RD.decodeNext_work hS .none d.rd hi N hN
    have kmade : ∀ d' ev, d.rd.decodeNext .none = (d', .ok (some ev)) → SD.made ev = 0 :=
      fun d' ev h => RD.decodeNext_made hS (by simp) hi h
    have hp := RD.decodeNext_pull hS .none d.rd hi
    have hinv := RD.pull_inv hS hp hi
    have hret := RD.pull_returns hp
    have hsuf := (RD.pull_suffix hS hp hi).length_le
    have hr := SD.rank_le (d.rd.decodeNext .none).1.sd
    rw [initWork, initLoop]
    generalize d.rd.decodeNext .none = x at *
    obtain ⟨rd, out⟩ := x
    simp only at hinv hret hsuf hr
    have hm : rd.meas = 4 * rd.reader.bytes.length + rd.sd.rank := rfl
    cases out with
    | ok ev =>
      cases ev with
      | none =>
        have := k1 rd rfl
        simp only [fee, DecodingError.own, if_true]
        omega
      | some ev =>
        have j := (k2 rd ev rfl).2 (.inl (by intro h; cases h))
        rw [kmade rd ev rfl] at j
        have goOn : ∀ (d' : Decoder C), d'.rd = rd →
            d.rd.pullWork .none + initWork fuel rd + (initLoop fuel d').1.rd.meas ≤
              d.rd.meas + fee (4 * N + 4) (initLoop fuel d').2 := by
          intro d' hd'
          have := ih d' (by rw [hd']; exact hinv) (by rw [hd']; omega)
          rw [hd'] at this
          omega
        cases ev with
        | headerEnd => simp only [fee]; omega
        | _ => exact goOn _ rfl
    | err e => have := k3 rd e rfl; simp only [fee]; omega
    | panic => cases hret
    | diverge => cases hret

theorem nextFrameLoop_work (hS : C.Safe) (N : Nat) : ∀ (fuel : Nat) (d : Decoder C), d.rd.Inv →
    d.rd.reader.bytes.length ≤ N →
    nextFrameWork fuel d.rd + (nextFrameLoop fuel d).1.rd.meas ≤ d.rd.meas + fee (4 * N + 4) (nextFrameLoop fuel d).2 := by
  intro fuel
  induction fuel with
  | zero => intro d _ _; simp [nextFrameWork, nextFrameLoop, fee]
  | succ fuel ih =>
    intro d hi hN
    obtain ⟨k1, k2, k3⟩ := RD.decodeNext_work hS .none d.rd hi N hN
    have kmade : ∀ d' ev, d.rd.decodeNext .none = (d', .ok (some ev)) → SD.made ev = 0 :=
      fun d' ev h => RD.decodeNext_made hS (by simp) hi h
    have hp := RD.decodeNext_pull hS .none d.rd hi
    have hinv := RD.pull_inv hS hp hi
    have hret := RD.pull_returns hp
    have hsuf := (RD.pull_suffix hS hp hi).length_le
    rw [nextFrameWork, nextFrameLoop]
    generalize d.rd.decodeNext .none = x at *
    obtain ⟨rd, out⟩ := x
    simp only at hinv hret hsuf
    have hm : rd.meas = 4 * rd.reader.bytes.length + rd.sd.rank := rfl
    cases out with
    | ok ev =>
      cases ev with
      | none =>
        have := k1 rd rfl
        simp only [fee]
        omega
      | some ev =>
        have j := (k2 rd ev rfl).2 (.inl (by intro h; cases h))
        rw [kmade rd ev rfl] at j
        have goOn : ∀ (d' : Decoder C), d'.rd = rd →
            d.rd.pullWork .none + nextFrameWork fuel rd + (nextFrameLoop fuel d').1.rd.meas ≤
              d.rd.meas + fee (4 * N + 4) (nextFrameLoop fuel d').2 := by
          intro d' hd'
          have := ih d' (by rw [hd']; exact hinv) (by rw [hd']; omega)
          rw [hd'] at this
          omega
        cases ev with
        | frameMetadata t =>
          simp only
          cases hc : rd.sd.current with
          | none => simp only [fee]; omega
          | some f =>
            have hm2 : RD.meas { rd with sd := { rd.sd with current := some f.afterTake } } = rd.meas := rfl
            simp only
            split
            · simp only [fee, hm2]; omega
            · simp only [fee, hm2]; omega
        | _ => exact goOn _ rfl
    | err e => have := k3 rd e rfl; simp only [fee]; omega
    | panic => cases hret
    | diverge => cases hret

theorem copyLoop_work (hS : C.Safe) (N : Nat) : ∀ (fuel : Nat) (rd : RD C) (vec : List UInt8), rd.Inv →
    rd.reader.bytes.length ≤ N →
    copyWork fuel rd vec + (copyLoop fuel rd vec).1.meas ≤ rd.meas + fee (4 * N + 4) (copyLoop fuel rd vec).2.2 := by
  intro fuel
  induction fuel with
  | zero => intro rd vec _ _; simp [copyWork, copyLoop, fee]
  | succ fuel ih =>
    intro rd0 vec hi hN
    obtain ⟨k1, k2, k3⟩ := RD.decodeNext_work hS (.vec vec.length) rd0 hi N hN
    have kmade : ∀ d' ev, rd0.decodeNext (.vec vec.length) = (d', .ok (some ev)) → SD.made ev = 0 :=
      fun d' ev h => RD.decodeNext_made hS (by simp) hi h
    have hp := RD.decodeNext_pull hS (.vec vec.length) rd0 hi
    have hinv := RD.pull_inv hS hp hi
    have hret := RD.pull_returns hp
    have hsuf := (RD.pull_suffix hS hp hi).length_le
    rw [copyWork, copyLoop]
    generalize rd0.decodeNext (.vec vec.length) = x at *
    obtain ⟨rd, out⟩ := x
    simp only at hinv hret hsuf
    cases out with
    | ok ev =>
      cases ev with
      | none =>
        have := k1 rd rfl
        simp only [fee]
        omega
      | some ev =>
        have j := (k2 rd ev rfl).2 (.inl (by intro h; cases h))
        rw [kmade rd ev rfl] at j
        cases ev with
        | lzwDataCopied bytes =>
          have := ih rd (vec ++ bytes) hinv (by omega)
          simp only
          omega
        | _ => simp only [fee]; omega
    | err e => have := k3 rd e rfl; simp only [fee]; omega
    | panic => cases hret
    | diverge => cases hret

/-- One call: its steps are paid with the bytes it reads, the pixels it may deliver, and, if it fails, one look at all
that was unread. -/
theorem perform_work (hS : C.Safe) (N : Nat) (d : Decoder C) (hi : d.rd.Inv) (hN : d.rd.reader.bytes.length ≤ N)
    (op : Op) : d.work op + (d.perform op).1.rd.meas ≤ d.rd.meas + d.room op + fee (4 * N + 4) (d.perform op).2 := by
  have hpaid := RD.countedBytes_paid (C := C) hS N
  cases op with
  | nextFrameInfo =>
    have := nextFrameLoop_work hS N d.rd.eventFuel d hi hN
    simp only [work, room, perform, nextFrameInfo]
    generalize nextFrameLoop d.rd.eventFuel d = x at *
    obtain ⟨d', out⟩ := x
    cases out <;> simp only [fee] at this ⊢ <;> omega
  | readNextFrame =>
    have h1 := nextFrameLoop_work hS N d.rd.eventFuel d hi hN
    have hleft := (nextFrameInfo_left d).2.length_le
    have hinv := (frameRun_spec hS (nextFrameInfo_run hS d hi) hi).1
    change _ + d.nextFrameInfo.1.rd.meas ≤ _ + fee _ d.nextFrameInfo.2 at h1
    simp only [work, room, perform, readNextFrame]
    generalize d.nextFrameInfo = x at *
    obtain ⟨d1, out⟩ := x
    simp only at hleft hinv
    cases out with
    | ok b =>
      cases b with
      | false => simp only [fee] at h1 ⊢; omega
      | true =>
        simp only [fee] at h1 ⊢
        cases ht : d1.dataType with
        | pixels =>
          have h2 := Converter.readFrame_over d1.conv d1.currentFrame (RD.countedBytes_over (C := C)) (d1.rd, 0)
          have h3 := Converter.readFrame_paid d1.conv d1.currentFrame hpaid (d1.rd, 0) ⟨hinv, by simp only; omega⟩
          simp only at h2 h3 ⊢
          rw [h2]
          generalize d1.conv.readFrame d1.currentFrame RD.countedBytes (d1.rd, 0) = x at *
          obtain ⟨⟨rd, k⟩, f, out⟩ := x
          cases out <;> simp only [fee] at h3 ⊢ <;> omega
        | lzw m =>
          have h3 := copyLoop_work hS N d1.rd.eventFuel d1.rd [m] hinv (by omega)
          simp only [copyLzw]
          generalize copyLoop d1.rd.eventFuel d1.rd [m] = x at *
          obtain ⟨rd, vec, out⟩ := x
          cases out <;> simp only [fee] at h3 ⊢ <;> omega
    | err e => simp only [fee] at h1 ⊢; omega
    | panic => simp only [fee] at h1 ⊢; omega
    | diverge => simp only [fee] at h1 ⊢; omega
  | readIntoBuffer buf =>
    have h1 := Converter.readIntoBuffer_over d.conv d.currentFrame (RD.countedBytes_over (C := C)) (d.rd, 0) buf
    have h2 := Converter.readIntoBuffer_paid d.conv d.currentFrame hpaid (d.rd, 0) buf ⟨hi, hN⟩
    simp only [work, room, perform, readIntoBuffer]
    simp only at h1 h2
    rw [h1]
    generalize d.conv.readIntoBuffer d.currentFrame RD.countedBytes (d.rd, 0) buf = x at *
    obtain ⟨⟨rd, k⟩, buf', out⟩ := x
    simp only at h2 ⊢
    omega
  | fillBuffer buf =>
    have h1 := Converter.fillBuffer_over d.conv d.currentFrame (RD.countedBytes_over (C := C)) (d.rd, 0) buf
    have h2 := Converter.fillBuffer_paid d.conv d.currentFrame hpaid (d.rd, 0) buf ⟨hi, hN⟩
    have h3 : buf.length / d.conv.chan ≤ buf.length := Nat.div_le_self _ _
    simp only [work, room, perform, fillBuffer]
    simp only at h1 h2
    rw [h1]
    generalize d.conv.fillBuffer d.currentFrame RD.countedBytes (d.rd, 0) buf = x at *
    obtain ⟨⟨rd, k⟩, buf', out⟩ := x
    cases out <;> simp only [fee] at h2 ⊢ <;> omega

theorem perform_left (d : Decoder C) (op : Op) : d.rd.reader.Left (d.perform op).1.rd.reader := by
  cases op with
  | nextFrameInfo =>
    have := nextFrameInfo_left d
    simp only [perform]
    generalize d.nextFrameInfo = x at *
    obtain ⟨d', out⟩ := x
    cases out <;> exact this
  | readNextFrame =>
    have := readNextFrame_left d
    simp only [perform]
    generalize d.readNextFrame = x at *
    obtain ⟨d', out⟩ := x
    cases out <;> exact this
  | readIntoBuffer buf =>
    have := readIntoBuffer_left d buf
    simp only [perform]
    generalize d.readIntoBuffer buf = x at *
    exact this
  | fillBuffer buf =>
    have := fillBuffer_left d buf
    simp only [perform]
    generalize d.fillBuffer buf = x at *
    obtain ⟨d', b, out⟩ := x
    cases out <;> exact this

theorem fee_le_bad {α : Type} (S : Nat) (out : Outcome α) (h : out.returns = true) :
    fee S out = (if out.Bad then 1 else 0) * S := by
  cases out with
  | ok a => simp [fee, Outcome.Bad]
  | err e =>
    cases e with
    | format e => simp [fee, Outcome.Bad, DecodingError.own]
    | io e => cases e <;> simp [fee, Outcome.Bad, DecodingError.own]
  | panic => cases h
  | diverge => cases h

theorem toil_le (hS : C.Safe) (N : Nat) : ∀ (ops : List Op) (d : Decoder C), d.Inv → d.rd.reader.bytes.length ≤ N →
    (Spec.toil d ops).1 ≤ d.rd.meas + (Spec.toil d ops).2.1 + (Spec.toil d ops).2.2 * (4 * N + 4) := by
  intro ops
  induction ops with
  | nil => intro d _ _; simp [Spec.toil]
  | cons op ops ih =>
    intro d hi hN
    obtain ⟨p1, p2, _⟩ := perform_inv hS d hi op
    have p3 := (perform_left d op).2.length_le
    have h1 := perform_work hS N d hi.rd hN op
    have h2 := ih (d.perform op).1 p1 (by omega)
    rw [fee_le_bad _ _ p2] at h1
    simp only [Spec.toil]
    generalize Spec.toil (d.perform op).1 ops = x at *
    obtain ⟨w, r, b⟩ := x
    simp only at h2 ⊢
    rw [Nat.add_mul]
    omega

/-- **C78**: however a program uses a decoder, also after errors, the steps of the state machine are linear in the bytes of the
reader and the pixels it asks for: at most four steps for a byte and one for a pixel. Only a call that fails for another
reason than the reader may go over all the unread bytes without using them up. -/
theorem work_is_linear (hS : C.Safe) (o : DecodeOptions) (r : Reader) (h : (readInfo C o r).2 = .ok ()) (ops : List Op) :
    openWork C o r + (Spec.toil (readInfo C o r).1 ops).1 ≤
      4 * r.bytes.length + (Spec.toil (readInfo C o r).1 ops).2.1 +
        (Spec.toil (readInfo C o r).1 ops).2.2 * (4 * r.bytes.length + 4) := by
  have hi := inv_withNoInit (C := C) o r
  have h1 := initLoop_work hS r.bytes.length (withNoInit C o r).rd.eventFuel (withNoInit C o r) hi.rd (Nat.le_refl _)
  have h2 := toil_le hS r.bytes.length ops (readInfo C o r).1 (inv_readInfo hS o r).1 (readInfo_left o r).2.length_le
  have h3 : (initLoop (withNoInit C o r).rd.eventFuel (withNoInit C o r)).1.rd = (readInfo C o r).1.rd ∧
      fee (4 * r.bytes.length + 4) (initLoop (withNoInit C o r).rd.eventFuel (withNoInit C o r)).2 = 0 := by
    unfold readInfo init at h ⊢
    generalize initLoop (withNoInit C o r).rd.eventFuel (withNoInit C o r) = x at *
    obtain ⟨d, out⟩ := x
    cases out with
    | ok u => exact ⟨(by simp only [checkBg]; split <;> (try split) <;> rfl), rfl⟩
    | err e => cases h
    | panic => cases h
    | diverge => cases h
  have h4 : (withNoInit C o r).rd.meas = 4 * r.bytes.length := rfl
  unfold openWork
  rw [h3.1, h3.2, h4] at h1
  omega

/-- **C78**: opening a reader takes a linear number of steps, whether it succeeds or fails. -/
theorem open_work_is_linear (hS : C.Safe) (o : DecodeOptions) (r : Reader) : openWork C o r ≤ 8 * r.bytes.length + 4 := by
  have hi := inv_withNoInit (C := C) o r
  have h1 := initLoop_work hS r.bytes.length (withNoInit C o r).rd.eventFuel (withNoInit C o r) hi.rd (Nat.le_refl _)
  have h4 : (withNoInit C o r).rd.meas = 4 * r.bytes.length := rfl
  unfold openWork
  rw [h4] at h1
  have h5 : ∀ (S : Nat) (out : Outcome Unit), fee S out ≤ S := by
    intro S out
    unfold fee
    split
    · split <;> omega
    · omega
  have := h5 (4 * r.bytes.length + 4) (initLoop (withNoInit C o r).rd.eventFuel (withNoInit C o r)).2
  omega

end Decoder

end Gif
