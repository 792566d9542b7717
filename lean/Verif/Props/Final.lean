import Verif.Lemmas.Final
import Verif.Props.ErrorCases
/-!
# C84: After an error

Three errors in the data are final: whatever a program calls afterwards, `next_frame_info` and `read_next_frame` report the same
error again and nothing more is read. So is the end of the data, when the reader has nothing more to give. No other error is.
-/

namespace Gif

open Spec

variable {C : Codec}

namespace Decoder

theorem foldl_halted (hS : C.Safe) {e : DecodingError} : ∀ (ops : List Op) (d : Decoder C), d.rd.Halted e →
    (ops.foldl (fun d op => (d.perform op).1) d).rd.Halted e ∧
      (ops.foldl (fun d op => (d.perform op).1) d).rd.reader = d.rd.reader := by
  intro ops
  induction ops with
  | nil => intro d h; exact ⟨h, rfl⟩
  | cons op ops ih =>
    intro d h
    obtain ⟨h1, h2⟩ := perform_halted hS h op
    obtain ⟨h3, h4⟩ := ih _ h1
    exact ⟨h3, h4.trans h2⟩

theorem fillBuffer_halted (hS : C.Safe) {d : Decoder C} {e : DecodingError} (hd : d.rd.Halted e) (buf : List UInt8) :
    (d.fillBuffer buf).2.2 = .err e ∨
      (d.fillBuffer buf).2.2 = .fmtErr .oddSizedBuffer ∧ d.conv.colorOutput = .rgba ∧ (buf = [] ∨ buf.length % 4 ≠ 0) := by
  have key : ∀ cap, (RD.decodeNextBytes d.rd cap).2 = .err e := by
    intro cap
    have h := (RD.pull_halted hS (RD.decodeNext_pull hS (.slice cap) d.rd hd.1) hd).1
    unfold RD.decodeNextBytes
    generalize d.rd.decodeNext (.slice cap) = x at *
    obtain ⟨rd, out⟩ := x
    simp only at h
    subst h
    rfl
  unfold fillBuffer Converter.fillBuffer
  rw [Converter.fillLoop]
  cases hc : d.conv.colorOutput with
  | indexed =>
    simp only
    have h := key buf.length
    generalize RD.decodeNextBytes d.rd buf.length = x at *
    obtain ⟨rd, out⟩ := x
    simp only at h
    subst h
    exact .inl rfl
  | rgba =>
    simp only
    split
    · rename_i h0
      refine .inr ⟨rfl, trivial, ?_⟩
      cases buf with
      | nil => exact .inl rfl
      | cons b bs => exact .inr (by simp only [List.length_cons] at h0 ⊢; omega)
    · have h := key (buf.length / 4)
      generalize RD.decodeNextBytes d.rd (buf.length / 4) = x at *
      obtain ⟨rd, out⟩ := x
      simp only at h
      subst h
      exact .inl rfl

/-- C84: with any reader and any options, after any calls, if a call reports an unknown block, a bad code size, an extension over the
memory limit (an image over the limit, which only `read_next_frame` of raw frames can report, does not count) or the end of the data
of a reader that has nothing more to give: whatever is called in between, every further call for a frame or for pixels reports the
same, and the reader is left where it is. -/
theorem final_errors (hS : C.Safe) {o : DecodeOptions} {r : Reader} {d : Decoder C} (h : Reach o r d) (op : Op) (e : DecodingError)
    (hf : (d.perform op).2 = .err e)
    (he : e = .format .unknownBlock ∨ e = .format .invalidMinCodeSize ∨
      e = .format .memoryLimit ∧ (o.skipFrameDecoding = false ∨ op = .nextFrameInfo) ∨
      e = .io .unexpectedEof ∧ (d.perform op).1.intoInner.src = [])
    (ops : List Op) :
    let d' := ops.foldl (fun d op => (d.perform op).1) (d.perform op).1
    d'.nextFrameInfo.2 = .err e ∧ d'.readNextFrame.2 = .err e ∧
      (∀ buf, (d'.fillBuffer buf).2.2 = .err e ∨
        (d'.fillBuffer buf).2.2 = .fmtErr .oddSizedBuffer ∧ o.colorOutput = .rgba ∧ (buf = [] ∨ buf.length % 4 ≠ 0)) ∧
      d'.intoInner = (d.perform op).1.intoInner := by
  intro d'
  obtain ⟨hd, hc, _⟩ := reach_sober hS h
  have hr : Reach o r (d.perform op).1 := .op h op (by rw [hf]; rfl)
  have hr' : ∀ (ops : List Op) (d1 : Decoder C), Reach o r d1 → Reach o r (ops.foldl (fun d op => (d.perform op).1) d1) := by
    intro ops
    induction ops with
    | nil => intro d1 h1; exact h1
    | cons op ops ih => intro d1 h1; exact ih _ (.op h1 op (perform_inv hS d1 (reach_inv hS h1).1 op).2.1)
  obtain ⟨hd1, _, _⟩ := reach_sober hS hr
  have hk := hd1.opts
  simp only [SD.opts, Prod.mk.injEq] at hk
  have hdead : (d.perform op).1.rd.Halted e := by
    refine perform_sticks hS hd.inv op hf ?_
    rcases he with he | he | ⟨he, hx | hx⟩ | he
    · exact .inl (.inl he)
    · exact .inl (.inr (.inl he))
    · exact .inl (.inr (.inr (.inl ⟨he, hk.1.trans hx⟩)))
    · exact .inr ⟨he, hx⟩
    · exact .inl (.inr (.inr (.inr he)))
  obtain ⟨h1, h2⟩ := foldl_halted hS ops _ hdead
  have hcol : d'.conv.colorOutput = o.colorOutput := (reach_sober hS (hr' ops _ hr)).2.1
  refine ⟨(nextFrameInfo_halted hS h1).1, (readNextFrame_halted hS h1).1, fun buf => ?_, h2⟩
  have := fillBuffer_halted hS h1 buf
  rw [← hcol]
  exact this

end Decoder

end Gif
