import Verif.Lemmas.FrameDec
import Verif.Spec.Transcript
/-!
What the calls of a decoder leave of the reader.
-/

namespace Gif

variable {C : Codec}

/-- `r'` is what is left of `r` after some reading. -/
def Reader.Left (r r' : Reader) : Prop := r'.src <:+ r.src ∧ r'.bytes <:+ r.bytes

namespace Reader

theorem Left.refl (r : Reader) : r.Left r := ⟨List.suffix_rfl, List.suffix_rfl⟩

theorem Left.trans {a b c : Reader} (h : a.Left b) (h' : b.Left c) : a.Left c := ⟨h'.1.trans h.1, h'.2.trans h.2⟩

theorem Left.reliable {a b : Reader} (h : a.Left b) (ha : a.Reliable) : b.Reliable := fun ev hev => ha ev (h.1.subset hev)

theorem left_fill {r r' : Reader} {x : Except Nat (List UInt8)} (h : r.fillBuf = (r', x)) : r.Left r' := by
  unfold fillBuf at h
  split at h
  · cases h; exact .refl _
  · rename_i hb
    split at h
    · cases h; exact .refl _
    · rename_i bs src hs
      cases h
      exact ⟨by rw [hs]; exact List.suffix_cons _ _, by simp [bytes, hb, hs]⟩
    · rename_i e src hs
      cases h
      exact ⟨by rw [hs]; exact List.suffix_cons _ _, by simp [bytes, hb, hs]⟩

theorem left_consume (r : Reader) (n : Nat) : r.Left (r.consume n) := by
  refine ⟨List.suffix_rfl, ?_⟩
  unfold consume bytes
  exact ⟨r.buf.take n, by simp only; rw [← List.append_assoc, List.take_append_drop]⟩

end Reader

namespace RD

open Reader (Left)

theorem decodeNextLoop_left (o : OutSpec) : ∀ (fuel : Nat) (d : RD C), d.reader.Left (decodeNextLoop o fuel d).1.reader := by
  intro fuel
  induction fuel with
  | zero => intro d; exact .refl _
  | succ fuel ih =>
    intro d
    rw [decodeNextLoop]
    split
    · exact .refl _
    · split
      · rename_i hf; exact Reader.left_fill hf
      · rename_i r buf hf
        have h0 := Reader.left_fill hf
        split
        · exact h0
        · split
          · rename_i sd n ev hu
            have h1 := h0.trans (r.left_consume n)
            simp only
            split
            · exact h1.trans (ih _)
            · exact h1.trans (ih _)
            · exact h1
          all_goals exact h0

theorem decodeNext_left (o : OutSpec) (d : RD C) : d.reader.Left (d.decodeNext o).1.reader := decodeNextLoop_left o _ d

theorem decodeNextBytes_left (d : RD C) (cap : Nat) : d.reader.Left (decodeNextBytes d cap).1.reader := by
  have := decodeNext_left (.slice cap) d
  unfold decodeNextBytes
  split <;> (rename_i he; rw [he] at this; exact this)

end RD

namespace Decoder

open Reader (Left)

theorem initLoop_left : ∀ (fuel : Nat) (d : Decoder C), d.rd.reader.Left (initLoop fuel d).1.rd.reader := by
  intro fuel
  induction fuel with
  | zero => intro d; exact .refl _
  | succ fuel ih =>
    intro d
    have h := RD.decodeNext_left .none d.rd
    rw [initLoop]
    split
    all_goals (rename_i he; rw [he] at h)
    · exact h.trans (ih _)
    · exact h.trans (ih _)
    · exact h.trans (ih _)
    · exact h
    · exact h.trans (ih _)
    all_goals exact h

theorem readInfo_left (o : DecodeOptions) (r : Reader) : r.Left (readInfo C o r).1.rd.reader := by
  have h := initLoop_left (withNoInit C o r).rd.eventFuel (withNoInit C o r)
  unfold readInfo init
  split
  all_goals (rename_i he; rw [he] at h)
  · unfold checkBg
    split
    · split <;> exact h
    · exact h
  all_goals exact h

theorem nextFrameLoop_left : ∀ (fuel : Nat) (d : Decoder C), d.rd.reader.Left (nextFrameLoop fuel d).1.rd.reader := by
  intro fuel
  induction fuel with
  | zero => intro d; exact .refl _
  | succ fuel ih =>
    intro d
    have h := RD.decodeNext_left .none d.rd
    rw [nextFrameLoop]
    split
    all_goals (rename_i he; rw [he] at h)
    · split
      · exact h
      · simp only
        split <;> exact h
    · exact h.trans (ih _)
    all_goals exact h

theorem copyLoop_left : ∀ (fuel : Nat) (rd : RD C) (vec : List UInt8), rd.reader.Left (copyLoop fuel rd vec).1.reader := by
  intro fuel
  induction fuel with
  | zero => intro rd vec; exact .refl _
  | succ fuel ih =>
    intro rd vec
    have h := RD.decodeNext_left (.vec vec.length) rd
    rw [copyLoop]
    split
    all_goals (rename_i he; rw [he] at h)
    · exact h.trans (ih _ _)
    all_goals exact h

theorem nextFrameInfo_left (d : Decoder C) : d.rd.reader.Left d.nextFrameInfo.1.rd.reader := nextFrameLoop_left _ d

theorem keeps_left (r : Reader) : ∀ (t : RD C) cap, r.Left t.reader → r.Left (RD.decodeNextBytes t cap).1.reader :=
  fun t cap h => h.trans (RD.decodeNextBytes_left t cap)

theorem readFrame_left (c : Converter) (f : Frame) (rd : RD C) : rd.reader.Left (c.readFrame f RD.decodeNextBytes rd).1.reader := by
  unfold Converter.readFrame
  split
  · simp only
    have h := c.readIntoBuffer_keeps { f with buffer := [], ownedCap := none } (keeps_left rd.reader) rd (Converter.frameBuffer f ‹Nat›) (.refl _)
    split
    all_goals (rename_i he; rw [he] at h; exact h)
  all_goals exact .refl _

theorem readNextFrame_left (d : Decoder C) : d.rd.reader.Left d.readNextFrame.1.rd.reader := by
  have h := nextFrameInfo_left d
  unfold readNextFrame
  split
  all_goals (rename_i he; rw [he] at h)
  · rename_i d1
    split
    · have h2 := readFrame_left d1.conv d1.currentFrame d1.rd
      split
      all_goals (rename_i he; rw [he] at h2; exact h.trans h2)
    · have h2 := fun m => copyLoop_left d1.rd.eventFuel d1.rd [m]
      replace h2 := h2 ‹UInt8›
      simp only
      unfold copyLzw
      split
      all_goals (rename_i he; rw [he] at h2; exact h.trans h2)
  all_goals exact h

theorem readIntoBuffer_left (d : Decoder C) (buf : List UInt8) : d.rd.reader.Left (d.readIntoBuffer buf).1.rd.reader :=
  d.conv.readIntoBuffer_keeps d.currentFrame (keeps_left d.rd.reader) d.rd buf (.refl _)

theorem fillBuffer_left (d : Decoder C) (buf : List UInt8) : d.rd.reader.Left (d.fillBuffer buf).1.rd.reader :=
  d.conv.fillLoop_keeps d.currentFrame (keeps_left d.rd.reader) (buf.length + 1) d.rd buf (.refl _)

theorem ask_left (d : Decoder C) (a : Ask) : d.rd.reader.Left (d.ask a).1.rd.reader := by
  cases a with
  | info => exact nextFrameInfo_left d
  | read => exact readNextFrame_left d
  | fill buf =>
    have h := fillBuffer_left d buf
    simp only [ask]
    split <;> (rename_i he; rw [he] at h; exact h)
  | into buf =>
    have h := readIntoBuffer_left d buf
    simp only [ask]
    split <;> (rename_i he; rw [he] at h; exact h)
  | take => simp only [ask, takeCurrentFrame]; split <;> exact .refl _

theorem after_left (as : List Ask) : ∀ d : Decoder C, d.rd.reader.Left (after as d).rd.reader := by
  induction as with
  | nil => intro d; exact .refl _
  | cons a as ih => intro d; exact (ask_left d a).trans (ih _)

end Decoder

end Gif
