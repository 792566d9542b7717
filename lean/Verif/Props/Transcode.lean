import Verif.Lemmas.Shape
import Verif.Props.Rewrite
import Verif.Props.Safety
import Verif.Props.FrameDecoder
/-!
C58: what a decoder gives of any file can be written again. C24 for arbitrary files.
-/

namespace Gif

open Spec Encoder

variable {C : Codec}

namespace Spec

/-- What has to hold of a frame that a decoder with options `o` gives of a file with canvas `w`, `h` and global palette
`pal`. -/
structure Sound (o : DecodeOptions) (w h : UInt16) (pal : Option (List UInt8)) (f : Frame) : Prop where
  inside : o.checkFrameConsistency = true → f.left.toNat + f.width.toNat ≤ w.toNat ∧ f.top.toNat + f.height.toNat ≤ h.toNat
  table : ∀ p, f.palette = some p → TableLength p.length
  coloured : f.palette ≠ none ∨ pal ≠ none
  owned : f.ownedCap = some f.buffer.length
  pixels : o.skipFrameDecoding = false → f.interlaced = false ∧
    f.buffer.length = (match o.colorOutput with | .indexed => 1 | .rgba => 4) * (f.width.toNat * f.height.toNat) ∧
    o.memoryLimit.sizeOk f.buffer.length = true
  raw : o.skipFrameDecoding = true → o.memoryLimit.sizeOk f.buffer.length = true ∧
    ∃ m data, f.buffer = m :: data ∧ 1 ≤ m.toNat ∧ m.toNat ≤ 11

end Spec

namespace Decoder

/-- What every call keeps. -/
structure Steady (o : DecodeOptions) (w h : UInt16) (pal : Option (List UInt8)) (d : Decoder C) : Prop where
  inv : d.Inv
  shape : d.rd.sd.Shape
  past : d.rd.sd.Past w h
  pal : d.globalPalette = pal
  check : d.rd.sd.checkFrameConsistency = o.checkFrameConsistency
  skip : d.rd.sd.skipFrameDecoding = o.skipFrameDecoding
  limit : d.conv.memoryLimit = o.memoryLimit
  color : d.conv.colorOutput = o.colorOutput

/-- The part of it that concerns the streaming decoder. -/
def Kept (w h : UInt16) (x : Bool × Bool × Bool × MemoryLimit × Bool) (s : SD C) : Prop :=
  (s.Shape ∧ s.Past w h) ∧ s.opts = x

theorem keeps_kept (w h : UInt16) (x : Bool × Bool × Bool × MemoryLimit × Bool) : SD.Keeps (C := C) (Kept w h x) :=
  (SD.keeps_shape.and (SD.keeps_past w h)).and
    ⟨fun _ hs h => (SD.tr_opts h).trans hs, fun hw hs _ h => (SD.nextState_err_opts h hw.ibuf).trans hs⟩

theorem Steady.kept {o : DecodeOptions} {w h : UInt16} {pal : Option (List UInt8)} {d : Decoder C} (hd : Steady o w h pal d) :
    d.rd.Inv ∧ Kept w h d.rd.sd.opts d.rd.sd := ⟨hd.inv.rd, ⟨hd.shape, hd.past⟩, rfl⟩

/-- Another `ReadDecoder` of the same kind. -/
theorem Steady.replace {o : DecodeOptions} {w h : UInt16} {pal : Option (List UInt8)} {d : Decoder C} (hd : Steady o w h pal d)
    {rd : RD C} (hr : rd.Inv ∧ Kept w h d.rd.sd.opts rd.sd) (f : Frame)
    (t : FrameDataType) : Steady o w h pal { d with rd := rd, currentFrame := f, dataType := t } := by
  obtain ⟨h1, ⟨h2, h3⟩, h4⟩ := hr
  have ho' := h4
  simp only [SD.opts, Prod.mk.injEq] at ho'
  exact ⟨⟨h1, (opts_limit h4).trans hd.inv.limit⟩, h2, h3, hd.pal, ho'.2.1.trans hd.check, ho'.1.trans hd.skip, hd.limit, hd.color⟩

theorem Steady.pull (hS : C.Safe) {o : DecodeOptions} {w h : UInt16} {pal : Option (List UInt8)} {d : Decoder C} (hd : Steady o w h pal d)
    {os : OutSpec} {rd : RD C} {out : Outcome (Option Decoded)} (hp : RD.Pull os d.rd rd out) : Steady o w h pal { d with rd := rd } :=
  hd.replace ⟨RD.pull_inv hS hp hd.inv.rd, RD.pull_keep hS (keeps_kept w h _) hp hd.inv.rd hd.kept.2⟩ d.currentFrame d.dataType

/-- `next_frame_info` on such a decoder. -/
theorem frameRun_steady (hS : C.Safe) {o : DecodeOptions} {w h : UInt16} {pal : Option (List UInt8)} {d d' : Decoder C}
    {out : Outcome Bool} (hr : FrameRun d d' out) (hd : Steady o w h pal d) :
    Steady o w h pal d' ∧ (out = .ok true → SD.Framed d'.rd.sd d'.currentFrame ∧
      (d'.currentFrame.palette ≠ none ∨ pal ≠ none) ∧
      (d'.dataType = .pixels ∧ o.skipFrameDecoding = false ∨
        ∃ m, d'.dataType = .lzw m ∧ LzwReader.codeSizeOk m = true ∧ o.skipFrameDecoding = true)) := by
  induction hr with
  | step hp hev hr ih => exact ih (hd.pull hS hp)
  | @found d rd t f hp hc =>
    have h1 := hd.pull hS hp
    obtain ⟨i1, i2, i3⟩ := withFrame_inv hS hp hc hd.inv.rd
    obtain ⟨s1, b, bs, n, hw, _, _, htr, _⟩ := RD.pull_last hS hp hd.inv.rd rfl
    obtain ⟨_, hst⟩ := SD.tr_metadata htr hw
    have hfr : SD.Framed rd.sd f := by
      have := h1.shape
      rcases hst with ⟨left, h, _⟩ | ⟨left, m, h, _⟩
      · simp only [SD.Shape, h] at this
        exact this f hc
      · simp only [SD.Shape, h] at this
        exact this f hc
    have hsh : (d.withFrame rd f t).rd.sd.Shape := by
      have hfr' : ∀ g, some f.afterTake = some g → SD.Framed (d.withFrame rd f t).rd.sd g := by
        intro g hg
        cases hg
        exact ⟨hfr.1, fun p hp => by cases hp⟩
      rcases hst with ⟨left, h, _⟩ | ⟨left, m, h, _⟩
      · show SD.Shape _
        simp only [SD.Shape, withFrame, h]
        exact hfr'
      · show SD.Shape _
        simp only [SD.Shape, withFrame, h]
        exact hfr'
    have hsk : (t = .pixels ∧ o.skipFrameDecoding = false) ∨
        ∃ m, t = .lzw m ∧ LzwReader.codeSizeOk m = true ∧ o.skipFrameDecoding = true := by
      have hst' := h1.inv.rd.wf.st
      have hk := h1.skip
      simp only at hk hst'
      rcases hst with ⟨left, h, ht⟩ | ⟨left, m, h, ht, hm⟩
      · simp only [SD.stOk, h] at hst'
        exact .inl ⟨ht, hk.symm.trans hst'.2.2.1⟩
      · simp only [SD.stOk, h] at hst'
        exact .inr ⟨m, ht, hm, hk.symm.trans hst'.2.2⟩
    refine ⟨⟨⟨i1, h1.inv.limit⟩, hsh, h1.past, hd.pal, h1.check, h1.skip, hd.limit, hd.color⟩, ?_⟩
    intro h
    refine ⟨⟨hfr.1, hfr.2⟩, ?_, hsk⟩
    split at h
    · cases h
    · rename_i hn
      simp only [withFrame, Frame.take]
      by_cases hx : f.palette = none
      · right; intro hg; exact hn ⟨by simp [hx], by rw [hd.pal]; simp [hg]⟩
      · exact .inl hx
  | @eof d rd hp => exact ⟨hd.pull hS hp, by simp⟩
  | @err d rd e hp => exact ⟨hd.pull hS hp, by simp⟩

theorem nextFrameInfo_steady (hS : C.Safe) {o : DecodeOptions} {w h : UInt16} {pal : Option (List UInt8)} {d : Decoder C}
    (hd : Steady o w h pal d) : Steady o w h pal d.nextFrameInfo.1 :=
  (frameRun_steady hS (nextFrameInfo_run hS d hd.inv.rd) hd).1

theorem copyRun_keep (hS : C.Safe) {P : SD C → Prop} (hP : SD.Keeps P) {rd rd' : RD C} {vec vec' : List UInt8} {out : Outcome Unit}
    (h : CopyRun rd vec rd' vec' out) (hi : rd.Inv ∧ P rd.sd) : rd'.Inv ∧ P rd'.sd := by
  induction h with
  | step hp hr ih => exact ih ⟨RD.pull_inv hS hp hi.1, RD.pull_keep hS hP hp hi.1 hi.2⟩
  | done hp => exact ⟨RD.pull_inv hS hp hi.1, RD.pull_keep hS hP hp hi.1 hi.2⟩
  | other hp => exact ⟨RD.pull_inv hS hp hi.1, RD.pull_keep hS hP hp hi.1 hi.2⟩
  | err hp => exact ⟨RD.pull_inv hS hp hi.1, RD.pull_keep hS hP hp hi.1 hi.2⟩

/-- `read_next_frame` on such a decoder. -/
theorem readNextFrame_steady (hS : C.Safe) {o : DecodeOptions} {w h : UInt16} {pal : Option (List UInt8)} {d : Decoder C}
    (hd : Steady o w h pal d) : Steady o w h pal d.readNextFrame.1 ∧ ∀ f, d.readNextFrame.2 = .ok (some f) → Sound o w h pal f := by
  obtain ⟨h1, h2⟩ := frameRun_steady hS (nextFrameInfo_run hS d hd.inv.rd) hd
  have hfs := frameRun_spec hS (nextFrameInfo_run hS d hd.inv.rd) hd.inv.rd
  unfold readNextFrame
  generalize d.nextFrameInfo = x at *
  obtain ⟨d1, out⟩ := x
  simp only at h1 h2 hfs
  cases out with
  | err e => exact ⟨h1, by simp⟩
  | panic => exact ⟨h1, by simp⟩
  | diverge => exact ⟨h1, by simp⟩
  | ok found =>
    cases found with
    | false => exact ⟨h1, by simp⟩
    | true =>
      obtain ⟨f1, f2, f3⟩ := h2 rfl
      obtain ⟨_, _, _, _, _, _, hbuf, _⟩ := hfs
      obtain ⟨b1, b2, _⟩ := hbuf rfl
      have hin : o.checkFrameConsistency = true → d1.currentFrame.left.toNat + d1.currentFrame.width.toNat ≤ w.toNat ∧
          d1.currentFrame.top.toNat + d1.currentFrame.height.toNat ≤ h.toNat := by
        have := f1.1
        unfold SD.Inside at this
        rw [h1.check, h1.past.2.2.1, h1.past.2.2.2] at this
        exact this
      rcases f3 with ⟨hp, hsk⟩ | ⟨m, hm, hmc, hsk⟩
      · simp only [hp]
        have hg := Converter.readFrame_good d1.conv d1.currentFrame (RD.decodeNextBytes_keep hS (keeps_kept w h d1.rd.sd.opts)) d1.rd h1.kept
        generalize d1.conv.readFrame d1.currentFrame RD.decodeNextBytes d1.rd = y at hg
        obtain ⟨rd, g, out⟩ := y
        simp only at hg
        obtain ⟨g1, g2, g3⟩ := hg
        have hst := fun f t => h1.replace g1 f t
        cases out with
        | err e => exact ⟨hst g _, by simp⟩
        | panic => cases g2
        | diverge => cases g2
        | ok u =>
          cases u
          refine ⟨hst g _, ?_⟩
          intro f hf
          cases hf
          obtain ⟨c1, c2, c3⟩ := g3 rfl
          have hsz := Converter.bufferSize_eq d1.conv d1.currentFrame
          rw [c3]
          refine ⟨hin, f1.2, f2, congrArg some c1.symm, fun _ => ⟨rfl, ?_, ?_⟩, fun h => by rw [hsk] at h; cases h⟩
          · simp only
            rw [c1, hsz]
            congr 1
            rw [← h1.color]
            unfold Converter.chan
            rfl
          · simp only
            rw [c1, ← h1.limit]
            exact c2
      · simp only [hm]
        have hcr := copyLoop_run hS d1.rd.eventFuel d1.rd [m] h1.inv.rd (meas_lt_fuel _)
        have hk := copyRun_keep hS (keeps_kept w h d1.rd.sd.opts) hcr h1.kept
        have hsp := copyRun_spec hS hcr h1.inv.rd (SD.sizeOk_one _)
        unfold copyLzw
        generalize copyLoop d1.rd.eventFuel d1.rd [m] = y at hk hsp
        obtain ⟨rd, vec, out⟩ := y
        simp only at hk hsp
        obtain ⟨_, k2, _, k4, k5⟩ := hsp
        have hst := fun f t => h1.replace hk f t
        cases out with
        | err e => exact ⟨hst _ _, by simp⟩
        | panic => cases k2
        | diverge => cases k2
        | ok u =>
          cases u
          refine ⟨hst _ _, ?_⟩
          intro f hf
          cases hf
          rw [b2]
          simp only
          refine ⟨hin, f1.2, f2, rfl, (fun h => by rw [hsk] at h; cases h), fun _ => ⟨?_, ?_⟩⟩
          · simp only
            rw [← h1.limit, ← h1.inv.limit]
            exact k4
          · obtain ⟨t, ht⟩ := k5
            refine ⟨m, t, ht.symm, ?_⟩
            simp only [LzwReader.codeSizeOk, Bool.not_eq_true', Bool.or_eq_false_iff, decide_eq_false_iff_not, GT.gt,
              UInt8.lt_iff_toNat_lt] at hmc
            simp at hmc
            omega

theorem perform_steady (hS : C.Safe) {o : DecodeOptions} {w h : UInt16} {pal : Option (List UInt8)} {d : Decoder C}
    (hd : Steady o w h pal d) (op : Op) : Steady o w h pal (d.perform op).1 := by
  cases op with
  | nextFrameInfo =>
    have := nextFrameInfo_steady hS hd
    unfold perform
    simp only
    split <;> (rename_i he; rw [he] at this; exact this)
  | readNextFrame =>
    have := (readNextFrame_steady hS hd).1
    unfold perform
    simp only
    split <;> (rename_i he; rw [he] at this; exact this)
  | readIntoBuffer buf =>
    have hg := Converter.readIntoBuffer_good d.conv d.currentFrame (RD.decodeNextBytes_keep hS (keeps_kept w h d.rd.sd.opts)) d.rd buf hd.kept
    exact hd.replace hg.1 d.currentFrame d.dataType
  | fillBuffer buf =>
    have hg := Converter.fillBuffer_good d.conv d.currentFrame (RD.decodeNextBytes_keep hS (keeps_kept w h d.rd.sd.opts)) d.rd buf hd.kept
    have : Steady o w h pal (d.fillBuffer buf).1 := hd.replace hg.1 d.currentFrame d.dataType
    unfold perform
    simp only
    split <;> (rename_i he; rw [he] at this; exact this)

/-- Opening a file. -/
theorem initRun_steady (hS : C.Safe) {d d' : Decoder C} {out : Outcome Unit} (hr : InitRun d d' out) (hi : d.rd.Inv)
    (hsh : d.rd.sd.Shape) (hpal : ∀ p, d.globalPalette = some p → TableLength p.length) :
    d'.rd.sd.Shape ∧ (∀ p, d'.globalPalette = some p → TableLength p.length) ∧
      (out = .ok () → d'.rd.sd.Past d'.width d'.height) := by
  induction hr with
  | @step d d' rd ev out hp hev hr ih =>
    obtain ⟨s1, b, bs, n, hw, hs1, htr⟩ := RD.pull_last_keep hS SD.keeps_shape hp hi hsh rfl
    refine ih (RD.pull_inv hS hp hi) (SD.tr_shape hw hs1 htr).1 ?_
    have hg := (SD.tr_shape hw hs1 htr).2
    intro p
    cases ev with
    | globalPalette q =>
      intro h
      simp only [onEvent, globalPalette, Converter.setGlobalPalette] at h
      rcases hg q rfl with rfl | hq
      · cases h
      · split at h
        · cases h
        · cases h; exact hq
    | _ => exact hpal p
  | @done d rd hp =>
    obtain ⟨s1, b, bs, n, hw, hs1, htr⟩ := RD.pull_last_keep hS SD.keeps_shape hp hi hsh rfl
    refine ⟨(SD.tr_shape hw hs1 htr).1, hpal, fun _ => ?_⟩
    obtain ⟨t, ht⟩ := SD.tr_headerEnd htr
    exact ⟨by rw [ht]; simp, by rw [ht]; simp, rfl, rfl⟩
  | empty hp => exact ⟨RD.pull_keep hS SD.keeps_shape hp hi hsh, hpal, by simp⟩
  | err hp => exact ⟨RD.pull_keep hS SD.keeps_shape hp hi hsh, hpal, by simp⟩

theorem readInfo_steady (hS : C.Safe) (o : DecodeOptions) (r : Reader) (h : (readInfo C o r).2 = .ok ()) :
    Steady o (readInfo C o r).1.width (readInfo C o r).1.height (readInfo C o r).1.globalPalette (readInfo C o r).1 ∧
      ∀ p, (readInfo C o r).1.globalPalette = some p → TableLength p.length := by
  have hinv := inv_readInfo (C := C) hS o r
  have hconv := readInfo_conv (C := C) hS o r
  have hi := inv_withNoInit (C := C) o r
  have hr := initLoop_run hS _ (withNoInit C o r) hi.rd (meas_lt_fuel _)
  obtain ⟨h1, h2, h3, _⟩ := initRun_spec hS hr hi.rd
  obtain ⟨s1, s2, s3⟩ := initRun_steady hS hr hi.rd (by simp [SD.Shape, withNoInit, SD.withOptions])
    (by simp [globalPalette, withNoInit, Converter.new])
  have hbr : ∀ (a : Decoder C), a.checkBg.rd = a.rd ∧ a.checkBg.conv = a.conv := by
    intro a; unfold checkBg; split <;> (try split) <;> exact ⟨rfl, rfl⟩
  unfold readInfo init at h hinv hconv ⊢
  generalize initLoop (withNoInit C o r).rd.eventFuel (withNoInit C o r) = x at *
  obtain ⟨d, out⟩ := x
  cases out with
  | err e => cases h
  | panic => cases h
  | diverge => cases h
  | ok u =>
    cases u
    obtain ⟨b1, b2⟩ := hbr d
    simp only at *
    have h3' := h3
    simp only [SD.opts, Prod.mk.injEq] at h3'
    refine ⟨⟨hinv.1, by rw [b1]; exact s1, ?_, rfl, by rw [b1]; exact h3'.2.1, by rw [b1]; exact h3'.1, hconv.1, hconv.2⟩, ?_⟩
    · unfold Decoder.width Decoder.height
      rw [b1]
      exact s3 trivial
    · intro p hp
      apply s2 p
      unfold globalPalette at hp ⊢
      rw [b2] at hp
      exact hp

/-- C58, first half: whatever calls were made before, and whether they failed or not, a frame that `read_next_frame` returns
is sound: its palette and the global palette have 2, 4, 8, …, 256 colours, it has a palette, it owns a buffer of the right
size, it is not interlaced, and it lies within the canvas if that was to be checked. -/
theorem frames_sound (hS : C.Safe) {o : DecodeOptions} {r : Reader} {d : Decoder C} (h : Reach o r d) :
    d.width = (readInfo C o r).1.width ∧ d.height = (readInfo C o r).1.height ∧
    d.globalPalette = (readInfo C o r).1.globalPalette ∧ (∀ p, d.globalPalette = some p → TableLength p.length) ∧
    ∀ f, d.readNextFrame.2 = .ok (some f) → Sound o d.width d.height d.globalPalette f := by
  have key : Steady o (readInfo C o r).1.width (readInfo C o r).1.height (readInfo C o r).1.globalPalette d ∧
      ∀ p, (readInfo C o r).1.globalPalette = some p → TableLength p.length := by
    induction h with
    | opened h => exact readInfo_steady hS o r h
    | op h op hr ih => exact ⟨perform_steady hS ih.1 op, ih.2⟩
  obtain ⟨h1, h2⟩ := key
  have e1 : d.width = (readInfo C o r).1.width := h1.past.2.2.1
  have e2 : d.height = (readInfo C o r).1.height := h1.past.2.2.2
  have e3 := h1.pal
  refine ⟨e1, e2, e3, by rw [e3]; exact h2, ?_⟩
  intro f hf
  rw [e1, e2, e3]
  exact (readNextFrame_steady hS h1).2 f hf

theorem session_sound (hS : C.Safe) {o : DecodeOptions} {w h : UInt16} {pal : Option (List UInt8)} : ∀ (cs : List Call) (d : Decoder C),
    Steady o w h pal d → ∀ f ∈ rawFrames (session cs d), Sound o w h pal f := by
  intro cs
  induction cs with
  | nil => intro d _ f hf; cases hf
  | cons c cs ih =>
    intro d hd f hf
    rw [session] at hf
    cases c with
    | info =>
      have h1 := nextFrameInfo_steady hS hd
      simp only [see] at hf
      generalize d.nextFrameInfo = x at *
      obtain ⟨d', out⟩ := x
      cases out with
      | ok found => exact ih d' h1 f hf
      | err e => cases hf
      | panic => cases hf
      | diverge => cases hf
    | read =>
      obtain ⟨h1, h2⟩ := readNextFrame_steady hS hd
      simp only [see] at hf
      generalize d.readNextFrame = x at *
      obtain ⟨d', out⟩ := x
      cases out with
      | ok g =>
        cases g with
        | none => exact ih d' h1 f hf
        | some g =>
          rcases List.mem_cons.mp hf with rfl | hf
          · exact h2 _ rfl
          · exact ih d' h1 f hf
      | err e => cases hf
      | panic => cases hf
      | diverge => cases hf

theorem sessionFrom_sound (hS : C.Safe) {o : DecodeOptions} {r : Reader} {cs : List Call} {v : View} {rest : List Seen}
    (h : sessionFrom C o r cs = .opened v :: rest) : (∀ p, v.globalPalette = some p → TableLength p.length) ∧
      ∀ f ∈ rawFrames rest, Sound o v.width v.height v.globalPalette f := by
  have hs := readInfo_steady (C := C) hS o r
  unfold sessionFrom at h
  generalize readInfo C o r = x at *
  obtain ⟨d, out⟩ := x
  cases out with
  | err e => cases h
  | panic => cases h
  | diverge => cases h
  | ok u =>
    cases u
    simp only at h hs
    obtain ⟨h1, h2⟩ := hs trivial
    cases h
    exact ⟨h2, session_sound hS cs d h1⟩

end Decoder

theorem tableLength_padded {t : List UInt8} (h : TableLength t.length) : padded t = t ∧ t.length / 3 ≤ 256 ∧ 3 ≤ t.length := by
  obtain ⟨k, h1, h8, hk⟩ := h
  have h256 : 2 ^ k ≤ 2 ^ 8 := Nat.pow_le_pow_right (by omega) h8
  have h2 : 2 ^ 1 ≤ 2 ^ k := Nat.pow_le_pow_right (by omega) h1
  refine ⟨padded_table (s := k - 1) (by omega) (by rw [hk, show k - 1 + 1 = k by omega]), by omega, by omega⟩

theorem indexed_size (m : MemoryLimit) {w h : UInt16} (hm : m.sizeOk (w.toNat * h.toNat) = true) :
    m.bufferSize .indexed w h = some (w.toNat * h.toNat) := by
  have hw := w.toNat_lt
  have hh := h.toNat_lt
  have hp : w.toNat * h.toNat ≤ 65535 * 65535 := Nat.mul_le_mul (by omega) (by omega)
  unfold MemoryLimit.bufferSize MemoryLimit.bufferSizeOn
  simp only [Nat.mul_one]
  rw [if_pos (by omega)]
  cases m with
  | unlimited => rfl
  | bytes n hn =>
    simp only [MemoryLimit.sizeOk, decide_eq_true_eq] at hm
    simp only
    rw [if_neg (by omega)]

/-- Sound frames are all accepted by an encoder with the same size and palette, and decoding the file gives them back. -/
theorem sound_encode_decode (K : C.Contract) {o p : DecodeOptions} (ho : o.skipFrameDecoding = false) (hoc : o.colorOutput = .indexed)
    (hp : p.skipFrameDecoding = false) (hpc : p.colorOutput = .indexed) (hce : p.checkForEndCode = false)
    (hcc : p.checkFrameConsistency = true → o.checkFrameConsistency = true) {wd ht : UInt16} {gp : Option (List UInt8)}
    (hpalT : ∀ t, gp = some t → TableLength t.length) {gs : List Frame} (hs : ∀ g ∈ gs, Sound o wd ht gp g) (hne : gs ≠ [])
    (hpx : ∀ g ∈ gs, 0 < g.width.toNat * g.height.toNat) (np : Bool) (rep : Repeat) (h15 : p.memoryLimit.sizeOk 15 = true)
    (hmem : ∀ g ∈ gs, p.memoryLimit.sizeOk g.buffer.length = true) :
    ∃ file v', encodeFile C np wd ht (gp.getD []) (.setRepeat rep :: gs.map .frame) =
        (some file, List.replicate (gs.length + 1) (.ok ())) ∧
      v'.width = wd ∧ v'.height = ht ∧ v'.repetition = rep ∧ (gp ≠ none → v'.globalPalette = gp) ∧ v'.currentFrame = Frame.default ∧
      ∀ (junk : List UInt8) (r' : Reader) (k : Nat), r'.Reliable → r'.bytes = file ++ junk →
        Decoder.sessionFrom C p r' (List.replicate (gs.length + k) .read) =
          .opened v' :: gs.map (fun f => .frame (some f) { v' with currentFrame := f }) ++
            List.replicate k (.frame none { v' with currentFrame := gs.getLast?.getD Frame.default }) := by
  have hpal : (gp.getD []).length / 3 ≤ 256 := by
    cases hv : gp with
    | none => simp
    | some t => exact (tableLength_padded (hpalT t hv)).2.1
  have hlen : ∀ g ∈ gs, g.buffer.length = g.width.toNat * g.height.toNat := by
    intro g hg
    have := ((hs g hg).pixels ho).2.1
    rw [hoc] at this
    simpa using this
  have hdraw : ∀ g ∈ gs, Drawable (gp.getD []) g := by
    intro g hg
    refine ⟨hpx g hg, by rw [hlen g hg]; exact Nat.le_refl _, ?_⟩
    cases hq : g.palette with
    | some q => exact (tableLength_padded ((hs g hg).table q hq)).2.1
    | none =>
      rcases (hs g hg).coloured with h | h
      · exact absurd hq h
      · cases hv : gp with
        | none => exact absurd hv h
        | some t => exact (tableLength_padded (hpalT t hv)).2.2
  have hsane : ∀ op ∈ EncOp.setRepeat rep :: gs.map EncOp.frame, op.Sane := by
    intro op hop
    rcases List.mem_cons.mp hop with rfl | hop
    · trivial
    · obtain ⟨f, hfm, rfl⟩ := List.mem_map.mp hop
      exact (drawable_ok (hdraw f hfm)).2
  have hres : (EncOp.setRepeat rep :: gs.map EncOp.frame).map (opResult (3 ≤ (gp.getD []).length)) =
      .ok () :: gs.map fun _ => .ok () := by
    rw [List.map_cons, List.map_map]
    congr 1
    apply List.map_congr_left
    intro f hfm
    exact (drawable_ok (hdraw f hfm)).1
  have hrep : (.ok () :: gs.map fun _ => .ok () : List (EOut Unit)) = List.replicate (gs.length + 1) (.ok ()) := by
    rw [List.replicate_succ, List.map_const']
  have henc := encodeFile_eq C np wd ht (gp.getD []) _ hpal hsane
  rw [hres] at henc
  refine ⟨_, screen wd ht (gp.getD []) rep Frame.default, by rw [← hrep]; exact henc, rfl, rfl, rfl, ?_, rfl, ?_⟩
  · intro hv
    cases htt : gp with
    | none => exact absurd htt hv
    | some t => exact congrArg some (tableLength_padded (hpalT t htt)).1
  · intro junk r' k hr' hb'
    have hw : written (.setRepeat rep :: gs.map .frame) (.ok () :: gs.map fun _ => .ok ()) = gs.map .frame := by
      rw [written, if_neg (by rintro ⟨h, _⟩; cases h), written_frames]
    have hrp : repetitions (.setRepeat rep :: gs.map .frame) (.ok () :: gs.map fun _ => .ok ()) (.finite 0) = rep := by
      rw [repetitions, if_neg (by rintro ⟨h, _⟩; cases h), repetitions_frames]
      show (if rep = .finite 0 then none else some rep).getD (.finite 0) = _
      by_cases h : rep = .finite 0
      · rw [if_pos h, h]; rfl
      · rw [if_neg h]; rfl
    have hpl : ∀ op ∈ EncOp.setRepeat rep :: gs.map EncOp.frame, Plain p op := by
      intro op hop
      rcases List.mem_cons.mp hop with rfl | hop
      · exact h15
      · obtain ⟨f, hfm, rfl⟩ := List.mem_map.mp hop
        exact SD.sizeOk_mono _ (by omega) h15
    have had : ∀ op ∈ written (.setRepeat rep :: gs.map .frame) (.ok () :: gs.map fun _ => .ok ()),
        Admissible C p wd ht op := by
      rw [hw]
      intro op hop
      obtain ⟨f, hfm, rfl⟩ := List.mem_map.mp hop
      exact ⟨fun h => (hs f hfm).inside (hcc h), fun g hg => by cases hg⟩
    have hc : ∀ l : List Frame, (∀ f ∈ l, f ∈ gs) → Contents K p (l.map .frame) (l.map (·.buffer)) := by
      intro l
      induction l with
      | nil => intro _; exact trivial
      | cons f l ih =>
        intro hl
        have hm := hl f List.mem_cons_self
        refine ⟨⟨hpx f hm, ?_, rfl⟩, ih (fun g hg => hl g (List.mem_cons_of_mem _ hg))⟩
        have h2 := hmem f hm
        rw [hlen f hm] at h2
        rw [hpc]
        exact ⟨_, indexed_size _ h2⟩
    have hch := made_changed (C := C) np hpal hsane henc (by rw [hw]; simpa using hne)
    have := roundtrip_pixels K hp hce np hpal hsane hpl henc had hch (pxs := gs.map (·.buffer)) (by rw [hw]; exact hc gs (fun _ h => h))
      hr' hb' k
    rw [hw, hrp, List.length_map] at this
    rw [this]
    have hsame : List.zipWith (fun op px => readBack p.colorOutput (gp.getD []) (compressed C op) px) (gs.map EncOp.frame)
        (gs.map (·.buffer)) = gs := by
      rw [List.zipWith_map, hpc]
      clear hb' this hch hc had hpl hrp hw henc hrep hres hsane hmem hne hpx
      induction gs with
      | nil => rfl
      | cons f gs ih =>
        have hf := hs f List.mem_cons_self
        have hl := hlen f List.mem_cons_self
        rw [List.zipWith_cons_cons, ih (fun g hg => hs g (List.mem_cons_of_mem _ hg)) (fun g hg => hlen g (List.mem_cons_of_mem _ hg))
          (fun g hg => hdraw g (List.mem_cons_of_mem _ hg))]
        congr 1
        have := readBack_indexed C (gp.getD []) f (hf.pixels ho).1 (by omega)
        refine this.trans ?_
        have hpd : f.palette.map padded = f.palette := by
          cases hq : f.palette with
          | none => rfl
          | some q => rw [Option.map_some, (tableLength_padded (hf.table q hq)).1]
        unfold trimmed
        rw [hpd, ← hl, List.take_length, ← hf.owned]
    rw [hsame]
    rfl

/-- C58: frames that were decoded, from any file, with any calls, can be written to a new file, and decoding that file gives
them back as they were: the same number, order, metadata, palettes and pixels, and the same size, loop count and, if there
was one, global palette. `v` and `rest` are what a decoder of the first file gives; `gs` are the frames to be written: some
of those of the first file, in any order. -/
theorem decode_encode_decode (K : C.Contract) {o p : DecodeOptions} (ho : o.skipFrameDecoding = false) (hoc : o.colorOutput = .indexed)
    (hp : p.skipFrameDecoding = false) (hpc : p.colorOutput = .indexed) (hce : p.checkForEndCode = false)
    (hcc : p.checkFrameConsistency = true → o.checkFrameConsistency = true) {r : Reader} {cs : List Call} {v : View} {rest : List Seen}
    (hses : Decoder.sessionFrom C o r cs = .opened v :: rest) {gs : List Frame} (hgs : ∀ g ∈ gs, g ∈ rawFrames rest) (hne : gs ≠ [])
    (hpx : ∀ g ∈ gs, 0 < g.width.toNat * g.height.toNat) (np : Bool) (rep : Repeat) (h15 : p.memoryLimit.sizeOk 15 = true)
    (hmem : ∀ g ∈ gs, p.memoryLimit.sizeOk g.buffer.length = true) :
    ∃ file v', encodeFile C np v.width v.height (v.globalPalette.getD []) (.setRepeat rep :: gs.map .frame) =
        (some file, List.replicate (gs.length + 1) (.ok ())) ∧
      v'.width = v.width ∧ v'.height = v.height ∧ v'.repetition = rep ∧ (v.globalPalette ≠ none → v'.globalPalette = v.globalPalette) ∧
      ∀ (junk : List UInt8) (r' : Reader) (k : Nat), r'.Reliable → r'.bytes = file ++ junk →
        Decoder.sessionFrom C p r' (List.replicate (gs.length + k) .read) =
          .opened v' :: gs.map (fun f => .frame (some f) { v' with currentFrame := f }) ++
            List.replicate k (.frame none { v' with currentFrame := gs.getLast?.getD Frame.default }) := by
  obtain ⟨hpalT, hfr⟩ := Decoder.sessionFrom_sound K.safe hses
  obtain ⟨file, v', h1, h2, h3, h4, h5, -, h6⟩ := sound_encode_decode K ho hoc hp hpc hce hcc hpalT (fun g hg => hfr g (hgs g hg)) hne hpx np rep h15 hmem
  exact ⟨file, v', h1, h2, h3, h4, h5, h6⟩

/-- C24 for every file: raw frames that were read from any file, with any calls, can be written to a new file without being
decompressed, and reading that file gives them back as they were. What is missing: frames with a code size of 1, for which
the claim is false (`RoundTripCases.lean`), and frames without data. -/
theorem rewrite_any_partial (K : C.Contract) {o p : DecodeOptions} (ho : o.skipFrameDecoding = true)
    (hcc : p.checkFrameConsistency = true → o.checkFrameConsistency = true) {r : Reader} {cs : List Call} {v : View} {rest : List Seen}
    (hses : Decoder.sessionFrom C o r cs = .opened v :: rest) {gs : List Frame} (hgs : ∀ g ∈ gs, g ∈ rawFrames rest) (hne : gs ≠ [])
    (hcode : ∀ g ∈ gs, g.buffer.head? ≠ some 1) (hdata : ∀ g ∈ gs, 2 ≤ g.buffer.length) (np : Bool) (rep : Repeat)
    (h15 : p.memoryLimit.sizeOk 15 = true) (hmem : ∀ g ∈ gs, p.memoryLimit.sizeOk g.buffer.length = true) :
    ∃ file v', encodeFile C np v.width v.height (v.globalPalette.getD []) (.setRepeat rep :: gs.map .preEncoded) =
        (some file, List.replicate (gs.length + 1) (.ok ())) ∧
      v'.width = v.width ∧ v'.height = v.height ∧ v'.repetition = rep ∧ (v.globalPalette ≠ none → v'.globalPalette = v.globalPalette) ∧
      ∀ (junk : List UInt8) (r' : Reader) (k : Nat), r'.Reliable → r'.bytes = file ++ junk →
        Decoder.rawFilm C p r' (gs.length + k) =
          .opened v' :: gs.map (fun f => .frame (some f) { v' with currentFrame := f }) ++
            List.replicate k (.frame none { v' with currentFrame := gs.getLast?.getD Frame.default }) := by
  obtain ⟨hpalT, hfr⟩ := Decoder.sessionFrom_sound K.safe hses
  have hs : ∀ g ∈ gs, Sound o v.width v.height v.globalPalette g := fun g hg => hfr g (hgs g hg)
  have hpal : (v.globalPalette.getD []).length / 3 ≤ 256 := by
    cases hv : v.globalPalette with
    | none => simp
    | some t => exact (tableLength_padded (hpalT t hv)).2.1
  have hok : ∀ g ∈ gs, opResult (3 ≤ (v.globalPalette.getD []).length) (.preEncoded g) = .ok () := by
    intro g hg
    obtain ⟨m, data, hb, hm1, hm2⟩ := ((hs g hg).raw ho).2
    have hbad : ¬ badCodeSize g := by
      have := hcode g hg
      unfold badCodeSize
      rw [hb] at this ⊢
      have hne1 : m.toNat ≠ 1 := fun h => this (by rw [show m = 1 from UInt8.toNat.inj h]; rfl)
      simp only [UInt8.lt_iff_toNat_lt, GT.gt]
      simp
      omega
    have hpe : paletteError (3 ≤ (v.globalPalette.getD []).length) g = none := by
      unfold paletteError
      cases hq : g.palette with
      | some q => simp only; rw [if_pos (tableLength_padded ((hs g hg).table q hq)).2.1]
      | none =>
        rcases (hs g hg).coloured with h | h
        · exact absurd hq h
        · cases hv : v.globalPalette with
          | none => exact absurd hv h
          | some t =>
            have := (tableLength_padded (hpalT t hv)).2.2
            simp [this]
    simp only [opResult, if_neg hbad, hpe]
  have hsane : ∀ op ∈ EncOp.setRepeat rep :: gs.map EncOp.preEncoded, op.Sane := by
    intro op hop
    rcases List.mem_cons.mp hop with rfl | hop
    · trivial
    · obtain ⟨f, hfm, rfl⟩ := List.mem_map.mp hop
      trivial
  have hres : (EncOp.setRepeat rep :: gs.map EncOp.preEncoded).map (opResult (3 ≤ (v.globalPalette.getD []).length)) =
      List.replicate (gs.length + 1) (.ok ()) := by
    rw [List.map_cons, List.map_map, List.replicate_succ]
    congr 1
    have : gs.map (opResult (3 ≤ (v.globalPalette.getD []).length) ∘ EncOp.preEncoded) = gs.map fun _ => .ok () :=
      List.map_congr_left fun f hfm => hok f hfm
    rw [this, List.map_const']
  have henc := encodeFile_eq C np v.width v.height (v.globalPalette.getD []) _ hpal hsane
  rw [hres] at henc
  refine ⟨_, screen v.width v.height (v.globalPalette.getD []) rep Frame.default, henc, rfl, rfl, rfl, ?_, ?_⟩
  · intro hv
    cases ht : v.globalPalette with
    | none => exact absurd ht hv
    | some t => exact congrArg some (tableLength_padded (hpalT t ht)).1
  · intro junk r' k hr' hb'
    have hw := written_rewrite { v with repetition := rep } gs gs.length rfl
    have hrp := repetitions_rewrite { v with repetition := rep } gs gs.length rfl
    simp only [rewriteOps] at hw hrp
    have hpl : ∀ op ∈ EncOp.setRepeat rep :: gs.map EncOp.preEncoded, Plain p op := by
      intro op hop
      rcases List.mem_cons.mp hop with rfl | hop
      · exact h15
      · obtain ⟨f, hfm, rfl⟩ := List.mem_map.mp hop
        exact SD.sizeOk_mono _ (by omega) h15
    have had : ∀ op ∈ gs.map EncOp.preEncoded, Admissible C p v.width v.height op := by
      intro op hop
      obtain ⟨f, hfm, rfl⟩ := List.mem_map.mp hop
      exact ⟨fun h => (hs f hfm).inside (hcc h), fun g hg => by cases hg; exact hdata _ hfm⟩
    have hld : ∀ op ∈ gs.map EncOp.preEncoded, Held C p op := by
      intro op hop
      obtain ⟨f, hfm, rfl⟩ := List.mem_map.mp hop
      exact hmem f hfm
    have := roundtrip_raw K (o := p) np hpal hsane hpl henc (by rw [hw]; exact had) (by rw [hw]; exact hld)
      (made_changed (C := C) np hpal hsane henc (by rw [hw]; simpa using hne)) hr' hb' k
    rw [hw, List.length_map, hrp] at this
    rw [this]
    have hsame : (gs.map EncOp.preEncoded).map (fun op => readRaw (compressed C op)) = gs := by
      rw [List.map_map]
      conv => rhs; rw [← List.map_id gs]
      apply List.map_congr_left
      intro f hfm
      have hf := hs f hfm
      have hpd : f.palette.map padded = f.palette := by
        cases hq : f.palette with
        | none => rfl
        | some q => rw [Option.map_some, (tableLength_padded (hf.table q hq)).1]
      show readRaw f = f
      unfold readRaw
      rw [hpd, ← hf.owned]
    rw [hsame]
    rfl

end Gif
