import Verif.Lemmas.Errors
import Verif.Lemmas.ConvErrors
import Verif.Lemmas.Remain
import Verif.Lemmas.Twin
import Verif.Props.Transcode
import Verif.Props.Streaming
import Verif.Spec.Errors
/-!
# C83: the errors that can occur

For every reader, all options and every history: which errors each call can report. The lists are in `Spec/Errors.lean`.
-/

namespace Gif

variable {C : Codec}

open Spec

namespace SD

/-- What the options allow. -/
theorem stepErr_may {s : SD C} {o : DecodeOptions} {out : OutSpec} {e : DecodingError} (hs : s.StepErr out e)
    (ho : s.opts = (withOptions C o).opts) : MayStep o out e := by
  simp only [opts, Prod.mk.injEq] at ho
  obtain ⟨h1, h2, _, h4, h5⟩ := ho
  cases e with
  | format e =>
    cases e <;> simp only [StepErr, MayStep] at hs ⊢
    · rw [h2] at hs; exact hs.2
    · rw [h4] at hs; exact hs.1
  | io e =>
    cases e <;> simp only [StepErr, MayStep] at hs ⊢
    · exact ⟨h1.symm.trans hs.2.2, hs.2.1⟩
    · exact ⟨h1.symm.trans hs.2.2, h5.symm.trans hs.2.1⟩
    · exact h1.symm.trans hs.2

theorem updateLoop_err (hS : C.Safe) (len : Nat) (out : OutSpec) (o : DecodeOptions) : ∀ (fuel : Nat) (s s' : SD C) (buf : List UInt8)
    (e : DecodingError), s.WF → s.opts = (withOptions C o).opts → updateLoop len out fuel s buf = (s', .err e) → MayStep o out e := by
  intro fuel
  induction fuel with
  | zero => intro s s' buf e _ _ h; cases buf <;> cases h
  | succ fuel ih =>
    intro s s' buf e hw ho h
    cases buf with
    | nil => cases h
    | cons b bs =>
      rw [updateLoop] at h
      generalize hx : nextState s (b :: bs) out = x at h
      obtain ⟨s1, r⟩ := x
      cases r with
      | ok p =>
        obtain ⟨n, ev⟩ := p
        have htr := tr_of_nextState hw.ibuf hx
        cases ev with
        | nothing => exact ih s1 s' _ e (tr_wf hS hw htr).1 ((tr_opts htr).trans ho) h
        | _ => cases h
      | err e' => cases h; exact stepErr_may (nextState_err hw hx) ho
      | panic => cases h
      | diverge => cases h

/-- C83 for `StreamingDecoder::update`, after any calls. -/
theorem update_errors (hS : C.Safe) {o : DecodeOptions} {calls : List UpdateCall} {s : SD C} (h : History o calls s)
    (buf : List UInt8) (out : OutSpec) (e : DecodingError) (he : (s.update buf out).2 = .err e) : MayStep o out e := by
  obtain ⟨h1, h2, _⟩ := Props.history_inv hS h
  exact updateLoop_err hS _ out o _ s (s.update buf out).1 buf e h1 h2 (Prod.ext rfl he)

end SD

namespace Decoder

theorem initRun_errs (hS : C.Safe) {d d' : Decoder C} {out : Outcome Unit} (h : InitRun d d' out) (hi : d.rd.Inv)
    (hh : d.rd.sd.headerEndReached = false) (ha : d.rd.atEof = false) (o : DecodeOptions)
    (ho : d.rd.sd.opts = (SD.withOptions C o).opts) (r : Reader) (hr : d.rd.reader.src <:+ r.src) (e : DecodingError)
    (he : out = .err e) : MayOpen o r e := by
  induction h with
  | @step d d' rd ev out hp hev hrun ih =>
    have hinv := RD.pull_inv hS hp hi
    obtain ⟨h1, h2⟩ := (RD.pull_early hS hp hi hh ha).2 ev rfl hev
    exact ih hinv h1 h2 ((RD.pull_opts hS hp hi).trans ho) ((RD.pull_src hp).trans hr) he
  | done => cases he
  | @empty d rd hp => exact absurd rfl (RD.pull_early hS hp hi hh ha).1
  | @err d rd e' hp =>
    cases he
    rcases RD.pull_err hS hp hi rfl with rfl | ⟨c, rfl, hc⟩ | ⟨s, hw, hso, _, hsh, _, hse⟩
    · trivial
    · exact hr.subset hc
    · have hm := SD.stepErr_may hse (hso.trans ho)
      have hst := hw.st
      have h0 := hsh hh
      cases e with
      | format e =>
        cases e <;> simp only [SD.StepErr, MayStep] at hse hm
        all_goals first | exact hm | trivial | skip
        · simp [SD.stOk, hse.1, h0] at hst
        · obtain ⟨m, hm⟩ := hse
          simp [SD.stOk, hm, h0] at hst
      | io e =>
        cases e <;> simp only [SD.StepErr] at hse
        all_goals
          obtain ⟨⟨l, hl⟩, _⟩ := hse
          simp [SD.stOk, hl, h0] at hst

/-- C83 for `read_info`: with any reader and any options. -/
theorem open_errors (hS : C.Safe) (o : DecodeOptions) (r : Reader) (e : DecodingError) (he : (readInfo C o r).2 = .err e) :
    MayOpen o r e := by
  have hr := initLoop_run hS _ (withNoInit C o r) (inv_withNoInit o r).rd (meas_lt_fuel _)
  have key := initRun_errs hS hr (inv_withNoInit o r).rd rfl rfl o rfl r List.suffix_rfl e
  unfold readInfo init at he
  generalize initLoop (withNoInit C o r).rd.eventFuel (withNoInit C o r) = x at *
  obtain ⟨d, out⟩ := x
  cases out with
  | ok u => cases he
  | err e' => cases he; exact key rfl
  | panic => cases he
  | diverge => cases he

/-- What `decode_next` can report once the header has been read. -/
theorem pull_find (hS : C.Safe) {os : OutSpec} {d d' : RD C} {out : Outcome (Option Decoded)} (h : RD.Pull os d d' out) (hi : d.Inv)
    (hb : d.sd.state ≠ .magic) {o : DecodeOptions} (ho : d.sd.opts = (SD.withOptions C o).opts) {r : Reader}
    (hr : d.reader.src <:+ r.src) (hos : ∀ n, os ≠ .vec n) (pal : Option (List UInt8)) (e : DecodingError) (he : out = .err e) :
    MayFind o r pal e ∧ e ≠ .format .noColorTable := by
  rcases RD.pull_err hS h hi he with rfl | ⟨c, rfl, hc⟩ | ⟨s, hw, hso, hsb, _, _, hse⟩
  · exact ⟨trivial, by simp⟩
  · exact ⟨hr.subset hc, by simp⟩
  · have hm := SD.stepErr_may hse (hso.trans ho)
    cases e with
    | format e =>
      cases e <;> simp only [SD.StepErr, MayStep] at hse hm
      all_goals first | exact ⟨hm, by simp⟩ | exact ⟨trivial, by simp⟩ | skip
      exact absurd hse (hsb hb)
    | io e =>
      cases e <;> simp only [SD.StepErr, MayStep] at hse hm
      all_goals first | exact ⟨hm, by simp⟩ | skip
      obtain ⟨n, hn⟩ := hm.2
      exact absurd hn (hos n)

/-- What a decoder that a program can hold keeps, as far as errors are concerned. -/
structure Sober (o : DecodeOptions) (r : Reader) (d : RD C) : Prop where
  inv : d.Inv
  begun : d.sd.state ≠ .magic
  opts : d.sd.opts = (SD.withOptions C o).opts
  src : d.reader.src <:+ r.src

theorem keeps_begun : SD.Keeps (C := C) fun s => s.state ≠ .magic :=
  ⟨fun _ hs h => SD.tr_begun h hs, fun _ hs hst _ => by rw [hst]; exact hs⟩

theorem Sober.pull (hS : C.Safe) {o : DecodeOptions} {r : Reader} {d d' : RD C} (hd : Sober o r d) {os : OutSpec}
    {out : Outcome (Option Decoded)} (hp : RD.Pull os d d' out) : Sober o r d' :=
  ⟨RD.pull_inv hS hp hd.inv, RD.pull_keep hS keeps_begun hp hd.inv hd.begun, (RD.pull_opts hS hp hd.inv).trans hd.opts,
    (RD.pull_src hp).trans hd.src⟩

theorem frameRun_errs (hS : C.Safe) {o : DecodeOptions} {r : Reader} {d d' : Decoder C} {out : Outcome Bool} (h : FrameRun d d' out)
    (hd : Sober o r d.rd) (e : DecodingError) (he : out = .err e) : MayFind o r d.globalPalette e := by
  induction h with
  | @step d d' rd ev out hp hev hrun ih => exact ih (hd.pull hS hp) he
  | @found d rd t f hp hc =>
    split at he
    · rename_i hn
      cases he
      show d.globalPalette = none
      simpa using hn.2
    · cases he
  | eof => cases he
  | @err d rd e' hp =>
    cases he
    exact (pull_find hS hp hd.inv hd.begun hd.opts hd.src (by simp) _ e rfl).1

/-- After a frame was found. -/
theorem frameRun_data (hS : C.Safe) {o : DecodeOptions} {r : Reader} {d d' : Decoder C} {out : Outcome Bool} (h : FrameRun d d' out)
    (hd : Sober o r d.rd) (hout : out = .ok true) :
    Sober o r d'.rd ∧ d'.rd.sd.state.inData = true ∧ d'.rd.atEof = false ∧
      (d'.dataType = .pixels → o.skipFrameDecoding = false) ∧ ∀ m, d'.dataType = .lzw m → o.skipFrameDecoding = true := by
  induction h with
  | @step d d' rd ev out hp hev hrun ih => exact ih (hd.pull hS hp) hout
  | @found d rd t f hp hc =>
    have h1 := hd.pull hS hp
    obtain ⟨i1, _, _⟩ := withFrame_inv hS hp hc hd.inv
    obtain ⟨s1, b, bs, n, hw, _, _, htr, ha, _⟩ := RD.pull_last hS hp hd.inv rfl
    obtain ⟨_, hst⟩ := SD.tr_metadata htr hw
    have hst' := h1.inv.wf.st
    have ho := h1.opts
    simp only [SD.opts, Prod.mk.injEq] at ho
    refine ⟨⟨i1, h1.begun, h1.opts, h1.src⟩, ?_, ha, ?_, ?_⟩
    · rcases hst with ⟨left, h, _⟩ | ⟨left, m, h, _⟩ <;> simp [withFrame, h, State.inData]
    · rintro rfl
      rcases hst with ⟨left, h, _⟩ | ⟨left, m, h, h2, _⟩
      · simp only [SD.stOk, h] at hst'
        exact ho.1.symm.trans hst'.2.2.1
      · cases h2
    · intro m hm
      rcases hst with ⟨left, h, h2⟩ | ⟨left, m', h, h2, _⟩
      · subst h2; cases hm
      · simp only [SD.stOk, h] at hst'
        exact ho.1.symm.trans hst'.2.2
  | eof => cases hout
  | err => cases hout

/-- The errors in the data of an image. -/
theorem pull_data_errs (hS : C.Safe) {os : OutSpec} {d d' : RD C} {out : Outcome (Option Decoded)} (h : RD.Pull os d d' out)
    {o : DecodeOptions} {r : Reader} (hd : Sober o r d) (hdata : d.sd.state.inData = true)
    (hos : o.skipFrameDecoding = true ∨ ∀ n, os ≠ .vec n) (pal : Option (List UInt8)) (e : DecodingError) (he : out = .err e) :
    MayFind o r pal e := by
  rcases RD.pull_err hS h hd.inv he with rfl | ⟨c, rfl, hc⟩ | ⟨s, hw, hso, hsb, _, hsd, hse⟩
  · trivial
  · exact hd.src.subset hc
  · have hm := SD.stepErr_may hse (hso.trans hd.opts)
    have h1 := hsb hd.begun
    cases e with
    | format e =>
      cases e <;> simp only [SD.StepErr, MayStep] at hse hm
      all_goals first | exact hm | trivial | exact absurd hse h1
    | io e =>
      cases e <;> simp only [SD.StepErr, MayStep] at hse hm
      all_goals first | exact hm | skip
      obtain ⟨h2, n, hn⟩ := hm
      rcases hos with hos | hos
      · rw [hos] at h2; cases h2
      · exact absurd hn (hos n)

/-- The pixel source of `read_next_frame`. -/
theorem decodeNextBytes_data (hS : C.Safe) (o : DecodeOptions) (r : Reader) (pal : Option (List UInt8)) (hk : o.skipFrameDecoding = false) :
    (RD.decodeNextBytes (C := C)).Fails (fun d => Sober o r d ∧ d.sd.state.inData = true ∧ d.atEof = false) (MayFind o r pal) := by
  rintro d cap d' out ⟨hd, hdata, ha⟩ h
  have hp := RD.decodeNext_pull hS (.slice cap) d hd.inv
  have ho := hd.opts
  simp only [SD.opts, Prod.mk.injEq] at ho
  have hks : d.sd.skipFrameDecoding = false := ho.1.trans hk
  unfold RD.decodeNextBytes at h
  generalize d.decodeNext (.slice cap) = x at *
  obtain ⟨d1, out1⟩ := x
  simp only at hp
  rcases RD.pull_data hS hp hd.inv hdata ha with rfl | ⟨e, rfl⟩ | ⟨q1, q2, ⟨⟨bytes, rfl⟩, q3⟩ | ⟨_, q3⟩⟩
  · cases h
    exact ⟨fun bytes hb hne => (by cases hb; exact absurd rfl hne), fun e he => (by cases he)⟩
  · cases h
    refine ⟨fun bytes hb => (by cases hb), fun e' he => ?_⟩
    cases he
    exact pull_data_errs hS hp hd hdata (.inr (by simp)) pal e rfl
  · cases h
    exact ⟨fun _ _ _ => ⟨hd.pull hS hp, q1, q2⟩, fun e he => (by cases he)⟩
  · rw [hks] at q3; cases q3

theorem copyRun_errs (hS : C.Safe) {rd rd' : RD C} {vec vec' : List UInt8} {out : Outcome Unit} (h : CopyRun rd vec rd' vec' out)
    {o : DecodeOptions} {r : Reader} (hd : Sober o r rd) (hdata : rd.sd.state.inData = true) (ha : rd.atEof = false)
    (hk : o.skipFrameDecoding = true) (pal : Option (List UInt8)) (e : DecodingError) (he : out = .err e) : MayFind o r pal e := by
  induction h with
  | @step rd rd1 rd' vec bytes vec' out hp hr ih =>
    rcases RD.pull_data hS hp hd.inv hdata ha with h | ⟨e, h⟩ | ⟨q1, q2, _⟩
    · cases h
    · cases h
    · exact ih (hd.pull hS hp) q1 q2 he
  | done => cases he
  | @other rd rd1 vec ev hp h1 h2 =>
    have ho := hd.opts
    simp only [SD.opts, Prod.mk.injEq] at ho
    have hks : rd.sd.skipFrameDecoding = true := ho.1.trans hk
    rcases RD.pull_data hS hp hd.inv hdata ha with h | ⟨e, h⟩ | ⟨q1, q2, ⟨_, q3⟩ | ⟨⟨bytes, q3⟩, _⟩⟩
    · cases h; exact absurd rfl h2
    · cases h
    · rw [hks] at q3; cases q3
    · cases q3; exact absurd rfl (h1 bytes)
  | @err rd rd1 vec e' hp =>
    cases he
    exact pull_data_errs hS hp hd hdata (.inl hk) pal e rfl

theorem find_read {o : DecodeOptions} {r : Reader} {pal : Option (List UInt8)} {e : DecodingError} (h : MayFind o r pal e) :
    MayRead o r pal e := by
  cases e with
  | format e => cases e <;> first | exact h | exact h.elim
  | io e => cases e <;> first | exact h | exact h.elim

theorem readNextFrame_errs (hS : C.Safe) {o : DecodeOptions} {r : Reader} {d : Decoder C} (hd : Sober o r d.rd)
    (hc : d.conv.colorOutput = o.colorOutput) (hl : d.conv.memoryLimit = o.memoryLimit) (e : DecodingError)
    (he : d.readNextFrame.2 = .err e) :
    MayRead o r d.globalPalette e ∧ (e = .format .oddSizedBuffer →
      d.readNextFrame.1.currentFrame.width = 0 ∨ d.readNextFrame.1.currentFrame.height = 0) := by
  have hrun := nextFrameInfo_run hS d hd.inv
  have hfs := frameRun_spec hS hrun hd.inv
  have h1 := frameRun_errs hS hrun hd e
  have h2 := frameRun_data hS hrun hd
  have hodd : ∀ {x : DecodingError}, MayFind o r d.globalPalette x → x ≠ .format .oddSizedBuffer := by
    rintro x hx rfl; exact hx
  unfold readNextFrame at he ⊢
  generalize d.nextFrameInfo = x at *
  obtain ⟨d1, out⟩ := x
  simp only at hrun hfs h1 h2
  cases out with
  | err e' => cases he; exact ⟨find_read (h1 rfl), fun h => absurd h (hodd (h1 rfl))⟩
  | panic => cases he
  | diverge => cases he
  | ok found =>
    cases found with
    | false => cases he
    | true =>
      obtain ⟨k1, k2, k3, k4, k5⟩ := h2 rfl
      obtain ⟨_, _, _, hconv, _, _, hbuf, _⟩ := hfs
      obtain ⟨b1, b2, _⟩ := hbuf rfl
      cases hdt : d1.dataType with
      | pixels =>
        simp only [hdt] at he ⊢
        have hk := k4 hdt
        have herr := Converter.readFrame_errs (RD.decodeNextBytes_keep hS keeps_begun) (fun t ht => ⟨ht.1.inv, ht.1.begun⟩)
          (decodeNextBytes_data hS o r d.globalPalette hk) d1.conv d1.currentFrame d1.rd ⟨k1, k2, k3⟩ e
        have hdim : (d1.conv.readFrame d1.currentFrame RD.decodeNextBytes d1.rd).2.2 = .err e →
            (d1.conv.readFrame d1.currentFrame RD.decodeNextBytes d1.rd).2.1.width = d1.currentFrame.width ∧
            (d1.conv.readFrame d1.currentFrame RD.decodeNextBytes d1.rd).2.1.height = d1.currentFrame.height := by
          intro _
          unfold Converter.readFrame
          split
          · simp only
            split <;> exact ⟨rfl, rfl⟩
          all_goals exact ⟨rfl, rfl⟩
        generalize d1.conv.readFrame d1.currentFrame RD.decodeNextBytes d1.rd = y at *
        obtain ⟨rd, f, out⟩ := y
        cases out with
        | ok u => cases he
        | err e' =>
          cases he
          obtain ⟨e1, e2⟩ := hdim rfl
          simp only at e1 e2
          rcases herr rfl with q | q | ⟨q1, q2, q3⟩ | ⟨q1, q2⟩
          · exact ⟨find_read q, fun h => absurd h (hodd q)⟩
          · subst q; exact ⟨hk, by simp⟩
          · subst q1
            rw [hconv, hc] at q2
            exact ⟨⟨hk, q2⟩, fun _ => by simp only [e1, e2]; exact q3⟩
          · subst q1
            rw [hconv, hl] at q2
            exact ⟨⟨hk, q2⟩, by simp⟩
        | panic => cases he
        | diverge => cases he
      | lzw m =>
        simp only [hdt] at he ⊢
        have hk := k5 m hdt
        have herr := copyRun_errs hS (copyLoop_run hS d1.rd.eventFuel d1.rd [m] k1.inv (meas_lt_fuel _)) k1 k2 k3 hk d.globalPalette e
        unfold copyLzw at he ⊢
        generalize copyLoop d1.rd.eventFuel d1.rd [m] = y at *
        obtain ⟨rd, vec, out⟩ := y
        cases out with
        | ok u => cases he
        | err e' =>
          cases he
          exact ⟨find_read (herr rfl), fun h => absurd h (hodd (herr rfl))⟩
        | panic => cases he
        | diverge => cases he

/-- The pixel source wherever the decoder stands. -/
theorem decodeNextBytes_any (hS : C.Safe) (o : DecodeOptions) (r : Reader) :
    (RD.decodeNextBytes (C := C)).Fails (Sober o r) (fun e => e = .format .unexpectedData ∨
      MayFind o r none e ∧ e ≠ .format .noColorTable) := by
  rintro d cap d' out hd h
  have hp := RD.decodeNext_pull hS (.slice cap) d hd.inv
  have hd1 := hd.pull hS hp
  unfold RD.decodeNextBytes at h
  generalize d.decodeNext (.slice cap) = x at *
  obtain ⟨d1, out1⟩ := x
  simp only at hp hd1
  cases out1 with
  | ok ev =>
    cases ev with
    | none => cases h; exact ⟨fun _ h => (by cases h), fun e he => (by cases he; exact .inl rfl)⟩
    | some ev =>
      cases ev with
      | bytesDecoded bytes => cases h; exact ⟨fun _ _ _ => hd1, fun e he => (by cases he)⟩
      | dataEnd => cases h; exact ⟨fun _ _ _ => hd1, fun e he => (by cases he)⟩
      | _ => cases h; exact ⟨fun _ h => (by cases h), fun e he => (by cases he; exact .inl rfl)⟩
  | err e =>
    cases h
    refine ⟨fun _ h => (by cases h), fun e' he => ?_⟩
    cases he
    exact .inr (pull_find hS hp hd.inv hd.begun hd.opts hd.src (by simp) none e rfl)
  | panic => cases h; exact ⟨fun _ h => (by cases h), fun e he => (by cases he)⟩
  | diverge => cases h; exact ⟨fun _ h => (by cases h), fun e he => (by cases he)⟩

theorem any_fill {o : DecodeOptions} {r : Reader} {e : DecodingError} (h : e = .format .unexpectedData ∨
      MayFind o r none e ∧ e ≠ .format .noColorTable) : MayFill o r e := by
  rcases h with rfl | ⟨h, h'⟩
  · trivial
  · cases e with
    | format e => cases e <;> first | exact h | exact h.elim | exact absurd rfl h'
    | io e => cases e <;> first | exact h | exact h.elim

theorem fillBuffer_errs (hS : C.Safe) {o : DecodeOptions} {r : Reader} {d : Decoder C} (hd : Sober o r d.rd)
    (hc : d.conv.colorOutput = o.colorOutput) (buf : List UInt8) (e : DecodingError) (he : (d.fillBuffer buf).2.2 = .err e) :
    MayFill o r e := by
  rcases (Converter.fillLoop_errs (decodeNextBytes_any hS o r) d.conv d.currentFrame (buf.length + 1) d.rd buf hd).2 e he with q | ⟨q1, q2, _⟩
  · exact any_fill q
  · subst q1; exact hc.symm.trans q2

theorem readIntoBuffer_errs (hS : C.Safe) {o : DecodeOptions} {r : Reader} {d : Decoder C} (hd : Sober o r d.rd)
    (hc : d.conv.colorOutput = o.colorOutput) (buf : List UInt8) (e : DecodingError) (he : (d.readIntoBuffer buf).2.2 = .err e) :
    MayFillAll o r e ∧ (e = .format .bufferTooSmall → buf.length < d.bufferSize) := by
  rcases Converter.readIntoBuffer_errs (RD.decodeNextBytes_keep hS keeps_begun) (fun t ht => ⟨ht.inv, ht.begun⟩)
    (decodeNextBytes_any hS o r) d.conv d.currentFrame d.rd buf hd e he with q | q | ⟨q1, q2, _⟩ | ⟨q1, q2⟩
  · have := any_fill q
    cases e with
    | format e => cases e <;> first | exact ⟨this, by simp⟩ | exact this.elim
    | io e => cases e <;> first | exact ⟨this, by simp⟩ | exact this.elim
  · subst q; exact ⟨trivial, by simp⟩
  · subst q1; exact ⟨hc.symm.trans q2, by simp⟩
  · subst q1; exact ⟨trivial, fun _ => q2⟩

theorem reach_sober (hS : C.Safe) {o : DecodeOptions} {r : Reader} {d : Decoder C} (h : Reach o r d) :
    Sober o r d.rd ∧ d.conv.colorOutput = o.colorOutput ∧ d.conv.memoryLimit = o.memoryLimit := by
  have hi := (reach_inv hS h).1
  have hconv := (reach_inv hS h).2.1
  obtain ⟨hm, hc⟩ := readInfo_conv (C := C) hS o r
  refine ⟨⟨hi.rd, ?_, reach_opts hS h, ?_⟩, hconv ▸ hc, hconv ▸ hm⟩
  · clear hi hconv hm hc
    have : ∃ w hh pal, Steady o w hh pal d := by
      induction h with
      | opened h => exact ⟨_, _, _, (readInfo_steady hS o r h).1⟩
      | op h op hr ih =>
        obtain ⟨w, hh, pal, hst⟩ := ih
        exact ⟨w, hh, pal, perform_steady hS hst op⟩
    obtain ⟨w, hh, pal, hst⟩ := this
    exact hst.past.1
  · clear hi hconv hm hc
    induction h with
    | opened h => exact (readInfo_left o r).1
    | @op d h op hr ih =>
      refine List.IsSuffix.trans ?_ ih
      cases op with
      | nextFrameInfo =>
        have := (nextFrameInfo_left d).1
        simp only [perform]
        generalize d.nextFrameInfo = x at *
        obtain ⟨d', r⟩ := x
        cases r <;> exact this
      | readNextFrame =>
        have := (readNextFrame_left d).1
        simp only [perform]
        generalize d.readNextFrame = x at *
        obtain ⟨d', r⟩ := x
        cases r <;> exact this
      | readIntoBuffer buf => exact (readIntoBuffer_left d buf).1
      | fillBuffer buf =>
        have := (fillBuffer_left d buf).1
        simp only [perform]
        generalize d.fillBuffer buf = x at *
        obtain ⟨d', b, r⟩ := x
        cases r <;> exact this

/-- C83 for the calls on a decoder: with any reader and any options, after any calls. -/
theorem call_errors (hS : C.Safe) {o : DecodeOptions} {r : Reader} {d : Decoder C} (h : Reach o r d) (e : DecodingError) :
    (d.nextFrameInfo.2 = .err e → MayFind o r d.globalPalette e) ∧
    (d.readNextFrame.2 = .err e → MayRead o r d.globalPalette e ∧ (e = .format .oddSizedBuffer →
      d.readNextFrame.1.currentFrame.width = 0 ∨ d.readNextFrame.1.currentFrame.height = 0)) ∧
    (∀ buf, (d.fillBuffer buf).2.2 = .err e → MayFill o r e) ∧
    (∀ buf, (d.readIntoBuffer buf).2.2 = .err e → MayFillAll o r e ∧ (e = .format .bufferTooSmall → buf.length < d.bufferSize)) ∧
    (d.palette = .err e → e = .format .noColorTable ∧ d.globalPalette = none) := by
  obtain ⟨h1, h2, h3⟩ := reach_sober hS h
  refine ⟨frameRun_errs hS (nextFrameInfo_run hS d h1.inv) h1 e, readNextFrame_errs hS h1 h2 h3 e,
    fun buf => fillBuffer_errs hS h1 h2 buf e, fun buf => readIntoBuffer_errs hS h1 h2 buf e, ?_⟩
  unfold palette
  intro he
  split at he
  · cases he
  · split at he
    · cases he
    · rename_i hn
      cases he
      exact ⟨rfl, hn⟩

end Decoder

namespace DecoderIter

/-- The decoder inside an iterator is one a program could hold, up to the buffer of its frame. -/
theorem reach_same {o : DecodeOptions} {r : Reader} {it : DecoderIter C} (h : Reach o r it) :
    ∃ d : Decoder C, Decoder.Reach o r d ∧ Same it.inner d := by
  induction h with
  | @new d h => exact ⟨d, h, rfl, rfl⟩
  | @next it h hr ih =>
    obtain ⟨d, hd, hs⟩ := ih
    by_cases hx : it.ended = true
    · have : it.next.1 = it := by unfold next; rw [if_pos hx]
      rw [this]; exact ⟨d, hd, hs⟩
    · obtain ⟨s1, s2⟩ := readNextFrame_same it.inner d hs
      have hop := Decoder.Reach.op hd .readNextFrame
      simp only [Decoder.perform] at hop
      unfold next at hr ⊢
      rw [if_neg hx] at hr ⊢
      generalize it.inner.readNextFrame = x at *
      generalize d.readNextFrame = y at *
      obtain ⟨d1, r1⟩ := x
      obtain ⟨d2, r2⟩ := y
      simp only at s1 s2
      subst s1
      cases r1 with
      | ok f =>
        have hop := hop rfl
        cases f with
        | none => exact ⟨d2, hop, s2⟩
        | some f =>
          refine ⟨d2, hop, ?_⟩
          simp only
          unfold Decoder.takeCurrentFrame
          by_cases hb : d1.currentFrame.buffer.isEmpty = true
          · rw [if_pos hb]; exact s2
          · rw [if_neg hb]; exact s2
      | err e => exact ⟨d2, hop rfl, s2⟩
      | panic => cases hr
      | diverge => cases hr

/-- C83 for the iterator. -/
theorem next_errors (hS : C.Safe) {o : DecodeOptions} {r : Reader} {it : DecoderIter C} (h : Reach o r it) (e : DecodingError)
    (he : it.next.2 = .ok (some (.error e))) : MayRead o r it.inner.globalPalette e := by
  obtain ⟨d, hd, hs⟩ := reach_same h
  have key := (Decoder.call_errors hS hd e).2.1
  rw [← (readNextFrame_same it.inner d hs).1] at key
  have hpal : it.inner.globalPalette = d.globalPalette := by unfold Decoder.globalPalette; rw [hs.2]
  rw [hpal]
  unfold next at he
  split at he
  · cases he
  · generalize it.inner.readNextFrame = x at *
    obtain ⟨d, out⟩ := x
    cases out with
    | ok f =>
      cases f with
      | none => cases he
      | some f =>
        simp only at he
        generalize d.takeCurrentFrame = y at he
        obtain ⟨d', g⟩ := y
        cases g <;> cases he
    | err e' => cases he; exact (key rfl).1
    | panic => cases he
    | diverge => cases he

end DecoderIter

namespace FrameDecoder

theorem decodeBytes_check (r : LzwReader C) (l : List UInt8) (o : OutSpec) : (r.decodeBytes l o).1.checkForEndCode = r.checkForEndCode := by
  unfold LzwReader.decodeBytes
  cases r.decoder with
  | none => rfl
  | some d =>
    cases o with
    | vec n => rfl
    | slice cap => simp only; split <;> (try split) <;> rfl
    | none => simp only; split <;> (try split) <;> rfl

theorem reset_check (r : LzwReader C) (m : UInt8) : (r.reset m).1.checkForEndCode = r.checkForEndCode := by
  unfold LzwReader.reset
  split
  · split
    · split <;> rfl
    · rfl
  · rfl

theorem pull_check (cap : Nat) : ∀ (fuel : Nat) (t : LzwReader C × List UInt8),
    (pullLoop cap fuel t).1.1.checkForEndCode = t.1.checkForEndCode := by
  intro fuel
  induction fuel with
  | zero => intro t; rfl
  | succ fuel ih =>
    rintro ⟨lzw, data⟩
    have hc := decodeBytes_check lzw data (.slice cap)
    rw [pullLoop]
    generalize lzw.decodeBytes data (.slice cap) = x at *
    obtain ⟨lzw', out⟩ := x
    cases out with
    | ok p =>
      obtain ⟨read, bytes⟩ := p
      simp only
      split
      · exact hc
      · exact (ih _).trans hc
    | _ => exact hc

/-- The pixel source of the `FrameDecoder`. -/
theorem pull_fails (hS : C.Safe) (ck : Bool) :
    (pull (C := C)).Fails (fun t => t.1.decoder.isSome ∧ t.1.checkForEndCode = ck)
      (fun e => e = .io .noEndCode ∧ ck = true ∨ e = .io .invalidCode) := by
  rintro t cap t' out ⟨hd, hck⟩ h
  have hg := (pull_good hS t cap hd).1
  have hc := pull_check cap (t.2.length + 1) t
  unfold pull at h hg
  rw [h] at hg hc
  refine ⟨fun _ _ _ => ⟨hg, hc.trans hck⟩, ?_⟩
  have key : ∀ (fuel : Nat) (t t' : LzwReader C × List UInt8) (e : DecodingError), t.1.decoder.isSome → t.1.checkForEndCode = ck →
      pullLoop cap fuel t = (t', .err e) → e = .io .noEndCode ∧ ck = true ∨ e = .io .invalidCode := by
    intro fuel
    induction fuel with
    | zero => intro t t' e _ _ h; cases h
    | succ fuel ih =>
      rintro ⟨lzw, data⟩ t' e hd hck h
      rw [pullLoop] at h
      match hx : lzw.decodeBytes data (.slice cap) with
      | (lzw', .ok (read, bytes)) =>
        rw [hx] at h
        simp only at h
        split at h
        · cases h
        · exact ih _ t' e (SD.decodeBytes_decoder hx hd) (by have := decodeBytes_check lzw data (.slice cap); rw [hx] at this; exact this.trans hck) h
      | (lzw', .err e') =>
        rw [hx] at h
        cases h
        rcases SD.decodeBytes_err hd hx with ⟨q1, q2⟩ | q | ⟨_, n, q⟩
        · exact .inl ⟨q1, hck.symm.trans q2⟩
        · exact .inr q
        · cases q
      | (lzw', .panic) => rw [hx] at h; cases h
      | (lzw', .diverge) => rw [hx] at h; cases h
  intro e he
  subst he
  exact key _ t t' e hd hck h

theorem decodeIntoBuffer_errs (hS : C.Safe) (d : FrameDecoder C) (f : Frame) (buf : List UInt8) :
    (d.decodeIntoBuffer f buf).1.lzw.checkForEndCode = d.lzw.checkForEndCode ∧
    ∀ e, (d.decodeIntoBuffer f buf).2.2 = .err e → e = .format .invalidMinCodeSize ∨
      e = .io .noEndCode ∧ d.lzw.checkForEndCode = true ∨ e = .io .invalidCode ∨ e = .format .imageTruncated ∨
      e = .format .oddSizedBuffer ∧ d.conv.colorOutput = .rgba ∧ (f.width = 0 ∨ f.height = 0) ∨
      e = .format .bufferTooSmall ∧ buf.length < d.conv.bufferSize f := by
  have key : ∀ (m : UInt8) (data : List UInt8) (x : FrameDecoder C × List UInt8 × Outcome Unit),
      x = (match d.lzw.reset m with
        | (lzw, .ok ()) =>
          match d.conv.readIntoBuffer f pull (lzw, data) buf with
          | ((lzw, _), buf, r) => ({ d with lzw := lzw }, buf, r)
        | (lzw, .err e) => ({ d with lzw := lzw }, buf, .err e)
        | (lzw, .panic) => ({ d with lzw := lzw }, buf, .panic)
        | (lzw, .diverge) => ({ d with lzw := lzw }, buf, .diverge)) →
      x.1.lzw.checkForEndCode = d.lzw.checkForEndCode ∧
      ∀ e, x.2.2 = .err e → e = .format .invalidMinCodeSize ∨
        e = .io .noEndCode ∧ d.lzw.checkForEndCode = true ∨ e = .io .invalidCode ∨ e = .format .imageTruncated ∨
        e = .format .oddSizedBuffer ∧ d.conv.colorOutput = .rgba ∧ (f.width = 0 ∨ f.height = 0) ∨
        e = .format .bufferTooSmall ∧ buf.length < d.conv.bufferSize f := by
    intro m data x hx
    subst hx
    have hc := reset_check d.lzw m
    match hr : d.lzw.reset m with
    | (lzw, .ok ()) =>
      have hd := SD.reset_decoder hr
      rw [hr] at hc
      have hg : (pull (C := C)).Good (fun t => t.1.decoder.isSome ∧ t.1.checkForEndCode = d.lzw.checkForEndCode) := by
        intro t cap ht
        obtain ⟨g1, g2, g3⟩ := pull_good hS t cap ht.1
        exact ⟨⟨g1, (pull_check cap _ t).trans ht.2⟩, g2, g3⟩
      refine ⟨(Converter.readIntoBuffer_good d.conv f hg (lzw, data) buf ⟨hd, hc⟩).1.2, ?_⟩
      intro e he
      rcases Converter.readIntoBuffer_errs hg (fun _ h => h) (pull_fails hS _) d.conv f (lzw, data) buf ⟨hd, hc⟩ e he with (q | q) | q | q | q
      · exact .inr (.inl q)
      · exact .inr (.inr (.inl q))
      · exact .inr (.inr (.inr (.inl q)))
      · exact .inr (.inr (.inr (.inr (.inl q))))
      · exact .inr (.inr (.inr (.inr (.inr q))))
    | (lzw, .err e') =>
      rw [hr] at hc
      exact ⟨hc, fun e he => (by cases he; exact .inl (SD.reset_err hr))⟩
    | (lzw, .panic) => rw [hr] at hc; exact ⟨hc, fun e he => (by cases he)⟩
    | (lzw, .diverge) => rw [hr] at hc; exact ⟨hc, fun e he => (by cases he)⟩
  unfold decodeIntoBuffer
  cases f.buffer with
  | nil => exact key 2 [] _ rfl
  | cons m data => exact key m data _ rfl

theorem reach_settings (hS : C.Safe) {o : DecodeOptions} {d : FrameDecoder C} (h : Reach o d) :
    d.lzw.checkForEndCode = o.checkForEndCode ∧ d.conv.colorOutput = o.colorOutput ∧ d.conv.memoryLimit = o.memoryLimit := by
  induction h with
  | new => exact ⟨rfl, rfl, rfl⟩
  | setGlobalPalette h p ih => exact ih
  | @decodeFrame d h f hr ih =>
    rw [(decodeFrame_spec hS d f).2.1]
    refine ⟨?_, ih.2⟩
    have := (decodeIntoBuffer_errs hS d f (List.replicate (d.conv.bufferSize f) 0)).1
    unfold decodeFrame
    rcases Converter.checkBufferSize_cases d.conv f with ⟨h1, _⟩ | ⟨h1, _⟩
    · rw [h1]
      simp only
      generalize d.decodeIntoBuffer f (List.replicate (d.conv.bufferSize f) 0) = x at *
      obtain ⟨d', vec, out⟩ := x
      cases out <;> exact this.trans ih.1
    · rw [h1]; exact ih.1
  | @decodeIntoBuffer d h f buf hr ih =>
    obtain ⟨h1, _⟩ := decodeIntoBuffer_errs hS d f buf
    rw [(decodeIntoBuffer_returns hS d f buf).2.2, h1]
    exact ih

/-- C83 for the `FrameDecoder`: with any options, after any calls, for every frame. -/
theorem decode_errors (hS : C.Safe) {o : DecodeOptions} {d : FrameDecoder C} (h : Reach o d) (f : Frame) (e : DecodingError) :
    ((d.decodeFrame f).2.2 = .err e → MayDecode o e ∧ (e = .format .oddSizedBuffer → f.width = 0 ∨ f.height = 0)) ∧
    ∀ buf, (d.decodeIntoBuffer f buf).2.2 = .err e → MayDecodeInto o e ∧ (e = .format .oddSizedBuffer → f.width = 0 ∨ f.height = 0) ∧
      (e = .format .bufferTooSmall → buf.length < d.conv.bufferSize f) := by
  obtain ⟨s1, s2, s3⟩ := reach_settings hS h
  constructor
  · intro he
    unfold decodeFrame at he
    rcases Converter.checkBufferSize_cases d.conv f with ⟨h1, _⟩ | ⟨h1, h2⟩
    · rw [h1] at he
      simp only at he
      have key := (decodeIntoBuffer_errs hS d f (List.replicate (d.conv.bufferSize f) 0)).2 e
      generalize d.decodeIntoBuffer f (List.replicate (d.conv.bufferSize f) 0) = x at *
      obtain ⟨d', vec, out⟩ := x
      cases out with
      | ok u => cases he
      | err e' =>
        cases he
        rcases key rfl with rfl | ⟨rfl, q⟩ | rfl | rfl | ⟨rfl, q, q'⟩ | ⟨rfl, q⟩
        · exact ⟨trivial, by simp⟩
        · exact ⟨s1.symm.trans q, by simp⟩
        · exact ⟨trivial, by simp⟩
        · exact ⟨trivial, by simp⟩
        · exact ⟨s2.symm.trans q, fun _ => q'⟩
        · simp at q
      | panic => cases he
      | diverge => cases he
    · rw [h1] at he
      cases he
      exact ⟨by show o.memoryLimit ≠ .unlimited; rw [← s3]; exact SD.limit_of_sizeOk (n := d.conv.bufferSize f) (by simp [h2]), by simp⟩
  · intro buf he
    rcases (decodeIntoBuffer_errs hS d f buf).2 e he with rfl | ⟨rfl, q⟩ | rfl | rfl | ⟨rfl, q, q'⟩ | ⟨rfl, q⟩
    · exact ⟨trivial, by simp, by simp⟩
    · exact ⟨s1.symm.trans q, by simp, by simp⟩
    · exact ⟨trivial, by simp, by simp⟩
    · exact ⟨trivial, by simp, by simp⟩
    · exact ⟨s2.symm.trans q, fun _ => q', by simp⟩
    · exact ⟨trivial, by simp, fun _ => q⟩

end FrameDecoder

end Gif
