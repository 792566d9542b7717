import Verif.Lemmas.DecInv
/-!
Big-step descriptions of `init`, `next_frame_info` and `copy_lzw_into_buffer`, and the decoder invariant.
-/

namespace Gif.Decoder

variable {C : Codec}

/-- The effect of an event during `init`. -/
def onEvent (d : Decoder C) (ev : Decoded) : Decoder C :=
  match ev with
  | .backgroundColor c => { d with bgColor := some c }
  | .globalPalette p => { d with conv := d.conv.setGlobalPalette p }
  | .repetitions r => { d with repetition := r }
  | _ => d

/-- The loop of `init`. -/
inductive InitRun : Decoder C → Decoder C → Outcome Unit → Prop
  | step {d d' : Decoder C} {rd : RD C} {ev : Decoded} {out : Outcome Unit} (hp : RD.Pull .none d.rd rd (.ok (some ev)))
      (hev : ev ≠ .headerEnd) (hr : InitRun { d.onEvent ev with rd := rd } d' out) : InitRun d d' out
  | done {d : Decoder C} {rd : RD C} (hp : RD.Pull .none d.rd rd (.ok (some .headerEnd))) :
      InitRun d { d with rd := rd } (.ok ())
  | empty {d : Decoder C} {rd : RD C} (hp : RD.Pull .none d.rd rd (.ok none)) :
      InitRun d { d with rd := rd } (.fmtErr .noImageData)
  | err {d : Decoder C} {rd : RD C} {e : DecodingError} (hp : RD.Pull .none d.rd rd (.err e)) :
      InitRun d { d with rd := rd } (.err e)

theorem not_slice_none : ∀ c, OutSpec.none ≠ .slice c := by intro c h; cases h

theorem not_slice_vec (l : Nat) : ∀ c, OutSpec.vec l ≠ .slice c := by intro c h; cases h

theorem initLoop_run (hS : C.Safe) : ∀ (fuel : Nat) (d : Decoder C), d.rd.Inv → d.rd.meas < fuel →
    InitRun d (initLoop fuel d).1 (initLoop fuel d).2 := by
  intro fuel
  induction fuel with
  | zero => intro d _ h; omega
  | succ fuel ih =>
    intro d hi hf
    have hp := RD.decodeNext_pull hS .none d.rd hi
    have hinv := RD.pull_inv hS hp hi
    have hret := RD.pull_returns hp
    rw [initLoop]
    generalize hd : RD.decodeNext .none d.rd = x at hp hinv hret
    obtain ⟨rd, out⟩ := x
    cases out with
    | ok o =>
      cases o with
      | none => exact .empty hp
      | some ev =>
        have hm := RD.pull_meas hS not_slice_none hp hi ev rfl
        by_cases hev : ev = .headerEnd
        · subst hev; exact .done hp
        · cases ev with
          | headerEnd => exact absurd rfl hev
          | backgroundColor c =>
            exact .step hp hev (ih { d with rd := rd, bgColor := some c } hinv (by simp only at hm; simp only; omega))
          | globalPalette p =>
            exact .step hp hev (ih { d with rd := rd, conv := d.conv.setGlobalPalette p } hinv
              (by simp only at hm; simp only; omega))
          | repetitions r =>
            exact .step hp hev (ih { d with rd := rd, repetition := r } hinv (by simp only at hm; simp only; omega))
          | _ => exact .step hp hev (ih { d with rd := rd } hinv (by simp only at hm; simp only; omega))
    | err e => exact .err hp
    | panic => cases hret
    | diverge => cases hret

theorem initRun_spec (hS : C.Safe) {d d' : Decoder C} {out : Outcome Unit} (h : InitRun d d' out) (hi : d.rd.Inv) :
    d'.rd.Inv ∧ out.returns = true ∧ d'.rd.sd.opts = d.rd.sd.opts ∧ d'.conv.memoryLimit = d.conv.memoryLimit ∧
      d'.conv.colorOutput = d.conv.colorOutput ∧ d'.currentFrame = d.currentFrame ∧ d'.dataType = d.dataType := by
  induction h with
  | @step d d' rd ev out hp hev hr ih =>
    obtain ⟨h1, h2, h3, h4, h5, h6, h7⟩ := ih (RD.pull_inv hS hp hi)
    have ho := RD.pull_opts hS hp hi
    refine ⟨h1, h2, h3.trans ho, h4.trans ?_, h5.trans ?_, h6.trans ?_, h7.trans ?_⟩ <;>
      (unfold onEvent; split <;> rfl)
  | done hp => exact ⟨RD.pull_inv hS hp hi, rfl, RD.pull_opts hS hp hi, rfl, rfl, rfl, rfl⟩
  | empty hp => exact ⟨RD.pull_inv hS hp hi, rfl, RD.pull_opts hS hp hi, rfl, rfl, rfl, rfl⟩
  | err hp => exact ⟨RD.pull_inv hS hp hi, rfl, RD.pull_opts hS hp hi, rfl, rfl, rfl, rfl⟩

theorem meas_lt_fuel (d : RD C) : d.meas < d.eventFuel := by
  unfold RD.meas RD.eventFuel
  have := SD.rank_le d.sd
  omega

/-- The decoder after `next_frame_info` found a frame. -/
def withFrame (d : Decoder C) (rd : RD C) (f : Frame) (t : FrameDataType) : Decoder C :=
  { d with rd := { rd with sd := { rd.sd with current := some f.afterTake } }, currentFrame := f.take, dataType := t }

/-- The loop of `next_frame_info`. -/
inductive FrameRun : Decoder C → Decoder C → Outcome Bool → Prop
  | step {d d' : Decoder C} {rd : RD C} {ev : Decoded} {out : Outcome Bool} (hp : RD.Pull .none d.rd rd (.ok (some ev)))
      (hev : ∀ t, ev ≠ .frameMetadata t) (hr : FrameRun { d with rd := rd } d' out) : FrameRun d d' out
  | found {d : Decoder C} {rd : RD C} {t : FrameDataType} {f : Frame}
      (hp : RD.Pull .none d.rd rd (.ok (some (.frameMetadata t)))) (hc : rd.sd.current = some f) :
      FrameRun d (d.withFrame rd f t)
        (if f.palette.isNone ∧ d.globalPalette.isNone then .fmtErr .noColorTable else .ok true)
  | eof {d : Decoder C} {rd : RD C} (hp : RD.Pull .none d.rd rd (.ok none)) : FrameRun d { d with rd := rd } (.ok false)
  | err {d : Decoder C} {rd : RD C} {e : DecodingError} (hp : RD.Pull .none d.rd rd (.err e)) :
      FrameRun d { d with rd := rd } (.err e)

theorem nextFrameLoop_run (hS : C.Safe) : ∀ (fuel : Nat) (d : Decoder C), d.rd.Inv → d.rd.meas < fuel →
    FrameRun d (nextFrameLoop fuel d).1 (nextFrameLoop fuel d).2 := by
  intro fuel
  induction fuel with
  | zero => intro d _ h; omega
  | succ fuel ih =>
    intro d hi hf
    have hp := RD.decodeNext_pull hS .none d.rd hi
    have hinv := RD.pull_inv hS hp hi
    have hret := RD.pull_returns hp
    rw [nextFrameLoop]
    generalize hd : RD.decodeNext .none d.rd = x at hp hinv hret
    obtain ⟨rd, out⟩ := x
    cases out with
    | ok o =>
      cases o with
      | none => exact .eof hp
      | some ev =>
        have hm := RD.pull_meas hS not_slice_none hp hi ev rfl
        cases ev with
        | frameMetadata t =>
          obtain ⟨s1, b, bs, n, hw, _, _, htr, _⟩ := RD.pull_last hS hp hi rfl
          obtain ⟨⟨f, hf', _⟩, _⟩ := SD.tr_metadata htr hw
          have key := FrameRun.found (d := d) hp hf'
          simp only at hf' key ⊢
          split
          · rename_i hn; rw [hn] at hf'; cases hf'
          · rename_i g hg
            rw [hg] at hf'
            cases hf'
            split
            · rename_i hn
              have hn' : f.palette.isNone ∧ d.globalPalette.isNone := hn
              rw [if_pos hn'] at key; exact key
            · rename_i hn
              have hn' : ¬ (f.palette.isNone ∧ d.globalPalette.isNone) := hn
              rw [if_neg hn'] at key; exact key
        | _ => exact .step hp (by intro t; simp) (ih { d with rd := rd } hinv (by simp only at hm; simp only; omega))
    | err e => exact .err hp
    | panic => cases hret
    | diverge => cases hret

theorem nextFrameInfo_run (hS : C.Safe) (d : Decoder C) (hi : d.rd.Inv) :
    FrameRun d d.nextFrameInfo.1 d.nextFrameInfo.2 :=
  nextFrameLoop_run hS _ d hi (meas_lt_fuel _)

/-- Taking the frame out keeps the invariant. -/
theorem withFrame_inv (hS : C.Safe) {d : Decoder C} {rd : RD C} {t : FrameDataType} {f : Frame}
    (hp : RD.Pull .none d.rd rd (.ok (some (.frameMetadata t)))) (hc : rd.sd.current = some f) (hi : d.rd.Inv) :
    (d.withFrame rd f t).rd.Inv ∧ f.buffer = [] ∧ f.ownedCap = none := by
  have hinv := RD.pull_inv hS hp hi
  obtain ⟨s1, b, bs, n, hw, _, _, htr, _⟩ := RD.pull_last hS hp hi rfl
  obtain ⟨_, hst⟩ := SD.tr_metadata htr hw
  have hbuf := hinv.wf.buf f hc
  refine ⟨⟨⟨?_, hinv.wf.ext, ?_, ?_⟩, hinv.look, hinv.live⟩, hbuf.1, hbuf.2⟩
  · exact hinv.wf.ibuf
  · intro g hg
    simp only [withFrame, Option.some.injEq] at hg
    subst hg
    exact ⟨rfl, rfl⟩
  · have w4 := hinv.wf.st
    rcases hst with ⟨left, h, _⟩ | ⟨left, m, h, _⟩
    · simp only [SD.stOk, withFrame, h] at w4 ⊢
      exact ⟨w4.1, by simp, w4.2.2⟩
    · simp only [SD.stOk, withFrame, h] at w4 ⊢
      exact ⟨w4.1, by simp, w4.2.2⟩

theorem frameRun_spec (hS : C.Safe) {d d' : Decoder C} {out : Outcome Bool} (h : FrameRun d d' out) (hi : d.rd.Inv) :
    d'.rd.Inv ∧ out.returns = true ∧ d'.rd.sd.opts = d.rd.sd.opts ∧ d'.conv = d.conv ∧ d'.bgColor = d.bgColor ∧
      d'.repetition = d.repetition ∧
      (out = .ok true → d'.currentFrame.buffer = [] ∧ d'.currentFrame.ownedCap = none ∧
        (d'.currentFrame.palette ≠ none ∨ d.globalPalette ≠ none)) ∧
      (out = .ok false → d'.rd.atEof = true ∧ d'.currentFrame = d.currentFrame) := by
  induction h with
  | @step d d' rd ev out hp hev hr ih =>
    obtain ⟨h1, h2, h3, h4, h5, h6, h7, h8⟩ := ih (RD.pull_inv hS hp hi)
    exact ⟨h1, h2, h3.trans (RD.pull_opts hS hp hi), h4, h5, h6, h7, h8⟩
  | @found d rd t f hp hc =>
    obtain ⟨h1, h2, h3⟩ := withFrame_inv hS hp hc hi
    have ho : (d.withFrame rd f t).rd.sd.opts = rd.sd.opts := rfl
    refine ⟨h1, by split <;> rfl, ho.trans (RD.pull_opts hS hp hi), rfl, rfl, rfl, ?_, ?_⟩
    · intro h
      refine ⟨h2, h3, ?_⟩
      split at h
      · cases h
      · rename_i hn
        simp only [withFrame, Frame.take]
        by_cases hx : f.palette = none
        · right; intro hg; exact hn ⟨by simp [hx], by simp [hg]⟩
        · exact .inl hx
    · intro h; split at h <;> cases h
  | @eof d rd hp =>
    refine ⟨RD.pull_inv hS hp hi, rfl, RD.pull_opts hS hp hi, rfl, rfl, rfl, by simp, fun _ => ⟨?_, rfl⟩⟩
    have key : ∀ {d d' : RD C} {out}, RD.Pull .none d d' out → out = .ok none → d'.atEof = true := by
      intro d d' out h ho
      induction h with
      | eof h => exact h
      | more _ _ _ _ ih => exact ih ho
      | trailer => rfl
      | _ => cases ho
    exact key hp rfl
  | err hp => exact ⟨RD.pull_inv hS hp hi, rfl, RD.pull_opts hS hp hi, rfl, rfl, rfl, by simp, by simp⟩

/-- The loop of `copy_lzw_into_buffer`. -/
inductive CopyRun : RD C → List UInt8 → RD C → List UInt8 → Outcome Unit → Prop
  | step {rd rd1 rd' : RD C} {vec bytes vec' : List UInt8} {out : Outcome Unit}
      (hp : RD.Pull (.vec vec.length) rd rd1 (.ok (some (.lzwDataCopied bytes))))
      (hr : CopyRun rd1 (vec ++ bytes) rd' vec' out) : CopyRun rd vec rd' vec' out
  | done {rd rd1 : RD C} {vec : List UInt8} (hp : RD.Pull (.vec vec.length) rd rd1 (.ok (some .dataEnd))) :
      CopyRun rd vec rd1 vec (.ok ())
  | other {rd rd1 : RD C} {vec : List UInt8} {ev : Option Decoded} (hp : RD.Pull (.vec vec.length) rd rd1 (.ok ev))
      (h1 : ∀ bytes, ev ≠ some (.lzwDataCopied bytes)) (h2 : ev ≠ some .dataEnd) :
      CopyRun rd vec rd1 vec (.fmtErr .unexpectedData)
  | err {rd rd1 : RD C} {vec : List UInt8} {e : DecodingError} (hp : RD.Pull (.vec vec.length) rd rd1 (.err e)) :
      CopyRun rd vec rd1 vec (.err e)

theorem copyLoop_run (hS : C.Safe) : ∀ (fuel : Nat) (rd : RD C) (vec : List UInt8), rd.Inv → rd.meas < fuel →
    CopyRun rd vec (copyLoop fuel rd vec).1 (copyLoop fuel rd vec).2.1 (copyLoop fuel rd vec).2.2 := by
  intro fuel
  induction fuel with
  | zero => intro d _ _ h; omega
  | succ fuel ih =>
    intro rd vec hi hf
    have hp := RD.decodeNext_pull hS (.vec vec.length) rd hi
    have hinv := RD.pull_inv hS hp hi
    have hret := RD.pull_returns hp
    rw [copyLoop]
    generalize hd : RD.decodeNext (.vec vec.length) rd = x at hp hinv hret
    obtain ⟨rd', out⟩ := x
    cases out with
    | ok o =>
      cases o with
      | none => exact .other hp (by simp) (by simp)
      | some ev =>
        have hm := RD.pull_meas hS (not_slice_vec _) hp hi ev rfl
        cases ev with
        | lzwDataCopied bytes => exact .step hp (ih rd' (vec ++ bytes) hinv (by simp only at hm; omega))
        | dataEnd => exact .done hp
        | _ => exact .other hp (by simp) (by simp)
    | err e => exact .err hp
    | panic => cases hret
    | diverge => cases hret

/-- Copied data fits the memory limit. -/
theorem tr_copied {o : OutSpec} {b : UInt8} {bs : List UInt8} {s s' : SD C} {n len : Nat} {bytes : List UInt8}
    (h : SD.Tr o b bs s s' n (.lzwDataCopied bytes)) (ho : o = .vec len) :
    s.memoryLimit.sizeOk (len + bytes.length) = true := by
  subst ho
  generalize hev : Decoded.lzwDataCopied bytes = ev at h
  cases h with
  | copy left consumed copied hs hk hl ha hc =>
    cases hev
    unfold SD.append at ha
    simp only at ha
    split at ha
    · rename_i hm; cases ha; exact hm
    · cases ha
  | decode => split at hev <;> cases hev
  | _ => cases hev

theorem copyRun_spec (hS : C.Safe) {rd rd' : RD C} {vec vec' : List UInt8} {out : Outcome Unit}
    (h : CopyRun rd vec rd' vec' out) (hi : rd.Inv) (hv : rd.sd.memoryLimit.sizeOk vec.length = true) :
    rd'.Inv ∧ out.returns = true ∧ rd'.sd.opts = rd.sd.opts ∧ rd.sd.memoryLimit.sizeOk vec'.length = true ∧
      vec <+: vec' := by
  have ml : ∀ {a b : RD C}, a.sd.opts = b.sd.opts → a.sd.memoryLimit = b.sd.memoryLimit := by
    intro a b h; simp only [SD.opts, Prod.mk.injEq] at h; exact h.2.2.2.1
  induction h with
  | @step rd rd1 rd' vec bytes vec' out hp hr ih =>
    have ho := RD.pull_opts hS hp hi
    obtain ⟨s1, b, bs, n, hw, _, hn, htr, _⟩ := RD.pull_last hS hp hi rfl
    have hm := tr_copied htr rfl
    have ho1 := SD.tr_opts htr
    have hm' : s1.memoryLimit = rd1.sd.memoryLimit := by
      simp only [SD.opts, Prod.mk.injEq] at ho1; exact ho1.2.2.2.1.symm
    obtain ⟨h1, h2, h3, h4, h5⟩ := ih (RD.pull_inv hS hp hi) (by rw [← hm', List.length_append]; exact hm)
    exact ⟨h1, h2, h3.trans ho, by rw [← ml ho]; exact h4, (List.prefix_append _ _).trans h5⟩
  | done hp => exact ⟨RD.pull_inv hS hp hi, rfl, RD.pull_opts hS hp hi, hv, List.prefix_refl _⟩
  | other hp => exact ⟨RD.pull_inv hS hp hi, rfl, RD.pull_opts hS hp hi, hv, List.prefix_refl _⟩
  | err hp => exact ⟨RD.pull_inv hS hp hi, rfl, RD.pull_opts hS hp hi, hv, List.prefix_refl _⟩

/-- The decoder's invariant. -/
structure Inv (d : Decoder C) : Prop where
  rd : d.rd.Inv
  limit : d.rd.sd.memoryLimit = d.conv.memoryLimit

theorem opts_limit {a b : SD C} (h : a.opts = b.opts) : a.memoryLimit = b.memoryLimit := by
  simp only [SD.opts, Prod.mk.injEq] at h; exact h.2.2.2.1

theorem inv_withNoInit (o : DecodeOptions) (r : Reader) : (withNoInit C o r).Inv :=
  ⟨⟨SD.wf_withOptions o, fun _ => SD.look_of_not_peeks rfl, fun _ => by simp [withNoInit, SD.withOptions]⟩, rfl⟩

theorem inv_init (hS : C.Safe) (d : Decoder C) (hi : d.Inv) : d.init.1.Inv ∧ d.init.2.returns = true := by
  have hr := initLoop_run hS _ d hi.rd (meas_lt_fuel _)
  obtain ⟨h1, h2, h3, h4, _⟩ := initRun_spec hS hr hi.rd
  have hinv : (initLoop d.rd.eventFuel d).1.Inv := ⟨h1, by rw [opts_limit h3, h4]; exact hi.limit⟩
  have hbg : ∀ d : Decoder C, d.Inv → d.checkBg.Inv := by
    intro d hd
    unfold checkBg
    split
    · split
      · exact ⟨hd.rd, hd.limit⟩
      · exact hd
    · exact hd
  unfold init
  match hx : initLoop d.rd.eventFuel d with
  | (d', .ok ()) => rw [hx] at hinv; exact ⟨hbg _ hinv, rfl⟩
  | (d', .err e) => rw [hx] at hinv; exact ⟨hinv, rfl⟩
  | (d', .panic) => rw [hx] at h2; cases h2
  | (d', .diverge) => rw [hx] at h2; cases h2

theorem inv_readInfo (hS : C.Safe) (o : DecodeOptions) (r : Reader) :
    (readInfo C o r).1.Inv ∧ (readInfo C o r).2.returns = true :=
  inv_init hS _ (inv_withNoInit o r)

theorem readInfo_skip (hS : C.Safe) (o : DecodeOptions) (r : Reader) :
    (readInfo C o r).1.rd.sd.skipFrameDecoding = o.skipFrameDecoding := by
  have hi := inv_withNoInit (C := C) o r
  obtain ⟨_, _, h, _⟩ := initRun_spec hS (initLoop_run hS _ _ hi.rd (meas_lt_fuel _)) hi.rd
  have hbr : ∀ (a : Decoder C), a.checkBg.rd = a.rd := by
    intro a; unfold checkBg; split <;> (try split) <;> rfl
  simp only [SD.opts, Prod.mk.injEq] at h
  unfold readInfo init
  generalize initLoop (withNoInit C o r).rd.eventFuel (withNoInit C o r) = x at *
  obtain ⟨d, out⟩ := x
  cases out with
  | ok u => simp only [hbr]; exact h.1
  | _ => exact h.1

theorem inv_nextFrameInfo (hS : C.Safe) (d : Decoder C) (hi : d.Inv) :
    d.nextFrameInfo.1.Inv ∧ d.nextFrameInfo.2.returns = true := by
  obtain ⟨h1, h2, h3, h4, _⟩ := frameRun_spec hS (nextFrameInfo_run hS d hi.rd) hi.rd
  exact ⟨⟨h1, by rw [opts_limit h3, h4]; exact hi.limit⟩, h2⟩

/-- The data callback keeps the options, too. -/
theorem decodeNextBytes_good' (hS : C.Safe) (l : MemoryLimit) :
    (RD.decodeNextBytes (C := C)).Good (fun d => d.Inv ∧ d.sd.memoryLimit = l) := by
  intro d cap hi
  obtain ⟨g1, g2, g3⟩ := RD.decodeNextBytes_good hS d cap hi.1
  refine ⟨⟨g1, ?_⟩, g2, g3⟩
  have ho := RD.pull_opts hS (RD.decodeNext_pull hS (.slice cap) d hi.1) hi.1
  have : (RD.decodeNextBytes d cap).1 = (d.decodeNext (.slice cap)).1 := by
    unfold RD.decodeNextBytes
    split <;> rename_i h <;> rw [h]
  rw [this, opts_limit ho, hi.2]

/-- The data callback keeps all options. -/
theorem decodeNextBytes_opts (hS : C.Safe) (o : Bool × Bool × Bool × MemoryLimit × Bool) :
    (RD.decodeNextBytes (C := C)).Good (fun d => d.Inv ∧ d.sd.opts = o) := by
  intro d cap hi
  obtain ⟨g1, g2, g3⟩ := RD.decodeNextBytes_good hS d cap hi.1
  refine ⟨⟨g1, ?_⟩, g2, g3⟩
  have ho := RD.pull_opts hS (RD.decodeNext_pull hS (.slice cap) d hi.1) hi.1
  have : (RD.decodeNextBytes d cap).1 = (d.decodeNext (.slice cap)).1 := by
    unfold RD.decodeNextBytes
    split <;> rename_i h <;> rw [h]
  rw [this, ho, hi.2]

theorem inv_readIntoBuffer (hS : C.Safe) (d : Decoder C) (buf : List UInt8) (hi : d.Inv) :
    (d.readIntoBuffer buf).1.Inv ∧ (d.readIntoBuffer buf).2.2.returns = true ∧
      (d.readIntoBuffer buf).2.1.length = buf.length := by
  obtain ⟨g1, g2, g3⟩ := Converter.readIntoBuffer_good d.conv d.currentFrame (decodeNextBytes_good' hS d.conv.memoryLimit)
    d.rd buf ⟨hi.rd, hi.limit⟩
  exact ⟨⟨g1.1, g1.2⟩, g2, g3⟩

theorem inv_fillBuffer (hS : C.Safe) (d : Decoder C) (buf : List UInt8) (hi : d.Inv) :
    (d.fillBuffer buf).1.Inv ∧ (d.fillBuffer buf).2.2.returns = true ∧ (d.fillBuffer buf).2.1.length = buf.length := by
  obtain ⟨g1, g2, g3⟩ := Converter.fillBuffer_good d.conv d.currentFrame (decodeNextBytes_good' hS d.conv.memoryLimit)
    d.rd buf ⟨hi.rd, hi.limit⟩
  exact ⟨⟨g1.1, g1.2⟩, g2, g3⟩

/-- What every `read_next_frame` call satisfies. -/
theorem readNextFrame_spec (hS : C.Safe) (d : Decoder C) (hi : d.Inv) :
    d.readNextFrame.1.Inv ∧ d.readNextFrame.2.returns = true ∧ d.readNextFrame.1.conv = d.conv ∧
      d.readNextFrame.1.bgColor = d.bgColor ∧ d.readNextFrame.1.repetition = d.repetition ∧
      (∀ f, d.readNextFrame.2 = .ok (some f) → d.readNextFrame.1.currentFrame = f ∧
        d.conv.memoryLimit.sizeOk f.buffer.length = true ∧ (f.palette ≠ none ∨ d.globalPalette ≠ none) ∧
        f.ownedCap = some f.buffer.length ∧
        (d.nextFrameInfo.1.dataType = .pixels → f.buffer.length = d.conv.bufferSize f) ∧
        (∀ m, d.nextFrameInfo.1.dataType = .lzw m → ∃ data, f.buffer = m :: data)) ∧
      (d.readNextFrame.2 = .ok none → d.readNextFrame.1.rd.atEof = true ∧ d.nextFrameInfo.2 = .ok false) := by
  obtain ⟨h1, h2, h3, h4, h5, h6, h7, h8⟩ := frameRun_spec hS (nextFrameInfo_run hS d hi.rd) hi.rd
  have hlim : d.nextFrameInfo.1.rd.sd.memoryLimit = d.nextFrameInfo.1.conv.memoryLimit := by
    rw [opts_limit h3, h4]; exact hi.limit
  unfold readNextFrame
  generalize hx : d.nextFrameInfo = x at *
  obtain ⟨d1, out⟩ := x
  simp only at *
  cases out with
  | ok b =>
    cases b with
    | true =>
      simp only
      obtain ⟨k1, k2, k3⟩ := h7 rfl
      cases hdt : d1.dataType with
      | pixels =>
        simp only
        obtain ⟨g1, g2, g3⟩ := Converter.readFrame_good d1.conv d1.currentFrame
          (decodeNextBytes_good' hS d1.conv.memoryLimit) d1.rd ⟨h1, hlim⟩
        generalize hr : d1.conv.readFrame d1.currentFrame RD.decodeNextBytes d1.rd = y at *
        obtain ⟨rd, f, out⟩ := y
        simp only at *
        cases out with
        | ok u =>
          obtain ⟨q1, q2, q3⟩ := g3 rfl
          refine ⟨⟨g1.1, g1.2⟩, rfl, h4, h5, h6, ?_, by simp⟩
          intro f' hf'
          simp only [Outcome.ok.injEq, Option.some.injEq] at hf'
          subst hf'
          have hpal : f.palette = d1.currentFrame.palette := by rw [q3]
          have hown : f.ownedCap = some (d1.conv.bufferSize d1.currentFrame) := by rw [q3]
          refine ⟨rfl, by rw [q1, ← h4]; exact q2, by rw [hpal]; exact k3, by rw [hown, q1], ?_, by simp⟩
          intro _
          rw [q1, h4]
          unfold Converter.bufferSize Converter.lineLength
          have hw : f.width = d1.currentFrame.width := by rw [q3]
          have hh : f.height = d1.currentFrame.height := by rw [q3]
          rw [hw, hh]
        | err e => exact ⟨⟨g1.1, g1.2⟩, rfl, h4, h5, h6, by simp, by simp⟩
        | panic => cases g2
        | diverge => cases g2
      | lzw m =>
        simp only [k2]
        have hr := copyLoop_run hS _ d1.rd [m] h1 (meas_lt_fuel _)
        obtain ⟨g1, g2, g3, g4, g5⟩ := copyRun_spec hS hr h1 (SD.sizeOk_one _)
        have hcl : copyLzw m d1.rd = copyLoop d1.rd.eventFuel d1.rd [m] := rfl
        rw [hcl]
        have hlim' : (copyLoop d1.rd.eventFuel d1.rd [m]).1.sd.memoryLimit = d1.conv.memoryLimit := by
          rw [opts_limit g3]; exact hlim
        generalize copyLoop d1.rd.eventFuel d1.rd [m] = y at *
        obtain ⟨rd, vec, out⟩ := y
        simp only at *
        cases out with
        | ok u =>
          refine ⟨⟨g1, hlim'⟩, rfl, h4, h5, h6, ?_, by simp⟩
          intro f' hf'
          simp only [Outcome.ok.injEq, Option.some.injEq] at hf'
          subst hf'
          refine ⟨rfl, by rw [← h4, ← hlim]; exact g4, k3, rfl, by simp, ?_⟩
          intro m' hm'
          cases hm'
          obtain ⟨data, hd⟩ := g5
          exact ⟨data, hd.symm⟩
        | err e => exact ⟨⟨g1, hlim'⟩, rfl, h4, h5, h6, by simp, by simp⟩
        | panic => cases g2
        | diverge => cases g2
    | false => exact ⟨⟨h1, hlim⟩, rfl, h4, h5, h6, by simp, fun _ => ⟨(h8 rfl).1, rfl⟩⟩
  | err e => exact ⟨⟨h1, hlim⟩, rfl, h4, h5, h6, by simp, by simp⟩
  | panic => cases h2
  | diverge => cases h2

/-- `read_next_frame` keeps the options. -/
theorem readNextFrame_opts (hS : C.Safe) (d : Decoder C) (hi : d.Inv) : d.readNextFrame.1.rd.sd.opts = d.rd.sd.opts := by
  obtain ⟨h1, h2, h3, _⟩ := frameRun_spec hS (nextFrameInfo_run hS d hi.rd) hi.rd
  unfold readNextFrame
  generalize hx : d.nextFrameInfo = x at *
  obtain ⟨d1, out⟩ := x
  simp only at *
  cases out with
  | ok b =>
    cases b with
    | true =>
      simp only
      cases hdt : d1.dataType with
      | pixels =>
        simp only
        obtain ⟨g1, g2, g3⟩ := Converter.readFrame_good d1.conv d1.currentFrame
          (decodeNextBytes_opts hS d1.rd.sd.opts) d1.rd ⟨h1, rfl⟩
        generalize hr : d1.conv.readFrame d1.currentFrame RD.decodeNextBytes d1.rd = y at *
        obtain ⟨rd, f, out⟩ := y
        simp only at *
        cases out <;> exact g1.2.trans h3
      | lzw m =>
        simp only
        have hr := copyLoop_run hS _ d1.rd [m] h1 (meas_lt_fuel _)
        obtain ⟨g1, g2, g3, g4, g5⟩ := copyRun_spec hS hr h1 (SD.sizeOk_one _)
        have hcl : copyLzw m d1.rd = copyLoop d1.rd.eventFuel d1.rd [m] := rfl
        rw [hcl]
        generalize copyLoop d1.rd.eventFuel d1.rd [m] = y at *
        obtain ⟨rd, vec, out⟩ := y
        simp only at *
        cases out <;> exact g3.trans h3
    | false => exact h3
  | err e => exact h3
  | panic => exact h3
  | diverge => exact h3

end Gif.Decoder
