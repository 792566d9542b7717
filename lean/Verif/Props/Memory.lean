import Verif.Model.Alloc
import Verif.Lemmas.Twin
import Verif.Props.Transcode
import Verif.Props.Streaming
/-!
# C71: what a decoder holds in memory
-/

namespace Gif

open Spec

variable {C : Codec}

theorem Spec.TableLength.le {n : Nat} (h : TableLength n) : n ≤ 768 := by
  obtain ⟨k, _, h2, rfl⟩ := h
  have : (2 : Nat) ^ k ≤ 2 ^ 8 := Nat.pow_le_pow_right (by decide) h2
  omega

namespace SD

/-- Colour tables have at most 256 entries. -/
def Small (s : SD C) : Prop :=
  s.gct.length ≤ 768 ∧ (s.state ≠ .imageBlockStart → ∀ f, s.current = some f → (f.palette.getD []).length ≤ 768)

theorem keeps_small : Keeps (C := C) fun s => Shape s ∧ Small s := by
  constructor
  · intro o b bs s s' n ev hw hs h
    obtain ⟨hsh, hg, hc⟩ := hs
    have hsh' := (tr_shape hw hsh h).1
    refine ⟨hsh', ?_⟩
    obtain ⟨_, _, _, w4⟩ := hw
    cases h with
    | collect h0 h => exact ⟨hg, hc⟩
    | gctData left hs hl =>
      rw [if_pos (by simp only [stOk, hs] at w4; omega)] at hsh' ⊢
      simp only [Shape] at hsh'
      refine ⟨?_, hc ∘ fun h => by simp [hs]⟩
      rcases hsh' with ⟨h, _⟩ | h
      · simp only at h ⊢; rw [h]; simp
      · have := h.le; simp only; omega
    | screen w0 w1' h0 h1 flags bg asp hs hi hl hv => split <;> exact ⟨hg, fun _ => hc (by simp [hs])⟩
    | imageHeader f l0 l1 t0 t1 w0 w1' h0 h1 flags hs hi hl hv hcur hcons f' hf' =>
      simp only [stOk, hs] at w4
      obtain ⟨g1, f0, g2, g3⟩ := w4
      rw [hcur] at g2; cases g2
      split
      · refine ⟨hg, fun _ g hg' => ?_⟩
        cases hg'
        simp [g3]
      · refine ⟨hg, fun _ g hg' => ?_⟩
        cases hg'
        rw [hf']
        simp [g3]
    | gctEnd hs => exact ⟨by simp, fun _ => hc (by simp [hs])⟩
    | image hs hh =>
      refine ⟨?_, fun hx => absurd rfl hx⟩
      simp only [addFrame]
      split <;> exact hg
    | extEndControl len flags d0 d1 trns hs hb he hd =>
      simp only [stOk, hs] at w4
      refine ⟨hg, fun _ g hg' => ?_⟩
      cases hg'
      have : (controlFrame (s.current.getD Frame.default) flags d0 d1 trns).palette = (s.current.getD Frame.default).palette := by
        unfold controlFrame
        simp only
      rw [this]
      cases hcur : s.current with
      | none => simp [Frame.default]
      | some f => simp [w4 f hcur]
    | lctData left f hs hl hcur =>
      simp only [Shape] at hsh'
      simp only [stOk, hs] at w4
      obtain ⟨g1, f0, g2, g3⟩ := w4
      rw [hcur] at g2; cases g2
      obtain ⟨p, hp, hpl⟩ := g3 hl
      simp only [hp] at hsh' ⊢
      rw [if_pos (by omega)] at hsh' ⊢
      refine ⟨hg, fun _ g hg' => ?_⟩
      cases hg'
      obtain ⟨_, h⟩ := hsh' _ rfl
      rcases h with ⟨h, _⟩ | ⟨q, h, h'⟩
      · cases h
      · cases h
        have := h'.le
        simp only [Option.getD_some]
        omega
    | frameDecoded hs hb => exact ⟨hg, fun _ f hf => by cases hf⟩
    | trailerLoop hs => exact ⟨hg, hc⟩
    | _ =>
      rename_i hs _
      exact ⟨hg, fun _ => hc (by simp [*])⟩
  · intro o b bs s s' e hw hs hst h
    obtain ⟨hsh, hg, hc⟩ := hs
    refine ⟨err_shape hw hsh hst h, ?_⟩
    obtain ⟨h1, h2, h3, h4⟩ := nextState_err_keep h hw.ibuf
    unfold Small
    rw [h3, hst]
    refine ⟨hg, fun hx => ?_⟩
    rw [h4 hx]
    exact hc hx

theorem wf_small {s : SD C} (hw : s.WF) (hs : s.Small) {f : Frame} (hf : s.current = some f) : (f.palette.getD []).length ≤ 768 := by
  by_cases hx : s.state = .imageBlockStart
  · have := hw.st
    simp only [stOk, hx] at this
    obtain ⟨_, g, h1, h2⟩ := this
    rw [hf] at h1
    cases h1
    simp [h2]
  · exact hs.2 hx f hf

end SD

namespace Spec

/-- The bytes in the vectors of a frame, allocated or in use. -/
def frameBytes (f : Frame) : Nat := max f.buffer.length (f.ownedCap.getD 0) + (f.palette.getD []).length

/-- The bytes in the vectors of a streaming decoder, without those of the LZW decompressor. -/
def bytesHeld (s : SD C) : Nat :=
  s.ibuf.length + s.gct.length + s.extData.length + (match s.current with | some f => frameBytes f | none => 0)

/-- The bytes in the vectors of a decoder, without those of the reader, of the LZW decompressor and of the scratch buffer for
RGBA output (`scratch_bounded`). -/
def decoderBytes (d : Decoder C) : Nat := bytesHeld d.rd.sd + (d.globalPalette.getD []).length + frameBytes d.currentFrame

end Spec

/-- A limit in bytes. -/
theorem MemoryLimit.le_of_sizeOk {m : MemoryLimit} {n k : Nat} {hn : 0 < n} (hm : m = .bytes n hn) (h : m.sizeOk k = true) : k ≤ n := by
  subst hm
  simpa [MemoryLimit.sizeOk] using h

theorem SD.held_le {s : SD C} (hw : s.WF) (hs : s.Small) {n : Nat} {hn : 0 < n} (hm : s.memoryLimit = .bytes n hn) :
    bytesHeld s ≤ n + 1544 := by
  have h1 := hw.ibuf
  have h2 : s.ibuf.length ≤ 8 := by
    unfold SD.ibufOk at h1
    split at h1
    · simp [h1]
    · have : SD.required s.state ≤ 9 := by cases s.state <;> simp [SD.required]
      omega
  have h3 := MemoryLimit.le_of_sizeOk hm hw.ext
  have h4 := hs.1
  unfold bytesHeld
  cases hc : s.current with
  | none => simp only; omega
  | some f =>
    obtain ⟨b1, b2⟩ := hw.buf f hc
    have := SD.wf_small hw hs hc
    simp only [frameBytes, b1, b2, Option.getD_none, List.length_nil]
    omega

namespace Props

/-- What every call of `update` keeps. -/
theorem calls_keep (hS : C.Safe) {P : SD C → Prop} (hP : SD.Keeps P) {s s' : SD C} {calls : List UpdateCall} (h : Calls s calls s')
    (hw : s.WF) (hs : P s) : P s' := by
  induction h with
  | nil => exact hs
  | @cons s s' calls slice out hr h ih =>
    have hw' : (s.update slice out).1.WF := by
      rcases SD.update_spec hS out s slice hw hr with ⟨n, ev, h1, h2, -⟩ | ⟨e, h1, h2, -⟩ <;> exact h2
    refine ih hw' ?_
    match slice with
    | [] => exact hs
    | b :: bs =>
      rcases SD.update_any hS out s b bs hw with ⟨_, h1⟩ | ⟨h1, _⟩ | ⟨ht, hl, s1, l1, h1, h2⟩
      · rw [h1] at hr; cases hr
      · rw [h1] at hr; cases hr
      · obtain ⟨w1, w2, w3, w4⟩ := SD.steps_wf hS h1 hw hl
        have hk := SD.steps_keep hS hP h1 hw hl hs
        generalize s.update (b :: bs) out = x at *
        obtain ⟨x, y⟩ := x
        simp only at *
        cases h2 with
        | all => exact hk
        | event h hev => exact hP.tr w1 hk (SD.tr_of_nextState w1.ibuf h)
        | err h =>
          rcases SD.nextState_cases hS w1 w2 h with ⟨_, _, h', _⟩ | ⟨_, x1, x2, x3⟩
          · cases h'
          · exact hP.err w1 hk x3 h

/-- C71 for `StreamingDecoder`: with `MemoryLimit::Bytes(n)`, whatever calls of `update` were made, with whatever data, it holds
at most `n + 1544` bytes. -/
theorem streaming_decoder_holds (hS : C.Safe) {o : DecodeOptions} {calls : List UpdateCall} {s : SD C} (h : History o calls s)
    {n : Nat} {hn : 0 < n} (hl : o.memoryLimit = .bytes n hn) : bytesHeld s ≤ n + 1544 := by
  obtain ⟨hw, ho, _⟩ := history_inv hS h
  have hm : s.memoryLimit = o.memoryLimit := by
    simp only [SD.opts, Prod.mk.injEq] at ho; exact ho.2.2.2.1
  have hs := calls_keep hS SD.keeps_small h (SD.wf_withOptions o)
    ⟨by simp [SD.Shape, SD.withOptions], by simp [SD.Small, SD.withOptions]⟩
  exact SD.held_le hw hs.2 (hm.trans hl)

end Props

namespace Decoder

/-- What a decoder keeps: its tables are small, and the current frame is within the limit. -/
structure Bounded (d : Decoder C) : Prop where
  inv : d.Inv
  small : d.rd.sd.Shape ∧ d.rd.sd.Small
  pal : (d.globalPalette.getD []).length ≤ 768
  lct : (d.currentFrame.palette.getD []).length ≤ 768
  buf : d.conv.memoryLimit.sizeOk d.currentFrame.buffer.length = true
  cap : d.conv.memoryLimit.sizeOk (d.currentFrame.ownedCap.getD 0) = true

theorem sizeOk_zero (m : MemoryLimit) : m.sizeOk 0 = true := by
  cases m <;> simp [MemoryLimit.sizeOk]

theorem Bounded.replace {d : Decoder C} (hd : d.Bounded) {rd : RD C} (h1 : rd.Inv) (h2 : rd.sd.opts = d.rd.sd.opts)
    (h3 : rd.sd.Shape ∧ rd.sd.Small) : Bounded { d with rd := rd } :=
  ⟨⟨h1, (opts_limit h2).trans hd.inv.limit⟩, h3, hd.pal, hd.lct, hd.buf, hd.cap⟩

/-- What calls keep of the streaming decoder. -/
def SmallKept (x : Bool × Bool × Bool × MemoryLimit × Bool) (s : SD C) : Prop := (s.Shape ∧ s.Small) ∧ s.opts = x

theorem Bounded.exchange {d : Decoder C} (hd : d.Bounded) {f : Frame} (t : FrameDataType) (h1 : (f.palette.getD []).length ≤ 768)
    (h2 : d.conv.memoryLimit.sizeOk f.buffer.length = true) (h3 : d.conv.memoryLimit.sizeOk (f.ownedCap.getD 0) = true) :
    Bounded { d with currentFrame := f, dataType := t } :=
  ⟨⟨hd.inv.rd, hd.inv.limit⟩, hd.small, hd.pal, h1, h2, h3⟩

theorem keeps_smallKept (x : Bool × Bool × Bool × MemoryLimit × Bool) : SD.Keeps (C := C) (SmallKept x) :=
  SD.keeps_small.and ⟨fun _ hs h => (SD.tr_opts h).trans hs, fun hw hs _ h => (SD.nextState_err_opts h hw.ibuf).trans hs⟩

theorem Bounded.pull (hS : C.Safe) {d : Decoder C} (hd : d.Bounded) {os : OutSpec} {rd : RD C} {out : Outcome (Option Decoded)}
    (hp : RD.Pull os d.rd rd out) : Bounded { d with rd := rd } := by
  obtain ⟨h1, h2⟩ := RD.pull_keep hS (keeps_smallKept d.rd.sd.opts) hp hd.inv.rd ⟨hd.small, rfl⟩
  exact hd.replace (RD.pull_inv hS hp hd.inv.rd) h2 h1

theorem frameRun_bounded (hS : C.Safe) {d d' : Decoder C} {out : Outcome Bool} (hr : FrameRun d d' out) (hd : d.Bounded) : d'.Bounded := by
  induction hr with
  | step hp hev hr ih => exact ih (hd.pull hS hp)
  | @found d rd t f hp hc =>
    have h1 := hd.pull hS hp
    obtain ⟨i1, i2, i3⟩ := withFrame_inv hS hp hc hd.inv.rd
    obtain ⟨s1, b, bs, n, hw, _, _, htr, _⟩ := RD.pull_last hS hp hd.inv.rd rfl
    obtain ⟨_, hst⟩ := SD.tr_metadata htr hw
    have hsh := h1.small.1
    simp only at hsh
    have hs : (d.withFrame rd f t).rd.sd.Shape := by
      rcases hst with ⟨left, h, _⟩ | ⟨left, m, h, _⟩ <;>
      · show SD.Shape _
        simp only [SD.Shape, withFrame, h] at hsh ⊢
        intro g hg
        cases hg
        exact ⟨(hsh f hc).1, fun p hp => by cases hp⟩
    obtain ⟨b1, b2⟩ := h1.inv.rd.wf.buf f hc
    refine ⟨⟨i1, h1.inv.limit⟩, ⟨hs, h1.small.2.1, ?_⟩, hd.pal, SD.wf_small h1.inv.rd.wf h1.small.2 hc, ?_, ?_⟩
    · intro _ g hg
      cases hg
      simp [Frame.afterTake]
    · simp only [withFrame, Frame.take, b1]
      exact sizeOk_zero _
    · simp only [withFrame, Frame.take, b2]
      exact sizeOk_zero _
  | @eof d rd hp => exact hd.pull hS hp
  | @err d rd e hp => exact hd.pull hS hp

theorem readNextFrame_bounded (hS : C.Safe) {d : Decoder C} (hd : d.Bounded) : d.readNextFrame.1.Bounded := by
  have h1 := frameRun_bounded hS (nextFrameInfo_run hS d hd.inv.rd) hd
  unfold readNextFrame
  generalize d.nextFrameInfo = x at *
  obtain ⟨d1, out⟩ := x
  simp only at h1
  cases out with
  | err e => exact h1
  | panic => exact h1
  | diverge => exact h1
  | ok found =>
    cases found with
    | false => exact h1
    | true =>
      simp only
      cases hdt : d1.dataType with
      | pixels =>
        simp only
        have hg := Converter.readFrame_good d1.conv d1.currentFrame (RD.decodeNextBytes_keep hS (keeps_smallKept d1.rd.sd.opts)) d1.rd
          ⟨h1.inv.rd, h1.small, rfl⟩
        have he : (d1.conv.readFrame d1.currentFrame RD.decodeNextBytes d1.rd).2.2 ≠ .ok () →
            (d1.conv.readFrame d1.currentFrame RD.decodeNextBytes d1.rd).2.1 = d1.currentFrame ∨
            (d1.conv.readFrame d1.currentFrame RD.decodeNextBytes d1.rd).2.1 = { d1.currentFrame with buffer := [], ownedCap := none } := by
          unfold Converter.readFrame
          split
          · simp only
            split
            · intro h; exact absurd rfl h
            all_goals exact fun _ => .inr rfl
          all_goals exact fun _ => .inl rfl
        generalize d1.conv.readFrame d1.currentFrame RD.decodeNextBytes d1.rd = y at hg he
        obtain ⟨rd, g, out⟩ := y
        simp only at hg he
        obtain ⟨⟨g1, g2, g3⟩, g4, g5⟩ := hg
        have hb := h1.replace g1 g3 g2
        have hbad : out ≠ .ok () → ∀ t, Bounded { d1 with rd := rd, currentFrame := g, dataType := t } := by
          intro h t
          rcases he h with e | e
          · rw [e]; exact hb.exchange t hb.lct hb.buf hb.cap
          · rw [e]; exact hb.exchange t hb.lct (sizeOk_zero _) (sizeOk_zero _)
        cases out with
        | err e => exact hbad (by simp) _
        | panic => exact hbad (by simp) _
        | diverge => exact hbad (by simp) _
        | ok u =>
          cases u
          obtain ⟨c1, c2, c3⟩ := g5 rfl
          refine hb.exchange _ ?_ ?_ ?_
          · rw [c3]; exact hb.lct
          · rw [c1]; exact c2
          · rw [c3]; exact c2
      | lzw m =>
        simp only
        have hcr := copyLoop_run hS d1.rd.eventFuel d1.rd [m] h1.inv.rd (meas_lt_fuel _)
        have hk := copyRun_keep hS (keeps_smallKept d1.rd.sd.opts) hcr ⟨h1.inv.rd, h1.small, rfl⟩
        have hsp := copyRun_spec hS hcr h1.inv.rd (SD.sizeOk_one _)
        unfold copyLzw
        generalize copyLoop d1.rd.eventFuel d1.rd [m] = y at hk hsp
        obtain ⟨rd, vec, out⟩ := y
        simp only at hk hsp
        obtain ⟨_, k2, _, k4, k5⟩ := hsp
        obtain ⟨k6, k7, k8⟩ := hk
        have hb := h1.replace k6 k8 k7
        have hold : (match d1.currentFrame.ownedCap with
            | some _ => { d1.currentFrame with buffer := [], ownedCap := none }
            | none => d1.currentFrame).palette = d1.currentFrame.palette := by split <;> rfl
        have hbad : ∀ t, Bounded { d1 with rd := rd, dataType := t, currentFrame := (match d1.currentFrame.ownedCap with
            | some _ => { d1.currentFrame with buffer := [], ownedCap := none }
            | none => d1.currentFrame) } := by
          intro t
          refine hb.exchange t ?_ ?_ ?_
          · rw [hold]; exact hb.lct
          · split
            · exact sizeOk_zero _
            · exact hb.buf
          · split
            · exact sizeOk_zero _
            · exact hb.cap
        cases out with
        | err e => exact hbad _
        | panic => cases k2
        | diverge => cases k2
        | ok u =>
          cases u
          have k4' : d1.conv.memoryLimit.sizeOk vec.length = true := by rw [← h1.inv.limit]; exact k4
          refine hb.exchange _ ?_ k4' k4'
          show (Option.getD _ []).length ≤ 768
          split <;> exact hb.lct

theorem perform_bounded (hS : C.Safe) {d : Decoder C} (hd : d.Bounded) (op : Op) : (d.perform op).1.Bounded := by
  cases op with
  | nextFrameInfo =>
    have := frameRun_bounded hS (nextFrameInfo_run hS d hd.inv.rd) hd
    unfold perform
    simp only
    split <;> (rename_i he; rw [he] at this; exact this)
  | readNextFrame =>
    have := readNextFrame_bounded hS hd
    unfold perform
    simp only
    split <;> (rename_i he; rw [he] at this; exact this)
  | readIntoBuffer buf =>
    have hg := Converter.readIntoBuffer_good d.conv d.currentFrame (RD.decodeNextBytes_keep hS (keeps_smallKept d.rd.sd.opts)) d.rd buf
      ⟨hd.inv.rd, hd.small, rfl⟩
    exact hd.replace hg.1.1 hg.1.2.2 hg.1.2.1
  | fillBuffer buf =>
    have hg := Converter.fillBuffer_good d.conv d.currentFrame (RD.decodeNextBytes_keep hS (keeps_smallKept d.rd.sd.opts)) d.rd buf
      ⟨hd.inv.rd, hd.small, rfl⟩
    have : (d.fillBuffer buf).1.Bounded := hd.replace hg.1.1 hg.1.2.2 hg.1.2.1
    unfold perform
    simp only
    split <;> (rename_i he; rw [he] at this; exact this)

theorem readInfo_bounded (hS : C.Safe) (o : DecodeOptions) (r : Reader) (h : (readInfo C o r).2 = .ok ()) :
    (readInfo C o r).1.Bounded := by
  have hinv := (inv_readInfo (C := C) hS o r).1
  have hpal := (readInfo_steady (C := C) hS o r h).2
  have hi := inv_withNoInit (C := C) o r
  have hr := initLoop_run hS _ (withNoInit C o r) hi.rd (meas_lt_fuel _)
  have key : ∀ {d d' : Decoder C} {out : Outcome Unit}, InitRun d d' out → d.rd.Inv → d.rd.sd.Shape ∧ d.rd.sd.Small →
      (d'.rd.sd.Shape ∧ d'.rd.sd.Small) ∧ d'.currentFrame = d.currentFrame := by
    intro d d' out hr
    induction hr with
    | @step d d' rd ev out hp hev hr ih =>
      intro h1 h2
      have hon : ∀ (a : Decoder C), (a.onEvent ev).rd = a.rd ∧ (a.onEvent ev).currentFrame = a.currentFrame := by
        intro a; cases ev <;> exact ⟨rfl, rfl⟩
      have := ih (RD.pull_inv hS hp h1) (RD.pull_keep hS SD.keeps_small hp h1 h2)
      exact ⟨this.1, this.2.trans (hon d).2⟩
    | @done d rd hp => exact fun h1 h2 => ⟨RD.pull_keep hS SD.keeps_small hp h1 h2, rfl⟩
    | empty hp => exact fun h1 h2 => ⟨RD.pull_keep hS SD.keeps_small hp h1 h2, rfl⟩
    | err hp => exact fun h1 h2 => ⟨RD.pull_keep hS SD.keeps_small hp h1 h2, rfl⟩
  obtain ⟨s1, s2⟩ := key hr hi.rd ⟨by simp [SD.Shape, withNoInit, SD.withOptions], by simp [SD.Small, withNoInit, SD.withOptions]⟩
  have hbr : ∀ (a : Decoder C), a.checkBg.rd = a.rd ∧ a.checkBg.currentFrame = a.currentFrame := by
    intro a; unfold checkBg; split <;> (try split) <;> exact ⟨rfl, rfl⟩
  have hp : ((readInfo C o r).1.globalPalette.getD []).length ≤ 768 := by
    cases hx : (readInfo C o r).1.globalPalette with
    | none => simp
    | some p => exact (hpal p hx).le
  have hx : (readInfo C o r).1.rd = (initLoop (withNoInit C o r).rd.eventFuel (withNoInit C o r)).1.rd ∧
      (readInfo C o r).1.currentFrame = Frame.default := by
    unfold readInfo init at h ⊢
    generalize initLoop (withNoInit C o r).rd.eventFuel (withNoInit C o r) = x at *
    obtain ⟨d, out⟩ := x
    cases out with
    | err e => cases h
    | panic => cases h
    | diverge => cases h
    | ok u => cases u; exact ⟨(hbr d).1, (hbr d).2.trans s2⟩
  obtain ⟨x1, x2⟩ := hx
  refine ⟨hinv, by rw [x1]; exact s1, hp, ?_, ?_, ?_⟩
  · rw [x2]; simp [Frame.default]
  · rw [x2]; exact sizeOk_zero _
  · rw [x2]; exact sizeOk_zero _

/-- C71: with `MemoryLimit::Bytes(n)`, a decoder holds at most `2 n + 3080` bytes, after any calls, on any input: `n` for the
frame, `n` for an extension, the rest for colour tables. Missing: what is reserved but not used, which the limit does not bound
(`raw_reserve_ignores_limit`). -/
theorem decoder_holds_partial (hS : C.Safe) {o : DecodeOptions} {r : Reader} {d : Decoder C} (h : Reach o r d) {n : Nat} {hn : 0 < n}
    (hl : o.memoryLimit = .bytes n hn) : decoderBytes d ≤ 2 * n + 3080 := by
  have hb : d.Bounded := by
    induction h with
    | opened h => exact readInfo_bounded hS o r h
    | op h op hr ih => exact perform_bounded hS ih op
  obtain ⟨hi, hc, _⟩ := reach_inv hS h
  have hm : d.conv.memoryLimit = .bytes n hn := by rw [hc, (readInfo_conv hS o r).1, hl]
  have h1 := SD.held_le hb.inv.rd.wf hb.small.2 (hb.inv.limit.trans hm)
  have h2 := MemoryLimit.le_of_sizeOk hm hb.buf
  have h3 := MemoryLimit.le_of_sizeOk hm hb.cap
  have h4 := hb.lct
  have h5 := hb.pal
  unfold decoderBytes frameBytes
  omega

/-- C71: an allocator that refuses what `read_next_frame` reserves for compressed data makes it fail with `OutOfMemory`; the
decoder is then where `next_frame_info` leaves it, so that one can go on. Otherwise it makes no difference. -/
theorem refused_reservation (hS : C.Safe) (alloc : Nat → Bool) {o : DecodeOptions} {r : Reader} {d : Decoder C} (h : Reach o r d) :
    d.readNextFrameOn alloc = d.readNextFrame ∨
    ∃ d', d.nextFrameInfo = (d', .ok true) ∧ o.skipFrameDecoding = true ∧
      alloc (d'.currentFrame.width.toNat * d'.currentFrame.height.toNat / 4) = false ∧
      d.readNextFrameOn alloc = (d', .ioErr .outOfMemory) ∧ Reach o r d' := by
  have hi := (reach_inv hS h).1
  have hrun := nextFrameInfo_run hS d hi.rd
  have hspec := frameRun_spec hS hrun hi.rd
  have hr : Reach o r (d.perform .nextFrameInfo).1 := by
    refine .op h .nextFrameInfo ?_
    have := hspec.2.1
    unfold perform
    simp only
    split <;> (rename_i he; rw [he] at this; exact this)
  have htype := frameRun_type hS hrun hi.rd
  unfold perform at hr
  unfold readNextFrameOn readNextFrame
  generalize d.nextFrameInfo = x at *
  obtain ⟨d1, out⟩ := x
  cases out with
  | err e => exact .inl rfl
  | panic => exact .inl rfl
  | diverge => exact .inl rfl
  | ok found =>
    cases found with
    | false => exact .inl rfl
    | true =>
      simp only at *
      cases hdt : d1.dataType with
      | pixels => exact .inl rfl
      | lzw m =>
        obtain ⟨_, _, _, _, _, _, h7, _⟩ := hspec
        obtain ⟨_, hown, _⟩ := h7 trivial
        simp only [hown]
        by_cases ha : alloc (rawReserve d1.currentFrame) = true
        · simp only [ha, if_true]
          exact .inl rfl
        · refine .inr ⟨d1, rfl, ?_, by simpa [rawReserve] using ha, ?_, hr⟩
          · have hk := reach_skip hS h
            cases hx : o.skipFrameDecoding with
            | true => rfl
            | false => rw [htype (hk.trans hx) trivial] at hdt; cases hdt
          · simp only [ha]
            rw [← hdt]
            rfl

end Decoder

end Gif
