import Verif.Lemmas.Unique
import Verif.Props.Safety
import Verif.Lemmas.Interlace
import Verif.Lemmas.Twin
/-!
# C86: asking for pixels when none are due
-/

namespace Gif

namespace SD

variable {C : Codec}

/-- The state in which pixels are decoded. -/
def _root_.Gif.State.decodes : State → Bool
  | .decodeSubBlock _ => true
  | _ => false

/-- The data of an image to copy. -/
def _root_.Gif.State.copies : State → Bool
  | .copySubBlock left => decide (0 < left)
  | _ => false

/-- Elsewhere the output does not matter. -/
theorem nextState_out (s : SD C) (buf : List UInt8) (o o' : OutSpec) (hd : s.state.decodes = false) (hc : s.state.copies = false) :
    nextState s buf o = nextState s buf o' := by
  unfold nextState
  cases buf with
  | nil => rfl
  | cons b bs =>
    simp only
    cases hs : s.state <;> rw [hs] at hd hc <;> first | rfl | cases hd | skip
    rename_i left
    have : left = 0 := by simpa [State.copies] using hc
    subst this
    simp [onCopySubBlock]

/-- Copying to a slice. -/
theorem nextState_copy {s s' : SD C} {buf : List UInt8} {cap : Nat} {r : Outcome (Nat × Decoded)} (hc : s.state.copies = true)
    (hb : buf ≠ []) (hk : s.skipFrameDecoding = true) (h : nextState s buf (.slice cap) = (s', r)) :
    ∃ left, s.state = .copySubBlock left ∧ 0 < left ∧
      s' = { s with state := .copySubBlock (left - min (min left buf.length) cap) } ∧
      r = .ok (min (min left buf.length) cap, .lzwDataCopied (buf.take (min (min left buf.length) cap))) ∧
      nextState s buf .none = ({ s with state := .copySubBlock (left - min left buf.length) }, .ok (min left buf.length, .lzwDataCopied [])) := by
  cases buf with
  | nil => exact absurd rfl hb
  | cons b bs =>
    generalize hbuf : b :: bs = buf at *
    unfold nextState at h ⊢
    subst hbuf
    simp only at h ⊢
    generalize b :: bs = buf at *
    cases hs : s.state <;> rw [hs] at hc <;> first | cases hc | skip
    rename_i left
    have hl : 0 < left := by simpa [State.copies] using hc
    rw [hs] at h
    simp only [onCopySubBlock, hk, hl, append, goto, not_true_eq_false, if_false, if_true, gt_iff_lt, List.length_take,
      Nat.min_assoc, Nat.min_self] at h ⊢
    rw [if_neg (by omega)] at h
    rw [if_neg (by omega)]
    cases h
    refine ⟨left, rfl, hl, ?_, ?_, ?_⟩
    · simp
    · have : min left (min buf.length (min cap (min left buf.length))) = min left (min buf.length cap) := by omega
      simp [Nat.min_assoc, List.take_take, this]
    · simp [hk]

theorem silent_decodes {s s1 : SD C} {buf : List UInt8} {o : OutSpec} {n : Nat} (hd : s.state.decodes = false)
    (h : nextState s buf o = (s1, .ok (n, .nothing))) : s1.state.decodes = false ∧ s.state.copies = false := by
  unfold nextState at h
  cases buf with
  | nil => cases h
  | cons b bs =>
    simp only at h
    generalize b :: bs = buf at h
    cases hs : s.state <;> rw [hs] at hd h <;> first | cases hd | skip
    all_goals
      simp only [ensureMin, onMagic, onScreenDescriptor, onImageBlockStart, onGlobalPalette, onBlockStart, onBlockEnd,
        onExtensionDataBlock, onApplicationExtension, onLocalPalette, onLzwInit, readControlExtension, onCopySubBlock, onFrameDecoded, goto] at h
      repeat' split at h
      all_goals
        first
        | (cases h; done)
        | (cases h; exact ⟨by first | rfl | (rw [hs]; rfl), by first | rfl | (simp_all [State.copies])⟩)

theorem loud_decodes {s s1 : SD C} {buf : List UInt8} {o : OutSpec} {n : Nat} {ev : Decoded} (hd : s.state.decodes = false)
    (h : nextState s buf o = (s1, .ok (n, ev))) : (∀ b, ev ≠ .bytesDecoded b) ∧ (ev = .dataEnd → s1.state = .blockEnd) := by
  unfold nextState at h
  cases buf with
  | nil => cases h
  | cons b bs =>
    simp only at h
    generalize b :: bs = buf at h
    cases hs : s.state <;> rw [hs] at hd h <;> first | cases hd | skip
    all_goals
      simp only [ensureMin, onMagic, onScreenDescriptor, onImageBlockStart, onGlobalPalette, onBlockStart, onBlockEnd,
        onExtensionDataBlock, onApplicationExtension, onLocalPalette, onLzwInit, readControlExtension, onCopySubBlock, onFrameDecoded, goto] at h
      repeat' split at h
      all_goals
        first
        | (cases h; done)
        | (cases h; exact ⟨by simp, by simp⟩)

/-- Within the header of an image. -/
def _root_.Gif.State.inHeader : State → Bool
  | .imageBlockStart | .localPalette _ | .lzwInit _ => true
  | _ => false

theorem silent_header {s s1 : SD C} {buf : List UInt8} {o : OutSpec} {n : Nat} (hd : s.state.inHeader = false)
    (h : nextState s buf o = (s1, .ok (n, .nothing))) : s1.state.inHeader = false := by
  unfold nextState at h
  cases buf with
  | nil => cases h
  | cons b bs =>
    simp only at h
    generalize b :: bs = buf at h
    cases hs : s.state <;> rw [hs] at hd h <;> first | cases hd | skip
    all_goals
      simp only [ensureMin, onMagic, onScreenDescriptor, onImageBlockStart, onGlobalPalette, onBlockStart, onBlockEnd,
        onExtensionDataBlock, onApplicationExtension, onLocalPalette, onLzwInit, readControlExtension, onCopySubBlock,
        onDecodeSubBlock, onFrameDecoded, goto] at h
      repeat' split at h
      all_goals
        first
        | (cases h; done)
        | (cases h; first | rfl | (rw [hs]; rfl))

theorem loud_header {s s1 : SD C} {buf : List UInt8} {o : OutSpec} {n : Nat} {t : FrameDataType} (hd : s.state.inHeader = false) :
    nextState s buf o ≠ (s1, .ok (n, .frameMetadata t)) := by
  intro h
  unfold nextState at h
  cases buf with
  | nil => cases h
  | cons b bs =>
    simp only at h
    generalize b :: bs = buf at h
    cases hs : s.state <;> rw [hs] at hd h <;> first | cases hd | skip
    all_goals
      simp only [ensureMin, onMagic, onScreenDescriptor, onImageBlockStart, onGlobalPalette, onBlockStart, onBlockEnd,
        onExtensionDataBlock, onApplicationExtension, onLocalPalette, onLzwInit, readControlExtension, onCopySubBlock,
        onDecodeSubBlock, onFrameDecoded, goto] at h
      repeat' split at h
      all_goals
        first
        | (cases h; done)
        | (simp at h; done)
        | (simp only [Prod.mk.injEq, Outcome.ok.injEq] at h; have h := h.2.2; split at h <;> cases h)

theorem steps_header {s s' : SD C} {l l' : List UInt8} {o : OutSpec} (h : Steps o s l s' l') (hd : s.state.inHeader = false) :
    s'.state.inHeader = false := by
  induction h with
  | refl => exact hd
  | step h ht ih => exact ih (silent_header hd h)

theorem steps_out {s s' : SD C} {l l' : List UInt8} {o : OutSpec} (h : Steps o s l s' l') (o' : OutSpec)
    (hd : s.state.decodes = false) : Steps o' s l s' l' ∧ s'.state.decodes = false := by
  induction h with
  | refl => exact ⟨.refl _ _, hd⟩
  | @step s s1 s' b bs l' n h ht ih =>
    obtain ⟨h1, h2⟩ := silent_decodes hd h
    obtain ⟨i1, i2⟩ := ih h1
    exact ⟨.step ((nextState_out s (b :: bs) o' o hd h2).trans h) i1, i2⟩

end SD

namespace RD

variable {C : Codec}

theorem copies_skips {s : SD C} (hw : s.WF) (hc : s.state.copies = true) : s.skipFrameDecoding = true := by
  have := hw.st
  cases hs1 : s.state <;> rw [hs1] at hc <;> first | cases hc | skip
  simp only [SD.stOk, hs1] at this
  exact this.2.2

/-- What the callback of `fill_buffer` does when no pixels are due: what `decode_next` without a buffer does, or it copies a part
of what that copies. -/
theorem pull_slice (hS : C.Safe) {d d' : RD C} {cap : Nat} {out : Outcome (Option Decoded)} (h : Pull (.slice cap) d d' out)
    (hi : Inv d) (hd : d.sd.state.decodes = false) :
    Pull .none d d' out ∨
    ∃ c rd, out = .ok (some (.lzwDataCopied c)) ∧ Pull .none d rd (.ok (some (.lzwDataCopied []))) ∧
      (d' = rd ∨ Pull .none d' rd (.ok (some (.lzwDataCopied [])))) := by
  induction h with
  | eof h => exact .inl (.eof h)
  | readErr h hf => exact .inl (.readErr h hf)
  | eos h hf => exact .inl (.eos h hf)
  | @more d d' r b bs s1 out h hf hs hp ih =>
    obtain ⟨w1, w2, w3, w4⟩ := SD.steps_wf hS hs hi.wf (look_fill hi h hf)
    obtain ⟨h1, h2⟩ := SD.steps_out hs .none hd
    rcases ih ⟨w1, fun _ => w2, fun _ => w4 (hi.live h)⟩ h2 with h3 | ⟨c, rd, h3, h4, h5⟩
    · exact .inl (.more h hf h1 h3)
    · exact .inr ⟨c, rd, h3, .more h hf h1 h4, h5⟩
  | @event d r b b1 bs bs1 s1 s' n ev h hf hs hn hev hev' =>
    obtain ⟨w1, w2, w3, w4⟩ := SD.steps_wf hS hs hi.wf (look_fill hi h hf)
    obtain ⟨h1, h2⟩ := SD.steps_out hs .none hd
    cases hc : s1.state.copies with
    | false => exact .inl (.event h hf h1 ((SD.nextState_out s1 (b1 :: bs1) .none (.slice cap) h2 hc).trans hn) hev hev')
    | true =>
      have hk := copies_skips w1 hc
      obtain ⟨left, g1, g2, g3, g4, g5⟩ := SD.nextState_copy hc (by simp) hk hn
      generalize hl : b1 :: bs1 = l at *
      have hlen : 0 < l.length := by rw [← hl]; simp
      cases g4
      refine .inr ⟨_, _, rfl, .event h hf (hl ▸ h1) (hl ▸ g5) (by simp) (by simp), ?_⟩
      by_cases hm : min left l.length ≤ cap
      · left
        rw [Nat.min_eq_left hm] at g3 ⊢
        rw [g3, hl]
      · right
        have hc' : min (min left l.length) cap = cap := by omega
        rw [hc'] at g3 ⊢
        have hd' : s'.state.copies = true := by rw [g3]; simp only [State.copies, decide_eq_true_eq]; omega
        have hk' : s'.skipFrameDecoding = true := by rw [g3]; exact hk
        cases hl2 : l.drop cap with
        | nil =>
          have := congrArg List.length hl2
          rw [List.length_drop, List.length_nil] at this
          omega
        | cons b2 bs2 =>
          obtain ⟨left', e1, e2, _, _, e5⟩ := SD.nextState_copy (cap := 0) (s := s') (buf := b2 :: bs2) hd' (by simp) hk' rfl
          have hleft : left' = left - cap := by
            rw [g3] at e1
            simpa using e1.symm
          have hlen2 : (b2 :: bs2).length = l.length - cap := by rw [← hl2, List.length_drop]
          have := Pull.event (d := { d with reader := { r with buf := b2 :: bs2 }, sd := s' }) (r := { r with buf := b2 :: bs2 }) h
            rfl (.refl _ _) e5 (by simp) (by simp)
          have hsum : cap + min left' (b2 :: bs2).length = min left l.length := by rw [hleft, hlen2]; omega
          have hdrop : (b2 :: bs2).drop (min left' (b2 :: bs2).length) = l.drop (min left l.length) := by
            rw [← hl2, List.drop_drop, hl2, hsum]
          rw [hdrop] at this
          have hst : ({ s' with state := .copySubBlock (left' - min left' (b2 :: bs2).length) } : SD C) =
              { s1 with state := .copySubBlock (left - min left l.length) } := by
            rw [g3]
            have : left' - min left' (b2 :: bs2).length = left - min left l.length := by rw [hleft, hlen2]; omega
            rw [this]
          rw [hst] at this
          rw [hl]
          exact this
  | @trailer d r b b1 bs bs1 s1 s' n h hf hs hn =>
    obtain ⟨w1, w2, w3, w4⟩ := SD.steps_wf hS hs hi.wf (look_fill hi h hf)
    obtain ⟨h1, h2⟩ := SD.steps_out hs .none hd
    cases hc : s1.state.copies with
    | false => exact .inl (.trailer h hf h1 ((SD.nextState_out s1 (b1 :: bs1) .none (.slice cap) h2 hc).trans hn))
    | true =>
      obtain ⟨_, _, _, _, g4, _⟩ := SD.nextState_copy hc (by simp) (copies_skips w1 hc) hn
      cases g4
  | @err d r b b1 bs bs1 s1 s' e h hf hs hn =>
    obtain ⟨w1, w2, w3, w4⟩ := SD.steps_wf hS hs hi.wf (look_fill hi h hf)
    obtain ⟨h1, h2⟩ := SD.steps_out hs .none hd
    cases hc : s1.state.copies with
    | false => exact .inl (.err h hf h1 ((SD.nextState_out s1 (b1 :: bs1) .none (.slice cap) h2 hc).trans hn))
    | true =>
      obtain ⟨_, _, _, _, g4, _⟩ := SD.nextState_copy hc (by simp) (copies_skips w1 hc) hn
      cases g4

theorem pull_loud {o : OutSpec} {d d' : RD C} {out : Outcome (Option Decoded)} {ev : Decoded} (h : Pull o d d' out)
    (hd : d.sd.state.decodes = false) (he : out = .ok (some ev)) :
    (∀ b, ev ≠ .bytesDecoded b) ∧ (ev = .dataEnd → d'.sd.state = .blockEnd) := by
  induction h with
  | more h hf hs hp ih => exact ih (SD.steps_out hs .none hd).2 he
  | event h hf hs hn hev hev' =>
    cases he
    exact SD.loud_decodes (SD.steps_out hs .none hd).2 hn
  | trailer => cases he
  | _ => cases he

theorem pull_header {o : OutSpec} {d d' : RD C} {out : Outcome (Option Decoded)} {t : FrameDataType} (h : Pull o d d' out)
    (hd : d.sd.state.inHeader = false) : out ≠ .ok (some (.frameMetadata t)) := by
  intro he
  induction h with
  | more h hf hs hp ih => exact ih (SD.steps_header hs hd) he
  | event h hf hs hn hev hev' =>
    cases he
    exact SD.loud_header (SD.steps_header hs hd) hn
  | trailer => cases he
  | _ => cases he

/-- The answers of the callback of `fill_buffer` when no pixels are due. -/
theorem ask_undue (hS : C.Safe) {d d' : RD C} {cap : Nat} {res : Outcome (List UInt8)} (hi : Inv d)
    (hd : d.atEof = true ∨ d.sd.state.decodes = false)
    (h : decodeNextBytes d cap = (d', res)) :
    (res = .ok [] ∧ Pull .none d d' (.ok (some .dataEnd))) ∨
    (∃ e, res = .err e ∧ Pull .none d d' (.err e)) ∨
    (res = .fmtErr .unexpectedData ∧ Pull .none d d' (.ok none)) ∨
    (res = .fmtErr .unexpectedData ∧ ∃ ev rd, (∀ t, ev ≠ .frameMetadata t) ∧ Pull .none d rd (.ok (some ev)) ∧
      (d' = rd ∨ Pull .none d' rd (.ok (some (.lzwDataCopied []))))) ∨
    (res = .fmtErr .unexpectedData ∧ ∃ t, Pull .none d d' (.ok (some (.frameMetadata t)))) := by
  have hp := decodeNext_pull hS (.slice cap) d hi
  have hret := pull_returns hp
  unfold decodeNextBytes at h
  rcases hd with hd | hd
  · have := pull_unique hp (.eof hd)
    rw [show decodeNext (.slice cap) d = (d, .ok none) from Prod.ext this.1 this.2] at h
    cases h
    exact .inr (.inr (.inl ⟨rfl, .eof hd⟩))
  generalize decodeNext (.slice cap) d = x at h hp hret
  obtain ⟨d1, out⟩ := x
  simp only at hp hret
  have hs := pull_slice hS hp hi hd
  cases out with
  | ok o =>
    cases o with
    | none =>
      cases h
      rcases hs with hs | ⟨c, rd, hs, _⟩
      · exact .inr (.inr (.inl ⟨rfl, hs⟩))
      · cases hs
    | some ev =>
      have hl := pull_loud hp hd rfl
      by_cases hm : ∃ t, ev = .frameMetadata t
      · obtain ⟨t, rfl⟩ := hm
        cases h
        rcases hs with hs | ⟨c, rd, hs, _⟩
        · exact .inr (.inr (.inr (.inr ⟨rfl, t, hs⟩)))
        · cases hs
      · by_cases he : ev = .dataEnd
        · subst he
          cases h
          rcases hs with hs | ⟨c, rd, hs, _⟩
          · exact .inl ⟨rfl, hs⟩
          · cases hs
        · have hx : (d', res) = (d1, .fmtErr .unexpectedData) := by
            rw [← h]
            cases ev with
            | bytesDecoded b => exact absurd rfl (hl.1 b)
            | dataEnd => exact absurd rfl he
            | _ => rfl
          cases hx
          refine .inr (.inr (.inr (.inl ⟨rfl, ?_⟩)))
          rcases hs with hs | ⟨c, rd, hs, h4, h5⟩
          · exact ⟨ev, _, fun t ht => hm ⟨t, ht⟩, hs, .inl rfl⟩
          · exact ⟨_, rd, by simp, h4, h5⟩
  | err e =>
    cases h
    rcases hs with hs | ⟨c, rd, hs, _⟩
    · exact .inr (.inl ⟨e, rfl, hs⟩)
    · cases hs
  | panic => cases hret
  | diverge => cases hret

end RD

namespace Decoder

variable {C : Codec}

/-- `fill_buffer` asks once if no pixels come. -/
theorem fill_once (hS : C.Safe) {d : Decoder C} (hi : d.rd.Inv) (hd : d.rd.atEof = true ∨ d.rd.sd.state.decodes = false)
    (buf : List UInt8) :
    (d.conv.colorOutput = .rgba ∧ buf.length < 4 ∧ d.fillBuffer buf = (d, buf, .fmtErr .oddSizedBuffer)) ∨
    ∃ cap rd res, RD.decodeNextBytes d.rd cap = (rd, res) ∧
      (res = .ok [] ∧ d.fillBuffer buf = ({ d with rd := rd }, buf, .ok false) ∨
       ∃ e, res = .err e ∧ d.fillBuffer buf = ({ d with rd := rd }, buf, .err e)) := by
  unfold fillBuffer Converter.fillBuffer
  rw [Converter.fillLoop]
  have key : ∀ cap rd res, RD.decodeNextBytes d.rd cap = (rd, res) → res = .ok [] ∨ ∃ e, res = .err e := by
    intro cap rd res h
    rcases RD.ask_undue hS hi hd h with h | ⟨e, h, _⟩ | h | h | h
    · exact .inl h.1
    · exact .inr ⟨e, h⟩
    · exact .inr ⟨_, h.1⟩
    · exact .inr ⟨_, h.1⟩
    · exact .inr ⟨_, h.1⟩
  cases hc : d.conv.colorOutput with
  | indexed =>
    right
    cases hx : RD.decodeNextBytes d.rd buf.length with
    | mk rd res =>
      refine ⟨_, rd, res, hx, ?_⟩
      rcases key _ _ _ hx with rfl | ⟨e, rfl⟩
      · left
        simp
      · right
        exact ⟨e, rfl, by simp⟩
  | rgba =>
    by_cases hb : buf.length / 4 = 0
    · left
      refine ⟨rfl, by omega, ?_⟩
      simp only [hb, if_true]
    · right
      cases hx : RD.decodeNextBytes d.rd (buf.length / 4) with
      | mk rd res =>
        refine ⟨_, rd, res, hx, ?_⟩
        rcases key _ _ _ hx with rfl | ⟨e, rfl⟩
        · left
          simp [hb]
        · right
          exact ⟨e, rfl, by simp [hb]⟩

theorem info_skip (hS : C.Safe) {d : Decoder C} {rd : RD C} {ev : Decoded} (hi : d.rd.Inv)
    (hp : RD.Pull .none d.rd rd (.ok (some ev))) (hev : ∀ t, ev ≠ .frameMetadata t) :
    ({ d with rd := rd } : Decoder C).nextFrameInfo = d.nextFrameInfo := by
  have hi' := RD.pull_inv hS hp hi
  exact (nextFrameInfo_eq hS hi (.step hp hev (nextFrameInfo_run hS _ hi'))).symm

theorem pull_ended {o : OutSpec} {d d' : RD C} {out : Outcome (Option Decoded)} (h : RD.Pull o d d' out) (ho : out = .ok none) :
    d'.atEof = true := by
  induction h with
  | eof h => exact h
  | more _ _ _ _ ih => exact ih ho
  | trailer => rfl
  | _ => cases ho

theorem pull_metadata {o : OutSpec} {d d' : RD C} {out : Outcome (Option Decoded)} {t : FrameDataType} (h : RD.Pull o d d' out)
    (ho : out = .ok (some (.frameMetadata t))) : d'.sd.state.inData = true := by
  induction h with
  | more _ _ _ _ ih => exact ih ho
  | event h hf hs hn hev hev' =>
    cases ho
    exact (SD.nextState_marks hn).2 t rfl
  | trailer => cases ho
  | _ => cases ho

/-- `fill_buffer` when no pixels are due. -/
theorem fill_undue (hS : C.Safe) {d d' : Decoder C} {buf buf' : List UInt8} {res : Outcome Bool} (hi : d.rd.Inv)
    (hd : d.rd.atEof = true ∨ d.rd.sd.state.decodes = false) (h : d.fillBuffer buf = (d', buf', res)) :
    buf' = buf ∧
    ((res = .fmtErr .oddSizedBuffer ∧ d.conv.colorOutput = .rgba ∧ buf.length < 4 ∧ d' = d) ∨
     (res = .ok false ∧ d'.nextFrameInfo = d.nextFrameInfo) ∨
     (∃ e, res = .err e ∧ d.nextFrameInfo = (d', .err e)) ∨
     (res = .fmtErr .unexpectedData ∧ d'.nextFrameInfo = d.nextFrameInfo) ∨
     (d.rd.sd.state.inHeader = true ∧ res = .fmtErr .unexpectedData ∧
      (d.nextFrameInfo.2 = .ok true ∨ d.nextFrameInfo.2 = .fmtErr .noColorTable) ∧
      d'.nextFrameInfo.2 = d.nextFrameInfo.1.nextFrameInfo.2 ∧
      (d'.nextFrameInfo.2 = .ok true → d'.nextFrameInfo = d.nextFrameInfo.1.nextFrameInfo))) := by
  rcases fill_once hS hi hd buf with ⟨h1, h2, h3⟩ | ⟨cap, rd, ans, ha, h3⟩
  · rw [h3] at h
    cases h
    exact ⟨rfl, .inl ⟨rfl, h1, h2, rfl⟩⟩
  · have hb : buf' = buf ∧ d' = { d with rd := rd } ∧ (ans = .ok [] ∧ res = .ok false ∨ ∃ e, ans = .err e ∧ res = .err e) := by
      rcases h3 with ⟨h3, h4⟩ | ⟨e, h3, h4⟩
      · rw [h4] at h
        cases h
        exact ⟨rfl, rfl, .inl ⟨h3, rfl⟩⟩
      · rw [h4] at h
        cases h
        exact ⟨rfl, rfl, .inr ⟨e, h3, rfl⟩⟩
    obtain ⟨rfl, rfl, hres⟩ := hb
    refine ⟨rfl, .inr ?_⟩
    have herr : ∀ {e}, ans = .err e → res = .err e := by
      intro e he
      rcases hres with ⟨h1, _⟩ | ⟨e', h1, h2⟩
      · rw [he] at h1; cases h1
      · rw [he] at h1; cases h1; exact h2
    rcases RD.ask_undue hS hi hd ha with ⟨h1, h2⟩ | ⟨e, h1, h2⟩ | ⟨h1, h2⟩ | ⟨h1, ev, rd', h2, h4, h5⟩ | ⟨h1, t, h2⟩
    · refine .inl ⟨?_, info_skip hS hi h2 (by simp)⟩
      rcases hres with ⟨_, h⟩ | ⟨e, h, _⟩
      · exact h
      · rw [h1] at h; cases h
    · exact .inr (.inl ⟨e, herr h1, nextFrameInfo_eq hS hi (.err h2)⟩)
    · refine .inr (.inr (.inl ⟨herr h1, ?_⟩))
      have he := pull_ended h2 rfl
      rw [nextFrameInfo_eq hS hi (.eof h2)]
      exact nextFrameInfo_eq hS (d := { d with rd := rd }) (RD.pull_inv hS h2 hi) (.eof (.eof he))
    · refine .inr (.inr (.inl ⟨herr h1, ?_⟩))
      rw [← info_skip hS hi h4 h2]
      rcases h5 with rfl | h5
      · rfl
      · have hi' : rd.Inv := by
          have := RD.decodeNext_pull hS (.slice cap) d.rd hi
          have h6 := RD.pull_inv hS this hi
          unfold RD.decodeNextBytes at ha
          generalize RD.decodeNext (.slice cap) d.rd = x at ha h6
          obtain ⟨y, out⟩ := x
          have : y = rd := by
            revert ha
            split <;> intro ha <;> simp_all
          rw [← this]
          exact h6
        exact (info_skip hS (d := { d with rd := rd }) hi' h5 (by simp)).symm
    · refine .inr (.inr (.inr ⟨?_, herr h1, ?_⟩))
      · cases hh : d.rd.sd.state.inHeader with
        | true => rfl
        | false => exact absurd rfl (RD.pull_header h2 hh)
      have hi' := RD.pull_inv hS h2 hi
      obtain ⟨s1, b, bs, n, hw, _, _, htr, _⟩ := RD.pull_last hS h2 hi rfl
      obtain ⟨⟨f, hf, _⟩, _⟩ := SD.tr_metadata htr hw
      have hfound := nextFrameInfo_eq hS hi (.found h2 hf)
      obtain ⟨x, g1, _, g3⟩ := frameRun_cur hS (nextFrameInfo_run hS { d with rd := rd } hi') hi' (some f.afterTake) f.take t
        (pull_metadata h2 rfl)
      have hx := nextFrameInfo_eq hS (d := d.withFrame rd f t) (withFrame_inv hS h2 hf hi).1 g1
      rw [hfound]
      refine ⟨?_, ?_, fun hok => ?_⟩
      · split
        · exact .inr rfl
        · exact .inl rfl
      · exact (congrArg Prod.snd hx).symm
      · show _ = (d.withFrame rd f t).nextFrameInfo
        rw [hx, g3 hok]

/-- `read_into_buffer` when no pixels are due: one call of `fill_buffer` at most. -/
theorem into_undue (hS : C.Safe) {d d' : Decoder C} {buf buf' : List UInt8} {res : Outcome Unit} (hi : d.rd.Inv)
    (hd : d.rd.atEof = true ∨ d.rd.sd.state.decodes = false) (h : d.readIntoBuffer buf = (d', buf', res)) :
    buf' = buf ∧
    ((res = .ok () ∧ d.currentFrame.interlaced = true ∧ d.currentFrame.height = 0 ∧ d' = d) ∨
     (res = .fmtErr .bufferTooSmall ∧ d' = d) ∨
     ∃ part, (d.fillBuffer part).1 = d' ∧
      ((d.fillBuffer part).2.2 = .ok false ∧ res = .fmtErr .imageTruncated ∨
       ∃ e, (d.fillBuffer part).2.2 = .err e ∧ res = .err e)) := by
  have key : ∀ part t line out, d.conv.fillBuffer d.currentFrame RD.decodeNextBytes d.rd part = (t, line, out) →
      line = part ∧ (d.fillBuffer part).1 = { d with rd := t } ∧ (d.fillBuffer part).2.2 = out ∧ (out = .ok false ∨ ∃ e, out = .err e) := by
    intro part t line out hf
    have hf' : d.fillBuffer part = ({ d with rd := t }, line, out) := by
      unfold fillBuffer
      rw [hf]
    rcases fill_once hS hi hd part with ⟨_, _, h3⟩ | ⟨_, _, _, _, ⟨_, h3⟩ | ⟨e, _, h3⟩⟩
    · rw [hf'] at h3 ⊢
      simp only [Prod.mk.injEq] at h3
      exact ⟨h3.2.1, rfl, rfl, .inr ⟨_, h3.2.2⟩⟩
    · rw [hf'] at h3 ⊢
      simp only [Prod.mk.injEq] at h3
      exact ⟨h3.2.1, rfl, rfl, .inl h3.2.2⟩
    · rw [hf'] at h3 ⊢
      simp only [Prod.mk.injEq] at h3
      exact ⟨h3.2.1, rfl, rfl, .inr ⟨e, h3.2.2⟩⟩
  unfold readIntoBuffer Converter.readIntoBuffer at h
  by_cases hint : d.currentFrame.interlaced = true
  · rw [if_pos hint, Converter.readRows] at h
    by_cases h0 : d.currentFrame.height.toNat = 0
    · simp only [InterlaceIter.nextRow, h0, if_true] at h
      cases h
      refine ⟨rfl, .inl ⟨rfl, hint, ?_, rfl⟩⟩
      exact UInt16.toNat_inj.mp h0
    · generalize hit : InterlaceIter.nextRow { len := d.currentFrame.height.toNat, next := 0, pass := 0 } = it at h
      obtain ⟨it, row⟩ := it
      cases row with
      | none =>
        exfalso
        obtain ⟨_, _, hr, _⟩ := InterlaceIter.nextRow_spec d.currentFrame.height.toNat 0 0 (by omega) (by omega)
        rw [hr] at hit
        cases hit
      | some row =>
        simp only at h
        by_cases hfit : row * d.conv.lineLength d.currentFrame ≤ buf.length ∧
            d.conv.lineLength d.currentFrame ≤ (buf.drop (row * d.conv.lineLength d.currentFrame)).length
        · rw [if_pos hfit] at h
          generalize hpart : (buf.drop (row * d.conv.lineLength d.currentFrame)).take (d.conv.lineLength d.currentFrame) = part at h
          have hall : buf.take (row * d.conv.lineLength d.currentFrame) ++ part ++
              buf.drop (row * d.conv.lineLength d.currentFrame + d.conv.lineLength d.currentFrame) = buf := by
            rw [← hpart, List.append_assoc, ← List.drop_drop, List.take_append_drop, List.take_append_drop]
          generalize hf : d.conv.fillBuffer d.currentFrame RD.decodeNextBytes d.rd part = x at h
          obtain ⟨t, line, out⟩ := x
          obtain ⟨rfl, h1, h2, h3⟩ := key part t line out hf
          rcases h3 with rfl | ⟨e, rfl⟩
          · cases h
            exact ⟨hall, .inr (.inr ⟨line, h1, .inl ⟨h2, rfl⟩⟩)⟩
          · cases h
            exact ⟨hall, .inr (.inr ⟨line, h1, .inr ⟨e, h2, rfl⟩⟩)⟩
        · rw [if_neg hfit] at h
          cases h
          exact ⟨rfl, .inr (.inl ⟨rfl, rfl⟩)⟩
  · rw [if_neg hint] at h
    by_cases hfit : d.conv.bufferSize d.currentFrame ≤ buf.length
    · simp only [hfit, if_true] at h
      generalize hf : d.conv.fillBuffer d.currentFrame RD.decodeNextBytes d.rd (buf.take (d.conv.bufferSize d.currentFrame)) = x at h
      obtain ⟨t, line, out⟩ := x
      obtain ⟨rfl, h1, h2, h3⟩ := key _ t line out hf
      rcases h3 with rfl | ⟨e, rfl⟩
      · cases h
        exact ⟨List.take_append_drop _ _, .inr (.inr ⟨_, h1, .inl ⟨h2, rfl⟩⟩)⟩
      · cases h
        exact ⟨List.take_append_drop _ _, .inr (.inr ⟨_, h1, .inr ⟨e, h2, rfl⟩⟩)⟩
    · simp only [hfit, if_false] at h
      cases h
      exact ⟨rfl, .inr (.inl ⟨rfl, rfl⟩)⟩

/-! ## The occasions -/

/-- What comes after the header, after the data of an image, or after the last image. -/
def Between (d : Decoder C) : Prop :=
  d.rd.Inv ∧ (d.rd.atEof = true ∨ d.rd.sd.state.decodes = false) ∧ (d.rd.atEof = true ∨ d.rd.sd.state.inHeader = false)

theorem between_of_state {d : Decoder C} (hi : d.rd.Inv) (h1 : d.rd.sd.state.decodes = false) (h2 : d.rd.sd.state.inHeader = false) :
    Between d := ⟨hi, .inr h1, .inr h2⟩

theorem raw_decodes {s : SD C} (hw : s.WF) (hk : s.skipFrameDecoding = true) : s.state.decodes = false := by
  have := hw.st
  cases hs : s.state <;> first | rfl | skip
  simp only [SD.stOk, hs] at this
  rw [hk] at this
  simp at this

theorem pull_event_state {o : OutSpec} {d d' : RD C} {out : Outcome (Option Decoded)} (hS : C.Safe) (h : RD.Pull o d d' out) (hi : d.Inv) :
    (out = .ok (some .headerEnd) → ∃ t, d'.sd.state = .blockStart t) ∧ (out = .ok (some .dataEnd) → d'.sd.state = .blockEnd) ∧
      out ≠ .ok (some (.bytesDecoded [])) := by
  have key : ∀ {ev : Decoded}, out = .ok (some ev) →
      (ev = .headerEnd → ∃ t, d'.sd.state = .blockStart t) ∧ (ev = .dataEnd → d'.sd.state = .blockEnd) ∧ ev ≠ .bytesDecoded [] := by
    intro ev ho
    obtain ⟨s1, b, bs, n, hw, _, _, htr, _⟩ := RD.pull_last hS h hi ho
    generalize d'.sd = s2 at htr ⊢
    cases htr with
    | headerEnd t => exact ⟨fun _ => ⟨t, rfl⟩, by simp, by simp⟩
    | frameDecoded => exact ⟨by simp, fun _ => rfl, by simp⟩
    | decode left consumed bytes =>
      refine ⟨by split <;> simp, by split <;> simp, ?_⟩
      split
      · simp
      · rename_i hne
        intro hb
        cases hb
        exact hne rfl
    | decodeFlush consumed bytes lzw hs hk hb hd hne =>
      refine ⟨by simp, by simp, ?_⟩
      intro hb
      cases hb
      exact hne rfl
    | _ => exact ⟨by simp, by simp, by simp⟩
  exact ⟨fun ho => (key ho).1 rfl, fun ho => (key ho).2.1 rfl, fun ho => (key ho).2.2 rfl⟩

theorem opened_between (hS : C.Safe) {o : DecodeOptions} {r : Reader} (h : (readInfo C o r).2 = .ok ()) : Between (readInfo C o r).1 := by
  have hi := (inv_readInfo (C := C) hS o r).1
  obtain ⟨t, ht⟩ : ∃ t, (readInfo C o r).1.rd.sd.state = .blockStart t := by
    have hi := inv_withNoInit (C := C) o r
    have w := initLoop_run hS _ (withNoInit C o r) hi.rd (meas_lt_fuel _)
    have key : ∀ {d d' : Decoder C} {out : Outcome Unit}, InitRun d d' out → d.rd.Inv → out = .ok () →
        ∃ t, d'.rd.sd.state = .blockStart t := by
      intro d d' out h
      induction h with
      | step hp hev hr ih => exact fun hi ho => ih (RD.pull_inv hS hp hi) ho
      | done hp => exact fun hi _ => (pull_event_state hS hp hi).1 rfl
      | _ => exact fun _ ho => by cases ho
    have hbr : ∀ (a : Decoder C), a.checkBg.rd = a.rd := by
      intro a; unfold checkBg; split <;> (try split) <;> rfl
    unfold readInfo init at h ⊢
    generalize initLoop (withNoInit C o r).rd.eventFuel (withNoInit C o r) = x at *
    obtain ⟨d, out⟩ := x
    cases out with
    | ok u => simp only [hbr]; exact key w hi.rd rfl
    | _ => cases h
  exact between_of_state hi.rd (by rw [ht]; rfl) (by rw [ht]; rfl)

theorem frameRun_between (hS : C.Safe) {d d' : Decoder C} {out : Outcome Bool} (h : FrameRun d d' out) (hi : d.rd.Inv) :
    (out = .ok false → d'.rd.atEof = true) ∧ (out = .ok true → d'.rd.sd.state.inData = true) ∧
      (out = .ok true → d'.dataType = .pixels → d'.rd.sd.state.decodes = true) := by
  induction h with
  | step hp hev hr ih => exact ih (RD.pull_inv hS hp hi)
  | @found d rd t f hp hc =>
    refine ⟨fun ho => (by split at ho <;> cases ho), fun _ => pull_metadata (d' := rd) hp rfl, fun _ ht => ?_⟩
    obtain ⟨s1, b, bs, n, hw, _, _, htr, _⟩ := RD.pull_last hS hp hi rfl
    obtain ⟨_, ⟨left, h1, h2⟩ | ⟨left, m, h1, h2, _⟩⟩ := SD.tr_metadata htr hw
    · show rd.sd.state.decodes = true
      rw [h1]; rfl
    · simp only [withFrame] at ht
      rw [h2] at ht
      cases ht
  | eof hp => exact ⟨fun _ => pull_ended hp rfl, (fun h => by cases h), (fun h => by cases h)⟩
  | err hp => exact ⟨(fun h => by cases h), (fun h => by cases h), (fun h => by cases h)⟩

theorem inData_inHeader {s : State} (h : s.inData = true) : s.inHeader = false := by
  cases s <;> first | rfl | cases h

theorem eof_between {d : Decoder C} (hi : d.rd.Inv) (h : d.rd.atEof = true) : Between d := ⟨hi, .inl h, .inl h⟩

theorem none_between (hS : C.Safe) {d : Decoder C} (hi : d.Inv) (h : d.nextFrameInfo.2 = .ok false) : Between d.nextFrameInfo.1 := by
  have hr := nextFrameInfo_run hS d hi.rd
  exact eof_between (frameRun_spec hS hr hi.rd).1 ((frameRun_between hS hr hi.rd).1 h)

theorem raw_found_between (hS : C.Safe) {d : Decoder C} (hi : d.Inv) (hk : d.rd.sd.skipFrameDecoding = true) {b : Bool}
    (h : d.nextFrameInfo.2 = .ok b) : Between d.nextFrameInfo.1 := by
  have hr := nextFrameInfo_run hS d hi.rd
  cases b with
  | false => exact none_between hS hi h
  | true =>
    obtain ⟨h1, _, h2, _⟩ := frameRun_spec hS hr hi.rd
    simp only [SD.opts, Prod.mk.injEq] at h2
    exact between_of_state h1 (raw_decodes h1.wf (h2.1.trans hk)) (inData_inHeader ((frameRun_between hS hr hi.rd).2.1 h))

theorem copyRun_done (hS : C.Safe) {rd rd' : RD C} {vec vec' : List UInt8} {out : Outcome Unit} (h : CopyRun rd vec rd' vec' out)
    (hi : rd.Inv) (ho : out = .ok ()) : rd'.Inv ∧ rd'.sd.state = .blockEnd := by
  induction h with
  | step hp hr ih => exact ih (RD.pull_inv hS hp hi) ho
  | done hp => exact ⟨RD.pull_inv hS hp hi, (pull_event_state hS hp hi).2.1 rfl⟩
  | _ => cases ho

theorem raw_read_between (hS : C.Safe) {d : Decoder C} (hi : d.Inv) (hk : d.rd.sd.skipFrameDecoding = true) {x : Option Frame}
    (h : d.readNextFrame.2 = .ok x) : Between d.readNextFrame.1 := by
  have hr := nextFrameInfo_run hS d hi.rd
  obtain ⟨h1, _, h2, _⟩ := frameRun_spec hS hr hi.rd
  obtain ⟨f1, f2, f3⟩ := frameRun_between hS hr hi.rd
  simp only [SD.opts, Prod.mk.injEq] at h2
  have hd := raw_decodes h1.wf (h2.1.trans hk)
  unfold readNextFrame at h ⊢
  generalize d.nextFrameInfo = y at *
  obtain ⟨d1, out⟩ := y
  cases out with
  | ok b =>
    cases b with
    | false =>
      exact eof_between h1 (f1 rfl)
    | true =>
      simp only at h ⊢
      cases ht : d1.dataType with
      | pixels =>
        have := f3 rfl ht
        rw [hd] at this
        cases this
      | lzw m =>
        simp only [ht] at h ⊢
        have hc := copyLoop_run hS d1.rd.eventFuel d1.rd [m] h1 (meas_lt_fuel _)
        unfold copyLzw at h ⊢
        generalize copyLoop d1.rd.eventFuel d1.rd [m] = z at *
        obtain ⟨rd, vec, o⟩ := z
        cases o with
        | ok u =>
          obtain ⟨g1, g2⟩ := copyRun_done hS hc h1 rfl
          replace g2 : rd.sd.state = .blockEnd := g2
          exact between_of_state g1 (by simp only [g2]; rfl) (by simp only [g2]; rfl)
        | _ => cases h
  | _ => cases h

/-- A fill that reports the end of the data has just met it. -/
theorem fillLoop_ended {τ : Type} {P : τ → Prop} (c : Converter) (f : Frame) (cb : Callback τ)
    (hP : ∀ t cap t' bs, P t → cb t cap = (t', .ok bs) → P t') : ∀ (fuel : Nat) (t : τ) (buf : List UInt8) {t' : τ} {buf' : List UInt8},
    P t → c.fillLoop f cb fuel t buf = (t', buf', .ok false) → ∃ t0 cap, P t0 ∧ cb t0 cap = (t', .ok [])
  | 0, t, buf, t', buf', _, h => by cases h
  | fuel + 1, t, buf, t', buf', hp, h => by
    rw [Converter.fillLoop] at h
    split at h
    · split at h
      · rename_i t1 bytes hcb
        split at h
        · rename_i h0
          cases h
          exact ⟨t, _, hp, by rw [hcb, List.length_eq_zero_iff.mp h0]⟩
        · split at h
          · cases h
          · simp only at h
            split at h
            · cases h
            · generalize hx : c.fillLoop f cb fuel t1 (buf.drop bytes.length) = x at h
              obtain ⟨t2, b2, r2⟩ := x
              cases h
              exact fillLoop_ended c f cb hP fuel _ _ (hP _ _ _ _ hp hcb) hx
      all_goals cases h
    · split at h
      · cases h
      · split at h
        · rename_i t1 bytes hcb
          split at h
          · rename_i h0
            cases h
            exact ⟨t, _, hp, by rw [hcb, List.length_eq_zero_iff.mp h0]⟩
          · split at h
            · cases h
            · simp only at h
              split at h
              · cases h
              · generalize hx : c.fillLoop f cb fuel t1 (buf.drop (bytes.length * 4)) = x at h
                obtain ⟨t2, b2, r2⟩ := x
                cases h
                exact fillLoop_ended c f cb hP fuel _ _ (hP _ _ _ _ hp hcb) hx
        all_goals cases h

theorem next_bytes_inv (hS : C.Safe) {rd rd' : RD C} {cap : Nat} {res : Outcome (List UInt8)} (hi : rd.Inv)
    (h : RD.decodeNextBytes rd cap = (rd', res)) : rd'.Inv ∧ (res = .ok [] → rd'.sd.state = .blockEnd) := by
  have hp := RD.decodeNext_pull hS (.slice cap) rd hi
  have h6 := RD.pull_inv hS hp hi
  obtain ⟨_, e2, e3⟩ := pull_event_state hS hp hi
  unfold RD.decodeNextBytes at h
  generalize RD.decodeNext (.slice cap) rd = x at *
  obtain ⟨y, out⟩ := x
  simp only at *
  split at h <;> cases h <;> rename_i he <;> cases he
  · exact ⟨h6, fun h0 => by cases h0; exact absurd rfl e3⟩
  · exact ⟨h6, fun _ => e2 rfl⟩
  all_goals exact ⟨h6, fun h0 => by cases h0⟩

theorem ended_between (hS : C.Safe) {d : Decoder C} (hi : d.Inv) {buf : List UInt8} (h : (d.fillBuffer buf).2.2 = .ok false) :
    Between (d.fillBuffer buf).1 := by
  unfold fillBuffer Converter.fillBuffer at h ⊢
  generalize hx : d.conv.fillLoop d.currentFrame RD.decodeNextBytes (buf.length + 1) d.rd buf = x at h ⊢
  obtain ⟨rd, b, r⟩ := x
  simp only at h
  subst h
  obtain ⟨t0, cap, h1, h2⟩ := fillLoop_ended (P := RD.Inv) d.conv d.currentFrame RD.decodeNextBytes
    (fun t cap t' bs hp hcb => (next_bytes_inv hS hp hcb).1) _ _ _ hi.rd hx
  obtain ⟨g1, g2⟩ := next_bytes_inv hS h1 h2
  exact between_of_state g1 (by simp only [g2 rfl]; rfl) (by simp only [g2 rfl]; rfl)

theorem read_none_between (hS : C.Safe) {d : Decoder C} (hi : d.Inv) (h : d.readNextFrame.2 = .ok none) : Between d.readNextFrame.1 := by
  have key := none_between hS hi
  unfold readNextFrame at h ⊢
  generalize d.nextFrameInfo = y at *
  obtain ⟨d1, out⟩ := y
  cases out with
  | ok b =>
    cases b with
    | false => exact key rfl
    | true =>
      exfalso
      simp only at h
      split at h
      · split at h <;> cases h
      · split at h <;> cases h
  | _ => cases h

/-! ## The theorems -/

/-- The occasions on which a program knows that no pixels are due: after opening, after the last frame, after the end of the data of
a frame, and, if the frames are not decoded, after any successful call that looks for frames. -/
inductive Undue (o : DecodeOptions) (r : Reader) : Decoder C → Prop
  | opened (h : (readInfo C o r).2 = .ok ()) : Undue o r (readInfo C o r).1
  | infoNone {d : Decoder C} (h : Reach o r d) (hr : d.nextFrameInfo.2 = .ok false) : Undue o r d.nextFrameInfo.1
  | readNone {d : Decoder C} (h : Reach o r d) (hr : d.readNextFrame.2 = .ok none) : Undue o r d.readNextFrame.1
  | ended {d : Decoder C} (h : Reach o r d) (buf : List UInt8) (hr : (d.fillBuffer buf).2.2 = .ok false) :
      Undue o r (d.fillBuffer buf).1
  | rawInfo {d : Decoder C} (h : Reach o r d) (hk : o.skipFrameDecoding = true) {b : Bool} (hr : d.nextFrameInfo.2 = .ok b) :
      Undue o r d.nextFrameInfo.1
  | rawRead {d : Decoder C} (h : Reach o r d) (hk : o.skipFrameDecoding = true) {x : Option Frame} (hr : d.readNextFrame.2 = .ok x) :
      Undue o r d.readNextFrame.1

theorem undue_between (hS : C.Safe) {o : DecodeOptions} {r : Reader} {d : Decoder C} (h : Undue o r d) : Between d := by
  cases h with
  | opened h => exact opened_between hS h
  | infoNone h hr => exact none_between hS (reach_inv hS h).1 hr
  | readNone h hr => exact read_none_between hS (reach_inv hS h).1 hr
  | ended h buf hr => exact ended_between hS (reach_inv hS h).1 hr
  | rawInfo h hk hr => exact raw_found_between hS (reach_inv hS h).1 ((reach_skip hS h).trans hk) hr
  | rawRead h hk hr => exact raw_read_between hS (reach_inv hS h).1 ((reach_skip hS h).trans hk) hr

/-- **C86.** A call of `fill_buffer` when no pixels are due leaves the buffer as it is, does not succeed, and loses no frame: the
next call of `next_frame_info` returns what it would have returned, and leaves the same decoder; or that call would have failed,
and `fill_buffer` fails in its place. -/
theorem misplaced_fill (hS : C.Safe) {o : DecodeOptions} {r : Reader} {d : Decoder C} (h : Undue o r d) (buf : List UInt8) :
    (d.fillBuffer buf).2.1 = buf ∧ (d.fillBuffer buf).2.2 ≠ .ok true ∧
    ((d.fillBuffer buf).1.nextFrameInfo = d.nextFrameInfo ∧
      ((d.fillBuffer buf).2.2 = .ok false ∨ (d.fillBuffer buf).2.2 = .fmtErr .unexpectedData ∨
       (d.fillBuffer buf).2.2 = .fmtErr .oddSizedBuffer) ∨
     ∃ e, (d.fillBuffer buf).2.2 = .err e ∧ d.nextFrameInfo = ((d.fillBuffer buf).1, .err e)) := by
  obtain ⟨hi, hd, hh⟩ := undue_between hS h
  obtain ⟨h1, h2⟩ := fill_undue hS hi hd (buf := buf) (d' := (d.fillBuffer buf).1) (buf' := (d.fillBuffer buf).2.1)
    (res := (d.fillBuffer buf).2.2) rfl
  refine ⟨h1, ?_, ?_⟩
  · intro hok
    rcases h2 with ⟨h2, _⟩ | ⟨h2, _⟩ | ⟨e, h2, _⟩ | ⟨h2, _⟩ | ⟨_, h2, _⟩ <;> rw [hok] at h2 <;> cases h2
  · rcases h2 with ⟨h2, _, _, h3⟩ | ⟨h2, h3⟩ | ⟨e, h2, h3⟩ | ⟨h2, h3⟩ | ⟨h0, h2, h3, _⟩
    · exact .inl ⟨by rw [h3], .inr (.inr h2)⟩
    · exact .inl ⟨h3, .inl h2⟩
    · exact .inr ⟨e, h2, h3⟩
    · exact .inl ⟨h3, .inr (.inl h2)⟩
    · exfalso
      rcases hh with hh | hh
      · rw [nextFrameInfo_eq hS hi (.eof (.eof hh))] at h3
        rcases h3 with h3 | h3 <;> cases h3
      · rw [hh] at h0
        cases h0

/-- **C86.** The same for `read_into_buffer`, which may also find that the buffer is too small, or that an interlaced frame has no
rows. -/
theorem misplaced_into (hS : C.Safe) {o : DecodeOptions} {r : Reader} {d : Decoder C} (h : Undue o r d) (buf : List UInt8) :
    (d.readIntoBuffer buf).2.1 = buf ∧
    ((d.readIntoBuffer buf).2.2 = .ok () → d.currentFrame.interlaced = true ∧ d.currentFrame.height = 0) ∧
    ((d.readIntoBuffer buf).1.nextFrameInfo = d.nextFrameInfo ∨
     ∃ e, (d.readIntoBuffer buf).2.2 = .err e ∧ d.nextFrameInfo = ((d.readIntoBuffer buf).1, .err e)) := by
  obtain ⟨hi, hd, hh⟩ := undue_between hS h
  obtain ⟨h1, h2⟩ := into_undue hS hi hd (buf := buf) (d' := (d.readIntoBuffer buf).1) (buf' := (d.readIntoBuffer buf).2.1)
    (res := (d.readIntoBuffer buf).2.2) rfl
  refine ⟨h1, ?_, ?_⟩
  · intro hok
    rcases h2 with ⟨_, h2, h3, _⟩ | ⟨h2, _⟩ | ⟨part, _, ⟨_, h2⟩ | ⟨e, _, h2⟩⟩
    · exact ⟨h2, h3⟩
    all_goals rw [hok] at h2; cases h2
  · rcases h2 with ⟨_, _, _, h2⟩ | ⟨_, h2⟩ | ⟨part, hp, hr⟩
    · exact .inl (by rw [h2])
    · exact .inl (by rw [h2])
    · obtain ⟨_, _, g | ⟨e, g1, g2⟩⟩ := misplaced_fill hS h part
      · left
        rw [← hp]
        exact g.1
      · right
        rw [← hp]
        rcases hr with ⟨hr, _⟩ | ⟨e', hr, hr'⟩
        · rw [g1] at hr
          cases hr
        · rw [g1] at hr
          cases hr
          exact ⟨e, hr', g2⟩

/-- **C86.** If the frames are not decoded, no call ever stores pixels, whenever it comes: `fill_buffer` does not succeed, and
leaves the buffer as it is. A call may use up one frame, if the calls before it were out of place too, and nothing else. -/
theorem raw_never_fills (hS : C.Safe) {o : DecodeOptions} {r : Reader} {d : Decoder C} (h : Reach o r d)
    (hk : o.skipFrameDecoding = true) (buf : List UInt8) :
    (d.fillBuffer buf).2.1 = buf ∧ (d.fillBuffer buf).2.2 ≠ .ok true ∧
    ((d.fillBuffer buf).1.nextFrameInfo = d.nextFrameInfo ∨
     (∃ e, (d.fillBuffer buf).2.2 = .err e ∧ d.nextFrameInfo = ((d.fillBuffer buf).1, .err e)) ∨
     ((d.nextFrameInfo.2 = .ok true ∨ d.nextFrameInfo.2 = .fmtErr .noColorTable) ∧
      (d.fillBuffer buf).2.2 = .fmtErr .unexpectedData ∧
      (d.fillBuffer buf).1.nextFrameInfo.2 = d.nextFrameInfo.1.nextFrameInfo.2 ∧
      ((d.fillBuffer buf).1.nextFrameInfo.2 = .ok true →
        (d.fillBuffer buf).1.nextFrameInfo = d.nextFrameInfo.1.nextFrameInfo))) := by
  have hi := (reach_inv hS h).1.rd
  have hd := raw_decodes hi.wf ((reach_skip hS h).trans hk)
  obtain ⟨h1, h2⟩ := fill_undue hS hi (.inr hd) (buf := buf) (d' := (d.fillBuffer buf).1) (buf' := (d.fillBuffer buf).2.1)
    (res := (d.fillBuffer buf).2.2) rfl
  refine ⟨h1, ?_, ?_⟩
  · intro hok
    rcases h2 with ⟨h2, _⟩ | ⟨h2, _⟩ | ⟨e, h2, _⟩ | ⟨h2, _⟩ | ⟨_, h2, _⟩ <;> rw [hok] at h2 <;> cases h2
  · rcases h2 with ⟨h2, _, _, h3⟩ | ⟨h2, h3⟩ | ⟨e, h2, h3⟩ | ⟨h2, h3⟩ | ⟨h0, h2, h3, h4, h5⟩
    · exact .inl (by rw [h3])
    · exact .inl h3
    · exact .inr (.inl ⟨e, h2, h3⟩)
    · exact .inl h3
    · exact .inr (.inr ⟨h3, h2, h4, h5⟩)

end Decoder

end Gif
