import Verif.Lemmas.Errors
import Verif.Lemmas.ConvErrors
import Verif.Lemmas.DecRun
/-!
Where the state machine stands after an unknown block, a bad code size or an extension over the memory limit: it stays there.
-/

namespace Gif

variable {C : Codec}

namespace SD

/-- With `b :: bs` as rest of the buffer every further step reports `e`. -/
def Halted (s : SD C) (b : UInt8) (bs : List UInt8) (e : DecodingError) : Prop :=
  e = .format .unknownBlock ∧ (s.state = .blockStart 0x21 ∧ (Extension.fromU8 b).isNone ∨
    ∃ t, s.state = .blockStart t ∧ Block.fromU8 t = none ∧ s.headerEndReached = true ∧ s.allowUnknownBlocks = false) ∨
  e = .format .invalidMinCodeSize ∧ (∃ m, s.state = .lzwInit m ∧ LzwReader.codeSizeOk m = false) ∨
  e = .format .memoryLimit ∧ ∃ left, s.state = .extensionDataBlock left ∧ 0 < left ∧
    s.memoryLimit.sizeOk (s.extData.length + min left (b :: bs).length) = false

theorem fromU8_none_ne {t : UInt8} (h : Block.fromU8 t = none) : t ≠ 0x21 := by
  rintro rfl; cases h

theorem halted_step {s : SD C} {b : UInt8} {bs : List UInt8} {e : DecodingError} (h : s.Halted b bs e) (o : OutSpec) :
    (nextState s (b :: bs) o).2 = .err e ∧ (nextState s (b :: bs) o).1.Halted b bs e := by
  rcases h with ⟨rfl, ⟨hs, hb⟩ | ⟨t, hs, ht, hh, ha⟩⟩ | ⟨rfl, m, hs, hm⟩ | ⟨rfl, left, hs, hl, hm⟩
  · unfold nextState
    simp only [hs]
    unfold onBlockStart
    rw [if_neg (by simp [Block.toU8])]
    simp only [show Block.fromU8 0x21 = some .extension from rfl]
    rw [if_pos hb]
    exact ⟨rfl, .inl ⟨rfl, .inl ⟨hs, hb⟩⟩⟩
  · unfold nextState
    simp only [hs]
    unfold onBlockStart
    rw [if_neg (by simp [hh])]
    simp only [ht]
    rw [if_neg (by simp [ha])]
    exact ⟨rfl, .inl ⟨rfl, .inr ⟨t, hs, ht, hh, ha⟩⟩⟩
  · unfold nextState
    simp only [hs]
    unfold onLzwInit
    split
    · have hr : s.lzw.reset m = (s.lzw, .fmtErr .invalidMinCodeSize) := by
        unfold LzwReader.reset
        rw [if_neg (by simp [hm])]
      rw [hr]
      exact ⟨rfl, .inr (.inl ⟨rfl, m, hs, hm⟩)⟩
    · rw [if_neg (by simp [hm])]
      exact ⟨rfl, .inr (.inl ⟨rfl, m, hs, hm⟩)⟩
  · unfold nextState
    simp only [hs]
    unfold onExtensionDataBlock
    rw [if_pos hl]
    simp only
    rw [if_neg (by rw [hm]; simp)]
    exact ⟨rfl, .inr (.inr ⟨rfl, left, hs, hl, hm⟩)⟩

/-- The states from which an unknown block is at most a few silent steps away. -/
def Nearby (s : SD C) : Prop := (∃ t, s.state = .blockStart t) ∨ s.state = .blockEnd ∨ s.state = .applicationExtension

theorem tr_nearby {o : OutSpec} {b : UInt8} {bs : List UInt8} {s s' : SD C} {n : Nat} (h : Tr o b bs s s' n .nothing)
    (hn : Nearby s') : s.state = .blockEnd ∧ s'.state = .blockStart b ∨ s.state = .applicationExtension ∧ b = 0 := by
  generalize hev : Decoded.nothing = ev at h
  unfold Nearby at hn
  cases h with
  | blockEndTrailer hs hb => exact .inl ⟨hs, rfl⟩
  | blockEnd hs hb => exact .inl ⟨hs, rfl⟩
  | appOther hs hb => exact .inr ⟨hs, hb⟩
  | collect h0 =>
    exfalso
    rcases hn with ⟨t, ht⟩ | ht | ht <;> simp only at ht <;> simp [required, ht] at h0
  | imageHeader => exfalso; split at hn <;> simp at hn
  | gctData => exfalso; split at hn <;> simp at hn
  | lctData => exfalso; split at hn <;> (try split at hn) <;> simp at hn
  | trailerLoop hs => exfalso; simp [hs] at hn
  | gctEnd => cases hev
  | headerEnd => cases hev
  | extEndApp => cases hev
  | extEndControl => cases hev
  | extEndOther => cases hev
  | appRepeat => cases hev
  | frameDecoded => cases hev
  | screen => cases hev
  | _ => exfalso; simp at hn

theorem silent_near (hS : C.Safe) {o : OutSpec} {s s' : SD C} {l l' : List UInt8} (h : Steps o s l s' l') (hw : s.WF)
    (hst : s'.state = .blockStart 0x21) (hl : ∀ b bs, l' = b :: bs → (Extension.fromU8 b).isNone) :
    (s.state = .blockStart 0x21 ∨ s.state = .blockEnd ∨ s.state = .applicationExtension) ∧
      ∀ b bs, l = b :: bs → (Extension.fromU8 b).isNone := by
  induction h with
  | refl s l => exact ⟨.inl hst, hl⟩
  | @step s s1 s' b bs l' n h ht ih =>
    have htr := tr_of_nextState hw.ibuf h
    obtain ⟨h1, h2⟩ := ih (tr_wf hS hw htr).1 hst hl
    have hn : Nearby s1 := by
      rcases h1 with h1 | h1 | h1
      · exact .inl ⟨_, h1⟩
      · exact .inr (.inl h1)
      · exact .inr (.inr h1)
    rcases tr_nearby htr hn with ⟨q1, q2⟩ | ⟨q1, rfl⟩
    · refine ⟨.inr (.inl q1), fun b' bs' hb => ?_⟩
      cases hb
      rcases h1 with h1 | h1 | h1 <;> rw [q2] at h1
      · cases h1; rfl
      · cases h1
      · cases h1
    · refine ⟨.inr (.inr q1), fun b' bs' hb => ?_⟩
      cases hb
      rfl

/-- The step that reports one of these errors leaves a dead state. -/
theorem err_halted {s s' : SD C} {o : OutSpec} {b : UInt8} {bs : List UInt8} {e : DecodingError} (hw : WF s)
    (h : nextState s (b :: bs) o = (s', .err e)) (he : e = .format .unknownBlock ∨ e = .format .invalidMinCodeSize) :
    s'.Halted b bs e ∧ (s.state = .blockStart 0x21 → s'.state = .blockStart 0x21 ∧ (Extension.fromU8 b).isNone) ∧
      (s.state ≠ .blockStart 0x21 → ∀ b' bs', s'.Halted b' bs' e) := by
  have hse := nextState_err hw h
  unfold nextState at h
  rcases he with rfl | rfl
  · obtain ⟨t, hs, _⟩ := hse
    simp only [hs] at h
    unfold onBlockStart goto at h
    split at h
    · cases h
    · rename_i hc
      split at h
      · cases h
      · rename_i ht
        have := fromU8_extension ht
        subst this
        simp only at h
        split at h
        · rename_i hb
          cases h
          exact ⟨.inl ⟨rfl, .inl ⟨hs, hb⟩⟩, fun _ => ⟨hs, hb⟩, fun hne => absurd hs hne⟩
        · cases h
      · cases h
      · rename_i ht
        split at h
        · cases h
        · rename_i ha
          cases h
          have hne := fromU8_none_ne ht
          have hh : s.headerEndReached = true := by
            cases hx : s.headerEndReached with
            | true => rfl
            | false => exact absurd ⟨by simp [hx], by simpa [Block.toU8] using hne⟩ hc
          have hd : ∀ b' bs', s.Halted b' bs' (.format .unknownBlock) := fun _ _ =>
            .inl ⟨rfl, .inr ⟨t, hs, ht, hh, by simpa using ha⟩⟩
          refine ⟨hd b bs, fun h' => ?_, fun _ => hd⟩
          rw [hs] at h'
          cases h'
          exact absurd rfl hne
  · obtain ⟨m, hs⟩ := hse
    simp only [hs] at h
    have key : s'.state = .lzwInit m ∧ LzwReader.codeSizeOk m = false := by
      unfold onLzwInit goto at h
      split at h
      · unfold LzwReader.reset at h
        by_cases hm : LzwReader.codeSizeOk m = true
        · rw [if_pos hm] at h
          split at h
          · cases h
          · rename_i hr
            split at hr
            · split at hr <;> cases hr
            · cases hr
          · cases h
          · cases h
        · rw [if_neg hm] at h
          cases h
          exact ⟨hs, by simpa using hm⟩
      · split at h
        · cases h
        · rename_i hm
          cases h
          exact ⟨hs, by simpa using hm⟩
    have hd : ∀ b' bs', s'.Halted b' bs' (.format .invalidMinCodeSize) := fun _ _ => .inr (.inl ⟨rfl, m, key⟩)
    exact ⟨hd b bs, fun h' => (by rw [hs] at h'; cases h'), fun _ => hd⟩

/-- The same for an extension that is over the memory limit; raw image data over the limit is another matter. -/
theorem limit_halted {s s' : SD C} {o : OutSpec} {b : UInt8} {bs : List UInt8} (hw : WF s)
    (h : nextState s (b :: bs) o = (s', .fmtErr .memoryLimit)) (ho : (∀ n, o ≠ .vec n) ∨ s'.skipFrameDecoding = false) :
    ∀ b' bs', bs.length ≤ bs'.length → s'.Halted b' bs' (.format .memoryLimit) := by
  intro b' bs' hle
  obtain ⟨hm, ⟨left, hs⟩ | ⟨left, n, hs, rfl⟩⟩ := nextState_err hw h
  · unfold nextState at h
    simp only [hs] at h
    unfold onExtensionDataBlock goto readControlExtension at h
    split at h
    · rename_i hl
      simp only at h
      split at h
      · cases h
      · rename_i hk
        cases h
        refine .inr (.inr ⟨rfl, left, hs, hl, ?_⟩)
        unfold MemoryLimit.sizeOk at hk ⊢
        split
        · rename_i hu; rw [hu] at hk; simp at hk
        · rename_i hu
          rw [hu] at hk
          simp only [decide_eq_true_eq, decide_eq_false_iff_not, List.length_cons] at hk ⊢
          omega
    · split at h
      · simp only at h
        split at h
        · cases h
        · split at h
          · cases h
          · rename_i hr
            cases h
            split at hr <;> cases hr
          · cases h
          · cases h
        · cases h
      · cases h
  · have hst := hw.st
    simp only [stOk, hs] at hst
    rcases ho with ho | ho
    · exact absurd rfl (ho n)
    · have hk : s.skipFrameDecoding = s'.skipFrameDecoding := by
        unfold nextState at h
        simp only [hs] at h
        unfold onCopySubBlock goto at h
        split at h
        · cases h
        · split at h
          · simp only at h
            split at h
            · split at h <;> cases h
            · cases h; rfl
            · cases h
            · cases h
          · split at h <;> cases h
      rw [ho, hst.2.2] at hk
      cases hk

end SD

namespace RD

/-- Every further `decode_next` reports `e`, without reading on. -/
def Halted (d : RD C) (e : DecodingError) : Prop :=
  d.Inv ∧ d.atEof = false ∧ ((∃ b bs, d.reader.buf = b :: bs ∧ d.sd.Halted b bs e) ∨
    e = .io .unexpectedEof ∧ d.reader.buf = [] ∧ d.reader.src = [])

/-- The errors after which a decoder, left as `d`, is dead. -/
def Stops (d : RD C) (e : DecodingError) : Prop :=
  e = .format .unknownBlock ∨ e = .format .invalidMinCodeSize ∨
    e = .format .memoryLimit ∧ d.sd.skipFrameDecoding = false ∨ e = .io .unexpectedEof ∧ d.reader.src = []

theorem silent_length {o : OutSpec} {s s' : SD C} {l l' : List UInt8} (h : SD.Steps o s l s' l') : l'.length ≤ l.length := by
  induction h with
  | refl => exact Nat.le_refl _
  | step h ht ih =>
    rw [List.length_drop] at ih
    omega

theorem steps_halted {o : OutSpec} {s s1 : SD C} {b : UInt8} {bs l : List UInt8} {e : DecodingError} (h : SD.Steps o s (b :: bs) s1 l)
    (hd : s.Halted b bs e) : s1 = s ∧ l = b :: bs := by
  cases h with
  | refl => exact ⟨rfl, rfl⟩
  | step h ht =>
    have := (SD.halted_step hd o).1
    rw [h] at this
    cases this

theorem pull_halted (hS : C.Safe) {o : OutSpec} {d d' : RD C} {out : Outcome (Option Decoded)} {e : DecodingError} (h : Pull o d d' out)
    (hd : d.Halted e) : out = .err e ∧ d'.Halted e ∧ d'.reader = d.reader := by
  have hinv := pull_inv hS h hd.1
  obtain ⟨hi, ha, ⟨b, bs, hb, hs⟩ | ⟨rfl, hb, hsrc⟩⟩ := hd
  case inr =>
    have hfill : d.reader.fillBuf = (d.reader, .ok []) := by
      unfold Reader.fillBuf
      rw [hb, hsrc]
    cases h with
    | eof h => rw [ha] at h; cases h
    | readErr h hf => rw [hfill] at hf; cases hf
    | eos h hf => rw [hfill] at hf; cases hf; exact ⟨rfl, ⟨hinv, ha, .inr ⟨rfl, hb, hsrc⟩⟩, rfl⟩
    | more h hf => rw [hfill] at hf; cases hf
    | event h hf => rw [hfill] at hf; cases hf
    | trailer h hf => rw [hfill] at hf; cases hf
    | err h hf => rw [hfill] at hf; cases hf
  have hfill : d.reader.fillBuf = (d.reader, .ok (b :: bs)) := by
    unfold Reader.fillBuf
    rw [hb]
  cases h with
  | eof h => rw [ha] at h; cases h
  | readErr h hf => rw [hfill] at hf; cases hf
  | eos h hf => rw [hfill] at hf; cases hf
  | more h hf hst hp =>
    rw [hfill] at hf; cases hf
    obtain ⟨_, h2⟩ := steps_halted hst hs
    cases h2
  | event h hf hst hn hev hev' =>
    rw [hfill] at hf; cases hf
    obtain ⟨rfl, h2⟩ := steps_halted hst hs
    cases h2
    have := (SD.halted_step hs o).1
    rw [hn] at this; cases this
  | trailer h hf hst hn =>
    rw [hfill] at hf; cases hf
    obtain ⟨rfl, h2⟩ := steps_halted hst hs
    cases h2
    have := (SD.halted_step hs o).1
    rw [hn] at this; cases this
  | err h hf hst hn =>
    rw [hfill] at hf; cases hf
    obtain ⟨rfl, h2⟩ := steps_halted hst hs
    cases h2
    obtain ⟨h1, h2⟩ := SD.halted_step hs o
    rw [hn] at h1 h2
    cases h1
    exact ⟨rfl, ⟨hinv, ha, .inl ⟨b, bs, hb, h2⟩⟩, rfl⟩

/-- Once reported, an unknown block or a bad code size stops the decoder for good. -/
theorem pull_sticks (hS : C.Safe) {o : OutSpec} {d d' : RD C} {out : Outcome (Option Decoded)} {e : DecodingError} (h : Pull o d d' out)
    (hi : d.Inv) (hout : out = .err e) (he : d'.Stops e ∨ e = .format .memoryLimit ∧ ∀ n, o ≠ .vec n) : d'.Halted e := by
  induction h with
  | eof => cases hout
  | readErr => cases hout; rcases he with (he | he | ⟨he, _⟩ | ⟨he, _⟩) | ⟨he, _⟩ <;> cases he
  | @eos d r h hf =>
    cases hout
    have hp : Pull o d { d with reader := r } (.ioErr .unexpectedEof) := .eos h hf
    rcases he with (he | he | ⟨he, _⟩ | ⟨_, he⟩) | ⟨he, _⟩
    · cases he
    · cases he
    · cases he
    rotate_left
    · cases he
    · exact ⟨pull_inv hS hp hi, h, .inr ⟨rfl, (Reader.bytes_fillBuf_ok hf).1, he⟩⟩
  | @more d d' r b bs s1 out h hf hs hp ih =>
    have hlk := look_fill hi h hf
    obtain ⟨w1, w2, w3, w4⟩ := SD.steps_wf hS hs hi.wf hlk
    exact ih ⟨w1, fun _ => w2, fun _ => w4 (hi.live h)⟩ hout he
  | event => cases hout
  | trailer => cases hout
  | @err d r b b1 bs bs1 s1 s' e' h hf hs hn =>
    cases hout
    have hp : Pull o d { d with reader := r, sd := s' } (.err e) := .err h hf hs hn
    have hlk := look_fill hi h hf
    obtain ⟨w1, w2, w3, w4⟩ := SD.steps_wf hS hs hi.wf hlk
    refine ⟨pull_inv hS hp hi, h, .inl ⟨b, bs, (Reader.bytes_fillBuf_ok hf).1, ?_⟩⟩
    have he' : (e = .format .unknownBlock ∨ e = .format .invalidMinCodeSize) ∨
        e = .format .memoryLimit ∧ ((∀ n, o ≠ .vec n) ∨ s'.skipFrameDecoding = false) := by
      rcases he with (he | he | ⟨he, hk⟩ | ⟨he, _⟩) | ⟨he, hv⟩
      · exact .inl (.inl he)
      · exact .inl (.inr he)
      · exact .inr ⟨he, .inr hk⟩
      · subst he
        exact (SD.nextState_err w1 hn).elim
      · exact .inr ⟨he, .inl hv⟩
    clear he
    rcases he' with he | ⟨rfl, he⟩
    case inr =>
      have hl := silent_length hs
      simp only [List.length_cons] at hl
      exact SD.limit_halted w1 hn he b bs (by omega)
    obtain ⟨q1, q2, q3⟩ := SD.err_halted w1 hn he
    by_cases hst : s1.state = .blockStart 0x21
    · obtain ⟨q4, q5⟩ := q2 hst
      have hb := (SD.silent_near hS hs hi.wf hst fun b bs hl => by cases hl; exact q5).2 b bs rfl
      rcases q1 with ⟨q, _⟩ | ⟨_, m, q, _⟩ | ⟨_, l, q, _⟩
      · exact .inl ⟨q, .inl ⟨q4, hb⟩⟩
      · rw [q4] at q; cases q
      · rw [q4] at q; cases q
    · exact q3 hst b bs

theorem decodeNextBytes_halted (hS : C.Safe) (e : DecodingError) (r : Reader) :
    (decodeNextBytes (C := C)).Good fun d => d.Halted e ∧ d.reader = r := by
  rintro d cap ⟨hd, hr⟩
  obtain ⟨g1, g2, g3⟩ := decodeNextBytes_good hS d cap hd.1
  refine ⟨?_, g2, g3⟩
  obtain ⟨_, h, h'⟩ := pull_halted hS (decodeNext_pull hS (.slice cap) d hd.1) hd
  have : (decodeNextBytes d cap).1 = (d.decodeNext (.slice cap)).1 := by
    unfold decodeNextBytes
    split <;> rename_i h <;> rw [h]
  rw [this]; exact ⟨h, h'.trans hr⟩

theorem decodeNextBytes_sticks (hS : C.Safe) : (decodeNextBytes (C := C)).Leaves Inv fun d e => d.Stops e → d.Halted e := by
  intro d cap d' out hi h
  have hp := decodeNext_pull hS (.slice cap) d hi
  have hg := (decodeNextBytes_good hS d cap hi).1
  rw [h] at hg
  refine ⟨fun _ _ _ => hg, fun e he hx => ?_⟩
  unfold decodeNextBytes at h
  generalize d.decodeNext (.slice cap) = x at *
  obtain ⟨d1, out1⟩ := x
  subst he
  cases out1 with
  | ok ev =>
    cases ev with
    | none => cases h; rcases hx with hx | hx | ⟨hx, _⟩ | ⟨hx, _⟩ <;> cases hx
    | some ev => cases ev <;> cases h <;> rcases hx with hx | hx | ⟨hx, _⟩ | ⟨hx, _⟩ <;> cases hx
  | err e' => cases h; exact pull_sticks hS hp hi rfl (.inl hx)
  | panic => cases h
  | diverge => cases h

end RD

namespace Decoder

theorem frameRun_halted (hS : C.Safe) {d d' : Decoder C} {out : Outcome Bool} {e : DecodingError} (h : FrameRun d d' out)
    (hd : d.rd.Halted e) : out = .err e ∧ d'.rd.Halted e ∧ d'.rd.reader = d.rd.reader := by
  cases h with
  | step hp => obtain ⟨h, _⟩ := RD.pull_halted hS hp hd; cases h
  | found hp => obtain ⟨h, _⟩ := RD.pull_halted hS hp hd; cases h
  | eof hp => obtain ⟨h, _⟩ := RD.pull_halted hS hp hd; cases h
  | err hp =>
    obtain ⟨h, h1, h2⟩ := RD.pull_halted hS hp hd
    cases h
    exact ⟨rfl, h1, h2⟩

theorem nextFrameInfo_halted (hS : C.Safe) {d : Decoder C} {e : DecodingError} (hd : d.rd.Halted e) :
    d.nextFrameInfo.2 = .err e ∧ d.nextFrameInfo.1.rd.Halted e ∧ d.nextFrameInfo.1.rd.reader = d.rd.reader :=
  frameRun_halted hS (nextFrameInfo_run hS d hd.1) hd

theorem readNextFrame_halted (hS : C.Safe) {d : Decoder C} {e : DecodingError} (hd : d.rd.Halted e) :
    d.readNextFrame.2 = .err e ∧ d.readNextFrame.1.rd.Halted e ∧ d.readNextFrame.1.rd.reader = d.rd.reader := by
  have h := nextFrameInfo_halted hS hd
  unfold readNextFrame
  generalize d.nextFrameInfo = x at *
  obtain ⟨d1, out⟩ := x
  obtain ⟨h1, h2, h3⟩ := h
  simp only at h1
  subst h1
  exact ⟨rfl, h2, h3⟩

theorem perform_halted (hS : C.Safe) {d : Decoder C} {e : DecodingError} (hd : d.rd.Halted e) (op : Op) :
    (d.perform op).1.rd.Halted e ∧ (d.perform op).1.rd.reader = d.rd.reader := by
  cases op with
  | nextFrameInfo =>
    have h := (nextFrameInfo_halted hS hd).2
    unfold perform
    generalize d.nextFrameInfo = x at *
    obtain ⟨d1, out⟩ := x
    cases out <;> exact h
  | readNextFrame =>
    have h := (readNextFrame_halted hS hd).2
    unfold perform
    generalize d.readNextFrame = x at *
    obtain ⟨d1, out⟩ := x
    cases out <;> exact h
  | readIntoBuffer buf =>
    exact (Converter.readIntoBuffer_good d.conv d.currentFrame (RD.decodeNextBytes_halted hS e d.rd.reader) d.rd buf ⟨hd, rfl⟩).1
  | fillBuffer buf =>
    have h : (d.fillBuffer buf).1.rd.Halted e ∧ (d.fillBuffer buf).1.rd.reader = d.rd.reader :=
      (Converter.fillBuffer_good d.conv d.currentFrame (RD.decodeNextBytes_halted hS e d.rd.reader) d.rd buf ⟨hd, rfl⟩).1
    simp only [perform]
    generalize d.fillBuffer buf = x at *
    obtain ⟨d1, b, out⟩ := x
    cases out <;> exact h

theorem frameRun_sticks (hS : C.Safe) {d d' : Decoder C} {out : Outcome Bool} {e : DecodingError} (h : FrameRun d d' out)
    (hi : d.rd.Inv) (hout : out = .err e) (he : d'.rd.Stops e ∨ e = .format .memoryLimit) : d'.rd.Halted e := by
  induction h with
  | step hp hev hr ih => exact ih (RD.pull_inv hS hp hi) hout he
  | found => split at hout <;> cases hout; rcases he with (he | he | ⟨he, _⟩ | ⟨he, _⟩) | he <;> cases he
  | eof => cases hout
  | err hp => cases hout; exact RD.pull_sticks hS hp hi rfl (he.imp_right fun h => ⟨h, by simp⟩)

theorem copyRun_sticks (hS : C.Safe) {rd rd' : RD C} {vec vec' : List UInt8} {out : Outcome Unit} (h : CopyRun rd vec rd' vec' out)
    (hi : rd.Inv) {e : DecodingError} (hout : out = .err e)
    (he : rd'.Stops e) : rd'.Halted e := by
  induction h with
  | step hp hr ih => exact ih (RD.pull_inv hS hp hi) hout he
  | done => cases hout
  | other => cases hout; rcases he with he | he | ⟨he, _⟩ | ⟨he, _⟩ <;> cases he
  | err hp => cases hout; exact RD.pull_sticks hS hp hi rfl (.inl he)

theorem perform_sticks (hS : C.Safe) {d : Decoder C} (hi : d.rd.Inv) (op : Op) {e : DecodingError} (hout : (d.perform op).2 = .err e)
    (he : (d.perform op).1.rd.Stops e ∨ e = .format .memoryLimit ∧ op = .nextFrameInfo) : (d.perform op).1.rd.Halted e := by
  have hrun := nextFrameInfo_run hS d hi
  have hfs := frameRun_spec hS hrun hi
  have hdie := frameRun_sticks (e := e) hS hrun hi
  cases op with
  | nextFrameInfo =>
    unfold perform at hout he ⊢
    generalize d.nextFrameInfo = x at *
    obtain ⟨d1, out⟩ := x
    cases out with
    | err e' => cases hout; exact hdie rfl (he.imp_right (·.1))
    | _ => cases hout
  | readNextFrame =>
    have he := he.resolve_right (by simp)
    unfold perform readNextFrame at hout he ⊢
    generalize d.nextFrameInfo = x at *
    obtain ⟨d1, out⟩ := x
    simp only at hrun hfs hdie
    cases out with
    | err e' => cases hout; exact hdie rfl (.inl he)
    | panic => cases hout
    | diverge => cases hout
    | ok found =>
      cases found with
      | false => cases hout
      | true =>
        have hi1 := hfs.1
        cases hdt : d1.dataType with
        | pixels =>
          simp only [hdt] at hout he ⊢
          have h := Converter.readFrame_errs (RD.decodeNextBytes_good hS) (fun _ h => h) (RD.decodeNextBytes_sticks hS) d1.conv
            d1.currentFrame d1.rd hi1 e
          generalize d1.conv.readFrame d1.currentFrame RD.decodeNextBytes d1.rd = y at *
          obtain ⟨rd, f, out⟩ := y
          cases out with
          | err e' =>
            cases hout
            rcases h rfl with q | q | ⟨q, _⟩ | ⟨q, _⟩
            · exact q he
            all_goals subst q; rcases he with he | he | ⟨he, _⟩ | ⟨he, _⟩ <;> cases he
          | _ => cases hout
        | lzw m =>
          simp only [hdt] at hout he ⊢
          have h := copyRun_sticks (e := e) hS (copyLoop_run hS d1.rd.eventFuel d1.rd [m] hi1 (meas_lt_fuel _)) hi1
          unfold copyLzw at hout he ⊢
          generalize copyLoop d1.rd.eventFuel d1.rd [m] = y at *
          obtain ⟨rd, vec, out⟩ := y
          cases out with
          | err e' => cases hout; exact h rfl he
          | _ => cases hout
  | readIntoBuffer buf =>
    have he := he.resolve_right (by simp)
    rcases Converter.readIntoBuffer_errs (RD.decodeNextBytes_good hS) (fun _ h => h) (RD.decodeNextBytes_sticks hS) d.conv
      d.currentFrame d.rd buf hi e hout with q | q | ⟨q, _⟩ | ⟨q, _⟩
    · exact q he
    all_goals subst q; rcases he with he | he | ⟨he, _⟩ | ⟨he, _⟩ <;> cases he
  | fillBuffer buf =>
    have he := he.resolve_right (by simp)
    have h : (d.fillBuffer buf).2.2 = .err e →
        ((d.fillBuffer buf).1.rd.Stops e → (d.fillBuffer buf).1.rd.Halted e) ∨
          e = .format .oddSizedBuffer ∧ _ :=
      (Converter.fillLoop_errs (RD.decodeNextBytes_sticks hS) d.conv d.currentFrame (buf.length + 1) d.rd buf hi).2 e
    simp only [perform] at hout he ⊢
    generalize d.fillBuffer buf = x at *
    obtain ⟨rd, b, out⟩ := x
    cases out with
    | err e' =>
      cases hout
      rcases h rfl with q | ⟨q, _⟩
      · exact q he
      · subst q; rcases he with he | he | ⟨he, _⟩ | ⟨he, _⟩ <;> cases he
    | _ => cases hout

end Decoder

end Gif
