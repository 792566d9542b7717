import Verif.Lemmas.Shape
import Verif.Lemmas.Like
import Verif.Props.Client
/-!
Where the errors of the decoder come from.
-/

namespace Gif

variable {C : Codec}

namespace SD

/-- The states in which a step can report an error. -/
def StepErr (s : SD C) (o : OutSpec) : DecodingError → Prop
  | .format .malformedHeader => s.state = .magic
  | .format .frameOutOfBounds => s.state = .imageBlockStart ∧ s.checkFrameConsistency = true
  | .format .unknownBlock => ∃ t, s.state = .blockStart t ∧ (s.headerEndReached = true ∨ t = 0x21)
  | .format .controlWrongLength => ∃ l, s.state = .extensionDataBlock l
  | .format .invalidMinCodeSize => ∃ m, s.state = .lzwInit m
  | .format .memoryLimit => s.memoryLimit ≠ .unlimited ∧
      ((∃ l, s.state = .extensionDataBlock l) ∨ ∃ l n, s.state = .copySubBlock l ∧ o = .vec n)
  | .io .noEndCode => (∃ l, s.state = .decodeSubBlock l) ∧ s.lzw.checkForEndCode = true ∧ s.skipFrameDecoding = false
  | .io .invalidCode => (∃ l, s.state = .decodeSubBlock l) ∧ s.skipFrameDecoding = false
  | .io .unsupported => (∃ l, s.state = .decodeSubBlock l) ∧ (∃ n, o = .vec n) ∧ s.skipFrameDecoding = false
  | _ => False

theorem reset_err {r r' : LzwReader C} {m : UInt8} {e : DecodingError} (h : r.reset m = (r', .err e)) :
    e = .format .invalidMinCodeSize := by
  unfold LzwReader.reset at h
  split at h
  · split at h
    · split at h <;> cases h
    · cases h
  · cases h; rfl

theorem decodeBytes_err {r r' : LzwReader C} {l : List UInt8} {o : OutSpec} {e : DecodingError} (hd : r.decoder.isSome)
    (h : r.decodeBytes l o = (r', .err e)) :
    e = .io .noEndCode ∧ r.checkForEndCode = true ∨ e = .io .invalidCode ∨ e = .io .unsupported ∧ ∃ n, o = .vec n := by
  unfold LzwReader.decodeBytes at h
  cases hr : r.decoder with
  | none => rw [hr] at hd; cases hd
  | some d =>
    rw [hr] at h
    cases o with
    | vec n => cases h; exact .inr (.inr ⟨rfl, _, rfl⟩)
    | slice cap =>
      simp only at h
      split at h
      · cases h
      · cases h
      · split at h
        · rename_i hc; cases h; exact .inl ⟨rfl, hc⟩
        · cases h
      · cases h; exact .inr (.inl rfl)
    | none =>
      simp only at h
      split at h
      · cases h
      · cases h
      · split at h
        · rename_i hc; cases h; exact .inl ⟨rfl, hc⟩
        · cases h
      · cases h; exact .inr (.inl rfl)

theorem limit_of_sizeOk {m : MemoryLimit} {n : Nat} (h : ¬ m.sizeOk n = true) : m ≠ .unlimited := by
  rintro rfl; exact h rfl

theorem fromU8_extension {t : UInt8} (h : Block.fromU8 t = some .extension) : t = 0x21 := by
  unfold Block.fromU8 at h
  repeat' split at h
  all_goals first | (cases h; done) | assumption

theorem nextState_err {s s' : SD C} {o : OutSpec} {b : UInt8} {bs : List UInt8} {e : DecodingError} (hw : WF s)
    (h : nextState s (b :: bs) o = (s', .err e)) : StepErr s o e := by
  have hi := hw.ibuf
  have hst := hw.st
  unfold nextState at h
  simp only at h
  match hs : s.state with
  | .magic =>
    simp only [hs] at h
    simp only [ibufOk, hs, required] at hi
    rw [ensureMin_eq _ _ _ _ (by simpa using hi) (by decide)] at h
    split at h
    · cases h
    · unfold onMagic goto at h
      split at h
      · cases h
      · split at h
        · cases h
        · cases h; exact hs
  | .screenDescriptor =>
    simp only [hs] at h
    simp only [ibufOk, hs, required] at hi
    rw [ensureMin_eq _ _ _ _ (by simpa using hi) (by decide)] at h
    split at h
    · cases h
    · unfold onScreenDescriptor goto at h
      split at h
      · split at h <;> cases h
      · cases h
  | .imageBlockStart =>
    simp only [stOk, hs] at hst
    simp only [hs] at h
    simp only [ibufOk, hs, required] at hi
    rw [ensureMin_eq _ _ _ _ (by simpa using hi) (by decide)] at h
    split at h
    · cases h
    · unfold onImageBlockStart goto at h
      split at h
      · split at h
        · rename_i hc
          obtain ⟨_, f, hf, _⟩ := hst
          rw [show s.current = none from hc] at hf; cases hf
        · simp only at h
          split at h
          · rename_i hc
            cases h; exact ⟨hs, hc.1⟩
          · split at h <;> cases h
      · cases h
  | .globalPalette left =>
    simp only [hs] at h
    unfold onGlobalPalette goto at h
    split at h
    · simp only at h; cases h
    · cases h
  | .blockStart t =>
    simp only [hs] at h
    unfold onBlockStart goto at h
    split at h
    · cases h
    · rename_i hx
      split at h
      · cases h
      · rename_i ht
        simp only at h
        split at h
        · cases h; exact ⟨t, hs, .inr (fromU8_extension ht)⟩
        · cases h
      · cases h
      · rename_i ht
        split at h
        · cases h
        · cases h
          refine ⟨t, hs, .inl ?_⟩
          cases hh : s.headerEndReached with
          | true => rfl
          | false =>
            refine absurd ⟨by simp [hh], ?_⟩ hx
            rintro rfl
            exact absurd ht (by decide)
  | .blockEnd =>
    simp only [hs] at h
    unfold onBlockEnd goto at h
    split at h <;> cases h
  | .extensionBlockStart =>
    simp only [hs, goto] at h
    cases h
  | .extensionDataBlock left =>
    simp only [hs] at h
    unfold onExtensionDataBlock goto at h
    split at h
    · simp only at h
      split at h
      · cases h
      · rename_i hm
        cases h; exact ⟨limit_of_sizeOk hm, .inl ⟨left, hs⟩⟩
    · split at h
      · simp only at h
        split at h
        · cases h
        · unfold readControlExtension at h
          split at h
          · cases h
          · rename_i hx
            cases h
            split at hx
            · cases hx
            · cases hx; exact ⟨left, hs⟩
          · cases h
          · cases h
        · cases h
      · cases h
  | .applicationExtension =>
    simp only [hs] at h
    unfold onApplicationExtension goto at h
    split at h
    · cases h
    · split at h
      · split at h <;> cases h
      · cases h
  | .localPalette left =>
    simp only [stOk, hs] at hst
    simp only [hs] at h
    unfold onLocalPalette goto at h
    split at h
    · simp only at h
      split at h
      · rename_i hc
        obtain ⟨_, f, hf, _⟩ := hst
        rw [hc] at hf; cases hf
      · split at h
        · split at h <;> cases h
        · cases h
    · cases h
  | .lzwInit m =>
    simp only [hs] at h
    unfold onLzwInit goto at h
    split at h
    · split at h
      · cases h
      · rename_i hr
        cases h
        rw [reset_err hr]
        exact ⟨m, hs⟩
      · cases h
      · cases h
    · split at h
      · cases h
      · cases h; exact ⟨m, hs⟩
  | .copySubBlock left =>
    simp only [hs] at h
    unfold onCopySubBlock goto at h
    split at h
    · cases h
    · split at h
      · simp only at h
        split at h
        · split at h <;> cases h
        · rename_i ha
          cases h
          unfold append at ha
          split at ha
          · cases ha
          · split at ha
            · cases ha
            · rename_i hm
              cases ha
              exact ⟨limit_of_sizeOk hm, .inr ⟨left, _, hs, rfl⟩⟩
          · cases ha
        · cases h
        · cases h
      · split at h <;> cases h
  | .decodeSubBlock left =>
    simp only [stOk, hs] at hst
    simp only [hs] at h
    obtain ⟨_, _, hk, hd⟩ := hst
    have key : ∀ {l : List UInt8} {r' : LzwReader C}, s.lzw.decodeBytes l o = (r', .err e) → StepErr s o e := by
      intro l r' hr
      rcases decodeBytes_err hd hr with ⟨rfl, hc⟩ | rfl | ⟨rfl, n, rfl⟩
      · exact ⟨⟨left, hs⟩, hc, hk⟩
      · exact ⟨⟨left, hs⟩, hk⟩
      · exact ⟨⟨left, hs⟩, ⟨n, rfl⟩, hk⟩
    unfold onDecodeSubBlock goto at h
    split at h
    · cases h
    · split at h
      · simp only at h
        split at h
        · cases h
        · split at h
          · rename_i consumed bytes _
            generalize (if consumed = 0 ∧ bytes.length = 0 then _ else consumed) = m at h
            split at h <;> cases h
          · rename_i hr
            cases h
            exact key hr
          · cases h
          · cases h
      · split at h
        · cases h
        · split at h
          · split at h <;> cases h
          · rename_i hr
            cases h
            exact key hr
          · cases h
          · cases h
  | .frameDecoded =>
    simp only [hs] at h
    unfold onFrameDecoded goto at h
    simp only at h
    split at h <;> cases h
  | .trailer =>
    simp only [hs, goto] at h
    cases h

/-- Steps never take the end of the header back. -/
theorem tr_headed {o : OutSpec} {b : UInt8} {bs : List UInt8} {s s' : SD C} {n : Nat} {ev : Decoded} (h : Tr o b bs s s' n ev)
    (hh : s.headerEndReached = true) : s'.headerEndReached = true := by
  cases h with
  | screen => split <;> exact hh
  | imageHeader => split <;> exact hh
  | gctData => split <;> exact hh
  | image => unfold addFrame; split <;> exact hh
  | lctData => split <;> (try split) <;> exact hh
  | headerEnd => rfl
  | _ => exact hh

/-- The header is read once. -/
theorem tr_begun {o : OutSpec} {b : UInt8} {bs : List UInt8} {s s' : SD C} {n : Nat} {ev : Decoded} (h : Tr o b bs s s' n ev)
    (hs : s.state ≠ .magic) : s'.state ≠ .magic := by
  cases h with
  | collect => exact hs
  | screen => split <;> simp
  | imageHeader => split <;> simp
  | gctData => split <;> simp
  | lctData => split <;> (try split) <;> simp
  | trailerLoop => exact hs
  | _ => simp

/-- The events between the size of the codes of an image and the end of its data. -/
theorem tr_data {o : OutSpec} {b : UInt8} {bs : List UInt8} {s s' : SD C} {n : Nat} {ev : Decoded} (h : Tr o b bs s s' n ev)
    (hw : WF s) (hd : s.state.inData = true) :
    ev = .dataEnd ∨ s'.state.inData = true ∧ (ev = .nothing ∨ (∃ bytes, ev = .bytesDecoded bytes) ∧ s.skipFrameDecoding = false ∨
      (∃ bytes, ev = .lzwDataCopied bytes) ∧ s.skipFrameDecoding = true) := by
  have hst := hw.st
  cases h with
  | collect => exact .inr ⟨hd, .inl rfl⟩
  | decode l =>
    rename_i hs _ _ _ _
    right
    refine ⟨rfl, ?_⟩
    split
    · exact .inl rfl
    · exact .inr (.inl ⟨⟨_, rfl⟩, by assumption⟩)
  | _ => first
    | (exact .inl rfl)
    | (exact .inr ⟨rfl, .inl rfl⟩)
    | (exact .inr ⟨rfl, .inr (.inr ⟨⟨_, rfl⟩, by assumption⟩)⟩)
    | (exact .inr ⟨rfl, .inr (.inl ⟨⟨_, rfl⟩, by assumption⟩)⟩)
    | (exfalso; simp_all [State.inData]; done)
    | skip

end SD

namespace RD

theorem steps_facts (hS : C.Safe) {o : OutSpec} {s s' : SD C} {l l' : List UInt8} (h : SD.Steps o s l s' l') (hw : s.WF) :
    (s.headerEndReached = true → s'.headerEndReached = true) ∧
    (s.headerEndReached = false → s'.headerEndReached = false) ∧
    (s.state.inData = true → s'.state.inData = true) ∧ (s.state ≠ .magic → s'.state ≠ .magic) := by
  induction h with
  | refl => exact ⟨id, id, id, id⟩
  | @step s s1 s' b bs l' n h ht ih =>
    have hx := SD.tr_of_nextState hw.ibuf h
    obtain ⟨h1, h2, h3⟩ := SD.tr_wf hS hw hx
    obtain ⟨a1, a2, a3, a4⟩ := ih h1
    refine ⟨fun h => a1 (SD.tr_headed hx h), fun h => a2 ((SD.tr_header hx hw h).2 (by simp)), fun h => a3 ?_,
      fun h => a4 (SD.tr_begun hx h)⟩
    rcases SD.tr_data hx hw h with hc | hc
    · cases hc
    · exact hc.1

theorem fill_src {r r' : Reader} {x : Except Nat (List UInt8)} (h : r.fillBuf = (r', x)) :
    r'.src <:+ r.src ∧ ∀ c, x = .error c → .err c ∈ r.src := by
  unfold Reader.fillBuf at h
  split at h
  · cases h; exact ⟨List.suffix_rfl, by simp⟩
  · split at h
    · cases h; exact ⟨List.suffix_rfl, by simp⟩
    · rename_i hs; cases h; exact ⟨by rw [hs]; exact List.suffix_cons _ _, by simp⟩
    · rename_i hs; cases h
      refine ⟨by rw [hs]; exact List.suffix_cons _ _, ?_⟩
      intro c hc; cases hc; rw [hs]; exact List.mem_cons_self

/-- Where the errors of `decode_next` come from. -/
theorem pull_err (hS : C.Safe) {o : OutSpec} {d d' : RD C} {out : Outcome (Option Decoded)} (h : Pull o d d' out) (hi : Inv d)
    {e : DecodingError} (he : out = .err e) :
    e = .io .unexpectedEof ∨ (∃ c, e = .io (.reader c) ∧ .err c ∈ d.reader.src) ∨
      ∃ s : SD C, s.WF ∧ s.opts = d.sd.opts ∧ (d.sd.state ≠ .magic → s.state ≠ .magic) ∧
        (d.sd.headerEndReached = false → s.headerEndReached = false) ∧ (d.sd.state.inData = true → s.state.inData = true) ∧
        s.StepErr o e := by
  induction h with
  | eof => cases he
  | readErr h hf => cases he; exact .inr (.inl ⟨_, rfl, (fill_src hf).2 _ rfl⟩)
  | eos => cases he; exact .inl rfl
  | @more d d' r b bs s1 out h hf hs hp ih =>
    have hlk := look_fill hi h hf
    obtain ⟨w1, w2, w3, w4⟩ := SD.steps_wf hS hs hi.wf hlk
    obtain ⟨f1, f2, f3, f4⟩ := steps_facts hS hs hi.wf
    have ho := SD.steps_opts hS hs hi.wf hlk
    rcases ih ⟨w1, fun _ => w2, fun _ => w4 (hi.live h)⟩ he with h | ⟨c, h1, h2⟩ | ⟨s, h1, h2, h3, h4, h5, h6⟩
    · exact .inl h
    · exact .inr (.inl ⟨c, h1, (fill_src hf).1.subset h2⟩)
    · exact .inr (.inr ⟨s, h1, h2.trans ho, fun h => h3 (f4 h), fun h => h4 (f2 h), fun h => h5 (f3 h), h6⟩)
  | event => cases he
  | trailer => cases he
  | @err d r b b1 bs bs1 s1 s' e h hf hs hn =>
    cases he
    have hlk := look_fill hi h hf
    obtain ⟨w1, w2, w3, w4⟩ := SD.steps_wf hS hs hi.wf hlk
    obtain ⟨f1, f2, f3, f4⟩ := steps_facts hS hs hi.wf
    exact .inr (.inr ⟨s1, w1, SD.steps_opts hS hs hi.wf hlk, f4, f2, f3, SD.nextState_err w1 hn⟩)

/-- The events of `decode_next` in the data of an image. -/
theorem pull_data (hS : C.Safe) {o : OutSpec} {d d' : RD C} {out : Outcome (Option Decoded)} (h : Pull o d d' out) (hi : Inv d)
    (hd : d.sd.state.inData = true) (ha : d.atEof = false) :
    out = .ok (some .dataEnd) ∨ (∃ e, out = .err e) ∨ (d'.sd.state.inData = true ∧ d'.atEof = false ∧
      ((∃ bytes, out = .ok (some (.bytesDecoded bytes))) ∧ d.sd.skipFrameDecoding = false ∨
        (∃ bytes, out = .ok (some (.lzwDataCopied bytes))) ∧ d.sd.skipFrameDecoding = true)) := by
  induction h with
  | eof h => rw [ha] at h; cases h
  | readErr => exact .inr (.inl ⟨_, rfl⟩)
  | eos => exact .inr (.inl ⟨_, rfl⟩)
  | @more d d' r b bs s1 out h hf hs hp ih =>
    have hlk := look_fill hi h hf
    obtain ⟨w1, w2, w3, w4⟩ := SD.steps_wf hS hs hi.wf hlk
    obtain ⟨f1, f2, f3, f4⟩ := steps_facts hS hs hi.wf
    have ho := SD.steps_opts hS hs hi.wf hlk
    have hk : s1.skipFrameDecoding = d.sd.skipFrameDecoding := by simp only [SD.opts, Prod.mk.injEq] at ho; exact ho.1
    have := ih ⟨w1, fun _ => w2, fun _ => w4 (hi.live h)⟩ (f3 hd) ha
    simp only [hk] at this
    exact this
  | @event d r b b1 bs bs1 s1 s' n ev h hf hs hn hev hev' =>
    have hlk := look_fill hi h hf
    obtain ⟨w1, w2, w3, w4⟩ := SD.steps_wf hS hs hi.wf hlk
    obtain ⟨f1, f2, f3, f4⟩ := steps_facts hS hs hi.wf
    have ho := SD.steps_opts hS hs hi.wf hlk
    have hk : s1.skipFrameDecoding = d.sd.skipFrameDecoding := by simp only [SD.opts, Prod.mk.injEq] at ho; exact ho.1
    rcases SD.tr_data (SD.tr_of_nextState w1.ibuf hn) w1 (f3 hd) with rfl | ⟨h1, h2⟩
    · exact .inl rfl
    · rw [hk] at h2
      rcases h2 with h2 | ⟨⟨bytes, rfl⟩, h2⟩ | ⟨⟨bytes, rfl⟩, h2⟩
      · exact absurd h2 hev
      · exact .inr (.inr ⟨h1, h, .inl ⟨⟨_, rfl⟩, h2⟩⟩)
      · exact .inr (.inr ⟨h1, h, .inr ⟨⟨_, rfl⟩, h2⟩⟩)
  | @trailer d r b b1 bs bs1 s1 s' n h hf hs hn =>
    have hlk := look_fill hi h hf
    obtain ⟨w1, w2, w3, w4⟩ := SD.steps_wf hS hs hi.wf hlk
    obtain ⟨f1, f2, f3, f4⟩ := steps_facts hS hs hi.wf
    rcases SD.tr_data (SD.tr_of_nextState w1.ibuf hn) w1 (f3 hd) with hc | ⟨h1, h2 | ⟨⟨_, h2⟩, _⟩ | ⟨⟨_, h2⟩, _⟩⟩
    all_goals first | cases hc | cases h2
  | err => exact .inr (.inl ⟨_, rfl⟩)

/-- `decode_next` before the end of the header. -/
theorem pull_early (hS : C.Safe) {o : OutSpec} {d d' : RD C} {out : Outcome (Option Decoded)} (h : Pull o d d' out) (hi : Inv d)
    (hd : d.sd.headerEndReached = false) (ha : d.atEof = false) :
    out ≠ .ok none ∧ ∀ ev, out = .ok (some ev) → ev ≠ .headerEnd → d'.sd.headerEndReached = false ∧ d'.atEof = false := by
  induction h with
  | eof h => rw [ha] at h; cases h
  | readErr => exact ⟨fun h => (by cases h), fun ev h => (by cases h)⟩
  | eos => exact ⟨fun h => (by cases h), fun ev h => (by cases h)⟩
  | @more d d' r b bs s1 out h hf hs hp ih =>
    have hlk := look_fill hi h hf
    obtain ⟨w1, w2, w3, w4⟩ := SD.steps_wf hS hs hi.wf hlk
    obtain ⟨f1, f2, f3, f4⟩ := steps_facts hS hs hi.wf
    exact ih ⟨w1, fun _ => w2, fun _ => w4 (hi.live h)⟩ (f2 hd) ha
  | @event d r b b1 bs bs1 s1 s' n ev h hf hs hn hev hev' =>
    have hlk := look_fill hi h hf
    obtain ⟨w1, w2, w3, w4⟩ := SD.steps_wf hS hs hi.wf hlk
    obtain ⟨f1, f2, f3, f4⟩ := steps_facts hS hs hi.wf
    refine ⟨fun h => (by cases h), fun ev' h' hne => ?_⟩
    cases h'
    exact ⟨(SD.tr_header (SD.tr_of_nextState w1.ibuf hn) w1 (f2 hd)).2 hne, h⟩
  | @trailer d r b b1 bs bs1 s1 s' n h hf hs hn =>
    exfalso
    have hlk := look_fill hi h hf
    obtain ⟨w1, w2, w3, w4⟩ := SD.steps_wf hS hs hi.wf hlk
    obtain ⟨f1, f2, f3, f4⟩ := steps_facts hS hs hi.wf
    have htr := SD.tr_of_nextState w1.ibuf hn
    have h0 := f2 hd
    generalize hev : Decoded.blockStart .trailer = ev at htr
    cases htr with
    | trailer hs hh => rw [h0] at hh; cases hh
    | decode => split at hev <;> cases hev
    | _ => cases hev
  | err => exact ⟨fun h => (by cases h), fun ev h => (by cases h)⟩

theorem pull_src {o : OutSpec} {d d' : RD C} {out : Outcome (Option Decoded)} (h : Pull o d d' out) :
    d'.reader.src <:+ d.reader.src := by
  induction h with
  | eof => exact List.suffix_rfl
  | readErr _ hf => exact (fill_src hf).1
  | eos _ hf => exact (fill_src hf).1
  | more _ hf _ _ ih => exact ih.trans (fill_src hf).1
  | event _ hf => exact (fill_src hf).1
  | trailer _ hf => exact (fill_src hf).1
  | err _ hf => exact (fill_src hf).1

end RD

end Gif
