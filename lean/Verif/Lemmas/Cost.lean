import Verif.Lemmas.Remain
import Verif.Lemmas.Prefix
/-!
What frames cost: the bytes that must be read before the next frame can be announced.
-/

namespace Gif.SD

variable {C : Codec}

/-- At least this many bytes are consumed up to the next `FrameMetadata` event. -/
def need (s : SD C) : Nat :=
  match s.state with
  | .magic => 25 - s.ibuf.length
  | .screenDescriptor => 19 - s.ibuf.length
  | .globalPalette _ => 12
  | .blockStart t => if t = 0x3B then 12 else 11
  | .blockEnd => 12
  | .extensionBlockStart => 12
  | .extensionDataBlock _ => 12
  | .applicationExtension => 12
  | .imageBlockStart => 11 - s.ibuf.length
  | .localPalette _ => 2
  | .lzwInit _ => 1
  | .decodeSubBlock _ => 13
  | .copySubBlock _ => 13
  | .frameDecoded => 13
  | .trailer => 12

/-- The most that can be needed before the next event. -/
def most : State → Nat
  | .magic => 25
  | .screenDescriptor => 25
  | .globalPalette _ => 14
  | .trailer => 15
  | .imageBlockStart => 11
  | .localPalette _ => 11
  | .lzwInit _ => 11
  | .decodeSubBlock _ => 13
  | .copySubBlock _ => 13
  | .frameDecoded => 13
  | _ => 12

theorem need_le (s : SD C) : need s ≤ most s.state := by
  cases hs : s.state <;> simp only [need, most, hs] <;> (try split) <;> omega

/-- Whether the event announces a frame. -/
def announces : Decoded → Bool
  | .frameMetadata _ => true
  | _ => false

theorem tr_need {o : OutSpec} {b : UInt8} {bs : List UInt8} {s s' : SD C} {n : Nat} {ev : Decoded}
    (hib : ibufOk s) (h : Tr o b bs s s' n ev) :
    if announces ev = true then need s ≤ n ∧ 13 ≤ need s' else need s ≤ n + need s' := by
  cases h with
  | collect h0 h =>
    simp only [announces, Bool.false_eq_true, if_false, need]
    cases hs : s.state <;> simp only [hs, required, ne_eq, not_true_eq_false] at h0 h ⊢ <;>
      simp only [List.length_append] at * <;> omega
  | magic v hs hi hl hv => simp only [announces, Bool.false_eq_true, if_false, need, hs, List.length_nil]; omega
  | screen w0 w1 h0 h1 flags bg asp hs hi hl hv =>
    simp only [announces, Bool.false_eq_true, if_false]
    split <;> simp only [need, hs] <;> omega
  | imageHeader f l0 l1 t0 t1 w0 w1 h0 h1 flags hs hi hl hv =>
    simp only [announces, Bool.false_eq_true, if_false]
    split <;> simp only [need, hs] <;> omega
  | gctData left hs hl =>
    simp only [announces, Bool.false_eq_true, if_false]
    split <;> simp only [need, hs] <;> omega
  | gctEnd hs => simp only [announces, Bool.false_eq_true, if_false, need, hs]; split <;> omega
  | headerEnd t hs hh => simp only [announces, Bool.false_eq_true, if_false, need, hs]; omega
  | image hs hh =>
    have h1 : s.ibuf = [] := by simpa [ibufOk, hs, required] using hib
    have h2 : s.addFrame.ibuf.length = 0 := by unfold addFrame; split <;> simp [h1]
    simp only [announces, Bool.false_eq_true, if_false, need, hs, h2]
    split
    · rename_i h; exact absurd h (by decide)
    · omega
  | extension hs => simp only [announces, Bool.false_eq_true, if_false, need, hs]; split <;> omega
  | trailer hs => simp only [announces, Bool.false_eq_true, if_false, need, hs]; split <;> omega
  | unknown t hs => simp only [announces, Bool.false_eq_true, if_false, need, hs]; split <;> omega
  | blockEndTrailer hs hb => simp only [announces, Bool.false_eq_true, if_false, need, hs, hb]; simp
  | blockEnd hs hb => simp only [announces, Bool.false_eq_true, if_false, need, hs]; split <;> omega
  | extFirst hs => simp only [announces, Bool.false_eq_true, if_false, need, hs]; omega
  | extData left hs hl => simp only [announces, Bool.false_eq_true, if_false, need, hs]; omega
  | extEndApp hs => simp only [announces, Bool.false_eq_true, if_false, need, hs]; omega
  | extEndControl len flags d0 d1 trns hs => simp only [announces, Bool.false_eq_true, if_false, need, hs]; omega
  | extEndOther hs => simp only [announces, Bool.false_eq_true, if_false, need, hs]; omega
  | extSub hs => simp only [announces, Bool.false_eq_true, if_false, need, hs]; omega
  | appRepeat r0 r1 hs => simp only [announces, Bool.false_eq_true, if_false, need, hs]; omega
  | appOther hs => simp only [announces, Bool.false_eq_true, if_false, need, hs]; omega
  | lctData left f hs hl hc =>
    simp only [announces, Bool.false_eq_true, if_false]
    split
    · split <;> simp only [need, hs] <;> omega
    · simp only [need, hs]; omega
  | lctEnd hs => simp only [announces, Bool.false_eq_true, if_false, need, hs]; omega
  | lzwPixels m lzw hs => simp only [announces, if_true, need, hs]; omega
  | lzwSkip m hs => simp only [announces, if_true, need, hs]; omega
  | copy left consumed copied hs hk hl ha hc => simp only [announces, Bool.false_eq_true, if_false, need, hs]; omega
  | copyNext hs hk hb => simp only [announces, Bool.false_eq_true, if_false, need, hs]; omega
  | copyEnd hs hk hb => simp only [announces, Bool.false_eq_true, if_false, need, hs]; omega
  | decodeSkip left hs hk hl he => simp only [announces, Bool.false_eq_true, if_false, need, hs]; omega
  | decode left consumed bytes lzw hs hk hl he ho hd n hn hc =>
    have : announces (if bytes.length = 0 then .nothing else .bytesDecoded bytes) = false := by split <;> rfl
    simp only [this, Bool.false_eq_true, if_false, need, hs]; omega
  | decodeNext hs hk hb => simp only [announces, Bool.false_eq_true, if_false, need, hs]; omega
  | decodeFlush consumed bytes lzw hs => simp only [announces, Bool.false_eq_true, if_false, need, hs]; omega
  | decodeEnd consumed lzw hs => simp only [announces, Bool.false_eq_true, if_false, need, hs]; omega
  | frameDecoded hs hb => simp only [announces, Bool.false_eq_true, if_false, need, hs]; omega
  | trailerLoop hs => simp only [announces, Bool.false_eq_true, if_false]; omega

theorem steps_need (hS : C.Safe) {o : OutSpec} {s s' : SD C} {l l' : List UInt8} (h : Steps o s l s' l') (hw : s.WF)
    (hl : s.Look l) : l'.length + need s ≤ l.length + need s' := by
  induction h with
  | refl => omega
  | @step s s1 s' b bs l' n h _ ih =>
    have htr := tr_of_nextState hw.ibuf h
    obtain ⟨x1, x2, x3⟩ := tr_wf hS hw htr
    have h1 := ih x1 x2
    have h2 := tr_need hw.ibuf htr
    rw [List.length_drop] at h1
    simp only [announces, Bool.false_eq_true, if_false] at h2
    omega

/-- No event, no change of the region of the file. -/
theorem tr_most {o : OutSpec} {b : UInt8} {bs : List UInt8} {s s' : SD C} {n : Nat} (h : Tr o b bs s s' n .nothing) :
    most s'.state = most s.state := by
  generalize hev : Decoded.nothing = ev at h
  cases h with
  | collect => rfl
  | magic v hs => simp [hs, most]
  | imageHeader f l0 l1 t0 t1 w0 w1 h0 h1 flags hs => split <;> simp [hs, most]
  | gctData left hs hl => split <;> simp [hs, most]
  | unknown t hs => simp [hs, most]
  | blockEndTrailer hs => simp [hs, most]
  | blockEnd hs => simp [hs, most]
  | extFirst hs => simp [hs, most]
  | extData left hs => simp [hs, most]
  | appOther hs => simp [hs, most]
  | lctData left f hs =>
    split
    · split <;> simp [hs, most]
    · simp [hs, most]
  | lctEnd hs => simp [hs, most]
  | copyNext hs => simp [hs, most]
  | copyEnd hs => simp [hs, most]
  | decodeSkip left hs => simp [hs, most]
  | decode left consumed bytes lzw hs => simp [hs, most]
  | decodeNext hs => simp [hs, most]
  | decodeEnd consumed lzw hs => simp [hs, most]
  | trailerLoop => rfl
  | _ => cases hev

theorem steps_most (hS : C.Safe) {o : OutSpec} {s s' : SD C} {l l' : List UInt8} (h : Steps o s l s' l') (hw : s.WF)
    (hl : s.Look l) : most s'.state = most s.state := by
  induction h with
  | refl => rfl
  | @step s s1 s' b bs l' n h _ ih =>
    have htr := tr_of_nextState hw.ibuf h
    obtain ⟨x1, x2, x3⟩ := tr_wf hS hw htr
    rw [ih x1 x2, tr_most htr]

/-- The decoder fails on the byte `b`, and remains as it is. -/
def Dead (b : UInt8) (s : SD C) : Prop :=
  (∃ m, s.state = .lzwInit m ∧ LzwReader.codeSizeOk m = false) ∨
  (s.state = .blockStart 0x21 ∧ Extension.fromU8 b = none) ∨
  ∃ t, s.state = .blockStart t ∧ Block.fromU8 t = none ∧ s.allowUnknownBlocks = false ∧ s.headerEndReached = true

theorem reset_bad (r : LzwReader C) {m : UInt8} (h : LzwReader.codeSizeOk m = false) :
    r.reset m = (r, .fmtErr .invalidMinCodeSize) := by
  unfold LzwReader.reset
  rw [if_neg (by simp [h])]

theorem dead_step {b : UInt8} {s : SD C} (h : Dead b s) (bs : List UInt8) (o : OutSpec) :
    ∃ s' e, nextState s (b :: bs) o = (s', .err e) ∧ Dead b s' := by
  unfold nextState
  rcases h with ⟨m, hs, hm⟩ | ⟨hs, hb⟩ | ⟨t, hs, ht, ha, hh⟩
  · simp only [hs]
    unfold onLzwInit
    rw [reset_bad _ hm]
    split
    · exact ⟨_, _, rfl, .inl ⟨m, hs, hm⟩⟩
    · rw [if_neg (by simp [hm])]
      exact ⟨_, _, rfl, .inl ⟨m, hs, hm⟩⟩
  · simp only [hs]
    unfold onBlockStart
    rw [if_neg (by simp [Block.toU8])]
    simp only [show Block.fromU8 0x21 = some .extension from rfl, hb, Option.isNone_none, if_true]
    exact ⟨_, _, rfl, .inr (.inl ⟨hs, hb⟩)⟩
  · simp only [hs]
    unfold onBlockStart
    rw [if_neg (by simp [hh])]
    simp only [ht, ha, Bool.false_eq_true, if_false]
    exact ⟨_, _, rfl, .inr (.inr ⟨t, hs, ht, ha, hh⟩)⟩

/-- After an error either as much is needed as ever, or there will be nothing but errors. -/
theorem nextState_err_need {o : OutSpec} {b : UInt8} {bs : List UInt8} {s s' : SD C} {e : DecodingError}
    (h : nextState s (b :: bs) o = (s', .err e)) (hw : WF s) : need s' = most s.state ∨ (Dead b s' ∧ s'.state = s.state) := by
  have hi := hw.ibuf
  have hst := hw.st
  unfold nextState at h
  simp only at h
  match hs : s.state with
  | .magic =>
    simp only [hs] at h
    simp only [ibufOk, hs, required] at hi
    rw [ensureMin_eq _ _ _ _ (by simpa using hi) (by decide)] at h
    split at h
    · cases h
    · unfold onMagic goto at h
      split at h
      · cases h
      · split at h
        · cases h
        · cases h; exact .inl (by simp [need, hs, most])
  | .screenDescriptor =>
    simp only [hs] at h
    simp only [ibufOk, hs, required] at hi
    rw [ensureMin_eq _ _ _ _ (by simpa using hi) (by decide)] at h
    split at h
    · cases h
    · unfold onScreenDescriptor goto at h
      split at h
      · split at h <;> cases h
      · cases h
  | .imageBlockStart =>
    simp only [hs] at h
    simp only [ibufOk, hs, required] at hi
    rw [ensureMin_eq _ _ _ _ (by simpa using hi) (by decide)] at h
    split at h
    · cases h
    · unfold onImageBlockStart goto at h
      split at h
      · split at h
        · cases h; exact .inl (by simp [need, hs, most])
        · simp only at h
          split at h
          · cases h; exact .inl (by simp [need, hs, most])
          · split at h <;> cases h
      · cases h
  | .globalPalette left =>
    simp only [hs] at h
    unfold onGlobalPalette goto at h
    split at h
    · simp only at h; cases h
    · cases h
  | .blockStart t =>
    simp only [hs] at h
    unfold onBlockStart goto at h
    split at h
    · cases h
    · rename_i hc
      split at h
      · cases h
      · rename_i hb
        simp only at h
        have ht : t = 0x21 := by
          unfold Block.fromU8 at hb
          split at hb
          · cases hb
          · split at hb
            · assumption
            · split at hb <;> cases hb
        subst ht
        split at h
        · rename_i hx; cases h; exact .inr ⟨.inr (.inl ⟨hs, by simpa using hx⟩), hs⟩
        · cases h
      · cases h
      · rename_i hb
        split at h
        · cases h
        · rename_i ha
          cases h
          refine .inr ⟨.inr (.inr ⟨t, hs, hb, by simpa using ha, ?_⟩), hs⟩
          by_cases hx : s.headerEndReached = true
          · exact hx
          · exact absurd ⟨hx, fun h => by subst h; cases hb⟩ hc
  | .blockEnd =>
    simp only [hs] at h
    unfold onBlockEnd goto at h
    split at h <;> cases h
  | .extensionBlockStart =>
    simp only [hs, goto] at h
    cases h
  | .extensionDataBlock left =>
    simp only [hs] at h
    unfold onExtensionDataBlock goto at h
    split at h
    · simp only at h
      split at h
      · cases h
      · cases h; exact .inl (by simp [need, hs, most])
    · split at h
      · simp only at h
        split at h
        · cases h
        · unfold readControlExtension at h
          simp only at h
          split at h
          · rename_i hx
            cases h
          · rename_i hx
            cases h
            split at hx
            · cases hx
            · cases hx; exact .inl (by simp [need, hs, most])
          · cases h
          · cases h
        · cases h
      · cases h
  | .applicationExtension =>
    simp only [hs] at h
    unfold onApplicationExtension goto at h
    split at h
    · cases h
    · split at h
      · split at h <;> cases h
      · cases h
  | .localPalette left =>
    simp only [hs] at h
    simp only [stOk, hs] at hst
    obtain ⟨_, f, hf, _⟩ := hst
    unfold onLocalPalette goto at h
    simp only [hf] at h
    split at h
    · split at h
      · split at h <;> cases h
      · cases h
    · cases h
  | .lzwInit m =>
    simp only [hs] at h
    unfold onLzwInit goto at h
    split at h
    · by_cases hm : LzwReader.codeSizeOk m = true
      · have : (s.lzw.reset m).2 = .ok () := by
          unfold LzwReader.reset
          rw [if_pos hm]
          split
          · split <;> rfl
          · rfl
        generalize s.lzw.reset m = x at *
        obtain ⟨l, out⟩ := x
        cases this
        cases h
      · rw [reset_bad _ (by simpa using hm)] at h
        cases h
        exact .inr ⟨.inl ⟨m, hs, by simpa using hm⟩, hs⟩
    · split at h
      · cases h
      · rename_i hm
        cases h
        exact .inr ⟨.inl ⟨m, hs, by simpa using hm⟩, hs⟩
  | .copySubBlock left =>
    simp only [hs] at h
    unfold onCopySubBlock goto at h
    split at h
    · cases h
    · split at h
      · simp only at h
        split at h
        · split at h <;> cases h
        · cases h; exact .inl (by simp [need, hs, most])
        · cases h
        · cases h
      · split at h <;> cases h
  | .decodeSubBlock left =>
    simp only [hs] at h
    unfold onDecodeSubBlock goto at h
    split at h
    · cases h
    · split at h
      · simp only at h
        split at h
        · cases h
        · split at h
          · have hz : ∀ (c : Prop) [Decidable c] {a a' : SD C} {x : Nat × Decoded},
                (if c then (a, Outcome.panic) else (a', Outcome.ok x)) ≠ (s', Outcome.err e) := by
              intro c _ a a' x h
              split at h <;> cases h
            exact absurd h (hz _)
          · cases h; exact .inl (by simp [need, hs, most])
          · cases h
          · cases h
      · split at h
        · cases h
        · split at h
          · simp only at h
            split at h <;> cases h
          · cases h; exact .inl (by simp [need, hs, most])
          · cases h
          · cases h
  | .frameDecoded =>
    simp only [hs] at h
    unfold onFrameDecoded goto at h
    simp only at h
    split at h <;> cases h
  | .trailer =>
    simp only [hs, goto] at h
    cases h

theorem tr_inside {o : OutSpec} {b : UInt8} {bs : List UInt8} {s s' : SD C} {n left : Nat} (h : Tr o b bs s s' n .nothing)
    (hs : s.state = .extensionDataBlock left) : ∃ left, s'.state = .extensionDataBlock left := by
  generalize hev : Decoded.nothing = ev at h
  cases h with
  | extData => exact ⟨_, rfl⟩
  | collect h0 => simp [hs, required] at h0
  | _ => first | (cases hev; done) | (exfalso; simp_all; done)

theorem tr_start {o : OutSpec} {b : UInt8} {bs : List UInt8} {s s' : SD C} {n : Nat} {t : UInt8} (h : Tr o b bs s s' n .nothing)
    (hs : s.state = .blockStart t) : ∃ left, s'.state = .extensionDataBlock left := by
  generalize hev : Decoded.nothing = ev at h
  cases h with
  | unknown => exact ⟨_, rfl⟩
  | collect h0 => simp [hs, required] at h0
  | _ => first | (cases hev; done) | (exfalso; simp_all; done)

theorem steps_inside (hS : C.Safe) {o : OutSpec} {s s' : SD C} {l l' : List UInt8} (h : Steps o s l s' l') (hw : s.WF)
    (hl : s.Look l) (hs : ∃ left, s.state = .extensionDataBlock left) : ∃ left, s'.state = .extensionDataBlock left := by
  induction h with
  | refl => exact hs
  | @step s s1 s' b bs l' n h _ ih =>
    have htr := tr_of_nextState hw.ibuf h
    obtain ⟨x1, x2, x3⟩ := tr_wf hS hw htr
    obtain ⟨left, hs⟩ := hs
    exact ih x1 x2 (tr_inside htr hs)

theorem tr_label {o : OutSpec} {b : UInt8} {bs : List UInt8} {s s' : SD C} {n : Nat} (h : Tr o b bs s s' n .nothing)
    (hm : most s.state = 12) : (∃ left, s'.state = .extensionDataBlock left) ∨ b = 0 ∨ s'.state = .blockStart b := by
  generalize hev : Decoded.nothing = ev at h
  cases h with
  | unknown => exact .inl ⟨_, rfl⟩
  | extFirst => exact .inl ⟨_, rfl⟩
  | extData => exact .inl ⟨_, rfl⟩
  | appOther hs0 hb0 => exact .inr (.inl hb0)
  | blockEnd hs0 hb0 => exact .inr (.inr rfl)
  | blockEndTrailer hs0 hb0 => exact .inr (.inr rfl)
  | collect h0 h =>
    exfalso
    cases hq : s.state <;> simp [hq, required, most] at h0 hm
  | _ => first | (cases hev; done) | (rename_i hs _; simp [hs, most] at hm; done) | (exfalso; simp_all [most]; done)

/-- The byte that makes the decoder fail also is the first byte of the reader's buffer, as far as it matters. -/
theorem steps_label (hS : C.Safe) {o : OutSpec} {s s' : SD C} {b b' : UInt8} {bs bs' : List UInt8}
    (h : Steps o s (b :: bs) s' (b' :: bs')) (hw : s.WF) (hl : s.Look (b :: bs)) (hs : s'.state = .blockStart 0x21)
    (hb : Extension.fromU8 b' = none) : Extension.fromU8 b = none := by
  generalize h1 : b :: bs = l at *
  generalize h2 : b' :: bs' = l' at *
  have out : ∀ {s1 : SD C} {l1 : List UInt8}, Steps o s1 l1 s' l' → s1.WF → s1.Look l1 →
      ¬ ∃ left, s1.state = .extensionDataBlock left := by
    intro s1 l1 h w k he
    obtain ⟨left, hx⟩ := steps_inside hS h w k he
    rw [hs] at hx; cases hx
  have start : ∀ {s1 : SD C} {l1 : List UInt8} {t : UInt8}, Steps o s1 l1 s' l' → s1.WF → s1.Look l1 → s1.state = .blockStart t →
      t = 0x21 := by
    intro s1 l1 t h w k ht
    cases h with
    | refl => rw [hs] at ht; cases ht; rfl
    | @step _ s2 _ b2 bs2 _ n2 hn hr =>
      have htr := tr_of_nextState w.ibuf hn
      obtain ⟨x1, x2, x3⟩ := tr_wf hS w htr
      exact absurd (tr_start htr ht) (out hr x1 x2)
  cases h with
  | refl => rw [← h2] at h1; cases h1; exact hb
  | @step _ s2 _ b2 bs2 _ n2 hn hr =>
    cases h1
    have htr := tr_of_nextState hw.ibuf hn
    obtain ⟨x1, x2, x3⟩ := tr_wf hS hw htr
    have hout := out hr x1 x2
    have hm := steps_most hS hr x1 x2
    have hm' := tr_most htr
    rw [hs] at hm
    rcases tr_label htr (by rw [← hm', ← hm]; rfl) with h | h | h
    · exact absurd h hout
    · subst h; rfl
    · have := start hr x1 x2 h; subst this; rfl

end Gif.SD

namespace Gif.RD

variable {C : Codec}

/-- There will be nothing but errors. -/
def Dead (d : RD C) : Prop := d.atEof = false ∧ ∃ b bs, d.reader.buf = b :: bs ∧ d.sd.Dead b

theorem pull_dead {o : OutSpec} {d d' : RD C} {out : Outcome (Option Decoded)} (h : Pull o d d' out) (hd : Dead d) :
    Dead d' ∧ ∃ e, out = .err e := by
  obtain ⟨he, b0, bs0, hb, hd⟩ := hd
  have hfill : d.reader.fillBuf = (d.reader, .ok (b0 :: bs0)) := by unfold Reader.fillBuf; rw [hb]
  obtain ⟨s0, e0, hn0, hd0⟩ := SD.dead_step hd bs0 o
  have none : ∀ {s1 : SD C} {l1 : List UInt8}, SD.Steps o d.sd (b0 :: bs0) s1 l1 → s1 = d.sd ∧ l1 = b0 :: bs0 := by
    intro s1 l1 h
    cases h with
    | refl => exact ⟨rfl, rfl⟩
    | step h => rw [hn0] at h; cases h
  cases h with
  | eof h => rw [he] at h; cases h
  | readErr h hf => rw [hfill] at hf; cases hf
  | eos h hf => rw [hfill] at hf; cases hf
  | more h hf hs hp => rw [hfill] at hf; cases hf; cases (none hs).2
  | event h hf hs hn =>
    rw [hfill] at hf; cases hf
    obtain ⟨rfl, hx⟩ := none hs
    rw [hx, hn0] at hn; cases hn
  | trailer h hf hs hn =>
    rw [hfill] at hf; cases hf
    obtain ⟨rfl, hx⟩ := none hs
    rw [hx, hn0] at hn; cases hn
  | err h hf hs hn =>
    rw [hfill] at hf; cases hf
    obtain ⟨rfl, hx⟩ := none hs
    rw [hx, hn0] at hn; cases hn
    exact ⟨⟨he, _, _, hb, hd0⟩, _, rfl⟩

/-- `d'` comes after `d`: at least the difference of what they need was read in between. -/
def Paid (d d' : RD C) : Prop :=
  (Dead d → Dead d') ∧ (Dead d' ∨ d'.reader.bytes.length + d.sd.need ≤ d.reader.bytes.length + d'.sd.need)

theorem Paid.refl (d : RD C) : Paid d d := ⟨fun h => h, .inr (Nat.le_refl _)⟩

theorem Paid.trans {a b c : RD C} (h : Paid a b) (h' : Paid b c) : Paid a c := by
  refine ⟨fun x => h'.1 (h.1 x), ?_⟩
  rcases h.2 with x | x
  · exact .inl (h'.1 x)
  · rcases h'.2 with y | y
    · exact .inl y
    · exact .inr (by omega)

/-- The price of a pull. -/
theorem pull_cost (hS : C.Safe) {o : OutSpec} {d d' : RD C} {out : Outcome (Option Decoded)}
    (h : Pull o d d' out) (hi : Inv d) :
    (Dead d' ∨ d'.reader.bytes.length + d.sd.need ≤ d.reader.bytes.length + d'.sd.need) ∧
    ∀ t, out = .ok (some (.frameMetadata t)) →
      d'.reader.bytes.length + d.sd.need ≤ d.reader.bytes.length ∧ 13 ≤ d'.sd.need := by
  induction h with
  | eof => exact ⟨.inr (Nat.le_refl _), by simp⟩
  | @readErr d r e h hf =>
    have := (Reader.left_fill hf).2.length_le
    exact ⟨.inr (by simp only; omega), by simp⟩
  | @eos d r h hf =>
    have := (Reader.left_fill hf).2.length_le
    exact ⟨.inr (by simp only; omega), by simp⟩
  | @more d d' r b bs s1 out h hf hs hp ih =>
    have hlk := look_fill hi h hf
    obtain ⟨w1, w2, w3, w4⟩ := SD.steps_wf hS hs hi.wf hlk
    obtain ⟨h1, h1'⟩ := ih ⟨w1, fun _ => w2, fun _ => w4 (hi.live h)⟩
    obtain ⟨g1, g2, g3, g4, g5⟩ := Reader.bytes_fillBuf_ok hf
    have h2 := SD.steps_need hS hs hi.wf hlk
    have h3 := bytes_length r []
    rw [g1, g2] at h3
    simp only [List.length_nil] at *
    refine ⟨h1.imp id (fun h => by omega), fun t ht => ?_⟩
    obtain ⟨k1, k2⟩ := h1' t ht
    exact ⟨by omega, k2⟩
  | @event d r b b1 bs bs1 s1 s' n ev h hf hs hn hev0 hev' =>
    have hlk := look_fill hi h hf
    obtain ⟨w1, w2, w3, w4⟩ := SD.steps_wf hS hs hi.wf hlk
    have htr := SD.tr_of_nextState w1.ibuf hn
    obtain ⟨x1, x2, x3⟩ := SD.tr_wf hS w1 htr
    have hr := SD.tr_need w1.ibuf htr
    obtain ⟨g1, g2, g3, g4, g5⟩ := Reader.bytes_fillBuf_ok hf
    have h2 := SD.steps_need hS hs hi.wf hlk
    have h3 := bytes_length r ((b1 :: bs1).drop n)
    rw [g1, g2, List.length_drop] at h3
    simp only
    generalize ({ r with buf := (b1 :: bs1).drop n } : Reader).bytes.length = x at *
    refine ⟨.inr (by split at hr <;> omega), fun t ht => ?_⟩
    cases ht
    simp only [SD.announces, if_true] at hr
    exact ⟨by omega, hr.2⟩
  | @trailer d r b b1 bs bs1 s1 s' n h hf hs hn =>
    have hlk := look_fill hi h hf
    obtain ⟨w1, w2, w3, w4⟩ := SD.steps_wf hS hs hi.wf hlk
    have htr := SD.tr_of_nextState w1.ibuf hn
    obtain ⟨x1, x2, x3⟩ := SD.tr_wf hS w1 htr
    have hr := SD.tr_need w1.ibuf htr
    obtain ⟨g1, g2, g3, g4, g5⟩ := Reader.bytes_fillBuf_ok hf
    have h2 := SD.steps_need hS hs hi.wf hlk
    have h3 := bytes_length r ((b1 :: bs1).drop n)
    rw [g1, g2, List.length_drop] at h3
    simp only
    generalize ({ r with buf := (b1 :: bs1).drop n } : Reader).bytes.length = x at *
    simp only [SD.announces, Bool.false_eq_true, if_false] at hr
    exact ⟨.inr (by omega), by simp⟩
  | @err d r b b1 bs bs1 s1 s' e h hf hs hn =>
    have hlk := look_fill hi h hf
    obtain ⟨w1, w2, w3, w4⟩ := SD.steps_wf hS hs hi.wf hlk
    obtain ⟨g1, g2, g3, g4, g5⟩ := Reader.bytes_fillBuf_ok hf
    refine ⟨?_, by simp⟩
    rcases SD.nextState_err_need hn w1 with hx | ⟨hx, hst⟩
    · right
      rw [SD.steps_most hS hs hi.wf hlk] at hx
      have := SD.need_le d.sd
      simp only [g2]
      omega
    · left
      refine ⟨h, b, bs, g1, ?_⟩
      rcases hx with hx | ⟨hx, hb⟩ | hx
      · exact .inl hx
      · exact .inr (.inl ⟨hx, SD.steps_label hS hs hi.wf hlk (hst ▸ hx) hb⟩)
      · exact .inr (.inr hx)

theorem pull_paid (hS : C.Safe) {o : OutSpec} {d d' : RD C} {out : Outcome (Option Decoded)}
    (h : Pull o d d' out) (hi : Inv d) : Paid d d' :=
  ⟨fun hd => (pull_dead h hd).1, (pull_cost hS h hi).1⟩

theorem decodeNextBytes_paid (hS : C.Safe) (d0 : RD C) : ∀ (t : RD C) (cap : Nat), t.Inv ∧ Paid d0 t →
    (decodeNextBytes t cap).1.Inv ∧ Paid d0 (decodeNextBytes t cap).1 := by
  rintro t cap ⟨hi, hp⟩
  have hpull := decodeNext_pull hS (.slice cap) t hi
  have e : (decodeNextBytes t cap).1 = (t.decodeNext (.slice cap)).1 := by
    unfold decodeNextBytes
    split <;> rename_i h <;> rw [h]
  rw [e]
  exact ⟨pull_inv hS hpull hi, hp.trans (pull_paid hS hpull hi)⟩

/-- What a call that announces a frame costs. -/
def Bought (d d' : RD C) : Prop :=
  ¬ Dead d ∧ d'.reader.bytes.length + d.sd.need ≤ d.reader.bytes.length ∧
    (Dead d' ∨ d'.reader.bytes.length + d.sd.need + 13 ≤ d.reader.bytes.length + d'.sd.need)

theorem Bought.paid {a b c : RD C} (h : Bought a b) (hp : Paid b c) (hl : b.reader.Left c.reader) : Bought a c := by
  have := hl.2.length_le
  refine ⟨h.1, by have := h.2.1; omega, ?_⟩
  rcases h.2.2 with x | x
  · exact .inl (hp.1 x)
  · exact hp.2.imp id (fun h => by omega)

theorem paid_bought {a b c : RD C} (h : Paid a b) (hb : Bought b c) : Bought a c := by
  have h1 : ¬ Dead a := fun x => hb.1 (h.1 x)
  have h2 := h.2.resolve_left hb.1
  exact ⟨h1, by have := hb.2.1; omega, hb.2.2.imp id (fun h => by omega)⟩

theorem pull_bought (hS : C.Safe) {o : OutSpec} {d d' : RD C} {t : FrameDataType}
    (h : Pull o d d' (.ok (some (.frameMetadata t)))) (hi : Inv d) : Bought d d' := by
  obtain ⟨h1, h2⟩ := (pull_cost hS h hi).2 t rfl
  refine ⟨fun hd => ?_, h1, .inr (by omega)⟩
  obtain ⟨_, e, he⟩ := pull_dead h hd
  cases he

end Gif.RD

namespace Gif.Decoder

open RD (Paid Bought)

variable {C : Codec}

/-- `init` reads the header. -/
theorem initRun_paid (hS : C.Safe) {d d' : Decoder C} {out : Outcome Unit} (h : InitRun d d' out) (hi : d.rd.Inv) :
    Paid d.rd d'.rd := by
  induction h with
  | step hp _ _ ih => exact (RD.pull_paid hS hp hi).trans (ih (RD.pull_inv hS hp hi))
  | done hp => exact RD.pull_paid hS hp hi
  | empty hp => exact RD.pull_paid hS hp hi
  | err hp => exact RD.pull_paid hS hp hi

theorem readInfo_paid (hS : C.Safe) (o : DecodeOptions) (r : Reader) :
    (readInfo C o r).1.rd.Dead ∨
      (readInfo C o r).1.rd.reader.bytes.length + 25 ≤ r.bytes.length + (readInfo C o r).1.rd.sd.need := by
  have hbr : ∀ (a : Decoder C), a.checkBg.rd = a.rd := by
    intro a; unfold checkBg; split <;> (try split) <;> rfl
  have hi := inv_withNoInit (C := C) o r
  have h := (initRun_paid hS (initLoop_run hS _ _ hi.rd (meas_lt_fuel _)) hi.rd).2
  have hn : (withNoInit C o r).rd.sd.need = 25 := rfl
  have hb : (withNoInit C o r).rd.reader = r := rfl
  rw [hn, hb] at h
  unfold readInfo init at *
  generalize initLoop (withNoInit C o r).rd.eventFuel (withNoInit C o r) = x at *
  obtain ⟨d, out⟩ := x
  cases out with
  | ok u => simp only [hbr]; exact h
  | _ => exact h

theorem frameRun_paid (hS : C.Safe) {d d' : Decoder C} {out : Outcome Bool} (h : FrameRun d d' out) (hi : d.rd.Inv) :
    Paid d.rd d'.rd ∧ (out = .ok true → Bought d.rd d'.rd) := by
  induction h with
  | step hp _ _ ih =>
    obtain ⟨h1, h2⟩ := ih (RD.pull_inv hS hp hi)
    have h3 := RD.pull_paid hS hp hi
    exact ⟨h3.trans h1, fun ho => RD.paid_bought h3 (h2 ho)⟩
  | @found d rd t f hp hc =>
    have h1 : Paid d.rd rd := RD.pull_paid hS hp hi
    have h2 : Bought d.rd rd := RD.pull_bought hS hp hi
    exact ⟨h1, fun _ => h2⟩
  | eof hp => exact ⟨RD.pull_paid hS hp hi, by simp⟩
  | err hp => exact ⟨RD.pull_paid hS hp hi, by simp⟩

theorem copyRun_paid (hS : C.Safe) {rd rd' : RD C} {vec vec' : List UInt8} {out : Outcome Unit}
    (h : CopyRun rd vec rd' vec' out) (hi : rd.Inv) : Paid rd rd' := by
  induction h with
  | step hp hr ih => exact (RD.pull_paid hS hp hi).trans (ih (RD.pull_inv hS hp hi))
  | done hp => exact RD.pull_paid hS hp hi
  | other hp => exact RD.pull_paid hS hp hi
  | err hp => exact RD.pull_paid hS hp hi

theorem readFrame_paid (hS : C.Safe) (c : Converter) (f : Frame) (rd : RD C) (hi : rd.Inv) :
    Paid rd (c.readFrame f RD.decodeNextBytes rd).1 := by
  unfold Converter.readFrame
  split
  · simp only
    rename_i n _
    have h := (Converter.readIntoBuffer_keeps c { f with buffer := [], ownedCap := none } (RD.decodeNextBytes_paid hS rd) rd
      (Converter.frameBuffer f n) ⟨hi, .refl _⟩).2
    split <;> (rename_i he; rw [he] at h; exact h)
  all_goals exact .refl _

theorem readNextFrame_paid (hS : C.Safe) (d : Decoder C) (hi : d.Inv) :
    Paid d.rd d.readNextFrame.1.rd ∧ ∀ f, d.readNextFrame.2 = .ok (some f) → Bought d.rd d.readNextFrame.1.rd := by
  obtain ⟨h1, h2⟩ := frameRun_paid hS (nextFrameInfo_run hS d hi.rd) hi.rd
  have hi1 := (inv_nextFrameInfo hS d hi).1
  unfold readNextFrame
  generalize d.nextFrameInfo = x at *
  obtain ⟨d1, out⟩ := x
  cases out with
  | ok b =>
    cases b with
    | true =>
      simp only at *
      simp only [forall_const] at h2
      split
      · have h3 := readFrame_paid hS d1.conv d1.currentFrame d1.rd hi1.rd
        have h4 := readFrame_left d1.conv d1.currentFrame d1.rd
        generalize d1.conv.readFrame d1.currentFrame RD.decodeNextBytes d1.rd = y at *
        obtain ⟨rd, f, out⟩ := y
        cases out
        · exact ⟨h1.trans h3, fun _ _ => h2.paid h3 h4⟩
        all_goals exact ⟨h1.trans h3, by simp⟩
      · rename_i m _
        unfold copyLzw
        have h3 := copyRun_paid hS (copyLoop_run hS d1.rd.eventFuel d1.rd [m] hi1.rd (meas_lt_fuel _)) hi1.rd
        have h4 := copyLoop_left d1.rd.eventFuel d1.rd [m]
        generalize copyLoop d1.rd.eventFuel d1.rd [m] = y at *
        obtain ⟨rd, v, out⟩ := y
        cases out
        · exact ⟨h1.trans h3, fun _ _ => h2.paid h3 h4⟩
        all_goals exact ⟨h1.trans h3, by simp⟩
    | false => exact ⟨h1, by simp⟩
  | _ => exact ⟨h1, by simp⟩

end Gif.Decoder
