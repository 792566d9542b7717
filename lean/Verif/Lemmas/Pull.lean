import Verif.Lemmas.StepSpec
import Verif.Model.Decoder
/-!
`decode_next`: its outcomes, invariant and measure.
-/

namespace Gif

namespace Reader

/-- Data chunks of the schedule. -/
theorem bytes_fillBuf_ok {r r' : Reader} {buf : List UInt8} (h : r.fillBuf = (r', .ok buf)) :
    r'.buf = buf ∧ r'.bytes = r.bytes ∧ r'.src.length ≤ r.src.length ∧ (r.buf ≠ [] → r' = r) ∧
      (r.buf = [] → buf ≠ [] → r'.src.length < r.src.length) := by
  unfold fillBuf at h
  split at h
  · cases h; exact ⟨rfl, rfl, Nat.le_refl _, fun _ => rfl, fun h => by simp_all⟩
  · rename_i hb
    split at h
    · cases h; rename_i hs; exact ⟨hb, rfl, Nat.le_refl _, fun _ => rfl, fun _ h => absurd rfl h⟩
    · cases h
      rename_i bs src hs
      refine ⟨rfl, ?_, by simp [hs], fun h => absurd hb h, fun _ _ => by simp [hs]⟩
      simp [bytes, hb, hs]
    · cases h

theorem bytes_fillBuf_err {r r' : Reader} {e : Nat} (h : r.fillBuf = (r', .error e)) :
    r'.bytes = r.bytes ∧ r.buf = [] ∧ r'.buf = [] := by
  unfold fillBuf at h
  split at h
  · cases h
  · rename_i hb
    split at h
    · cases h
    · cases h
    · cases h
      rename_i src hs
      simp [bytes, hb, hs]

end Reader

namespace RD

variable {C : Codec}

/-- The invariant of `ReadDecoder`. -/
structure Inv (d : RD C) : Prop where
  wf : d.sd.WF
  look : d.atEof = false → d.sd.Look d.reader.buf
  live : d.atEof = false → d.sd.state ≠ .trailer

/-- One call of `decode_next`. -/
inductive Pull (o : OutSpec) : RD C → RD C → Outcome (Option Decoded) → Prop
  | eof {d : RD C} (h : d.atEof = true) : Pull o d d (.ok none)
  | readErr {d : RD C} {r : Reader} {e : Nat} (h : d.atEof = false) (hf : d.reader.fillBuf = (r, .error e)) :
      Pull o d { d with reader := r } (.ioErr (.reader e))
  | eos {d : RD C} {r : Reader} (h : d.atEof = false) (hf : d.reader.fillBuf = (r, .ok [])) :
      Pull o d { d with reader := r } (.ioErr .unexpectedEof)
  | more {d d' : RD C} {r : Reader} {b : UInt8} {bs : List UInt8} {s1 : SD C} {out : Outcome (Option Decoded)}
      (h : d.atEof = false) (hf : d.reader.fillBuf = (r, .ok (b :: bs))) (hs : SD.Steps o d.sd (b :: bs) s1 [])
      (hp : Pull o { d with reader := { r with buf := [] }, sd := s1 } d' out) : Pull o d d' out
  | event {d : RD C} {r : Reader} {b b1 : UInt8} {bs bs1 : List UInt8} {s1 s' : SD C} {n : Nat} {ev : Decoded}
      (h : d.atEof = false) (hf : d.reader.fillBuf = (r, .ok (b :: bs))) (hs : SD.Steps o d.sd (b :: bs) s1 (b1 :: bs1))
      (hn : SD.nextState s1 (b1 :: bs1) o = (s', .ok (n, ev))) (hev : ev ≠ .nothing) (hev' : ev ≠ .blockStart .trailer) :
      Pull o d { d with reader := { r with buf := (b1 :: bs1).drop n }, sd := s' } (.ok (some ev))
  | trailer {d : RD C} {r : Reader} {b b1 : UInt8} {bs bs1 : List UInt8} {s1 s' : SD C} {n : Nat}
      (h : d.atEof = false) (hf : d.reader.fillBuf = (r, .ok (b :: bs))) (hs : SD.Steps o d.sd (b :: bs) s1 (b1 :: bs1))
      (hn : SD.nextState s1 (b1 :: bs1) o = (s', .ok (n, .blockStart .trailer))) :
      Pull o d { reader := { r with buf := (b1 :: bs1).drop n }, sd := s', atEof := true } (.ok none)
  | err {d : RD C} {r : Reader} {b b1 : UInt8} {bs bs1 : List UInt8} {s1 s' : SD C} {e : DecodingError}
      (h : d.atEof = false) (hf : d.reader.fillBuf = (r, .ok (b :: bs))) (hs : SD.Steps o d.sd (b :: bs) s1 (b1 :: bs1))
      (hn : SD.nextState s1 (b1 :: bs1) o = (s', .err e)) :
      Pull o d { d with reader := r, sd := s' } (.err e)

theorem look_fill {d : RD C} {r : Reader} {buf : List UInt8} (hi : Inv d) (h : d.atEof = false)
    (hf : d.reader.fillBuf = (r, .ok buf)) : d.sd.Look buf := by
  obtain ⟨h1, h2, h3, h4, h5⟩ := Reader.bytes_fillBuf_ok hf
  by_cases hb : d.reader.buf = []
  · intro hp
    obtain ⟨t, ht⟩ := hi.look h hp
    rw [hb] at ht; cases ht
  · have := h4 hb
    subst this
    rw [← h1]; exact hi.look h

theorem consume_suffix {r : Reader} {l rest : List UInt8} (hb : r.buf = l) (hs : rest <:+ l) :
    r.consume (l.length - rest.length) = { r with buf := rest } := by
  obtain ⟨pre, rfl⟩ := hs
  unfold Reader.consume
  rw [hb]
  simp

theorem decodeNextLoop_pull (hS : C.Safe) (o : OutSpec) : ∀ (fuel : Nat) (d : RD C), Inv d →
    (if d.atEof then 0 else 1 + d.reader.src.length + if d.reader.buf = [] then 0 else 1) < fuel →
    Pull o d (decodeNextLoop o fuel d).1 (decodeNextLoop o fuel d).2 := by
  intro fuel
  induction fuel with
  | zero => intro d _ h; omega
  | succ fuel ih =>
    intro d hi hf
    rw [decodeNextLoop]
    by_cases ha : d.atEof = true
    · rw [if_pos ha]; exact .eof ha
    · have ha' : d.atEof = false := by simpa using ha
      rw [if_neg ha]
      match hfb : d.reader.fillBuf with
      | (r, .error e) => exact .readErr ha' hfb
      | (r, .ok []) => exact .eos ha' hfb
      | (r, .ok (b :: bs)) =>
        simp only [List.isEmpty_cons, Bool.false_eq_true, if_false]
        obtain ⟨g1, g2, g3, g4, g5⟩ := Reader.bytes_fillBuf_ok hfb
        have hlk := look_fill hi ha' hfb
        obtain ⟨s1, l1, hs, he⟩ := SD.update_cases hS o d.sd (b :: bs) hi.wf hlk (hi.live ha')
        obtain ⟨w1, w2, w3, w4⟩ := SD.steps_wf hS hs hi.wf hlk
        have w5 := w4 (hi.live ha')
        generalize hu : SD.update d.sd (b :: bs) o = u at he ⊢
        obtain ⟨s', r'⟩ := u
        simp only at he
        cases he with
        | all =>
          simp only
          have hc : r.consume (b :: bs).length = { r with buf := [] } := by
            have := consume_suffix g1 (rest := []) ⟨_, List.append_nil _⟩
            simpa using this
          rw [hc]
          refine .more ha' hfb hs ?_
          refine ih _ ⟨w1, fun _ => w2, fun _ => w5⟩ ?_
          simp only [ha', Bool.false_eq_true, if_false, if_true] at hf ⊢
          by_cases hb : d.reader.buf = []
          · have := g5 hb (by simp)
            rw [if_pos hb] at hf; omega
          · rw [if_neg hb] at hf
            omega
        | @event b1 bs1 s' n ev hn hev =>
          have htr := SD.tr_of_nextState w1.ibuf hn
          obtain ⟨x1, x2, x3⟩ := SD.tr_wf hS w1 htr
          have hc : r.consume ((b :: bs).length - ((b1 :: bs1).drop n).length) = { r with buf := (b1 :: bs1).drop n } :=
            consume_suffix g1 ((List.drop_suffix _ _).trans w3)
          simp only [hc]
          by_cases hev' : ev = .blockStart .trailer
          · subst hev'
            simp only
            cases fuel with
            | zero =>
              exfalso
              rw [if_neg ha] at hf
              omega
            | succ fuel =>
              rw [decodeNextLoop]
              simp only [if_true]
              exact .trailer ha' hfb hs hn
          · split
            · exact absurd rfl hev
            · exact absurd rfl hev'
            · exact .event ha' hfb hs hn hev hev'
        | err hn => exact .err ha' hfb hs hn

theorem decodeNext_pull (hS : C.Safe) (o : OutSpec) (d : RD C) (hi : Inv d) :
    Pull o d (d.decodeNext o).1 (d.decodeNext o).2 := by
  refine decodeNextLoop_pull hS o _ d hi ?_
  split
  · omega
  · split <;> omega

/-- Variant of `decodeNext_pull` for case analysis. -/
theorem decodeNext_pull' (hS : C.Safe) {o : OutSpec} {d d' : RD C} {out : Outcome (Option Decoded)} (hi : Inv d)
    (h : d.decodeNext o = (d', out)) : Pull o d d' out := by
  have := decodeNext_pull hS o d hi
  rwa [h] at this

theorem pull_inv (hS : C.Safe) {o : OutSpec} {d d' : RD C} {out : Outcome (Option Decoded)} (h : Pull o d d' out)
    (hi : Inv d) : Inv d' := by
  induction h with
  | eof => exact hi
  | @readErr d r e h hf =>
    obtain ⟨h1, h2, h3⟩ := Reader.bytes_fillBuf_err hf
    refine ⟨hi.wf, fun _ => ?_, hi.live⟩
    have := hi.look h
    rw [h2] at this
    simp only [h3]; exact this
  | @eos d r h hf =>
    obtain ⟨h1, h2, h3, h4, h5⟩ := Reader.bytes_fillBuf_ok hf
    refine ⟨hi.wf, fun _ => ?_, hi.live⟩
    simp only [h1]
    exact look_fill hi h hf
  | @more d d' r b bs s1 out h hf hs hp ih =>
    obtain ⟨w1, w2, w3, w4⟩ := SD.steps_wf hS hs hi.wf (look_fill hi h hf)
    exact ih ⟨w1, fun _ => w2, fun _ => w4 (hi.live h)⟩
  | @event d r b b1 bs bs1 s1 s' n ev h hf hs hn hev hev' =>
    obtain ⟨w1, w2, w3, w4⟩ := SD.steps_wf hS hs hi.wf (look_fill hi h hf)
    have htr := SD.tr_of_nextState w1.ibuf hn
    obtain ⟨x1, x2, x3⟩ := SD.tr_wf hS w1 htr
    exact ⟨x1, fun _ => x2, fun _ hc => hev' ((SD.tr_trailer htr (w4 (hi.live h))).1 hc)⟩
  | @trailer d r b b1 bs bs1 s1 s' n h hf hs hn =>
    obtain ⟨w1, w2, w3, w4⟩ := SD.steps_wf hS hs hi.wf (look_fill hi h hf)
    have htr := SD.tr_of_nextState w1.ibuf hn
    obtain ⟨x1, x2, x3⟩ := SD.tr_wf hS w1 htr
    exact ⟨x1, fun h => by simp at h, fun h => by simp at h⟩
  | @err d r b b1 bs bs1 s1 s' e h hf hs hn =>
    obtain ⟨w1, w2, w3, w4⟩ := SD.steps_wf hS hs hi.wf (look_fill hi h hf)
    rcases SD.nextState_cases hS w1 w2 hn with ⟨_, _, h', _⟩ | ⟨_, x1, x2, x3⟩
    · cases h'
    · exact ⟨x1, fun _ => SD.look_of_not_peeks x2, fun _ => by simp only [x3]; exact w4 (hi.live h)⟩

/-- `decode_next` returns. -/
theorem pull_returns {o : OutSpec} {d d' : RD C} {out : Outcome (Option Decoded)} (h : Pull o d d' out) :
    out.returns = true := by
  induction h with
  | more _ _ _ _ ih => exact ih
  | _ => rfl

/-- What is still to be read, for termination. -/
def meas (d : RD C) : Nat := 4 * d.reader.bytes.length + d.sd.rank

theorem steps_meas (hS : C.Safe) {o : OutSpec} (ho : ∀ c, o ≠ .slice c) {s s' : SD C} {l l' : List UInt8}
    (h : SD.Steps o s l s' l') (hw : s.WF) (hl : s.Look l) (ht : s.state ≠ .trailer) :
    4 * l'.length + s'.rank ≤ 4 * l.length + s.rank := by
  induction h with
  | refl => omega
  | @step s s1 s' b bs l' n h _ ih =>
    have htr := SD.tr_of_nextState hw.ibuf h
    obtain ⟨x1, x2, x3⟩ := SD.tr_wf hS hw htr
    have ht' : s1.state ≠ .trailer := fun hc => by have := (SD.tr_trailer htr ht).1 hc; simp at this
    have := ih x1 x2 ht'
    have hr := SD.tr_rank hS htr ht ho
    have := SD.rank_le s1
    rw [List.length_drop] at *
    omega

theorem bytes_length (r : Reader) (buf : List UInt8) :
    ({ r with buf := buf } : Reader).bytes.length + r.buf.length = r.bytes.length + buf.length := by
  simp only [Reader.bytes, List.length_append]; omega

/-- Every event takes the measure down. -/
theorem pull_meas (hS : C.Safe) {o : OutSpec} (ho : ∀ c, o ≠ .slice c) {d d' : RD C} {out : Outcome (Option Decoded)}
    (h : Pull o d d' out) (hi : Inv d) (ev : Decoded) (hev : out = .ok (some ev)) : meas d' < meas d := by
  induction h with
  | eof => cases hev
  | readErr => cases hev
  | eos => cases hev
  | @more d d' r b bs s1 out h hf hs hp ih =>
    have hlk := look_fill hi h hf
    obtain ⟨w1, w2, w3, w4⟩ := SD.steps_wf hS hs hi.wf hlk
    have h1 := ih ⟨w1, fun _ => w2, fun _ => w4 (hi.live h)⟩ hev
    obtain ⟨g1, g2, g3, g4, g5⟩ := Reader.bytes_fillBuf_ok hf
    have h2 := steps_meas hS ho hs hi.wf hlk (hi.live h)
    have h3 := bytes_length r []
    rw [g1, g2] at h3
    unfold meas at *
    simp only [List.length_nil] at *
    omega
  | @event d r b b1 bs bs1 s1 s' n ev h hf hs hn hev0 hev' =>
    have hlk := look_fill hi h hf
    obtain ⟨w1, w2, w3, w4⟩ := SD.steps_wf hS hs hi.wf hlk
    have htr := SD.tr_of_nextState w1.ibuf hn
    obtain ⟨x1, x2, x3⟩ := SD.tr_wf hS w1 htr
    have hr := SD.tr_rank hS htr (w4 (hi.live h)) ho
    have := SD.rank_le s'
    obtain ⟨g1, g2, g3, g4, g5⟩ := Reader.bytes_fillBuf_ok hf
    have h2 := steps_meas hS ho hs hi.wf hlk (hi.live h)
    have h3 := bytes_length r ((b1 :: bs1).drop n)
    rw [g1, g2, List.length_drop] at h3
    show 4 * ({ r with buf := (b1 :: bs1).drop n } : Reader).bytes.length + s'.rank < 4 * d.reader.bytes.length + d.sd.rank
    generalize ({ r with buf := (b1 :: bs1).drop n } : Reader).bytes.length = x at *
    omega
  | trailer => cases hev
  | err => cases hev

/-- Nothing is produced from nowhere: the unread bytes are always a suffix of the earlier unread bytes. -/
theorem pull_suffix (hS : C.Safe) {o : OutSpec} {d d' : RD C} {out : Outcome (Option Decoded)} (h : Pull o d d' out)
    (hi : Inv d) : d'.reader.bytes <:+ d.reader.bytes := by
  have key : ∀ (r : Reader) (l l' : List UInt8), r.buf = l → l' <:+ l → ({ r with buf := l' } : Reader).bytes <:+ r.bytes := by
    intro r l l' h1 h2
    obtain ⟨pre, hp⟩ := h2
    refine ⟨pre, ?_⟩
    simp only [Reader.bytes, h1, ← hp, List.append_assoc]
  induction h with
  | eof => exact List.suffix_refl _
  | readErr h hf => rw [(Reader.bytes_fillBuf_err hf).1]; exact List.suffix_refl _
  | eos h hf => rw [(Reader.bytes_fillBuf_ok hf).2.1]; exact List.suffix_refl _
  | @more d d' r b bs s1 out h hf hs hp ih =>
    obtain ⟨w1, w2, w3, w4⟩ := SD.steps_wf hS hs hi.wf (look_fill hi h hf)
    obtain ⟨g1, g2, g3, g4, g5⟩ := Reader.bytes_fillBuf_ok hf
    rw [← g2]
    exact (ih ⟨w1, fun _ => w2, fun _ => w4 (hi.live h)⟩).trans (key r _ [] g1 (List.nil_suffix))
  | @event d r b b1 bs bs1 s1 s' n ev h hf hs hn hev hev' =>
    obtain ⟨w1, w2, w3, w4⟩ := SD.steps_wf hS hs hi.wf (look_fill hi h hf)
    obtain ⟨g1, g2, g3, g4, g5⟩ := Reader.bytes_fillBuf_ok hf
    rw [← g2]
    exact key r _ _ g1 ((List.drop_suffix _ _).trans w3)
  | @trailer d r b b1 bs bs1 s1 s' n h hf hs hn =>
    obtain ⟨w1, w2, w3, w4⟩ := SD.steps_wf hS hs hi.wf (look_fill hi h hf)
    obtain ⟨g1, g2, g3, g4, g5⟩ := Reader.bytes_fillBuf_ok hf
    rw [← g2]
    exact key r _ _ g1 ((List.drop_suffix _ _).trans w3)
  | @err d r b b1 bs bs1 s1 s' e h hf hs hn =>
    rw [(Reader.bytes_fillBuf_ok hf).2.1]; exact List.suffix_refl _

end RD

end Gif
