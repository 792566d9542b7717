import Verif.Lemmas.DecRun
import Verif.Props.Client
/-!
The big-step descriptions of `decode_next` and `next_frame_info` are functions, and what they depend on.
-/

namespace Gif

namespace SD

variable {C : Codec}

/-- No silent step from here. -/
def Stuck (o : OutSpec) (s : SD C) (l : List UInt8) : Prop := ∀ b bs n s', l = b :: bs → nextState s l o ≠ (s', .ok (n, .nothing))

theorem steps_unique {o : OutSpec} {s s1 s2 : SD C} {l l1 l2 : List UInt8} (h1 : Steps o s l s1 l1) (h2 : Steps o s l s2 l2)
    (e1 : Stuck o s1 l1) (e2 : Stuck o s2 l2) : s1 = s2 ∧ l1 = l2 := by
  induction h1 with
  | refl s l =>
    cases h2 with
    | refl => exact ⟨rfl, rfl⟩
    | step h _ => exact absurd h (e1 _ _ _ _ rfl)
  | @step s s1 s' b bs l' n h ht ih =>
    cases h2 with
    | refl => exact absurd h (e2 _ _ _ _ rfl)
    | step h' ht' =>
      rw [h] at h'
      cases h'
      exact ih ht' e1

theorem stuck_nil (o : OutSpec) (s : SD C) : Stuck o s [] := by
  intro b bs n s' h
  cases h

theorem stuck_event {o : OutSpec} {s s' : SD C} {l : List UInt8} {n : Nat} {ev : Decoded} (h : nextState s l o = (s', .ok (n, ev)))
    (hev : ev ≠ .nothing) : Stuck o s l := by
  intro b bs m s2 _ h'
  rw [h] at h'
  cases h'
  exact hev rfl

theorem stuck_err {o : OutSpec} {s s' : SD C} {l : List UInt8} {e : DecodingError} (h : nextState s l o = (s', .err e)) :
    Stuck o s l := by
  intro b bs m s2 _ h'
  rw [h] at h'
  cases h'

end SD

namespace RD

variable {C : Codec}

theorem pull_unique {o : OutSpec} {d d1 d2 : RD C} {out1 out2 : Outcome (Option Decoded)} (h1 : Pull o d d1 out1)
    (h2 : Pull o d d2 out2) : d1 = d2 ∧ out1 = out2 := by
  induction h1 with
  | eof h =>
    cases h2 <;> simp_all
  | readErr h hf =>
    cases h2 <;> simp_all
  | eos h hf =>
    cases h2 <;> simp_all
  | @more d d' r b bs s1 out h hf hs hp ih =>
    cases h2 with
    | eof h' => simp_all
    | readErr h' hf' => simp_all
    | eos h' hf' => simp_all
    | more h' hf' hs' hp' =>
      rw [hf] at hf'; cases hf'
      obtain ⟨rfl, _⟩ := SD.steps_unique hs hs' (SD.stuck_nil _ _) (SD.stuck_nil _ _)
      exact ih hp'
    | event h' hf' hs' hn hev =>
      rw [hf] at hf'; cases hf'
      cases (SD.steps_unique hs hs' (SD.stuck_nil _ _) (SD.stuck_event hn hev)).2
    | trailer h' hf' hs' hn =>
      rw [hf] at hf'; cases hf'
      cases (SD.steps_unique hs hs' (SD.stuck_nil _ _) (SD.stuck_event hn (by simp))).2
    | err h' hf' hs' hn =>
      rw [hf] at hf'; cases hf'
      cases (SD.steps_unique hs hs' (SD.stuck_nil _ _) (SD.stuck_err hn)).2
  | @event d r b b1 bs bs1 s1 s' n ev h hf hs hn hev hev' =>
    cases h2 with
    | eof h' => simp_all
    | readErr h' hf' => simp_all
    | eos h' hf' => simp_all
    | more h' hf' hs' hp' =>
      rw [hf] at hf'; cases hf'
      cases (SD.steps_unique hs hs' (SD.stuck_event hn hev) (SD.stuck_nil _ _)).2
    | event h' hf' hs' hn' hev2 =>
      rw [hf] at hf'; cases hf'
      obtain ⟨rfl, h3⟩ := SD.steps_unique hs hs' (SD.stuck_event hn hev) (SD.stuck_event hn' hev2)
      cases h3
      rw [hn] at hn'; cases hn'
      exact ⟨rfl, rfl⟩
    | trailer h' hf' hs' hn' =>
      rw [hf] at hf'; cases hf'
      obtain ⟨rfl, h3⟩ := SD.steps_unique hs hs' (SD.stuck_event hn hev) (SD.stuck_event hn' (by simp))
      cases h3
      rw [hn] at hn'; cases hn'
      exact absurd rfl hev'
    | err h' hf' hs' hn' =>
      rw [hf] at hf'; cases hf'
      obtain ⟨rfl, h3⟩ := SD.steps_unique hs hs' (SD.stuck_event hn hev) (SD.stuck_err hn')
      cases h3
      rw [hn] at hn'; cases hn'
  | @trailer d r b b1 bs bs1 s1 s' n h hf hs hn =>
    cases h2 with
    | eof h' => simp_all
    | readErr h' hf' => simp_all
    | eos h' hf' => simp_all
    | more h' hf' hs' hp' =>
      rw [hf] at hf'; cases hf'
      cases (SD.steps_unique hs hs' (SD.stuck_event hn (by simp)) (SD.stuck_nil _ _)).2
    | event h' hf' hs' hn' hev2 hev3 =>
      rw [hf] at hf'; cases hf'
      obtain ⟨rfl, h3⟩ := SD.steps_unique hs hs' (SD.stuck_event hn (by simp)) (SD.stuck_event hn' hev2)
      cases h3
      rw [hn] at hn'; cases hn'
      exact absurd rfl hev3
    | trailer h' hf' hs' hn' =>
      rw [hf] at hf'; cases hf'
      obtain ⟨rfl, h3⟩ := SD.steps_unique hs hs' (SD.stuck_event hn (by simp)) (SD.stuck_event hn' (by simp))
      cases h3
      rw [hn] at hn'; cases hn'
      exact ⟨rfl, rfl⟩
    | err h' hf' hs' hn' =>
      rw [hf] at hf'; cases hf'
      obtain ⟨rfl, h3⟩ := SD.steps_unique hs hs' (SD.stuck_event hn (by simp)) (SD.stuck_err hn')
      cases h3
      rw [hn] at hn'; cases hn'
  | @err d r b b1 bs bs1 s1 s' e h hf hs hn =>
    cases h2 with
    | eof h' => simp_all
    | readErr h' hf' => simp_all
    | eos h' hf' => simp_all
    | more h' hf' hs' hp' =>
      rw [hf] at hf'; cases hf'
      cases (SD.steps_unique hs hs' (SD.stuck_err hn) (SD.stuck_nil _ _)).2
    | event h' hf' hs' hn' hev2 hev3 =>
      rw [hf] at hf'; cases hf'
      obtain ⟨rfl, h3⟩ := SD.steps_unique hs hs' (SD.stuck_err hn) (SD.stuck_event hn' hev2)
      cases h3
      rw [hn] at hn'; cases hn'
    | trailer h' hf' hs' hn' =>
      rw [hf] at hf'; cases hf'
      obtain ⟨rfl, h3⟩ := SD.steps_unique hs hs' (SD.stuck_err hn) (SD.stuck_event hn' (by simp))
      cases h3
      rw [hn] at hn'; cases hn'
    | err h' hf' hs' hn' =>
      rw [hf] at hf'; cases hf'
      obtain ⟨rfl, h3⟩ := SD.steps_unique hs hs' (SD.stuck_err hn) (SD.stuck_err hn')
      cases h3
      rw [hn] at hn'; cases hn'
      exact ⟨rfl, rfl⟩

end RD

namespace Decoder

variable {C : Codec}

theorem frameRun_unique {d d1 d2 : Decoder C} {out1 out2 : Outcome Bool} (h1 : FrameRun d d1 out1) (h2 : FrameRun d d2 out2) :
    d1 = d2 ∧ out1 = out2 := by
  induction h1 with
  | @step d d' rd ev out hp hev hr ih =>
    cases h2 with
    | step hp' hev' hr' =>
      obtain ⟨rfl, h⟩ := RD.pull_unique hp hp'
      exact ih hr'
    | found hp' hc' =>
      obtain ⟨rfl, h⟩ := RD.pull_unique hp hp'
      cases h
      exact absurd rfl (hev _)
    | eof hp' => cases (RD.pull_unique hp hp').2
    | err hp' => cases (RD.pull_unique hp hp').2
  | @found d rd t f hp hc =>
    cases h2 with
    | step hp' hev' hr' =>
      obtain ⟨rfl, h⟩ := RD.pull_unique hp hp'
      cases h
      exact absurd rfl (hev' _)
    | found hp' hc' =>
      obtain ⟨rfl, h⟩ := RD.pull_unique hp hp'
      cases h
      rw [hc] at hc'
      cases hc'
      exact ⟨rfl, rfl⟩
    | eof hp' => cases (RD.pull_unique hp hp').2
    | err hp' => cases (RD.pull_unique hp hp').2
  | @eof d rd hp =>
    cases h2 with
    | step hp' hev' hr' => cases (RD.pull_unique hp hp').2
    | found hp' hc' => cases (RD.pull_unique hp hp').2
    | eof hp' =>
      obtain ⟨rfl, h⟩ := RD.pull_unique hp hp'
      exact ⟨rfl, rfl⟩
    | err hp' => cases (RD.pull_unique hp hp').2
  | @err d rd e hp =>
    cases h2 with
    | step hp' hev' hr' => cases (RD.pull_unique hp hp').2
    | found hp' hc' => cases (RD.pull_unique hp hp').2
    | eof hp' => cases (RD.pull_unique hp hp').2
    | err hp' =>
      obtain ⟨rfl, h⟩ := RD.pull_unique hp hp'
      cases h
      exact ⟨rfl, rfl⟩

theorem nextFrameInfo_eq (hS : C.Safe) {d d' : Decoder C} {out : Outcome Bool} (hi : d.rd.Inv) (h : FrameRun d d' out) :
    d.nextFrameInfo = (d', out) := by
  obtain ⟨h1, h2⟩ := frameRun_unique (nextFrameInfo_run hS d hi) h
  rw [← h1, ← h2]

/-- The run of `next_frame_info` does not depend on the frame before. -/
theorem frameRun_frame {d d' : Decoder C} {out : Outcome Bool} (h : FrameRun d d' out) (g : Frame) (t : FrameDataType) :
    ∃ x, FrameRun { d with currentFrame := g, dataType := t } x out ∧
      { x with currentFrame := d'.currentFrame, dataType := d'.dataType } = d' ∧ (out = .ok true → x = d') := by
  induction h with
  | step hp hev hr ih =>
    obtain ⟨x, h1, h2, h3⟩ := ih
    exact ⟨x, .step hp hev h1, h2, h3⟩
  | found hp hc => exact ⟨_, .found hp hc, rfl, fun _ => rfl⟩
  | eof hp => exact ⟨_, .eof hp, rfl, fun h => by cases h⟩
  | err hp => exact ⟨_, .err hp, rfl, fun h => by cases h⟩

end Decoder

namespace SD

variable {C : Codec}

/-- The same with another current frame. -/
def cur (s : SD C) (c : Option Frame) : SD C := { s with current := c }

theorem nextState_cur (s : SD C) (buf : List UInt8) (o : OutSpec) (c : Option Frame) (hd : s.state.inData = true)
    (hf : s.state ≠ .frameDecoded) :
    nextState (s.cur c) buf o = ((nextState s buf o).1.cur c, (nextState s buf o).2) := by
  unfold nextState
  cases buf with
  | nil => rfl
  | cons b bs =>
    simp only [show (s.cur c).state = s.state from rfl]
    generalize b :: bs = buf
    cases hs : s.state <;> rw [hs] at hd hf <;> first | cases hd | skip
    · simp only [onDecodeSubBlock, show (s.cur c).skipFrameDecoding = s.skipFrameDecoding from rfl, show (s.cur c).lzw = s.lzw from rfl]
      split
      · rfl
      · split
        · split
          · rfl
          · split
            · rename_i consumed bytes _
              generalize (if consumed = 0 ∧ bytes.length = 0 then _ else consumed) = m
              split <;> rfl
            all_goals rfl
        · split
          · rfl
          · split
            · split <;> rfl
            all_goals rfl
    · simp only [onCopySubBlock, show (s.cur c).skipFrameDecoding = s.skipFrameDecoding from rfl,
        show (s.cur c).memoryLimit = s.memoryLimit from rfl]
      split
      · rfl
      · split
        · split
          · split <;> rfl
          all_goals rfl
        · split <;> rfl
    · exact absurd rfl hf

theorem nextState_done (s : SD C) (buf : List UInt8) (o : OutSpec) (c : Option Frame) (hb : buf ≠ []) (hf : s.state = .frameDecoded) :
    nextState (s.cur c) buf o = nextState s buf o := by
  unfold nextState
  cases buf with
  | nil => exact absurd rfl hb
  | cons b bs =>
    simp only [show (s.cur c).state = s.state from rfl, hf]
    rfl

theorem done_loud {s s' : SD C} {b : UInt8} {bs : List UInt8} {o : OutSpec} {n : Nat} {ev : Decoded} (hf : s.state = .frameDecoded)
    (h : nextState s (b :: bs) o = (s', .ok (n, ev))) : ev = .dataEnd := by
  unfold nextState at h
  simp only [hf, onFrameDecoded, goto] at h
  split at h
  · cases h
  · cases h; rfl

theorem data_events {s s' : SD C} {buf : List UInt8} {o : OutSpec} {n : Nat} {ev : Decoded} (hd : s.state.inData = true)
    (h : nextState s buf o = (s', .ok (n, ev))) : (ev = .dataEnd → s.state = .frameDecoded) ∧ ∀ t, ev ≠ .frameMetadata t := by
  unfold nextState at h
  cases buf with
  | nil => cases h
  | cons b bs =>
    simp only at h
    generalize b :: bs = buf at h
    cases hs : s.state <;> rw [hs] at hd <;> first | cases hd | skip
    · rw [hs] at h
      simp only [onDecodeSubBlock] at h
      split at h
      · cases h
      · split at h
        · split at h
          · cases h
            exact ⟨by simp, by simp⟩
          · split at h
            · rename_i consumed bytes _
              generalize (if consumed = 0 ∧ bytes.length = 0 then _ else consumed) = m at h
              split at h
              · cases h
              · cases h
                exact ⟨by split <;> simp, by split <;> simp⟩
            all_goals cases h
        · split at h
          · cases h
            exact ⟨by simp, by simp⟩
          · split at h
            · split at h
              all_goals
                cases h
                exact ⟨by simp, by simp⟩
            all_goals cases h
    · rw [hs] at h
      simp only [onCopySubBlock] at h
      split at h
      · cases h
      · split at h
        · split at h
          · split at h
            · cases h
            · cases h
              exact ⟨by simp, by simp⟩
          all_goals cases h
        · split at h
          all_goals
            cases h
            exact ⟨by simp, by simp⟩
    · rw [hs] at h
      simp only [onFrameDecoded] at h
      split at h
      · cases h
      · cases h
        exact ⟨fun _ => rfl, by simp⟩

theorem steps_cur {o : OutSpec} {s s' : SD C} {l l' : List UInt8} (h : Steps o s l s' l') (c : Option Frame)
    (hd : s.state.inData = true) : Steps o (s.cur c) l (s'.cur c) l' ∧ s'.state.inData = true := by
  induction h with
  | refl => exact ⟨.refl _ _, hd⟩
  | @step s s1 s' b bs l' n h ht ih =>
    rcases nextState_inData hd h with ⟨h1, _⟩ | ⟨_, _, h2⟩
    · cases h1
    · obtain ⟨i1, i2⟩ := ih h2
      refine ⟨.step ?_ i1, i2⟩
      rw [nextState_cur s (b :: bs) o c hd (fun hf => by cases done_loud hf h), h]

end SD

namespace RD

variable {C : Codec}

/-- The same with another current frame. -/
def cur (d : RD C) (c : Option Frame) : RD C := { d with sd := d.sd.cur c }

theorem pull_cur {o : OutSpec} {d d' : RD C} {out : Outcome (Option Decoded)} (h : Pull o d d' out) (c : Option Frame)
    (hd : d.sd.state.inData = true) :
    Pull o (d.cur c) d' out ∧ out = .ok (some .dataEnd) ∨
      Pull o (d.cur c) (d'.cur c) out ∧ out ≠ .ok (some .dataEnd) ∧ (out.returns = true → (∀ e, out ≠ .err e) → out ≠ .ok none → d'.sd.state.inData = true) := by
  induction h with
  | eof h => exact .inr ⟨.eof h, by simp, by simp⟩
  | readErr h hf => exact .inr ⟨.readErr h hf, by simp [Outcome.ioErr], by simp [Outcome.ioErr]⟩
  | eos h hf => exact .inr ⟨.eos h hf, by simp [Outcome.ioErr], by simp [Outcome.ioErr]⟩
  | @more d d' r b bs s1 out h hf hs hp ih =>
    obtain ⟨h1, h2⟩ := SD.steps_cur hs c hd
    rcases ih h2 with ⟨h3, h4⟩ | ⟨h3, h4⟩
    · exact .inl ⟨.more h hf h1 h3, h4⟩
    · exact .inr ⟨.more h hf h1 h3, h4⟩
  | @event d r b b1 bs bs1 s1 s' n ev h hf hs hn hev hev' =>
    obtain ⟨h1, h2⟩ := SD.steps_cur hs c hd
    by_cases hfd : s1.state = .frameDecoded
    · cases SD.done_loud hfd hn
      exact .inl ⟨.event h hf h1 ((SD.nextState_done s1 (b1 :: bs1) o c (by simp) hfd).trans hn) hev hev', rfl⟩
    · have := SD.nextState_cur s1 (b1 :: bs1) o c h2 hfd
      rw [hn] at this
      rcases SD.nextState_inData h2 hn with ⟨h3, _⟩ | ⟨h3, _, h4⟩
      · exact absurd ((SD.data_events h2 hn).1 h3) hfd
      · exact .inr ⟨.event h hf h1 this hev hev', by simpa using h3, fun _ _ _ => h4⟩
  | @trailer d r b b1 bs bs1 s1 s' n h hf hs hn =>
    obtain ⟨h1, h2⟩ := SD.steps_cur hs c hd
    by_cases hfd : s1.state = .frameDecoded
    · cases SD.done_loud hfd hn
    · have := SD.nextState_cur s1 (b1 :: bs1) o c h2 hfd
      rw [hn] at this
      exact .inr ⟨.trailer h hf h1 this, by simp, by simp⟩
  | @err d r b b1 bs bs1 s1 s' e h hf hs hn =>
    obtain ⟨h1, h2⟩ := SD.steps_cur hs c hd
    by_cases hfd : s1.state = .frameDecoded
    · exfalso
      unfold SD.nextState at hn
      simp only [hfd, SD.onFrameDecoded, SD.goto] at hn
      split at hn <;> cases hn
    · have := SD.nextState_cur s1 (b1 :: bs1) o c h2 hfd
      rw [hn] at this
      exact .inr ⟨.err h hf h1 this, by simp, by simp⟩

theorem pull_inData {o : OutSpec} {d d' : RD C} {out : Outcome (Option Decoded)} (h : Pull o d d' out)
    (hd : d.sd.state.inData = true) (t : FrameDataType) : out ≠ .ok (some (.frameMetadata t)) := by
  induction h with
  | more h hf hs hp ih => exact ih (SD.steps_cur hs none hd).2
  | event h hf hs hn hev hev' =>
    intro ho
    cases ho
    exact (SD.data_events (SD.steps_cur hs none hd).2 hn).2 t rfl
  | _ => simp [Outcome.ioErr]

end RD

namespace Decoder

variable {C : Codec}

/-- Nor does it depend on the current frame of the streaming decoder, once the data of the image have begun. -/
theorem frameRun_cur (hS : C.Safe) {d d' : Decoder C} {out : Outcome Bool} (h : FrameRun d d' out) (hi : d.rd.Inv) (c : Option Frame) (g : Frame)
    (t : FrameDataType) (hd : d.rd.sd.state.inData = true) :
    ∃ x, FrameRun { d with rd := d.rd.cur c, currentFrame := g, dataType := t } x out ∧
      { x with currentFrame := d'.currentFrame, dataType := d'.dataType, rd := x.rd.cur d'.rd.sd.current } = d' ∧ (out = .ok true → x = d') := by
  induction h with
  | @step d d' rd ev out hp hev hr ih =>
    have hp' := RD.pull_cur hp c hd
    rcases hp' with ⟨h1, h2⟩ | ⟨h1, h2, h3⟩
    · obtain ⟨x, h4, h5, h6⟩ := frameRun_frame hr g t
      refine ⟨x, .step h1 hev h4, ?_, h6⟩
      rw [← h5]
      rfl
    · obtain ⟨x, h4, h5, h6⟩ := ih (RD.pull_inv hS hp hi) (h3 rfl (by simp) (by simp))
      exact ⟨x, .step h1 hev h4, h5, h6⟩
  | @found d rd u f hp hc =>
    exact absurd rfl (RD.pull_inData hp hd u)
  | @eof d rd hp =>
    rcases RD.pull_cur hp c hd with ⟨_, h2⟩ | ⟨h1, h2, h3⟩
    · cases h2
    · exact ⟨_, .eof h1, rfl, fun h => by cases h⟩
  | @err d rd e hp =>
    rcases RD.pull_cur hp c hd with ⟨_, h2⟩ | ⟨h1, h2, h3⟩
    · cases h2
    · exact ⟨_, .err h1, rfl, fun h => by cases h⟩

end Decoder

end Gif
