import Verif.Props.Grammar
/-!
What a decoder has read when it returns a frame: nothing behind the image.
-/

namespace Gif

variable {C : Codec}

/-- A reader that hands over everything at once. -/
def Reader.whole (bytes : List UInt8) : Reader := { buf := bytes, src := [] }

theorem Reader.whole_reliable (bytes : List UInt8) : (Reader.whole bytes).Reliable := by
  intro ev h
  cases h

theorem Reader.whole_bytes (bytes : List UInt8) : (Reader.whole bytes).bytes = bytes := by
  simp [Reader.whole, Reader.bytes]

namespace SD

/-- Running on, when the bytes were used up. -/
theorem eval_resume (hS : C.Safe) {m : Bool} {s : SD C} {acc p : List UInt8} {r : Res C} (h : Eval m s acc p r) (hw : WF s)
    {s1 : SD C} {acc1 : List UInt8} (hr : r = .more s1 acc1) {q : List UInt8} {r2 : Res C} (h2 : Eval m s acc (p ++ q) r2) :
    Eval m s1 acc1 q r2 ∧ WF s1 := by
  induction h with
  | nil => cases hr; exact ⟨h2, hw⟩
  | @quiet s s' acc l x b n ev r h hq ht ih =>
    have hn := consumed_le hS hw h
    have hd : (b :: (l ++ q)).drop n = (b :: l).drop n ++ q := by
      rw [← List.cons_append, List.drop_append_of_le_length (by simp at hn ⊢; omega)]
    rw [List.cons_append] at h2
    cases h2 with
    | @quiet _ s2 _ _ x2 _ n2 ev2 r2 h2 hq2 ht2 =>
      rw [h] at h2
      simp only [Prod.mk.injEq, Outcome.ok.injEq] at h2
      obtain ⟨rfl, rfl, rfl⟩ := h2
      have := quiet_inj hq hq2
      subst this
      rw [hd] at ht2
      exact ih (tr_wf hS hw (tr_of_nextState hw.ibuf h)).1 hr ht2
    | @event _ s2 _ _ n2 ev2 _ h2 hq2 =>
      rw [h] at h2
      simp only [Prod.mk.injEq, Outcome.ok.injEq] at h2
      obtain ⟨rfl, rfl, rfl⟩ := h2
      exact absurd hq (hq2 _)
    | err _ h2 => rw [h] at h2; simp at h2
  | event => cases hr
  | err => cases hr

theorem tr_dataEnd {o : OutSpec} {b : UInt8} {bs : List UInt8} {s s' : SD C} {n : Nat} {ev : Decoded} (h : Tr o b bs s s' n ev)
    (he : ev = .dataEnd) : n = 1 := by
  cases h with
  | decode => split at he <;> cases he
  | _ => first | rfl | cases he

/-- What is left when an event occurs. -/
theorem eval_left (hS : C.Safe) {m : Bool} {s : SD C} {acc l : List UInt8} {r : Res C} (h : Eval m s acc l r) (hw : WF s)
    {s1 : SD C} {acc1 rest : List UInt8} {ev : Decoded} (hr : r = .event s1 acc1 ev rest) :
    rest.length ≤ l.length ∧ (ev = .dataEnd → rest.length < l.length) := by
  induction h with
  | nil => cases hr
  | @quiet s s' acc l x b n ev r h hq ht ih =>
    obtain ⟨h1, h2⟩ := ih (tr_wf hS hw (tr_of_nextState hw.ibuf h)).1 hr
    rw [List.length_drop] at h1 h2
    exact ⟨by omega, fun he => by have := h2 he; omega⟩
  | @event s s' acc b n ev l h hq =>
    cases hr
    rw [List.length_drop]
    refine ⟨by omega, fun he => ?_⟩
    have := tr_dataEnd (tr_of_nextState hw.ibuf h) he
    subst this
    simp
  | err => cases hr

theorem upto_left (hS : C.Safe) {P : Decoded → Bool} {s : SD C} {l : List UInt8} {evs : List Decoded} {r : Res C}
    (h : Upto P s l evs r) (hw : WF s) {s1 : SD C} {acc1 rest : List UInt8} {ev : Decoded} (hr : r = .event s1 acc1 ev rest) :
    rest.length ≤ l.length := by
  induction h with
  | step h hP ht _ ih =>
    have h1 := (eval_left hS h hw rfl).1
    have h2 := ih (eval_wf hS h rfl hw) hr
    omega
  | stop h _ => exact (eval_left hS h hw hr).1

theorem upto_resume (hS : C.Safe) {P : Decoded → Bool} {s : SD C} {p : List UInt8} {evs : List Decoded} {r : Res C}
    (h : Upto P s p evs r) (hw : WF s) {s1 : SD C} (hr : r = .more s1 []) {q : List UInt8} {evs2 : List Decoded} {r2 : Res C}
    (h2 : Upto P s (p ++ q) evs2 r2) : ∃ evs3, Upto P s1 q evs3 r2 ∧ WF s1 := by
  induction h generalizing evs2 with
  | @step s s' l rest ev evs r h hP ht _ ih =>
    have ha := eval_append hS h hw q (by intro _ _ h; cases h)
    cases h2 with
    | step h2 hP2 ht2 hr2 =>
      cases eval_det ha h2
      exact ih (eval_wf hS h rfl hw) hr hr2
    | stop h2 hr2 =>
      have := eval_det ha h2
      subst this
      rcases hr2 _ _ _ _ rfl with h | h
      · rw [hP] at h; cases h
      · exact absurd h ht
  | stop h _ =>
    cases h2 with
    | step h2 hP2 ht2 hr2 =>
      obtain ⟨h3, h4⟩ := eval_resume hS h hw hr h2
      exact ⟨_, .step h3 hP2 ht2 hr2, h4⟩
    | stop h2 hr2 =>
      obtain ⟨h3, h4⟩ := eval_resume hS h hw hr h2
      exact ⟨_, .stop h3 hr2, h4⟩

end SD

namespace RD

/-- A loop that runs out of bytes, and the same loop with more of them: what it leaves is behind. -/
theorem upto_behind (hS : C.Safe) {P : Decoded → Bool} {q : List UInt8} {d1 d1' d2 d2' : RD C} {evs1 evs2 : List Decoded}
    {x : Option Decoded} (hi : d1.Inv) (hsd : d1.sd = d2.sd) (hb : d2.reader.bytes = d1.reader.bytes ++ q)
    (h1 : UptoRes P d1 d1' evs1 (.err (.io .unexpectedEof))) (h2 : UptoRes P d2 d2' evs2 (.ok x)) :
    d2'.reader.bytes.length ≤ q.length := by
  have h2' : ∃ s ev, SD.Upto P d2.sd d2.reader.bytes evs2 (.event s [] ev d2'.reader.bytes) := by
    cases x with
    | some ev => exact ⟨_, _, h2.2.2⟩
    | none => exact ⟨_, _, h2.2⟩
  obtain ⟨s, ev, h2'⟩ := h2'
  rw [← hsd, hb] at h2'
  rcases h1.2 with ⟨c, hc, _⟩ | ⟨_, _, q3⟩ | p
  · cases hc
  · obtain ⟨_, h3, h4⟩ := SD.upto_resume hS q3 hi.wf rfl h2'
    exact SD.upto_left hS h3 h4 rfl
  · have := SD.upto_append hS p hi.wf q (by intro _ _ h; cases h)
    cases (SD.upto_det this h2').2

end RD

namespace Decoder

/-- `next_frame_info` on a file that ends too early and on one that does not. -/
theorem info_behind (hS : C.Safe) {q : List UInt8} {d1 d2 : Decoder C} (h : Cut q d1 d2)
    (h1 : d1.nextFrameInfo.2 = .ioErr .unexpectedEof) {x : Bool} (h2 : d2.nextFrameInfo.2 = .ok x) :
    d2.nextFrameInfo.1.rd.reader.bytes.length ≤ q.length := by
  have he1 : d1.rd.atEof = false := by
    cases he : d1.rd.atEof with
    | false => rfl
    | true => rw [atEof_info he] at h1; cases h1
  have he2 : d2.rd.atEof = false := by rw [← h.eof]; exact he1
  obtain ⟨evs1, o1, rd1, u1, _, e1⟩ := frameRun_upto hS (nextFrameInfo_run hS d1 h.inv1.rd) h.inv1.rd (Reader.reliable_clean h.rel1) he1
  obtain ⟨evs2, o2, rd2, u2, _, e2⟩ := frameRun_upto hS (nextFrameInfo_run hS d2 h.inv2.rd) h.inv2.rd (Reader.reliable_clean h.rel2) he2
  generalize d1.nextFrameInfo = x1 at *
  generalize d2.nextFrameInfo = x2 at *
  obtain ⟨d1', out1⟩ := x1
  obtain ⟨d2', out2⟩ := x2
  simp only at *
  subst h1 h2
  have ho1 : o1 = .err (.io .unexpectedEof) := by
    cases o1 with
    | ok o =>
      cases o with
      | none => simp only [infoOf] at e1; cases (Prod.mk.inj e1).2
      | some ev =>
        cases ev with
        | frameMetadata t =>
          simp only [infoOf] at e1
          split at e1
          · cases (Prod.mk.inj e1).2
          · have := (Prod.mk.inj e1).2
            split at this
            · cases this
            · cases this
        | _ => simp only [infoOf] at e1; cases (Prod.mk.inj e1).2
    | err e =>
      simp only [infoOf] at e1
      have := (Prod.mk.inj e1).2
      simp only [Outcome.ioErr, Outcome.err.injEq] at this
      rw [← this]
    | panic => simp only [infoOf] at e1; cases (Prod.mk.inj e1).2
    | diverge => simp only [infoOf] at e1; cases (Prod.mk.inj e1).2
  have ho2 : (∃ y, o2 = .ok y) ∧ d2'.rd.reader = rd2.reader := by
    cases o2 with
    | ok o =>
      refine ⟨⟨_, rfl⟩, ?_⟩
      cases o with
      | none => simp only [infoOf] at e2; rw [(Prod.mk.inj e2).1]
      | some ev =>
        cases ev with
        | frameMetadata t =>
          simp only [infoOf] at e2
          split at e2
          · cases (Prod.mk.inj e2).2
          · rename_i f hf
            rw [(Prod.mk.inj e2).1]
            rfl
        | _ => simp only [infoOf] at e2; cases (Prod.mk.inj e2).2
    | err e => simp only [infoOf] at e2; cases (Prod.mk.inj e2).2
    | panic => simp only [infoOf] at e2; cases (Prod.mk.inj e2).2
    | diverge => simp only [infoOf] at e2; cases (Prod.mk.inj e2).2
  subst ho1
  obtain ⟨⟨y, rfl⟩, hrd⟩ := ho2
  rw [hrd]
  exact RD.upto_behind hS h.inv1.rd h.sd h.bytes u1 u2

/-- A frame was read: not at the end of the file; and the image was read to its end. -/
theorem read_consumed (hS : C.Safe) {d : Decoder C} (hi : d.Inv) (hr : d.rd.reader.Reliable) (hk : d.rd.sd.skipFrameDecoding = true)
    {f : Frame} (h : d.readNextFrame.2 = .ok (some f)) :
    d.nextFrameInfo.2 = .ok true ∧ d.readNextFrame.1.rd.atEof = false ∧
      d.readNextFrame.1.rd.reader.bytes.length < d.nextFrameInfo.1.rd.reader.bytes.length := by
  have t := skip_dataType hS hi hk
  have hf := info_found hS hi
  have hj := (inv_nextFrameInfo hS d hi).1
  have hl := (frameRun_reliable (nextFrameInfo_run hS d hi.rd) hr).1
  unfold readNextFrame at h ⊢
  generalize d.nextFrameInfo = x at *
  obtain ⟨d', out⟩ := x
  simp only at *
  cases out with
  | ok b =>
    cases b with
    | false => cases h
    | true =>
      obtain ⟨m, hm⟩ := t rfl
      have r1 := copyLoop_run hS _ d'.rd [m] hj.rd (meas_lt_fuel _)
      obtain ⟨_, c⟩ := copyRun_eval hS r1 hj.rd (Reader.reliable_clean hl) (hf rfl).1
      have c1 : copyLzw m d'.rd = copyLoop d'.rd.eventFuel d'.rd [m] := rfl
      simp only [hm, c1] at h ⊢
      generalize copyLoop d'.rd.eventFuel d'.rd [m] = y at *
      obtain ⟨rd, vec, o⟩ := y
      simp only at *
      cases o with
      | ok u => exact ⟨trivial, c.1, (SD.eval_left hS c.2 hj.rd.wf rfl).2 rfl⟩
      | err e => cases h
      | panic => cases h
      | diverge => cases h
  | err e => cases h
  | panic => cases h
  | diverge => cases h

/-- `copy_lzw_into_buffer` on a file that ends too early and on one that does not. -/
theorem copy_behind (hS : C.Safe) {q vec vec1 vec2 : List UInt8} {rd1 rd1' rd2 rd2' : RD C}
    (w1 : CopyRun rd1 vec rd1' vec1 (.ioErr .unexpectedEof)) (w2 : CopyRun rd2 vec rd2' vec2 (.ok ()))
    (hsd : rd1.sd = rd2.sd) (hb : rd2.reader.bytes = rd1.reader.bytes ++ q)
    (he1 : rd1.atEof = false) (he2 : rd2.atEof = false) (hi1 : rd1.Inv) (hi2 : rd2.Inv)
    (hr1 : rd1.reader.Reliable) (hr2 : rd2.reader.Reliable) : rd2'.reader.bytes.length < q.length := by
  obtain ⟨_, p1⟩ := copyRun_eval hS w1 hi1 (Reader.reliable_clean hr1) he1
  obtain ⟨_, p2⟩ := copyRun_eval hS w2 hi2 (Reader.reliable_clean hr2) he2
  replace p2 := p2.2
  rw [← hsd, hb] at p2
  rcases p1 with ⟨c, hc⟩ | ⟨_, _, s, h⟩ | ⟨hc, _⟩ | h
  · cases hc
  · obtain ⟨h3, h4⟩ := SD.eval_resume hS h hi1.wf rfl p2
    exact (SD.eval_left hS h3 h4 rfl).2 rfl
  · cases hc
  · cases SD.eval_det (SD.eval_append hS h hi1.wf q (by intro _ _ h; cases h)) p2

/-- `read_next_frame` in raw mode on a file that ends too early and on one that does not. -/
theorem read_behind (hS : C.Safe) {q : List UInt8} {d1 d2 : Decoder C} (h : Cut q d1 d2) (hk : d1.rd.sd.skipFrameDecoding = true)
    (h1 : d1.readNextFrame.2 = .ioErr .unexpectedEof) {f : Frame} (h2 : d2.readNextFrame.2 = .ok (some f)) :
    d2.readNextFrame.1.rd.reader.bytes.length < q.length := by
  have hk2 : d2.rd.sd.skipFrameDecoding = true := by rw [← h.sd]; exact hk
  obtain ⟨b1, b2, b3⟩ := read_consumed hS h.inv2 h.rel2 hk2 h2
  rcases cut_info hS h with ⟨ho, hc⟩ | ⟨_, ho⟩
  · have ho1 : d1.nextFrameInfo.2 = .ok true := ho.trans b1
    replace hc := hc _ ho1
    obtain ⟨m, hm1⟩ := skip_dataType hS h.inv1 hk ho1
    have hm2 : d2.nextFrameInfo.1.dataType = .lzw m := by rw [← hc.typ]; exact hm1
    have f1 := (info_found hS h.inv1 ho1).1
    have f2 := (info_found hS h.inv2 b1).1
    clear b2 b3
    unfold readNextFrame at h1 h2 ⊢
    generalize d1.nextFrameInfo = x1 at *
    generalize d2.nextFrameInfo = x2 at *
    obtain ⟨d1', out1⟩ := x1
    obtain ⟨d2', out2⟩ := x2
    simp only at *
    subst ho1 b1
    have r1 := copyLoop_run hS _ d1'.rd [m] hc.inv1.rd (meas_lt_fuel _)
    have r2 := copyLoop_run hS _ d2'.rd [m] hc.inv2.rd (meas_lt_fuel _)
    have c1 : copyLzw m d1'.rd = copyLoop d1'.rd.eventFuel d1'.rd [m] := rfl
    have c2 : copyLzw m d2'.rd = copyLoop d2'.rd.eventFuel d2'.rd [m] := rfl
    simp only [hm1, hm2, c1, c2] at h1 h2 ⊢
    generalize copyLoop d1'.rd.eventFuel d1'.rd [m] = y1 at *
    generalize copyLoop d2'.rd.eventFuel d2'.rd [m] = y2 at *
    obtain ⟨rd1, vec1, o1⟩ := y1
    obtain ⟨rd2, vec2, o2⟩ := y2
    simp only at *
    cases o1 with
    | err e1 =>
      cases o2 with
      | ok u =>
        simp only at h1 h2
        have he : e1 = .io .unexpectedEof := by
          simp only [Outcome.ioErr, Outcome.err.injEq] at h1
          exact h1
        subst he
        exact copy_behind hS r1 r2 hc.sd hc.bytes f1 f2 hc.inv1.rd hc.inv2.rd hc.rel1 hc.rel2
      | err => cases h2
      | panic => cases h2
      | diverge => cases h2
    | ok => cases h1
    | panic => cases h1
    | diverge => cases h1
  · have := info_behind hS h ho b1
    omega

/-- `read_info` on a file that ends too early and on one that does not. -/
theorem open_behind (hS : C.Safe) (o : DecodeOptions) {q : List UInt8} {r1 r2 : Reader} (h1 : r1.Reliable) (h2 : r2.Reliable)
    (hb : r2.bytes = r1.bytes ++ q) (k1 : (readInfo C o r1).2 = .ioErr .unexpectedEof) (k2 : (readInfo C o r2).2 = .ok ()) :
    (readInfo C o r2).1.rd.reader.bytes.length ≤ q.length := by
  have i1 := inv_withNoInit (C := C) o r1
  have i2 := inv_withNoInit (C := C) o r2
  unfold readInfo init at *
  have w1 := initLoop_run hS _ (withNoInit C o r1) i1.rd (meas_lt_fuel _)
  have w2 := initLoop_run hS _ (withNoInit C o r2) i2.rd (meas_lt_fuel _)
  obtain ⟨evs1, o1, u1, _, _, f1⟩ := initRun_upto hS w1 i1.rd (Reader.reliable_clean h1) rfl
  obtain ⟨evs2, o2, u2, _, _, f2⟩ := initRun_upto hS w2 i2.rd (Reader.reliable_clean h2) rfl
  generalize initLoop (withNoInit C o r1).rd.eventFuel (withNoInit C o r1) = x1 at *
  generalize initLoop (withNoInit C o r2).rd.eventFuel (withNoInit C o r2) = x2 at *
  obtain ⟨d1, out1⟩ := x1
  obtain ⟨d2, out2⟩ := x2
  have hbr : ∀ (a : Decoder C), a.checkBg.rd = a.rd := by
    intro a; unfold checkBg; split <;> (try split) <;> rfl
  simp only at *
  have ho1 : o1 = .err (.io .unexpectedEof) := by
    cases out1 with
    | ok => cases k1
    | err e =>
      simp only [Outcome.ioErr, Outcome.err.injEq] at k1
      subst k1
      cases o1 with
      | err e => simp only [Outcome.err.injEq] at f1; rw [f1]
      | ok a => cases a <;> cases f1
      | panic => cases f1
      | diverge => cases f1
    | panic => cases k1
    | diverge => cases k1
  have ho2 : ∃ y, o2 = .ok y := by
    cases out2 with
    | ok =>
      cases o2 with
      | ok y => exact ⟨y, rfl⟩
      | _ => cases f2
    | err e => cases k2
    | panic => cases k2
    | diverge => cases k2
  subst ho1
  obtain ⟨y, rfl⟩ := ho2
  have key := RD.upto_behind hS i1.rd (show (withNoInit C o r1).rd.sd = (withNoInit C o r2).rd.sd from rfl) hb u1 u2
  cases out2 with
  | ok => simp only [hbr]; exact key
  | _ => cases k2

end Decoder

end Gif
