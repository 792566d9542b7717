import Verif.Lemmas.Prefix
import Verif.Props.Safety
/-!
# Independence of the read schedule: C01, C02, C08 (metadata and raw frames), C41

The bytes may come in non-empty pieces of any size. The only assumption about the LZW codec is memory safety: in these
modes the crate never gives it any data.
-/

namespace Gif

variable {C : Codec}

namespace SD

theorem app_nil (r : Res C) : r.app [] = r := by
  cases r with
  | event => simp [Res.app]
  | _ => rfl

end SD

namespace RD

/-- Two loops that wait for the same event, the second over more bytes. -/
theorem uptoRes_cmp {P : Decoded → Bool} {q : List UInt8} {d1 d1' d2 d2' : RD C} {f : List Decoded → List Decoded}
    {evs1 evs2 : List Decoded} {o1 o2 : Outcome (Option Decoded)}
    (hH : ∀ evs r, SD.Upto P d1.sd d1.reader.bytes evs r → ((∀ s acc, r ≠ .more s acc) ∨ q = []) →
      SD.Upto P d2.sd d2.reader.bytes (f evs) (r.app q))
    (h1 : UptoRes P d1 d1' evs1 o1) (h2 : UptoRes P d2 d2' evs2 o2)
    (n1 : ∀ c, o1 ≠ .err (.io (.reader c))) (n2 : ∀ c, o2 ≠ .err (.io (.reader c)))
    (hP : P (.blockStart .trailer) = false) :
    (o1 = o2 ∧ evs2 = f evs1 ∧ ∀ x, o1 = .ok x →
      d1'.sd = d2'.sd ∧ d2'.reader.bytes = d1'.reader.bytes ++ q ∧ d1'.atEof = d2'.atEof) ∨
    (q ≠ [] ∧ o1 = .err (.io .unexpectedEof)) := by
  -- the run that the second loop follows
  have h2' : ∃ r2, SD.Upto P d2.sd d2.reader.bytes evs2 r2 ∧
      (match o2 with
        | .ok (some ev) => P ev = true ∧ d2'.atEof = false ∧ r2 = .event d2'.sd [] ev d2'.reader.bytes
        | .ok none => d2'.atEof = true ∧ r2 = .event d2'.sd [] (.blockStart .trailer) d2'.reader.bytes
        | .err e => (e = .io .unexpectedEof ∧ ∃ s acc, r2 = .more s acc) ∨ r2 = .err e
        | _ => False) := by
    cases o2 with
    | ok o =>
      cases o with
      | some ev => exact ⟨_, h2.2.2, h2.1, h2.2.1, rfl⟩
      | none => exact ⟨_, h2.2, h2.1, rfl⟩
    | err e =>
      rcases h2.2 with ⟨c, hc, _⟩ | ⟨q1, q2, q3⟩ | q
      · exact absurd (by rw [hc]) (n2 c)
      · exact ⟨_, q3, .inl ⟨q1, _, _, rfl⟩⟩
      · exact ⟨_, q, .inr rfl⟩
    | panic => exact h2.elim
    | diverge => exact h2.elim
  obtain ⟨r2, hr2, hm2⟩ := h2'
  cases o1 with
  | ok o =>
    left
    cases o with
    | some ev =>
      obtain ⟨p1, p2, p3⟩ := h1
      obtain ⟨he, hr⟩ := SD.upto_det hr2 (hH _ _ p3 (.inl (by simp)))
      subst hr
      cases o2 with
      | ok o =>
        cases o with
        | some ev2 =>
          obtain ⟨t1, t2, t3⟩ := hm2
          simp only [SD.Res.app, SD.Res.event.injEq] at t3
          obtain ⟨a1, _, a3, a4⟩ := t3
          subst a3
          refine ⟨rfl, he, ?_⟩
          intro x _
          exact ⟨a1, a4.symm, by rw [p2, t2]⟩
        | none =>
          obtain ⟨t1, t2⟩ := hm2
          simp only [SD.Res.app, SD.Res.event.injEq] at t2
          obtain ⟨_, _, a3, _⟩ := t2
          rw [a3, hP] at p1; cases p1
      | err e => rcases hm2 with ⟨_, _, _, h⟩ | h <;> cases h
      | panic => exact hm2.elim
      | diverge => exact hm2.elim
    | none =>
      obtain ⟨p1, p2⟩ := h1
      obtain ⟨he, hr⟩ := SD.upto_det hr2 (hH _ _ p2 (.inl (by simp)))
      subst hr
      cases o2 with
      | ok o =>
        cases o with
        | some ev2 =>
          obtain ⟨t1, t2, t3⟩ := hm2
          simp only [SD.Res.app, SD.Res.event.injEq] at t3
          obtain ⟨_, _, a3, _⟩ := t3
          rw [← a3, hP] at t1; cases t1
        | none =>
          obtain ⟨t1, t2⟩ := hm2
          simp only [SD.Res.app, SD.Res.event.injEq] at t2
          obtain ⟨a1, _, _, a4⟩ := t2
          refine ⟨rfl, he, ?_⟩
          intro x _
          exact ⟨a1, a4.symm, by rw [p1, t1]⟩
      | err e => rcases hm2 with ⟨_, _, _, h⟩ | h <;> cases h
      | panic => exact hm2.elim
      | diverge => exact hm2.elim
  | err e =>
    rcases h1.2 with ⟨c, hc, _⟩ | ⟨q1, q2, q3⟩ | p
    · exact absurd (by rw [hc]) (n1 c)
    · by_cases hq : q = []
      · left
        obtain ⟨he, hr⟩ := SD.upto_det hr2 (hH _ _ q3 (.inr hq))
        subst hr
        cases o2 with
        | ok o =>
          cases o with
          | some ev2 => cases hm2.2.2
          | none => cases hm2.2
        | err e2 =>
          rcases hm2 with ⟨h, _⟩ | h
          · exact ⟨by rw [q1, h], he, by simp⟩
          · cases h
        | panic => exact hm2.elim
        | diverge => exact hm2.elim
      · exact .inr ⟨hq, by rw [q1]⟩
    · left
      obtain ⟨he, hr⟩ := SD.upto_det hr2 (hH _ _ p (.inl (by simp)))
      subst hr
      cases o2 with
      | ok o =>
        cases o with
        | some ev2 => cases hm2.2.2
        | none => cases hm2.2
      | err e2 =>
        rcases hm2 with ⟨_, _, _, h⟩ | h
        · cases h
        · cases h; exact ⟨rfl, he, by simp⟩
      | panic => exact hm2.elim
      | diverge => exact hm2.elim
  | panic => exact h1.elim
  | diverge => exact h1.elim

end RD

namespace Decoder

theorem initRun_reliable {d d' : Decoder C} {out : Outcome Unit} (h : InitRun d d' out) (hc : d.rd.reader.Reliable) :
    d'.rd.reader.Reliable ∧ ∀ c, out ≠ .err (.io (.reader c)) := by
  induction h with
  | step hp hev hr ih => exact ih (RD.pull_reliable hp hc)
  | done hp => exact ⟨RD.pull_reliable hp hc, by simp⟩
  | empty hp => exact ⟨RD.pull_reliable hp hc, by simp [Outcome.fmtErr]⟩
  | err hp =>
    refine ⟨RD.pull_reliable hp hc, ?_⟩
    intro c he
    simp only [Outcome.err.injEq] at he
    exact RD.pull_no_error hp hc c (by rw [he])

theorem frameRun_reliable {d d' : Decoder C} {out : Outcome Bool} (h : FrameRun d d' out) (hc : d.rd.reader.Reliable) :
    d'.rd.reader.Reliable ∧ ∀ c, out ≠ .err (.io (.reader c)) := by
  induction h with
  | step hp hev hr ih => exact ih (RD.pull_reliable hp hc)
  | found hp hf =>
    have h' := RD.pull_reliable hp hc
    exact ⟨h', by intro c; split <;> simp [Outcome.fmtErr]⟩
  | eof hp => exact ⟨RD.pull_reliable hp hc, by simp⟩
  | err hp =>
    refine ⟨RD.pull_reliable hp hc, ?_⟩
    intro c he
    simp only [Outcome.err.injEq] at he
    exact RD.pull_no_error hp hc c (by rw [he])

theorem copyRun_reliable {rd rd' : RD C} {vec vec' : List UInt8} {out : Outcome Unit} (h : CopyRun rd vec rd' vec' out)
    (hc : rd.reader.Reliable) : rd'.reader.Reliable ∧ ∀ c, out ≠ .err (.io (.reader c)) := by
  induction h with
  | step hp hr ih => exact ih (RD.pull_reliable hp hc)
  | done hp => exact ⟨RD.pull_reliable hp hc, by simp⟩
  | other hp => exact ⟨RD.pull_reliable hp hc, by simp [Outcome.fmtErr]⟩
  | err hp =>
    refine ⟨RD.pull_reliable hp hc, ?_⟩
    intro c he
    simp only [Outcome.err.injEq] at he
    exact RD.pull_no_error hp hc c (by rw [he])

/-- Two decoders that differ at most in the schedule of the reads and in `q` more bytes for the second. -/
structure Cut (q : List UInt8) (d1 d2 : Decoder C) : Prop where
  sd : d1.rd.sd = d2.rd.sd
  eof : d1.rd.atEof = d2.rd.atEof
  bytes : d2.rd.reader.bytes = d1.rd.reader.bytes ++ q
  conv : d1.conv = d2.conv
  bg : d1.bgColor = d2.bgColor
  rep : d1.repetition = d2.repetition
  cur : d1.currentFrame = d2.currentFrame
  typ : d1.dataType = d2.dataType
  rel1 : d1.rd.reader.Reliable
  rel2 : d2.rd.reader.Reliable
  inv1 : d1.Inv
  inv2 : d2.Inv

theorem cut_view {q : List UInt8} {d1 d2 : Decoder C} (h : Cut q d1 d2) : d1.view = d2.view := by
  simp only [view, width, height, globalPalette, h.sd, h.conv, h.bg, h.rep, h.cur]

theorem upto_of_cut (hS : C.Safe) {q : List UInt8} {d1 d2 : RD C} (hi : d1.Inv) (hsd : d1.sd = d2.sd)
    (hb : d2.reader.bytes = d1.reader.bytes ++ q) (P : Decoded → Bool) (evs : List Decoded) (r : SD.Res C)
    (h : SD.Upto P d1.sd d1.reader.bytes evs r) (hr : (∀ s acc, r ≠ .more s acc) ∨ q = []) :
    SD.Upto P d2.sd d2.reader.bytes (id evs) (r.app q) := by
  rw [← hsd, hb]
  rcases hr with hr | rfl
  · exact SD.upto_append hS h hi.wf q hr
  · rw [List.append_nil, SD.app_nil]; exact h

theorem atEof_info {d : Decoder C} (h : d.rd.atEof = true) : d.nextFrameInfo = (d, .ok false) := by
  unfold nextFrameInfo RD.eventFuel
  rw [nextFrameLoop]
  have : d.rd.decodeNext .none = (d.rd, .ok none) := by
    unfold RD.decodeNext
    rw [RD.decodeNextLoop, if_pos h]
  rw [this]

/-- `next_frame_info` on two such decoders. -/
theorem cut_info (hS : C.Safe) {q : List UInt8} {d1 d2 : Decoder C} (h : Cut q d1 d2) :
    (d1.nextFrameInfo.2 = d2.nextFrameInfo.2 ∧ ∀ x, d1.nextFrameInfo.2 = .ok x →
      Cut q d1.nextFrameInfo.1 d2.nextFrameInfo.1) ∨
    (q ≠ [] ∧ d1.nextFrameInfo.2 = .ioErr .unexpectedEof) := by
  by_cases he : d1.rd.atEof = true
  · left
    rw [atEof_info he, atEof_info (h.eof ▸ he)]
    exact ⟨rfl, fun _ _ => h⟩
  · have he1 : d1.rd.atEof = false := by simpa using he
    have he2 : d2.rd.atEof = false := by rw [← h.eof]; exact he1
    have r1 := nextFrameInfo_run hS d1 h.inv1.rd
    have r2 := nextFrameInfo_run hS d2 h.inv2.rd
    obtain ⟨l1, n1⟩ := frameRun_reliable r1 h.rel1
    obtain ⟨l2, n2⟩ := frameRun_reliable r2 h.rel2
    have i1 := (inv_nextFrameInfo hS d1 h.inv1).1
    have i2 := (inv_nextFrameInfo hS d2 h.inv2).1
    obtain ⟨evs1, o1, rd1, u1, c1, e1⟩ := frameRun_upto hS r1 h.inv1.rd (Reader.reliable_clean h.rel1) he1
    obtain ⟨evs2, o2, rd2, u2, c2, e2⟩ := frameRun_upto hS r2 h.inv2.rd (Reader.reliable_clean h.rel2) he2
    have m1 : ∀ c, o1 ≠ .err (.io (.reader c)) := by
      intro c ho
      subst ho
      exact n1 c (congrArg Prod.snd e1)
    have m2 : ∀ c, o2 ≠ .err (.io (.reader c)) := by
      intro c ho
      subst ho
      exact n2 c (congrArg Prod.snd e2)
    have hg : d1.globalPalette = d2.globalPalette := by unfold globalPalette; rw [h.conv]
    have key := RD.uptoRes_cmp (upto_of_cut hS h.inv1.rd h.sd h.bytes isMetadata) u1 u2 m1 m2 rfl
    generalize d1.nextFrameInfo = x1 at *
    generalize d2.nextFrameInfo = x2 at *
    obtain ⟨d1', out1⟩ := x1
    obtain ⟨d2', out2⟩ := x2
    simp only at *
    rcases key with ⟨k1, _, k3⟩ | ⟨k1, k2⟩
    · left
      subst k1
      cases o1 with
      | ok x =>
        replace k3 := k3 _ rfl
        obtain ⟨k3, k4, k5⟩ := k3
        cases x with
        | none =>
          simp only [infoOf, Prod.mk.injEq] at e1 e2
          obtain ⟨rfl, rfl⟩ := e1
          obtain ⟨rfl, rfl⟩ := e2
          exact ⟨rfl, fun _ _ => ⟨k3, k5, k4, h.conv, h.bg, h.rep, h.cur, h.typ, l1, l2, i1, i2⟩⟩
        | some ev =>
          cases ev with
          | frameMetadata t =>
            simp only [infoOf] at e1 e2
            rw [← k3] at e2
            split at e1
            · rename_i hn
              simp only [hn, Prod.mk.injEq] at e1 e2
              rw [e1.2, e2.2]
              exact ⟨rfl, by simp⟩
            · rename_i f hf
              simp only [hf, Prod.mk.injEq] at e1 e2
              obtain ⟨rfl, rfl⟩ := e1
              obtain ⟨rfl, rfl⟩ := e2
              rw [hg]
              refine ⟨rfl, fun _ _ => ⟨?_, k5, k4, h.conv, h.bg, h.rep, rfl, rfl, l1, l2, i1, i2⟩⟩
              simp only [withFrame, k3]
          | _ =>
            simp only [infoOf, Prod.mk.injEq] at e1 e2
            rw [e1.2, e2.2]
            exact ⟨rfl, by simp⟩
      | err e =>
        simp only [infoOf, Prod.mk.injEq] at e1 e2
        rw [e1.2, e2.2]
        exact ⟨rfl, by simp⟩
      | panic => exact u1.elim
      | diverge => exact u1.elim
    · right
      subst k2
      simp only [infoOf, Prod.mk.injEq] at e1
      exact ⟨k1, e1.2⟩

/-- Copying raw data on two such decoders. -/
theorem cut_copy (hS : C.Safe) {q vec vec1 vec2 : List UInt8} {rd1 rd1' rd2 rd2' : RD C} {o1 o2 : Outcome Unit}
    (w1 : CopyRun rd1 vec rd1' vec1 o1) (w2 : CopyRun rd2 vec rd2' vec2 o2)
    (hsd : rd1.sd = rd2.sd) (hb : rd2.reader.bytes = rd1.reader.bytes ++ q)
    (he1 : rd1.atEof = false) (he2 : rd2.atEof = false) (hi1 : rd1.Inv) (hi2 : rd2.Inv)
    (hr1 : rd1.reader.Reliable) (hr2 : rd2.reader.Reliable) :
    (o1 = o2 ∧ (o1 = .ok () → rd1'.sd = rd2'.sd ∧ vec1 = vec2 ∧ rd2'.reader.bytes = rd1'.reader.bytes ++ q ∧
      rd1'.atEof = false ∧ rd2'.atEof = false)) ∨
    (q ≠ [] ∧ o1 = .ioErr .unexpectedEof) := by
  obtain ⟨c1, p1⟩ := copyRun_eval hS w1 hi1 (Reader.reliable_clean hr1) he1
  obtain ⟨c2, p2⟩ := copyRun_eval hS w2 hi2 (Reader.reliable_clean hr2) he2
  obtain ⟨_, n1⟩ := copyRun_reliable w1 hr1
  obtain ⟨_, n2⟩ := copyRun_reliable w2 hr2
  have lift : ∀ r, SD.Eval true rd1.sd vec rd1.reader.bytes r → ((∀ s acc, r ≠ .more s acc) ∨ q = []) →
      SD.Eval true rd2.sd vec rd2.reader.bytes (r.app q) := by
    intro r h hr
    rw [← hsd, hb]
    rcases hr with hr | rfl
    · exact SD.eval_append hS h hi1.wf q hr
    · rw [List.append_nil, SD.app_nil]; exact h
  have p2' : ∃ r2, SD.Eval true rd2.sd vec rd2.reader.bytes r2 ∧
      (match o2 with
        | .ok () => rd2'.atEof = false ∧ r2 = .event rd2'.sd vec2 .dataEnd rd2'.reader.bytes
        | .err e => (e = .io .unexpectedEof ∧ ∃ s acc, r2 = .more s acc) ∨
            (e = .format .unexpectedData ∧ ∃ s acc ev rest, ev ≠ .dataEnd ∧ r2 = .event s acc ev rest) ∨ r2 = .err e
        | _ => False) := by
    cases o2 with
    | ok u => exact ⟨_, p2.2, p2.1, rfl⟩
    | err e =>
      rcases p2 with ⟨c, hc⟩ | ⟨h, _, s, hs⟩ | ⟨h, s, acc, ev, rest, hev, hs⟩ | h
      · exact absurd (by rw [hc]) (n2 c)
      · exact ⟨_, hs, .inl ⟨h, _, _, rfl⟩⟩
      · exact ⟨_, hs, .inr (.inl ⟨h, _, _, _, _, hev, rfl⟩)⟩
      · exact ⟨_, h, .inr (.inr rfl)⟩
    | panic => exact p2.elim
    | diverge => exact p2.elim
  obtain ⟨r2, hr2, hm2⟩ := p2'
  cases o1 with
  | ok u =>
    left
    have hr := SD.eval_det hr2 (lift _ p1.2 (.inl (by simp)))
    subst hr
    cases o2 with
    | ok u2 =>
      obtain ⟨t1, t2⟩ := hm2
      simp only [SD.Res.app, SD.Res.event.injEq] at t2
      obtain ⟨a1, a2, _, a4⟩ := t2
      exact ⟨rfl, fun _ => ⟨a1, a2, a4.symm, p1.1, t1⟩⟩
    | err e =>
      rcases hm2 with ⟨_, _, _, h⟩ | ⟨_, _, _, _, _, hev, h⟩ | h
      · cases h
      · simp only [SD.Res.app, SD.Res.event.injEq] at h
        exact absurd h.2.2.1.symm hev
      · cases h
    | panic => exact hm2.elim
    | diverge => exact hm2.elim
  | err e =>
    rcases p1 with ⟨c, hc⟩ | ⟨h, _, s, hs⟩ | ⟨h, s, acc, ev, rest, hev, hs⟩ | h
    · exact absurd (by rw [hc]) (n1 c)
    · by_cases hq : q = []
      · left
        have hr := SD.eval_det hr2 (lift _ hs (.inr hq))
        subst hr
        cases o2 with
        | ok u2 => cases hm2.2
        | err e2 =>
          rcases hm2 with ⟨h', _, _, _⟩ | ⟨_, _, _, _, _, _, h'⟩ | h'
          · exact ⟨by rw [h, h'], by simp⟩
          · cases h'
          · cases h'
        | panic => exact hm2.elim
        | diverge => exact hm2.elim
      · exact .inr ⟨hq, by rw [h]⟩
    · left
      have hr := SD.eval_det hr2 (lift _ hs (.inl (by simp)))
      subst hr
      cases o2 with
      | ok u2 =>
        have h' := hm2.2
        simp only [SD.Res.app, SD.Res.event.injEq] at h'
        exact absurd h'.2.2.1 hev
      | err e2 =>
        rcases hm2 with ⟨_, _, _, h'⟩ | ⟨h', _⟩ | h'
        · cases h'
        · exact ⟨by rw [h, h'], by simp⟩
        · cases h'
      | panic => exact hm2.elim
      | diverge => exact hm2.elim
    · left
      have hr := SD.eval_det hr2 (lift _ h (.inl (by simp)))
      subst hr
      cases o2 with
      | ok u2 => cases hm2.2
      | err e2 =>
        rcases hm2 with ⟨_, _, _, h'⟩ | ⟨_, _, _, _, _, _, h'⟩ | h'
        · cases h'
        · cases h'
        · cases h'; exact ⟨rfl, by simp⟩
      | panic => exact hm2.elim
      | diverge => exact hm2.elim
  | panic => exact p1.elim
  | diverge => exact p1.elim

/-- After a frame was found the stream is in its image data, which is raw exactly in the raw mode. -/
theorem info_found (hS : C.Safe) {d : Decoder C} (hi : d.Inv) (h : d.nextFrameInfo.2 = .ok true) :
    d.nextFrameInfo.1.rd.atEof = false ∧
      ((∃ left, d.nextFrameInfo.1.rd.sd.state = .decodeSubBlock left ∧ d.nextFrameInfo.1.dataType = .pixels) ∨
      (∃ left m, d.nextFrameInfo.1.rd.sd.state = .copySubBlock left ∧ d.nextFrameInfo.1.dataType = .lzw m)) := by
  have hr := nextFrameInfo_run hS d hi.rd
  generalize hx : d.nextFrameInfo = x at *
  obtain ⟨d', out⟩ := x
  simp only at *
  clear hx
  have hi' := hi.rd
  clear hi
  induction hr with
  | step hp hev hr ih => exact ih h (RD.pull_inv hS hp hi')
  | found hp hc =>
    obtain ⟨s1, b, bs, n, hw, _, _, htr, ho, _⟩ := RD.pull_last hS hp hi' rfl
    obtain ⟨_, ⟨left, g1, g2⟩ | ⟨left, m, g1, g2, _⟩⟩ := SD.tr_metadata htr hw
    · exact ⟨ho, .inl ⟨left, g1, g2⟩⟩
    · exact ⟨ho, .inr ⟨left, m, g1, g2⟩⟩
  | eof => cases h
  | err => cases h

theorem skip_dataType (hS : C.Safe) {d : Decoder C} (hi : d.Inv) (hk : d.rd.sd.skipFrameDecoding = true)
    (h : d.nextFrameInfo.2 = .ok true) : ∃ m, d.nextFrameInfo.1.dataType = .lzw m := by
  obtain ⟨_, ⟨left, g1, g2⟩ | ⟨left, m, g1, g2⟩⟩ := info_found hS hi h
  · obtain ⟨_, _, ho, _⟩ := frameRun_spec hS (nextFrameInfo_run hS d hi.rd) hi.rd
    have w := (inv_nextFrameInfo hS d hi).1.rd.wf.st
    simp only [SD.opts, Prod.mk.injEq] at ho
    rw [← ho.1] at hk
    simp only [SD.stOk, g1] at w
    rw [hk] at w
    simp at w
  · exact ⟨m, g2⟩

/-- `read_next_frame` in raw mode on two decoders as above. -/
theorem cut_read (hS : C.Safe) {q : List UInt8} {d1 d2 : Decoder C} (h : Cut q d1 d2)
    (hk : d1.rd.sd.skipFrameDecoding = true) :
    (d1.readNextFrame.2 = d2.readNextFrame.2 ∧ ∀ x, d1.readNextFrame.2 = .ok x →
      Cut q d1.readNextFrame.1 d2.readNextFrame.1) ∨
    (q ≠ [] ∧ d1.readNextFrame.2 = .ioErr .unexpectedEof) := by
  have hinfo := cut_info hS h
  have hk2 : d2.rd.sd.skipFrameDecoding = true := by rw [← h.sd]; exact hk
  have t1 := skip_dataType hS h.inv1 hk
  have t2 := skip_dataType hS h.inv2 hk2
  have f1 := info_found hS h.inv1
  have f2 := info_found hS h.inv2
  have j1 := (readNextFrame_spec hS d1 h.inv1).1
  have j2 := (readNextFrame_spec hS d2 h.inv2).1
  unfold readNextFrame at j1 j2 ⊢
  generalize d1.nextFrameInfo = x1 at *
  generalize d2.nextFrameInfo = x2 at *
  obtain ⟨d1', out1⟩ := x1
  obtain ⟨d2', out2⟩ := x2
  simp only at *
  rcases hinfo with ⟨ho, hc⟩ | ⟨hq, ho⟩
  · subst ho
    cases out1 with
    | ok b =>
      replace hc := hc _ rfl
      cases b with
      | false => exact .inl ⟨rfl, fun _ _ => hc⟩
      | true =>
        obtain ⟨m, hm1⟩ := t1 rfl
        have hm2 : d2'.dataType = .lzw m := by rw [← hc.typ]; exact hm1
        have r1 := copyLoop_run hS _ d1'.rd [m] hc.inv1.rd (meas_lt_fuel _)
        have r2 := copyLoop_run hS _ d2'.rd [m] hc.inv2.rd (meas_lt_fuel _)
        have l1 := (copyRun_reliable r1 hc.rel1).1
        have l2 := (copyRun_reliable r2 hc.rel2).1
        have key := cut_copy hS r1 r2 hc.sd hc.bytes (f1 rfl).1 (f2 rfl).1 hc.inv1.rd hc.inv2.rd hc.rel1 hc.rel2
        have c1 : copyLzw m d1'.rd = copyLoop d1'.rd.eventFuel d1'.rd [m] := rfl
        have c2 : copyLzw m d2'.rd = copyLoop d2'.rd.eventFuel d2'.rd [m] := rfl
        simp only [hm1, hm2, c1, c2] at j1 j2 ⊢
        rw [← hc.cur] at j2 ⊢
        generalize copyLoop d1'.rd.eventFuel d1'.rd [m] = y1 at *
        generalize copyLoop d2'.rd.eventFuel d2'.rd [m] = y2 at *
        obtain ⟨rd1, vec1, o1⟩ := y1
        obtain ⟨rd2, vec2, o2⟩ := y2
        simp only at *
        rcases key with ⟨rfl, key⟩ | ⟨hq, rfl⟩
        · left
          cases o1 with
          | ok u =>
            obtain ⟨k1, rfl, k3, k4, k5⟩ := key rfl
            refine ⟨rfl, fun _ _ => ⟨k1, by rw [k4, k5], k3, hc.conv, hc.bg, hc.rep, rfl, by first | rfl | exact hm1.trans hm2.symm, l1, l2, j1, j2⟩⟩
          | err e => exact ⟨rfl, by simp⟩
          | panic => exact ⟨rfl, by simp⟩
          | diverge => exact ⟨rfl, by simp⟩
        · exact .inr ⟨hq, rfl⟩
    | err e => exact .inl ⟨rfl, by simp⟩
    | panic => exact .inl ⟨rfl, by simp⟩
    | diverge => exact .inl ⟨rfl, by simp⟩
  · subst ho
    exact .inr ⟨hq, rfl⟩

/-- One call on two such decoders. -/
theorem cut_see (hS : C.Safe) {q : List UInt8} {d1 d2 : Decoder C} (h : Cut q d1 d2) (c : Call)
    (hc : c = .info ∨ d1.rd.sd.skipFrameDecoding = true) :
    ((d1.see c).1 = (d2.see c).1 ∧
      (((d1.see c).2 = none ∧ (d2.see c).2 = none) ∨
        ∃ d1' d2', (d1.see c).2 = some d1' ∧ (d2.see c).2 = some d2' ∧ Cut q d1' d2' ∧
          d1'.rd.sd.skipFrameDecoding = d1.rd.sd.skipFrameDecoding)) ∨
    (q ≠ [] ∧ (d1.see c) = (.failed (.io .unexpectedEof), none)) := by
  cases c with
  | info =>
    have key := cut_info hS h
    obtain ⟨_, hr, ho, _⟩ := frameRun_spec hS (nextFrameInfo_run hS d1 h.inv1.rd) h.inv1.rd
    simp only [SD.opts, Prod.mk.injEq] at ho
    simp only [see]
    generalize d1.nextFrameInfo = x1 at *
    generalize d2.nextFrameInfo = x2 at *
    obtain ⟨d1', out1⟩ := x1
    obtain ⟨d2', out2⟩ := x2
    simp only at *
    rcases key with ⟨rfl, k⟩ | ⟨hq, rfl⟩
    · left
      cases out1 with
      | ok b =>
        replace k := k _ rfl
        exact ⟨by simp only [cut_view k], .inr ⟨_, _, rfl, rfl, k, ho.1⟩⟩
      | err e => exact ⟨rfl, .inl ⟨rfl, rfl⟩⟩
      | panic => cases hr
      | diverge => cases hr
    · exact .inr ⟨hq, rfl⟩
  | read =>
    have hk : d1.rd.sd.skipFrameDecoding = true := by
      rcases hc with h | h
      · cases h
      · exact h
    have key := cut_read hS h hk
    have ho := readNextFrame_opts hS d1 h.inv1
    simp only [SD.opts, Prod.mk.injEq] at ho
    obtain ⟨_, hr, _⟩ := readNextFrame_spec hS d1 h.inv1
    simp only [see]
    generalize d1.readNextFrame = x1 at *
    generalize d2.readNextFrame = x2 at *
    obtain ⟨d1', out1⟩ := x1
    obtain ⟨d2', out2⟩ := x2
    simp only at *
    rcases key with ⟨rfl, k⟩ | ⟨hq, rfl⟩
    · left
      cases out1 with
      | ok b =>
        replace k := k _ rfl
        exact ⟨by simp only [cut_view k], .inr ⟨_, _, rfl, rfl, k, ho.1⟩⟩
      | err e => exact ⟨rfl, .inl ⟨rfl, rfl⟩⟩
      | panic => cases hr
      | diverge => cases hr
    · exact .inr ⟨hq, rfl⟩

/-- Sessions on two such decoders. -/
theorem cut_session (hS : C.Safe) {q : List UInt8} : ∀ (cs : List Call) {d1 d2 : Decoder C}, Cut q d1 d2 →
    ((∀ c ∈ cs, c = .info) ∨ d1.rd.sd.skipFrameDecoding = true) →
    session cs d1 = session cs d2 ∨
      (q ≠ [] ∧ ∃ k, session cs d1 = (session cs d2).take k ++ [.failed (.io .unexpectedEof)] ∧
        k < (session cs d2).length) := by
  intro cs
  induction cs with
  | nil => intro d1 d2 _ _; exact .inl rfl
  | cons c cs ih =>
    intro d1 d2 h hc
    have hc1 : c = .info ∨ d1.rd.sd.skipFrameDecoding = true := by
      rcases hc with h | h
      · exact .inl (h c List.mem_cons_self)
      · exact .inr h
    have key := cut_see hS h c hc1
    simp only [session]
    generalize d1.see c = x1 at *
    generalize d2.see c = x2 at *
    obtain ⟨s1, o1⟩ := x1
    obtain ⟨s2, o2⟩ := x2
    simp only at *
    rcases key with ⟨rfl, ⟨rfl, rfl⟩ | ⟨d1', d2', rfl, rfl, k, hk⟩⟩ | ⟨hq, hx⟩
    · exact .inl rfl
    · have hc' : (∀ c ∈ cs, c = .info) ∨ d1'.rd.sd.skipFrameDecoding = true := by
        rcases hc with h | h
        · exact .inl fun c hc => h c (List.mem_cons_of_mem _ hc)
        · exact .inr (hk.trans h)
      rcases ih k hc' with he | ⟨hq, n, hn, hl⟩
      · exact .inl (by simp only [he])
      · exact .inr ⟨hq, n + 1, by simp only [hn, List.take_succ_cons, List.cons_append], by simpa using hl⟩
    · simp only [Prod.mk.injEq] at hx
      obtain ⟨rfl, rfl⟩ := hx
      refine .inr ⟨hq, 0, by simp, ?_⟩
      cases o2 <;> simp

/-- `read_info` on two readers, the second with more bytes. -/
theorem cut_readInfo (hS : C.Safe) (o : DecodeOptions) {q : List UInt8} {r1 r2 : Reader} (h1 : r1.Reliable) (h2 : r2.Reliable)
    (hb : r2.bytes = r1.bytes ++ q) :
    ((readInfo C o r1).2 = (readInfo C o r2).2 ∧
      ((readInfo C o r1).2 = .ok () → Cut q (readInfo C o r1).1 (readInfo C o r2).1)) ∨
    (q ≠ [] ∧ (readInfo C o r1).2 = .ioErr .unexpectedEof) := by
  have iv1 := inv_readInfo (C := C) hS o r1
  have iv2 := inv_readInfo (C := C) hS o r2
  have i1 := inv_withNoInit (C := C) o r1
  have i2 := inv_withNoInit (C := C) o r2
  unfold readInfo init at *
  have w1 := initLoop_run hS _ (withNoInit C o r1) i1.rd (meas_lt_fuel _)
  have w2 := initLoop_run hS _ (withNoInit C o r2) i2.rd (meas_lt_fuel _)
  obtain ⟨l1, n1⟩ := initRun_reliable w1 h1
  obtain ⟨l2, n2⟩ := initRun_reliable w2 h2
  obtain ⟨evs1, o1, u1, e1, _, f1⟩ := initRun_upto hS w1 i1.rd (Reader.reliable_clean h1) rfl
  obtain ⟨evs2, o2, u2, e2, _, f2⟩ := initRun_upto hS w2 i2.rd (Reader.reliable_clean h2) rfl
  generalize initLoop (withNoInit C o r1).rd.eventFuel (withNoInit C o r1) = x1 at *
  generalize initLoop (withNoInit C o r2).rd.eventFuel (withNoInit C o r2) = x2 at *
  obtain ⟨d1, out1⟩ := x1
  obtain ⟨d2, out2⟩ := x2
  simp only at *
  have m1 : ∀ c, o1 ≠ .err (.io (.reader c)) := by
    intro c ho; subst ho; exact n1 c f1
  have m2 : ∀ c, o2 ≠ .err (.io (.reader c)) := by
    intro c ho; subst ho; exact n2 c f2
  have key := RD.uptoRes_cmp (q := q) (upto_of_cut hS (d1 := (withNoInit C o r1).rd) (d2 := (withNoInit C o r2).rd) i1.rd rfl hb isHeaderEnd) u1 u2 m1 m2 rfl
  have hfold : evs1.foldl onEvent (withNoInit C o r2) =
      { evs1.foldl onEvent (withNoInit C o r1) with rd := (withNoInit C o r2).rd } :=
    foldl_rd evs1 (withNoInit C o r1) (withNoInit C o r2).rd
  have hrd : ∀ (evs : List Decoded) (d : Decoder C), (evs.foldl onEvent d).rd = d.rd := by
    intro evs
    induction evs with
    | nil => intro d; rfl
    | cons ev evs ih => intro d; rw [List.foldl_cons, ih]; cases ev <;> rfl
  rcases key with ⟨rfl, rfl, k⟩ | ⟨hq, rfl⟩
  · left
    rw [← f1] at f2
    subst f2
    cases out2 with
    | ok u =>
      refine ⟨rfl, fun _ => ?_⟩
      have hx : ∃ x, o1 = .ok x := by
        cases o1 with
        | ok x => exact ⟨x, rfl⟩
        | _ => cases f1
      obtain ⟨x, rfl⟩ := hx
      obtain ⟨k1, k2, k3⟩ := k x rfl
      simp only [id_eq] at e1 e2 hfold
      rw [hfold] at e2
      have hd : d2 = { d1 with rd := d2.rd } := by rw [e2, e1]
      have hbg : ∀ (a : Decoder C) (rd : RD C), ({ a with rd := rd } : Decoder C).checkBg = { a.checkBg with rd := rd } := by
        rintro ⟨rd0, conv, bg, rep, cur, typ⟩ rd
        simp only [checkBg]
        cases conv.globalPalette with
        | none => rfl
        | some p => simp only; split <;> rfl
      have hbr : ∀ (a : Decoder C), a.checkBg.rd = a.rd := by
        intro a; unfold checkBg; split <;> (try split) <;> rfl
      have hd2 : d2.checkBg = { d1.checkBg with rd := d2.rd } := by rw [hd, hbg]
      refine ⟨?_, ?_, ?_, ?_, ?_, ?_, ?_, ?_, ?_, ?_, iv1.1, iv2.1⟩
      · rw [hbr, hbr]; exact k1
      · rw [hbr, hbr]; exact k3
      · rw [hbr, hbr]; exact k2
      · show d1.checkBg.conv = d2.checkBg.conv
        rw [hd2]
      · show d1.checkBg.bgColor = d2.checkBg.bgColor
        rw [hd2]
      · show d1.checkBg.repetition = d2.checkBg.repetition
        rw [hd2]
      · show d1.checkBg.currentFrame = d2.checkBg.currentFrame
        rw [hd2]
      · show d1.checkBg.dataType = d2.checkBg.dataType
        rw [hd2]
      · rw [hbr]; exact l1
      · rw [hbr]; exact l2
    | err e => exact ⟨rfl, by simp⟩
    | panic => exact ⟨rfl, by simp⟩
    | diverge => exact ⟨rfl, by simp⟩
  · right
    subst f1
    exact ⟨hq, rfl⟩

/-- Whole sessions over readers of which the second has more bytes. -/
theorem cut_sessionFrom (hS : C.Safe) (o : DecodeOptions) {q : List UInt8} {r1 r2 : Reader} (h1 : r1.Reliable) (h2 : r2.Reliable)
    (hb : r2.bytes = r1.bytes ++ q) (cs : List Call) (hc : (∀ c ∈ cs, c = .info) ∨ o.skipFrameDecoding = true) :
    sessionFrom C o r1 cs = sessionFrom C o r2 cs ∨
      (q ≠ [] ∧ ∃ k, sessionFrom C o r1 cs = (sessionFrom C o r2 cs).take k ++ [.failed (.io .unexpectedEof)] ∧
        k < (sessionFrom C o r2 cs).length) := by
  have key := cut_readInfo (C := C) hS o h1 h2 hb
  have hr := (inv_readInfo (C := C) hS o r1).2
  have ho : (readInfo C o r1).1.rd.sd.skipFrameDecoding = o.skipFrameDecoding := readInfo_skip hS o r1
  unfold sessionFrom
  generalize readInfo C o r1 = x1 at *
  generalize readInfo C o r2 = x2 at *
  obtain ⟨d1, out1⟩ := x1
  obtain ⟨d2, out2⟩ := x2
  simp only at *
  rcases key with ⟨rfl, k⟩ | ⟨hq, rfl⟩
  · cases out1 with
    | ok u =>
      replace k := k rfl
      simp only
      rcases cut_session hS cs k (by rw [ho]; exact hc) with he | ⟨hq, n, hn, hl⟩
      · exact .inl (by rw [he, cut_view k])
      · exact .inr ⟨hq, n + 1, by rw [hn, cut_view k, List.take_succ_cons, List.cons_append], by simpa using hl⟩
    | err e => exact .inl rfl
    | panic => cases hr
    | diverge => cases hr
  · refine .inr ⟨hq, 0, by simp, ?_⟩
    split <;> simp

/-! ## C01, C02, C08 -/

/-- C01: whatever the file and the options, all that is seen of opening the file and scanning it does not depend on how the
reader splits the bytes. -/
theorem metadata_chunk_invariant (hS : C.Safe) (o : DecodeOptions) (r1 r2 : Reader) (h1 : r1.Reliable) (h2 : r2.Reliable)
    (hb : r1.bytes = r2.bytes) (n : Nat) :
    sessionFrom C o r1 (List.replicate n .info) = sessionFrom C o r2 (List.replicate n .info) := by
  rcases cut_sessionFrom (C := C) hS o (q := []) h1 h2 (by rw [hb, List.append_nil]) (List.replicate n .info)
    (.inl (fun c hc => (List.mem_replicate.1 hc).2)) with h | ⟨h, _⟩
  · exact h
  · exact absurd rfl h

/-- C02: the same for raw frames, in any mixture of `next_frame_info` and `read_next_frame` calls. -/
theorem raw_chunk_invariant (hS : C.Safe) (o : DecodeOptions) (ho : o.skipFrameDecoding = true) (r1 r2 : Reader)
    (h1 : r1.Reliable) (h2 : r2.Reliable) (hb : r1.bytes = r2.bytes) (cs : List Call) :
    sessionFrom C o r1 cs = sessionFrom C o r2 cs := by
  rcases cut_sessionFrom (C := C) hS o (q := []) h1 h2 (by rw [hb, List.append_nil]) cs (.inr ho) with h | ⟨h, _⟩
  · exact h
  · exact absurd rfl h

/-- C08, for metadata and raw frames (pixels are missing): if the file is cut anywhere, the session sees the beginning of
what it sees with the whole file and then `UnexpectedEof`, or it sees the same to its end. -/
theorem truncated_prefix_partial (hS : C.Safe) (o : DecodeOptions) (r1 r2 : Reader) (h1 : r1.Reliable) (h2 : r2.Reliable)
    (hb : r1.bytes <+: r2.bytes) (cs : List Call) (hc : (∀ c ∈ cs, c = .info) ∨ o.skipFrameDecoding = true) :
    sessionFrom C o r1 cs = sessionFrom C o r2 cs ∨
      ∃ k, k < (sessionFrom C o r2 cs).length ∧
        sessionFrom C o r1 cs = (sessionFrom C o r2 cs).take k ++ [.failed (.io .unexpectedEof)] := by
  obtain ⟨q, hq⟩ := hb
  rcases cut_sessionFrom (C := C) hS o h1 h2 hq.symm cs hc with h | ⟨_, k, h, hk⟩
  · exact .inl h
  · exact .inr ⟨k, hk, h⟩

/-! ## C41 -/

end Decoder

namespace Reader

theorem errors_fill_ok {r r' : Reader} {l : List UInt8} (h : r.fillBuf = (r', .ok l)) : r'.errors = r.errors := by
  unfold fillBuf at h
  split at h
  · cases h; rfl
  · split at h
    · cases h; rfl
    · rename_i hs; cases h; simp [errors, hs]
    · cases h

theorem errors_fill_err {r r' : Reader} {e : Nat} (h : r.fillBuf = (r', .error e)) : r.errors = e :: r'.errors := by
  unfold fillBuf at h
  split at h
  · cases h
  · split at h
    · cases h
    · cases h
    · rename_i hs; cases h; simp [errors, hs]

end Reader

namespace RD

theorem pull_errors {o : OutSpec} {d d' : RD C} {out : Outcome (Option Decoded)} (h : Pull o d d' out) :
    (∀ c, out = .err (.io (.reader c)) → d.reader.errors = c :: d'.reader.errors) ∧
    ((∀ c, out ≠ .err (.io (.reader c))) → d.reader.errors = d'.reader.errors) := by
  induction h with
  | eof => exact ⟨by simp, fun _ => rfl⟩
  | readErr h hf => exact ⟨fun c hc => by cases hc; exact Reader.errors_fill_err hf, fun h => absurd rfl (h _)⟩
  | eos h hf => exact ⟨by simp [Outcome.ioErr], fun _ => (Reader.errors_fill_ok hf).symm⟩
  | @more d d' r b bs s1 out h hf hs hp ih =>
    have h1 := Reader.errors_fill_ok hf
    have : ({ r with buf := [] } : Reader).errors = d.reader.errors := h1
    simp only [this] at ih
    exact ih
  | event h hf => exact ⟨by simp, fun _ => (Reader.errors_fill_ok hf).symm⟩
  | trailer h hf => exact ⟨by simp, fun _ => (Reader.errors_fill_ok hf).symm⟩
  | err h hf hs hn =>
    refine ⟨fun c hc => ?_, fun _ => (Reader.errors_fill_ok hf).symm⟩
    cases hc
    exact (SD.nextState_err_not_reader hn).elim

end RD

namespace Decoder

theorem info_errors (hS : C.Safe) (d : Decoder C) (hi : d.Inv) :
    (∀ c, d.nextFrameInfo.2 = .err (.io (.reader c)) →
      d.rd.reader.errors = c :: d.nextFrameInfo.1.rd.reader.errors) ∧
    ((∀ c, d.nextFrameInfo.2 ≠ .err (.io (.reader c))) → d.rd.reader.errors = d.nextFrameInfo.1.rd.reader.errors) := by
  have hr := nextFrameInfo_run hS d hi.rd
  generalize d.nextFrameInfo = x at *
  obtain ⟨d', out⟩ := x
  simp only at *
  have hi' := hi.rd
  clear hi
  induction hr with
  | @step d d' rd ev out hp hev hr ih =>
    have := ih (RD.pull_inv hS hp hi')
    rw [(RD.pull_errors hp).2 (by simp)]
    exact this
  | @found d rd t f hp hc =>
    have := (RD.pull_errors hp).2 (by simp)
    refine ⟨?_, fun _ => this⟩
    intro c h
    split at h <;> cases h
  | eof hp => exact ⟨by simp, fun _ => (RD.pull_errors hp).2 (by simp)⟩
  | err hp =>
    refine ⟨fun c h => (RD.pull_errors hp).1 c (by cases h; rfl), fun h => (RD.pull_errors hp).2 ?_⟩
    intro c hc
    cases hc
    exact h c rfl

/-- The first decoder lags behind the second by read errors only. -/
structure Behind (d1 d2 : Decoder C) : Prop where
  eof : d1.rd.atEof = d2.rd.atEof
  ended : d1.rd.atEof = true → d1.rd.sd = d2.rd.sd
  run : ∃ pre, ∀ evs r, SD.Upto isMetadata d1.rd.sd d1.rd.reader.bytes evs r →
    SD.Upto isMetadata d2.rd.sd d2.rd.reader.bytes (pre ++ evs) r
  conv : d1.conv = d2.conv
  bg : d1.bgColor = d2.bgColor
  rep : d1.repetition = d2.repetition
  cur : d1.currentFrame = d2.currentFrame
  typ : d1.dataType = d2.dataType
  clean : d1.rd.reader.Clean
  rel : d2.rd.reader.Reliable
  inv1 : d1.Inv
  inv2 : d2.Inv

theorem behind_info (hS : C.Safe) {d1 d2 : Decoder C} (h : Behind d1 d2) :
    ((∃ c, d1.nextFrameInfo.2 = .err (.io (.reader c))) ∧ Behind d1.nextFrameInfo.1 d2) ∨
    ((∀ c, d1.nextFrameInfo.2 ≠ .err (.io (.reader c))) ∧ d1.nextFrameInfo.2 = d2.nextFrameInfo.2 ∧
      ∀ x, d1.nextFrameInfo.2 = .ok x → Behind d1.nextFrameInfo.1 d2.nextFrameInfo.1 ∧
        d1.nextFrameInfo.1.view = d2.nextFrameInfo.1.view) := by
  by_cases he : d1.rd.atEof = true
  · right
    rw [atEof_info he, atEof_info (h.eof ▸ he)]
    refine ⟨by simp, rfl, fun _ _ => ⟨h, ?_⟩⟩
    simp only [view, width, height, globalPalette, h.ended he, h.conv, h.bg, h.rep, h.cur]
  · have he1 : d1.rd.atEof = false := by simpa using he
    have he2 : d2.rd.atEof = false := by rw [← h.eof]; exact he1
    have r1 := nextFrameInfo_run hS d1 h.inv1.rd
    have r2 := nextFrameInfo_run hS d2 h.inv2.rd
    obtain ⟨l2, n2⟩ := frameRun_reliable r2 h.rel
    have i1 := (inv_nextFrameInfo hS d1 h.inv1).1
    have i2 := (inv_nextFrameInfo hS d2 h.inv2).1
    obtain ⟨evs1, o1, rd1, u1, c1, e1⟩ := frameRun_upto hS r1 h.inv1.rd h.clean he1
    obtain ⟨evs2, o2, rd2, u2, c2, e2⟩ := frameRun_upto hS r2 h.inv2.rd (Reader.reliable_clean h.rel) he2
    have m2 : ∀ c, o2 ≠ .err (.io (.reader c)) := by
      intro c ho
      subst ho
      exact n2 c (congrArg Prod.snd e2)
    have hg : d1.globalPalette = d2.globalPalette := by unfold globalPalette; rw [h.conv]
    obtain ⟨pre, hpre⟩ := h.run
    generalize d1.nextFrameInfo = x1 at *
    generalize d2.nextFrameInfo = x2 at *
    obtain ⟨d1', out1⟩ := x1
    obtain ⟨d2', out2⟩ := x2
    simp only at *
    by_cases hread : ∃ c, o1 = .err (.io (.reader c))
    · left
      obtain ⟨c, rfl⟩ := hread
      simp only [infoOf, Prod.mk.injEq] at e1
      obtain ⟨rfl, rfl⟩ := e1
      refine ⟨⟨c, rfl⟩, ?_⟩
      obtain ⟨v1, v2⟩ := u1
      refine ⟨v1.trans he2.symm, fun hx => (by rw [v1] at hx; cases hx), ?_, h.conv, h.bg, h.rep, h.cur, h.typ, c1, h.rel,
        i1, h.inv2⟩
      rcases v2 with ⟨c', _, v⟩ | ⟨v, _⟩ | v
      · refine ⟨pre ++ evs1, fun evs r hr => ?_⟩
        rw [List.append_assoc]
        exact hpre _ _ (v _ _ hr)
      · cases v
      · exact (SD.upto_not_reader v rfl).elim
    · right
      have m1 : ∀ c, o1 ≠ .err (.io (.reader c)) := fun c hc => hread ⟨c, hc⟩
      have key := RD.uptoRes_cmp (q := []) (f := (pre ++ ·))
        (fun evs r hr _ => by rw [SD.app_nil]; exact hpre _ _ hr) u1 u2 m1 m2 rfl
      rcases key with ⟨k1, _, k3⟩ | ⟨k1, k2⟩
      · subst k1
        have same : ∀ {a b : RD C}, a.sd = b.sd → b.reader.bytes = a.reader.bytes ++ [] →
            ∃ pre, ∀ evs r, SD.Upto isMetadata a.sd a.reader.bytes evs r →
              SD.Upto isMetadata b.sd b.reader.bytes (pre ++ evs) r := by
          intro a b h1 h2
          rw [List.append_nil] at h2
          exact ⟨[], fun evs r hr => by rw [← h1, h2]; exact hr⟩
        cases o1 with
        | ok x =>
          replace k3 := k3 _ rfl
          obtain ⟨k3, k4, k5⟩ := k3
          cases x with
          | none =>
            simp only [infoOf, Prod.mk.injEq] at e1 e2
            obtain ⟨rfl, rfl⟩ := e1
            obtain ⟨rfl, rfl⟩ := e2
            refine ⟨by simp, rfl, fun _ _ => ⟨⟨k5, fun _ => k3, same k3 k4, h.conv, h.bg, h.rep, h.cur, h.typ, c1, l2, i1, i2⟩, ?_⟩⟩
            simp only [view, width, height, globalPalette, k3, h.conv, h.bg, h.rep, h.cur]
          | some ev =>
            cases ev with
            | frameMetadata t =>
              simp only [infoOf] at e1 e2
              rw [← k3] at e2
              split at e1
              · rename_i hn
                simp only [hn, Prod.mk.injEq] at e1 e2
                rw [e1.2, e2.2]
                exact ⟨by simp, rfl, by simp⟩
              · rename_i f hf
                simp only [hf, Prod.mk.injEq] at e1 e2
                obtain ⟨rfl, rfl⟩ := e1
                obtain ⟨rfl, rfl⟩ := e2
                rw [hg]
                refine ⟨?_, rfl, fun _ _ => ⟨⟨k5, fun _ => ?_, ?_, h.conv, h.bg, h.rep, rfl, rfl, c1, l2, i1, i2⟩, ?_⟩⟩
                · intro c; split <;> simp [Outcome.fmtErr]
                · simp only [withFrame, k3]
                · refine same ?_ k4
                  simp only [withFrame, k3]
                · simp only [view, withFrame, width, height, globalPalette, k3, h.conv, h.bg, h.rep]
            | _ =>
              simp only [infoOf, Prod.mk.injEq] at e1 e2
              rw [e1.2, e2.2]
              exact ⟨by simp, rfl, by simp⟩
        | err e =>
          simp only [infoOf, Prod.mk.injEq] at e1 e2
          rw [e1.2, e2.2]
          exact ⟨fun c hc => m1 c (by cases hc; rfl), rfl, by simp⟩
        | panic => exact u1.elim
        | diverge => exact u1.elim
      · exact absurd rfl k1

theorem behind_patient (hS : C.Safe) : ∀ (n : Nat) {d1 d2 : Decoder C}, Behind d1 d2 → d1.rd.reader.errors.length ≤ n →
    (patientInfo n d1).2 = d2.nextFrameInfo.2 ∧
      ∀ x, (patientInfo n d1).2 = .ok x → Behind (patientInfo n d1).1 d2.nextFrameInfo.1 ∧
        (patientInfo n d1).1.view = d2.nextFrameInfo.1.view ∧
        (patientInfo n d1).1.rd.reader.errors.length ≤ n := by
  intro n
  induction n with
  | zero =>
    intro d1 d2 h hn
    obtain ⟨a1, a2⟩ := info_errors hS d1 h.inv1
    rcases behind_info hS h with ⟨⟨c, hc⟩, _⟩ | ⟨h1, h2, h3⟩
    · rw [a1 c hc] at hn; simp at hn
    · refine ⟨h2, fun x hx => ⟨(h3 x hx).1, (h3 x hx).2, ?_⟩⟩
      show d1.nextFrameInfo.1.rd.reader.errors.length ≤ 0
      rw [← a2 h1]; exact hn
  | succ n ih =>
    intro d1 d2 h hn
    obtain ⟨a1, a2⟩ := info_errors hS d1 h.inv1
    have hb := behind_info hS h
    rw [patientInfo]
    generalize d1.nextFrameInfo = x1 at *
    obtain ⟨d1', out1⟩ := x1
    simp only at *
    rcases hb with ⟨⟨c, rfl⟩, hb⟩ | ⟨h1, h2, h3⟩
    · simp only
      have := a1 c rfl
      rw [this, List.length_cons] at hn
      obtain ⟨b1, b2⟩ := ih hb (by omega)
      exact ⟨b1, fun x hx => ⟨(b2 x hx).1, (b2 x hx).2.1, by have := (b2 x hx).2.2; omega⟩⟩
    · split
      · rename_i heq
        simp only [Prod.mk.injEq] at heq
        exact absurd heq.2 (h1 _)
      · exact ⟨h2, fun x hx => ⟨(h3 x hx).1, (h3 x hx).2, by rw [← a2 h1]; exact hn⟩⟩

theorem behind_scan (hS : C.Safe) (n : Nat) : ∀ (k : Nat) {d1 d2 : Decoder C}, Behind d1 d2 →
    d1.rd.reader.errors.length ≤ n → scan (patientInfo n) k d1 = scan nextFrameInfo k d2 := by
  intro k
  induction k with
  | zero => intro d1 d2 _ _; rfl
  | succ k ih =>
    intro d1 d2 h hn
    have key := behind_patient hS n h hn
    have hr := (inv_nextFrameInfo hS d2 h.inv2).2
    simp only [scan]
    generalize patientInfo n d1 = x1 at *
    generalize d2.nextFrameInfo = x2 at *
    obtain ⟨d1', out1⟩ := x1
    obtain ⟨d2', out2⟩ := x2
    simp only at *
    obtain ⟨rfl, key⟩ := key
    cases out1 with
    | ok b =>
      obtain ⟨k1, k2, k3⟩ := key b rfl
      simp only [k2, ih k1 k3]
    | err e => rfl
    | panic => cases hr
    | diverge => cases hr

theorem frameRun_clean {d d' : Decoder C} {out : Outcome Bool} (h : FrameRun d d' out) (hc : d.rd.reader.Clean) :
    d'.rd.reader.Clean := by
  induction h with
  | step hp hev hr ih => exact ih (RD.pull_clean hp hc)
  | found hp hf => exact (RD.pull_clean hp hc :)
  | eof hp => exact RD.pull_clean hp hc
  | err hp => exact RD.pull_clean hp hc

theorem copyRun_clean {rd rd' : RD C} {vec vec' : List UInt8} {out : Outcome Unit} (h : CopyRun rd vec rd' vec' out)
    (hc : rd.reader.Clean) : rd'.reader.Clean := by
  induction h with
  | step hp hr ih => exact ih (RD.pull_clean hp hc)
  | done hp => exact RD.pull_clean hp hc
  | other hp => exact RD.pull_clean hp hc
  | err hp => exact RD.pull_clean hp hc

theorem decodeNextBytes_clean (hS : C.Safe) :
    (RD.decodeNextBytes (C := C)).Good (fun d => d.Inv ∧ d.reader.Clean) := by
  intro d cap hi
  obtain ⟨g1, g2, g3⟩ := RD.decodeNextBytes_good hS d cap hi.1
  refine ⟨⟨g1, ?_⟩, g2, g3⟩
  have ho := RD.pull_clean (RD.decodeNext_pull hS (.slice cap) d hi.1) hi.2
  have : (RD.decodeNextBytes d cap).1 = (d.decodeNext (.slice cap)).1 := by
    unfold RD.decodeNextBytes
    split <;> rename_i h <;> rw [h]
  rw [this]; exact ho

theorem perform_clean (hS : C.Safe) (d : Decoder C) (hi : d.Inv) (hc : d.rd.reader.Clean) (op : Op) :
    (d.perform op).1.rd.reader.Clean := by
  cases op with
  | nextFrameInfo =>
    have := frameRun_clean (nextFrameInfo_run hS d hi.rd) hc
    simp only [perform]
    generalize d.nextFrameInfo = x at *
    obtain ⟨d', r⟩ := x
    cases r <;> exact this
  | readNextFrame =>
    have hc1 := frameRun_clean (nextFrameInfo_run hS d hi.rd) hc
    have hi1 := (inv_nextFrameInfo hS d hi).1
    have : d.readNextFrame.1.rd.reader.Clean := by
      unfold readNextFrame
      generalize d.nextFrameInfo = x at *
      obtain ⟨d1, out⟩ := x
      simp only at *
      cases out with
      | ok b =>
        cases b with
        | true =>
          simp only
          cases hdt : d1.dataType with
          | pixels =>
            simp only
            obtain ⟨g1, g2, g3⟩ := Converter.readFrame_good d1.conv d1.currentFrame
              (decodeNextBytes_clean hS) d1.rd ⟨hi1.rd, hc1⟩
            generalize hr : d1.conv.readFrame d1.currentFrame RD.decodeNextBytes d1.rd = y at *
            obtain ⟨rd, f, out⟩ := y
            cases out <;> exact g1.2
          | lzw m =>
            simp only
            have hr := copyRun_clean (copyLoop_run hS _ d1.rd [m] hi1.rd (meas_lt_fuel _)) hc1
            have hcl : copyLzw m d1.rd = copyLoop d1.rd.eventFuel d1.rd [m] := rfl
            rw [hcl]
            generalize copyLoop d1.rd.eventFuel d1.rd [m] = y at *
            obtain ⟨rd, vec, out⟩ := y
            cases out <;> exact hr
        | false => exact hc1
      | err e => exact hc1
      | panic => exact hc1
      | diverge => exact hc1
    simp only [perform]
    generalize d.readNextFrame = x at *
    obtain ⟨d', r⟩ := x
    cases r <;> exact this
  | readIntoBuffer buf =>
    obtain ⟨g1, g2, g3⟩ := Converter.readIntoBuffer_good d.conv d.currentFrame (decodeNextBytes_clean hS) d.rd buf ⟨hi.rd, hc⟩
    exact g1.2
  | fillBuffer buf =>
    obtain ⟨g1, g2, g3⟩ := Converter.fillBuffer_good d.conv d.currentFrame (decodeNextBytes_clean hS) d.rd buf ⟨hi.rd, hc⟩
    have : (d.fillBuffer buf).1.rd.reader.Clean := g1.2
    simp only [perform]
    generalize d.fillBuffer buf = x at *
    obtain ⟨d', b, r⟩ := x
    cases r <;> exact this

theorem initRun_clean {d d' : Decoder C} {out : Outcome Unit} (h : InitRun d d' out) (hc : d.rd.reader.Clean) :
    d'.rd.reader.Clean := by
  induction h with
  | step hp hev hr ih => exact ih (RD.pull_clean hp hc)
  | done hp => exact RD.pull_clean hp hc
  | empty hp => exact RD.pull_clean hp hc
  | err hp => exact RD.pull_clean hp hc

theorem reach_clean (hS : C.Safe) {o : DecodeOptions} {r : Reader} (hc : r.Clean) {d : Decoder C} (h : Reach o r d) :
    d.rd.reader.Clean := by
  induction h with
  | opened h =>
    have hi := inv_withNoInit (C := C) o r
    have := initRun_clean (initLoop_run hS _ _ hi.rd (meas_lt_fuel _)) hc
    have hbr : ∀ (a : Decoder C), a.checkBg.rd = a.rd := by
      intro a; unfold checkBg; split <;> (try split) <;> rfl
    unfold readInfo init
    generalize initLoop (withNoInit C o r).rd.eventFuel (withNoInit C o r) = x at *
    obtain ⟨d, out⟩ := x
    cases out with
    | ok u => simp only [hbr]; exact this
    | _ => exact this
  | op h op hr ih => exact perform_clean hS _ (reach_inv hS h).1 ih op

theorem withoutErrors_bytes (r : Reader) : r.withoutErrors.bytes = r.bytes := by
  obtain ⟨buf, src⟩ := r
  simp only [Reader.withoutErrors, Reader.bytes]
  congr 1
  induction src with
  | nil => rfl
  | cons ev src ih =>
    cases ev with
    | data bs => simp only [List.filter_cons_of_pos, List.map_cons, List.flatten_cons, ih]
    | err c =>
      rw [List.filter_cons_of_neg (by simp)]
      simpa using ih

theorem withoutErrors_reliable {r : Reader} (h : r.Clean) : r.withoutErrors.Reliable := by
  intro ev hev
  simp only [Reader.withoutErrors, List.mem_filter] at hev
  cases ev with
  | data bs => exact ⟨bs, rfl, h bs hev.1⟩
  | err c => simp at hev

theorem withoutErrors_inv {d : Decoder C} (hi : d.Inv) :
    ({ d with rd := { d.rd with reader := d.rd.reader.withoutErrors } } : Decoder C).Inv :=
  ⟨⟨hi.rd.wf, hi.rd.look, hi.rd.live⟩, hi.limit⟩

/-- C41: every error of the reader is reported by one `next_frame_info` call, in order and none is lost; and a program that
repeats the calls that failed this way scans the same as with a reader that does not fail. -/
theorem read_errors_retried (hS : C.Safe) (o : DecodeOptions) (r : Reader) (hc : r.Clean) (d : Decoder C) (hr : Reach o r d) :
    (∀ c, d.nextFrameInfo.2 = .ioErr (.reader c) →
      d.rd.reader.errors = c :: d.nextFrameInfo.1.rd.reader.errors) ∧
    ((∀ c, d.nextFrameInfo.2 ≠ .ioErr (.reader c)) → d.rd.reader.errors = d.nextFrameInfo.1.rd.reader.errors) ∧
    ∀ k n, d.rd.reader.errors.length ≤ n →
      scan (patientInfo n) k d =
        scan nextFrameInfo k { d with rd := { d.rd with reader := d.rd.reader.withoutErrors } } := by
  have hi := (reach_inv hS hr).1
  obtain ⟨h1, h2⟩ := info_errors hS d hi
  refine ⟨h1, h2, ?_⟩
  intro k n hn
  have hcl := reach_clean hS hc hr
  refine behind_scan hS n k ?_ hn
  refine ⟨rfl, fun _ => rfl, ⟨[], ?_⟩, rfl, rfl, rfl, rfl, rfl, hcl, withoutErrors_reliable hcl, hi, withoutErrors_inv hi⟩
  intro evs r h
  simp only [withoutErrors_bytes]
  exact h

/-! ## The hypotheses can be met -/

/-- Two frames, a comment and some bytes behind the trailer, in three reads. -/
def animation : Reader :=
  { buf := [], src := [
      .data [0x47, 0x49, 0x46, 0x38, 0x39, 0x61, 2, 0, 1, 0, 0x80, 1, 0, 10, 20, 30, 40, 50],
      .data [60, 0x21, 0xFE, 2, 7, 8, 0, 0x2C, 0, 0, 0, 0, 2, 0, 1, 0, 0, 2, 2, 0x4C, 0x0A, 0,
        0x21, 0xF9, 4, 4, 5, 0, 0, 0, 0x2C, 0, 0],
      .data [0, 0, 2, 0, 1, 0, 0x80, 1, 2, 3, 4, 5, 6, 2, 2, 0x4C, 0x0A, 0, 0x3B, 99]] }

/-- The same bytes one by one. -/
def animationBytewise : Reader := { buf := [], src := animation.bytes.map fun b => .data [b] }

/-- The same file without its last five bytes. -/
def animationCut : Reader := { buf := [], src := [.data (animation.bytes.take 66)] }

/-- The same file with read errors. -/
def animationShaky : Reader :=
  { buf := [], src := [
      .data [0x47, 0x49, 0x46, 0x38, 0x39, 0x61, 2, 0, 1, 0, 0x80, 1, 0, 10, 20, 30, 40, 50],
      .data [60, 0x21, 0xFE, 2, 7, 8, 0, 0x2C, 0, 0, 0, 0, 2, 0, 1, 0, 0, 2, 2, 0x4C], .err 5, .err 6, .data [0x0A, 0,
        0x21, 0xF9, 4, 4, 5, 0, 0, 0, 0x2C, 0, 0],
      .data [0, 0, 2, 0, 1, 0, 0x80, 1, 2, 3, 4, 5, 6, 2, 2, 0x4C, 0x0A, 0, 0x3B, 99]] }

/-- Options for raw frames. -/
def rawOptions : DecodeOptions := { DecodeOptions.new with skipFrameDecoding := true }

theorem animation_reliable : animation.Reliable := by
  intro ev hev
  simp only [animation, List.mem_cons, List.not_mem_nil, or_false] at hev
  rcases hev with h | h | h <;> exact ⟨_, h, by simp⟩

theorem animationBytewise_reliable : animationBytewise.Reliable := by
  intro ev hev
  simp only [animationBytewise, List.mem_map] at hev
  obtain ⟨b, _, h⟩ := hev
  exact ⟨[b], h.symm, by simp⟩

theorem animationCut_reliable : animationCut.Reliable := by
  intro ev hev
  simp only [animationCut, List.mem_cons, List.not_mem_nil, or_false] at hev
  exact ⟨_, hev, by decide⟩

theorem animationShaky_clean : animationShaky.Clean := by
  intro bs hev
  simp only [animationShaky, List.mem_cons, List.not_mem_nil, or_false, ReadEv.data.injEq, reduceCtorEq, false_or] at hev
  rcases hev with h | h | h | h <;> (rw [h]; simp)

set_option maxRecDepth 100000 in
/-- The hypotheses of C01 and C02 are met by a file with two frames, which are both found, and by its bytes one by one. -/
example : animation.Reliable ∧ animationBytewise.Reliable ∧ animation.bytes = animationBytewise.bytes ∧
    rawOptions.skipFrameDecoding = true ∧
    (sessionFrom Ref.lzw DecodeOptions.new animation (List.replicate 3 .info)).map
      (fun | .info b _ => some b | _ => none) = [none, some true, some true, some false] ∧
    (sessionFrom Ref.lzw rawOptions animationBytewise [.read, .info, .read]).map
      (fun | .frame f _ => f.map (·.buffer) | _ => none) =
        [none, some [2, 0x4C, 0x0A], none, none] ∧
    (sessionFrom Ref.lzw rawOptions animation [.info, .read]).map
      (fun | .frame f _ => f.map (·.buffer) | _ => none) =
        [none, none, some [2, 0x4C, 0x0A]] :=
  ⟨animation_reliable, animationBytewise_reliable, by decide +kernel, rfl, by decide +kernel, by decide +kernel,
    by decide +kernel⟩

set_option maxRecDepth 100000 in
/-- The hypotheses of C08 are met, and the second case occurs. -/
example : animationCut.Reliable ∧ animationCut.bytes <+: animation.bytes ∧
    (sessionFrom Ref.lzw rawOptions animationCut [.read, .read, .read]).length = 3 ∧
    (sessionFrom Ref.lzw rawOptions animationCut [.read, .read, .read]).getLast? = some (.failed (.io .unexpectedEof)) ∧
    (sessionFrom Ref.lzw rawOptions animation [.read, .read, .read]).length = 4 :=
  ⟨animationCut_reliable, ⟨animation.bytes.drop 66, by decide +kernel⟩, by decide +kernel, by decide +kernel,
    by decide +kernel⟩

set_option maxRecDepth 100000 in
/-- The hypotheses of C41 are met by a decoder with two errors to come, the first of which the second call reports. -/
example : animationShaky.Clean ∧
    Reach DecodeOptions.new animationShaky (readInfo Ref.lzw DecodeOptions.new animationShaky).1 ∧
    (readInfo Ref.lzw DecodeOptions.new animationShaky).1.rd.reader.errors = [5, 6] ∧
    (readInfo Ref.lzw DecodeOptions.new animationShaky).1.nextFrameInfo.1.nextFrameInfo.2 = .ioErr (.reader 5) ∧
    (scan (patientInfo 2) 3 (readInfo Ref.lzw DecodeOptions.new animationShaky).1).map
      (fun | .info b _ => some b | _ => none) = [some true, some true, some false] :=
  ⟨animationShaky_clean, .opened (by decide +kernel), by decide +kernel, by decide +kernel, by decide +kernel⟩

end Decoder

end Gif
