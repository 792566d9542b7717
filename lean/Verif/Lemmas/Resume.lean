import Verif.Spec.Live
import Verif.Lemmas.Ahead
import Verif.Lemmas.Remain
import Verif.Lemmas.Prefix
import Verif.Lemmas.Errors
import Verif.Lemmas.Unique
/-!
A call that came to the end of its reader goes on where it was when it is repeated with more bytes.
-/

namespace Gif

variable {C : Codec}

/-- The error for a `read` call that gave no bytes. -/
def ReadEv.failure : ReadEv → DecodingError
  | .data _ => .io .unexpectedEof
  | .err c => .io (.reader c)

namespace Reader

theorem fillBuf_pause {ev : ReadEv} (h : ev.gave = false) (B : List ReadEv) :
    (ev = .data [] ∧ (⟨[], ev :: B⟩ : Reader).fillBuf = (⟨[], B⟩, .ok [])) ∨
    (∃ c, ev = .err c ∧ (⟨[], ev :: B⟩ : Reader).fillBuf = (⟨[], B⟩, .error c)) := by
  cases ev with
  | data bs =>
    cases bs with
    | nil => exact .inl ⟨rfl, rfl⟩
    | cons b bs => cases h
  | err c => exact .inr ⟨c, rfl, rfl⟩

theorem reliable_eos {r r' : Reader} (hr : r.Reliable) (h : r.fillBuf = (r', .ok [])) : r = ⟨[], []⟩ ∧ r' = ⟨[], []⟩ := by
  obtain ⟨buf, src⟩ := r
  cases buf with
  | cons b bs => cases h
  | nil =>
    cases src with
    | nil => cases h; exact ⟨rfl, rfl⟩
    | cons ev src =>
      obtain ⟨bs, rfl, hb⟩ := hr ev (by simp)
      simp only [fillBuf, Prod.mk.injEq, Except.ok.injEq] at h
      exact absurd h.2 hb

end Reader

namespace RD

theorem inv_ahead {d : RD C} (h : d.Inv) (ext : List ReadEv) : (d.ahead ext).Inv := ⟨h.wf, h.look, h.live⟩

theorem pull_resume (hS : C.Safe) {ev : ReadEv} (hev : ev.gave = false) (B : List ReadEv) {o : OutSpec} {d e : RD C}
    {out : Outcome (Option Decoded)} (h : Pull o d e out) (hi : d.Inv) (hr : d.reader.Reliable) (ho : out = .ioErr .unexpectedEof) :
    Pull o (d.ahead (ev :: B)) (e.ahead B) (.err ev.failure) ∧
    ∀ x out', Pull o (e.ahead B) x out' → Pull o (d.ahead B) x out' := by
  induction h with
  | eof => cases ho
  | readErr h hf => exact absurd hf (Reader.reliable_no_error hr)
  | @eos d r h hf =>
    obtain ⟨h1, rfl⟩ := Reader.reliable_eos hr hf
    obtain ⟨rd, sd, at_⟩ := d
    simp only at h1
    subst h1
    refine ⟨?_, fun x out' hx => hx⟩
    rcases Reader.fillBuf_pause hev B with ⟨rfl, hp⟩ | ⟨c, rfl, hp⟩
    · exact .eos h hp
    · exact .readErr h hp
  | @more d d' r b bs s1 out h hf hs hp ih =>
    have hlk := look_fill hi h hf
    obtain ⟨w1, w2, w3, w4⟩ := SD.steps_wf hS hs hi.wf hlk
    obtain ⟨i1, i2⟩ := ih ⟨w1, fun _ => w2, fun _ => w4 (hi.live h)⟩ (Reader.reliable_fill hf hr _) ho
    refine ⟨?_, fun x out' hx => ?_⟩
    · exact .more (d := d.ahead (ev :: B)) h (Reader.fillBuf_ahead _ hf (by simp)) hs i1
    · exact .more (d := d.ahead B) h (Reader.fillBuf_ahead _ hf (by simp)) hs (i2 x out' hx)
  | event => cases ho
  | trailer => cases ho
  | @err d r b b1 bs bs1 s1 s' e h hf hs hn =>
    cases ho
    obtain ⟨w1, w2, w3, w4⟩ := SD.steps_wf hS hs hi.wf (look_fill hi h hf)
    exact (SD.nextState_err w1 hn).elim

end RD

namespace Decoder

theorem inv_ahead {d : Decoder C} (h : d.Inv) (ext : List ReadEv) : (d.ahead ext).Inv := by
  obtain ⟨h1, h2⟩ := h
  constructor <;> first | exact RD.inv_ahead h1 ext | assumption

theorem pull_ahead (hS : C.Safe) (ext : List ReadEv) {o : OutSpec} {d d' : RD C} {x : Outcome (Option Decoded)} (h : RD.Pull o d d' x)
    (hi : d.Inv) (hx : x.here) : RD.Pull o (d.ahead ext) (d'.ahead ext) x := by
  have h1 := RD.decodeNext_pull hS o d hi
  obtain ⟨e1, e2⟩ := RD.pull_unique h1 h
  have h2 := RD.decodeNext_ahead ext (o := o) (d := d) (d' := d') (x := x) (by rw [← e1, ← e2]) hx
  have h3 := RD.decodeNext_pull hS o (d.ahead ext) (RD.inv_ahead hi ext)
  rwa [h2] at h3

theorem frameRun_resume (hS : C.Safe) {ev : ReadEv} (hev : ev.gave = false) (B : List ReadEv) {d e : Decoder C}
    {out : Outcome Bool} (h : FrameRun d e out) (hi : d.rd.Inv) (hr : d.rd.reader.Reliable) (ho : out = .ioErr .unexpectedEof) :
    FrameRun (d.ahead (ev :: B)) (e.ahead B) (.err ev.failure) ∧
    ∀ x out', FrameRun (e.ahead B) x out' → FrameRun (d.ahead B) x out' := by
  induction h with
  | @step d d' rd ev' out hp hev' hr' ih =>
    obtain ⟨i1, i2⟩ := ih (RD.pull_inv hS hp hi) (RD.pull_reliable hp hr) ho
    have hp' := fun ext => pull_ahead hS ext hp hi (Outcome.here_ok _)
    exact ⟨.step (d := d.ahead (ev :: B)) (hp' _) hev' i1, fun x out' hx => .step (d := d.ahead B) (hp' _) hev' (i2 x out' hx)⟩
  | @found d rd t f hp hc => split at ho <;> cases ho
  | eof => cases ho
  | @err d rd e hp =>
    cases ho
    obtain ⟨i1, i2⟩ := RD.pull_resume hS hev B hp hi hr rfl
    refine ⟨.err (d := d.ahead (ev :: B)) i1, fun x out' hx => ?_⟩
    cases hx with
    | step hp' hev' hr' => exact .step (d := d.ahead B) (i2 _ _ hp') hev' hr'
    | found hp' hc => exact .found (d := d.ahead B) (i2 _ _ hp') hc
    | eof hp' => exact .eof (d := d.ahead B) (i2 _ _ hp')
    | err hp' => exact .err (d := d.ahead B) (i2 _ _ hp')

/-- A decoder that came to the end of what its reader had: it says so, or reports the error of the reader, and the next call
does what the first one would have done had the bytes been there. -/
theorem info_resume (hS : C.Safe) {ev : ReadEv} (hev : ev.gave = false) (B : List ReadEv) {d e : Decoder C} (hi : d.Inv)
    (hr : d.rd.reader.Reliable) (h : d.nextFrameInfo = (e, .ioErr .unexpectedEof)) :
    (d.ahead (ev :: B)).nextFrameInfo = (e.ahead B, .err ev.failure) ∧
    (d.ahead B).nextFrameInfo = (e.ahead B).nextFrameInfo := by
  have h1 := nextFrameInfo_run hS d hi.rd
  rw [h] at h1
  obtain ⟨i1, i2⟩ := frameRun_resume hS hev B h1 hi.rd hr rfl
  have he : e.Inv := by have := (inv_nextFrameInfo hS d hi).1; rwa [h] at this
  have h2 := nextFrameInfo_run hS (d.ahead (ev :: B)) (RD.inv_ahead hi.rd (ev :: B))
  have h3 := nextFrameInfo_run hS (d.ahead B) (RD.inv_ahead hi.rd B)
  have h4 := nextFrameInfo_run hS (e.ahead B) (RD.inv_ahead he.rd B)
  obtain ⟨a1, a2⟩ := frameRun_unique h2 i1
  obtain ⟨b1, b2⟩ := frameRun_unique h3 (i2 _ _ h4)
  exact ⟨Prod.ext a1 a2, Prod.ext b1 b2⟩

theorem read_resume (hS : C.Safe) {ev : ReadEv} (hev : ev.gave = false) (B : List ReadEv) {d e : Decoder C} (hi : d.Inv)
    (hr : d.rd.reader.Reliable) (h : d.nextFrameInfo = (e, .ioErr .unexpectedEof)) :
    (d.ahead (ev :: B)).readNextFrame = (e.ahead B, .err ev.failure) ∧
    (d.ahead B).readNextFrame = (e.ahead B).readNextFrame := by
  obtain ⟨h1, h2⟩ := info_resume hS hev B hi hr h
  constructor
  · unfold readNextFrame; rw [h1]
  · unfold readNextFrame; rw [h2]

end Decoder

end Gif
