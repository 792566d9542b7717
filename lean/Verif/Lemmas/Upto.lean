import Verif.Lemmas.Eval
import Verif.Lemmas.DecRun
/-!
The loops of `init`, `next_frame_info` and `copy_lzw_into_buffer` as functions of the remaining bytes.
-/

namespace Gif

namespace SD

variable {C : Codec}

/-- Run over the events until the first that satisfies `P`, or to the trailer; `evs` are the events on the way. -/
inductive Upto (P : Decoded → Bool) : SD C → List UInt8 → List Decoded → Res C → Prop
  | step {s s1 : SD C} {l rest : List UInt8} {ev : Decoded} {evs : List Decoded} {r : Res C}
      (h : Eval false s [] l (.event s1 [] ev rest)) (hP : P ev = false) (ht : ev ≠ .blockStart .trailer)
      (hr : Upto P s1 rest evs r) : Upto P s l (ev :: evs) r
  | stop {s : SD C} {l : List UInt8} {r : Res C} (h : Eval false s [] l r)
      (hr : ∀ s1 a ev rest, r = .event s1 a ev rest → P ev = true ∨ ev = .blockStart .trailer) : Upto P s l [] r

theorem upto_det {P : Decoded → Bool} {s : SD C} {l : List UInt8} {evs evs' : List Decoded} {r r' : Res C}
    (h : Upto P s l evs r) (h' : Upto P s l evs' r') : evs = evs' ∧ r = r' := by
  induction h generalizing evs' with
  | step h hP ht hr ih =>
    cases h' with
    | step h2 hP2 ht2 hr2 =>
      have := eval_det h h2
      cases this
      obtain ⟨rfl, rfl⟩ := ih hr2
      exact ⟨rfl, rfl⟩
    | stop h2 hr2 =>
      have := eval_det h h2
      subst this
      rcases hr2 _ _ _ _ rfl with h | h
      · rw [hP] at h; cases h
      · exact absurd h ht
  | stop h hr =>
    cases h' with
    | step h2 hP2 ht2 hr2 =>
      have := eval_det h h2
      subst this
      rcases hr _ _ _ _ rfl with h | h
      · rw [hP2] at h; cases h
      · exact absurd h ht2
    | stop h2 hr2 => exact ⟨rfl, eval_det h h2⟩

theorem tr_copied_none {o : OutSpec} {b : UInt8} {bs : List UInt8} {s s' : SD C} {n : Nat} {bytes : List UInt8}
    (h : Tr o b bs s s' n (.lzwDataCopied bytes)) (ho : o = .none) : bytes = [] := by
  subst ho
  generalize hev : Decoded.lzwDataCopied bytes = ev at h
  cases h with
  | copy left consumed copied hs hk hl ha hc =>
    cases hev
    unfold append at ha
    cases ha
    rfl
  | decode => split at hev <;> cases hev
  | _ => cases hev

end SD

namespace RD

variable {C : Codec}

theorem pull_quiet_none (hS : C.Safe) {d d' : RD C} {ev : Decoded} {x : List UInt8} (h : Pull .none d d' (.ok (some ev)))
    (hi : Inv d) (hq : SD.Quiet ev x) : x = [] := by
  cases hq with
  | nothing => rfl
  | copied =>
    obtain ⟨s1, b, bs, n, hw, _, hn, htr, _⟩ := RD.pull_last hS h hi rfl
    exact SD.tr_copied_none htr rfl

theorem pull_not_nothing {o : OutSpec} {d d' : RD C} {out : Outcome (Option Decoded)} (h : Pull o d d' out) :
    out ≠ .ok (some .nothing) := by
  induction h with
  | more _ _ _ _ ih => exact ih
  | event _ _ _ _ hev => intro h; cases h; exact hev rfl
  | _ => intro h; cases h

/-- An event that does not stop the loop. -/
theorem upto_step (hS : C.Safe) {P : Decoded → Bool} {d d' : RD C} {ev : Decoded} (h : Pull .none d d' (.ok (some ev)))
    (hi : Inv d) (hc : d.reader.Clean) (hn : d.atEof = false) (hP : P ev = false) :
    d'.atEof = false ∧ ∃ es, (es = [] ∧ (∃ x, SD.Quiet ev x) ∨ es = [ev]) ∧
      ∀ evs r, SD.Upto P d'.sd d'.reader.bytes evs r → SD.Upto P d.sd d.reader.bytes (es ++ evs) r := by
  obtain ⟨h1, h2⟩ := pull_eval hS (m := false) (acc := []) rfl h hi hc hn
  refine ⟨h1, ?_⟩
  rcases h2 with ⟨x, q1, q2⟩ | ⟨q1, q2, q3⟩
  · have hx := pull_quiet_none hS h hi q1
    refine ⟨[], .inl ⟨rfl, x, q1⟩, ?_⟩
    intro evs r hr
    simp only [hx, List.append_nil] at q2
    cases hr with
    | step h hP ht hr => exact .step (q2 _ h) hP ht hr
    | stop h hr => exact .stop (q2 _ h) hr
  · exact ⟨[ev], .inr rfl, fun evs r hr => .step q3 hP q2 hr⟩

/-- The end of a loop that waits for `P`, relative to the run over the bytes. -/
def UptoRes (P : Decoded → Bool) (d d' : RD C) (evs : List Decoded) (out : Outcome (Option Decoded)) : Prop :=
  match out with
  | .ok (some ev) => P ev = true ∧ d'.atEof = false ∧
      SD.Upto P d.sd d.reader.bytes evs (.event d'.sd [] ev d'.reader.bytes)
  | .ok none => d'.atEof = true ∧
      SD.Upto P d.sd d.reader.bytes evs (.event d'.sd [] (.blockStart .trailer) d'.reader.bytes)
  | .err e => d'.atEof = false ∧
      ((∃ c, e = .io (.reader c) ∧ ∀ evs' r, SD.Upto P d'.sd d'.reader.bytes evs' r →
        SD.Upto P d.sd d.reader.bytes (evs ++ evs') r) ∨
      (e = .io .unexpectedEof ∧ d'.reader.bytes = [] ∧ SD.Upto P d.sd d.reader.bytes evs (.more d'.sd [])) ∨
      SD.Upto P d.sd d.reader.bytes evs (.err e))
  | _ => False

theorem uptoRes_stop (hS : C.Safe) {P : Decoded → Bool} (hPq : ∀ ev x, SD.Quiet ev x → P ev = false) {d d' : RD C}
    {out : Outcome (Option Decoded)} (h : Pull .none d d' out)
    (hi : Inv d) (hc : d.reader.Clean) (hn : d.atEof = false) (hP : ∀ ev, out = .ok (some ev) → P ev = true) :
    UptoRes P d d' [] out := by
  have := pull_eval hS (m := false) (acc := []) rfl h hi hc hn
  cases out with
  | ok o =>
    cases o with
    | some ev =>
      obtain ⟨h1, h2⟩ := this
      refine ⟨hP _ rfl, h1, ?_⟩
      rcases h2 with ⟨x, q1, q2⟩ | ⟨q1, q2, q3⟩
      · have := hP _ rfl
        rw [hPq _ _ q1] at this; cases this
      · refine .stop q3 ?_
        intro s1 a ev' rest he
        cases he
        exact .inl (hP _ rfl)
    | none =>
      obtain ⟨h1, h2⟩ := this
      refine ⟨h1, .stop h2 ?_⟩
      intro s1 a ev' rest he
      cases he
      exact .inr rfl
  | err e =>
    obtain ⟨h1, h2⟩ := this
    refine ⟨h1, ?_⟩
    rcases h2 with ⟨c, q1, q2⟩ | ⟨q1, q2, q3⟩ | q
    · refine .inl ⟨c, q1, ?_⟩
      intro evs r hr
      rw [List.nil_append]
      cases hr with
      | step h hP ht hr => exact .step (q2 _ h) hP ht hr
      | stop h hr => exact .stop (q2 _ h) hr
    · exact .inr (.inl ⟨q1, q2, .stop q3 (fun _ _ _ _ h => by cases h)⟩)
    · exact .inr (.inr (.stop q (fun _ _ _ _ h => by cases h)))
  | panic => exact this
  | diverge => exact this

theorem uptoRes_step {P : Decoded → Bool} {d d1 d' : RD C} {evs es : List Decoded} {out : Outcome (Option Decoded)}
    (hes : ∀ evs r, SD.Upto P d1.sd d1.reader.bytes evs r → SD.Upto P d.sd d.reader.bytes (es ++ evs) r)
    (h : UptoRes P d1 d' evs out) : UptoRes P d d' (es ++ evs) out := by
  cases out with
  | ok o =>
    cases o with
    | some ev => exact ⟨h.1, h.2.1, hes _ _ h.2.2⟩
    | none => exact ⟨h.1, hes _ _ h.2⟩
  | err e =>
    obtain ⟨h1, h2⟩ := h
    refine ⟨h1, ?_⟩
    rcases h2 with ⟨c, q1, q2⟩ | ⟨q1, q2, q3⟩ | q
    · refine .inl ⟨c, q1, ?_⟩
      intro evs' r hr
      rw [List.append_assoc]
      exact hes _ _ (q2 _ _ hr)
    · exact .inr (.inl ⟨q1, q2, hes _ _ q3⟩)
    · exact .inr (.inr (hes _ _ q))
  | panic => exact h
  | diverge => exact h

end RD

namespace Decoder

variable {C : Codec}

/-- The event `init` waits for. -/
def isHeaderEnd (ev : Decoded) : Bool := decide (ev = .headerEnd)

/-- The event `next_frame_info` waits for. -/
def isMetadata : Decoded → Bool
  | .frameMetadata _ => true
  | _ => false

theorem onEvent_quiet {d : Decoder C} {ev : Decoded} {x : List UInt8} (h : SD.Quiet ev x) : d.onEvent ev = d := by
  cases h <;> rfl

theorem onEvent_rd (d : Decoder C) (rd : RD C) (ev : Decoded) :
    ({ d with rd := rd } : Decoder C).onEvent ev = { d.onEvent ev with rd := rd } := by
  cases ev <;> rfl

theorem foldl_rd (evs : List Decoded) (d : Decoder C) (rd : RD C) :
    evs.foldl onEvent { d with rd := rd } = { evs.foldl onEvent d with rd := rd } := by
  induction evs generalizing d with
  | nil => rfl
  | cons ev evs ih => rw [List.foldl_cons, List.foldl_cons, onEvent_rd, ih]

/-- `init` as a function of the bytes. -/
theorem initRun_upto (hS : C.Safe) {d d' : Decoder C} {out : Outcome Unit} (h : InitRun d d' out) (hi : d.rd.Inv)
    (hc : d.rd.reader.Clean) (hn : d.rd.atEof = false) :
    ∃ evs o, RD.UptoRes isHeaderEnd d.rd d'.rd evs o ∧ d' = { evs.foldl onEvent d with rd := d'.rd } ∧
      d'.rd.reader.Clean ∧
      out = (match o with
        | .ok (some _) => .ok ()
        | .ok none => .fmtErr .noImageData
        | .err e => .err e
        | _ => .panic) := by
  have hPq : ∀ ev x, SD.Quiet ev x → isHeaderEnd ev = false := by
    intro ev x h; cases h <;> rfl
  induction h with
  | @step d d' rd ev out hp hev hr ih =>
    obtain ⟨h1, es, h2, h3⟩ := RD.upto_step hS (P := isHeaderEnd) hp hi hc hn (by simp [isHeaderEnd, hev])
    obtain ⟨evs, o, g1, g2, g3, g4⟩ := ih (RD.pull_inv hS hp hi) (RD.pull_clean hp hc) h1
    refine ⟨es ++ evs, o, RD.uptoRes_step h3 g1, ?_, g3, g4⟩
    rw [g2, foldl_rd]
    simp only [List.foldl_append]
    have : es.foldl onEvent d = d.onEvent ev := by
      rcases h2 with ⟨rfl, x, hx⟩ | rfl
      · rw [onEvent_quiet hx]; rfl
      · rfl
    rw [this]
  | @done d rd hp =>
    exact ⟨[], _, RD.uptoRes_stop hS hPq hp hi hc hn (by intro ev h; cases h; rfl), rfl, RD.pull_clean hp hc, rfl⟩
  | @empty d rd hp =>
    exact ⟨[], _, RD.uptoRes_stop hS hPq hp hi hc hn (by intro ev h; cases h), rfl, RD.pull_clean hp hc, rfl⟩
  | @err d rd e hp =>
    exact ⟨[], _, RD.uptoRes_stop hS hPq hp hi hc hn (by intro ev h; cases h), rfl, RD.pull_clean hp hc, rfl⟩

/-- What `next_frame_info` does with the result of its loop. -/
def infoOf (d : Decoder C) (rd : RD C) : Outcome (Option Decoded) → Decoder C × Outcome Bool
  | .ok (some (.frameMetadata t)) =>
    match rd.sd.current with
    | none => ({ d with rd := rd }, .panic)
    | some f => (d.withFrame rd f t,
        if f.palette.isNone ∧ d.globalPalette.isNone then .fmtErr .noColorTable else .ok true)
  | .ok (some _) => ({ d with rd := rd }, .panic)
  | .ok none => ({ d with rd := rd }, .ok false)
  | .err e => ({ d with rd := rd }, .err e)
  | .panic => ({ d with rd := rd }, .panic)
  | .diverge => ({ d with rd := rd }, .diverge)

/-- `next_frame_info` as a function of the bytes. -/
theorem frameRun_upto (hS : C.Safe) {d d' : Decoder C} {out : Outcome Bool} (h : FrameRun d d' out) (hi : d.rd.Inv)
    (hc : d.rd.reader.Clean) (hn : d.rd.atEof = false) :
    ∃ evs o rd, RD.UptoRes isMetadata d.rd rd evs o ∧ rd.reader.Clean ∧ (d', out) = infoOf d rd o := by
  have hPq : ∀ ev x, SD.Quiet ev x → isMetadata ev = false := by
    intro ev x h; cases h <;> rfl
  induction h with
  | @step d d' rd ev out hp hev hr ih =>
    obtain ⟨h1, es, h2, h3⟩ := RD.upto_step hS (P := isMetadata) hp hi hc hn
      (by cases ev <;> first | rfl | exact absurd rfl (hev _))
    obtain ⟨evs, o, rd', g1, g2, g3⟩ := ih (RD.pull_inv hS hp hi) (RD.pull_clean hp hc) h1
    exact ⟨es ++ evs, o, rd', RD.uptoRes_step h3 g1, g2, g3⟩
  | @found d rd t f hp hf =>
    refine ⟨[], _, rd, RD.uptoRes_stop hS hPq hp hi hc hn (by intro ev h; cases h; rfl), RD.pull_clean hp hc, ?_⟩
    simp only [infoOf, hf]
  | @eof d rd hp =>
    exact ⟨[], _, rd, RD.uptoRes_stop hS hPq hp hi hc hn (by intro ev h; cases h), RD.pull_clean hp hc, rfl⟩
  | @err d rd e hp =>
    exact ⟨[], _, rd, RD.uptoRes_stop hS hPq hp hi hc hn (by intro ev h; cases h), RD.pull_clean hp hc, rfl⟩

/-- `copy_lzw_into_buffer` as a function of the bytes: its relation to the run that collects the data. -/
def CopyRes (rd rd' : RD C) (vec vec' : List UInt8) (out : Outcome Unit) : Prop :=
  match out with
  | .ok () => rd'.atEof = false ∧ SD.Eval true rd.sd vec rd.reader.bytes (.event rd'.sd vec' .dataEnd rd'.reader.bytes)
  | .err e => (∃ c, e = .io (.reader c)) ∨
      (e = .io .unexpectedEof ∧ rd'.reader.bytes = [] ∧ ∃ s, SD.Eval true rd.sd vec rd.reader.bytes (.more s vec')) ∨
      (e = .format .unexpectedData ∧ ∃ s acc ev rest, ev ≠ .dataEnd ∧
        SD.Eval true rd.sd vec rd.reader.bytes (.event s acc ev rest)) ∨
      SD.Eval true rd.sd vec rd.reader.bytes (.err e)
  | _ => False

theorem copyRun_eval (hS : C.Safe) {rd rd' : RD C} {vec vec' : List UInt8} {out : Outcome Unit} (h : CopyRun rd vec rd' vec' out)
    (hi : rd.Inv) (hc : rd.reader.Clean) (hn : rd.atEof = false) : rd'.reader.Clean ∧ CopyRes rd rd' vec vec' out := by
  induction h with
  | @step rd rd1 rd' vec bytes vec' out hp hr ih =>
    have hp' := RD.pull_eval hS (m := true) (acc := vec) rfl hp hi hc hn
    obtain ⟨h1, h2⟩ := hp'
    obtain ⟨g1, g2⟩ := ih (RD.pull_inv hS hp hi) (RD.pull_clean hp hc) h1
    refine ⟨g1, ?_⟩
    rcases h2 with ⟨x, q1, q2⟩ | ⟨q1, q2, q3⟩
    · cases q1
      cases out with
      | ok u => exact ⟨g2.1, q2 _ g2.2⟩
      | err e =>
        rcases g2 with h | ⟨h, hb, s, hs⟩ | ⟨h, s, acc, ev, rest, he, hs⟩ | h
        · exact .inl h
        · exact .inr (.inl ⟨h, hb, s, q2 _ hs⟩)
        · exact .inr (.inr (.inl ⟨h, s, acc, ev, rest, he, q2 _ hs⟩))
        · exact .inr (.inr (.inr (q2 _ h)))
      | panic => exact g2
      | diverge => exact g2
    · exact absurd (.copied _) (q1 _)
  | @done rd rd1 vec hp =>
    obtain ⟨h1, h2⟩ := RD.pull_eval hS (m := true) (acc := vec) rfl hp hi hc hn
    refine ⟨RD.pull_clean hp hc, h1, ?_⟩
    rcases h2 with ⟨x, q1, q2⟩ | ⟨q1, q2, q3⟩
    · cases q1
    · exact q3
  | @other rd rd1 vec ev hp h1 h2 =>
    have hp' := RD.pull_eval hS (m := true) (acc := vec) rfl hp hi hc hn
    refine ⟨RD.pull_clean hp hc, .inr (.inr (.inl ⟨rfl, ?_⟩))⟩
    cases ev with
    | none => exact ⟨_, _, _, _, by simp, hp'.2⟩
    | some ev =>
      rcases hp'.2 with ⟨x, q1, q2⟩ | ⟨q1, q2, q3⟩
      · cases q1 with
        | nothing => exact absurd rfl (RD.pull_not_nothing hp)
        | copied => exact absurd rfl (h1 _)
      · exact ⟨_, _, _, _, fun h => h2 (by rw [h]), q3⟩
  | @err rd rd1 vec e hp =>
    obtain ⟨h1, h2⟩ := RD.pull_eval hS (m := true) (acc := vec) rfl hp hi hc hn
    refine ⟨RD.pull_clean hp hc, ?_⟩
    rcases h2 with ⟨c, q1, q2⟩ | ⟨q1, q2, q3⟩ | q
    · exact .inl ⟨c, q1⟩
    · exact .inr (.inl ⟨q1, q2, _, q3⟩)
    · exact .inr (.inr (.inr q))

end Decoder

end Gif
