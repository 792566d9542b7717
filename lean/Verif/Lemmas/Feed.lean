import Verif.Lemmas.Prefix
import Verif.Spec.Blocks
import Verif.Spec.LzwContract
/-!
Decoding of image data: what the calls deliver, whatever the sizes of the slices they are given.
-/

namespace Gif

open Spec (blocks)

/-- The decoder has the code size that the reader remembers. -/
def Codec.Contract.Fit {C : Codec} (K : C.Contract) (r : LzwReader C) : Prop :=
  ∀ st, r.decoder = some st → K.size st = r.minCodeSize

namespace LzwReader

variable {C : Codec}

theorem decodeBytes_slice {r : LzwReader C} {st : C.σ} (h : r.decoder = some st) (inp : List UInt8) (cap : Nat) :
    r.decodeBytes inp (.slice cap) =
      ({ r with decoder := some (C.decodeBytes st inp cap).st },
        match (C.decodeBytes st inp cap).status with
        | .done => .ok ((C.decodeBytes st inp cap).consumed, (C.decodeBytes st inp cap).out)
        | .ok => .ok ((C.decodeBytes st inp cap).consumed, (C.decodeBytes st inp cap).out)
        | .noProgress => if r.checkForEndCode then .ioErr .noEndCode
            else .ok ((C.decodeBytes st inp cap).consumed, (C.decodeBytes st inp cap).out)
        | .invalidCode => .ioErr .invalidCode) := by
  unfold decodeBytes
  simp only [h]
  cases hs : (C.decodeBytes st inp cap).status <;> simp only
  cases r.checkForEndCode <;> rfl

theorem decodeBytes_none {r : LzwReader C} {st : C.σ} (h : r.decoder = some st) (inp : List UInt8) :
    r.decodeBytes inp .none = r.decodeBytes inp (.slice 0) := by
  unfold decodeBytes
  simp only [h]

theorem hasEnded_some {r : LzwReader C} {st : C.σ} (h : r.decoder = some st) : r.hasEnded = C.hasEnded st := by
  unfold hasEnded; simp only [h]

end LzwReader

namespace SD

variable {C : Codec}

/-- The decoder is the same but for the position in the image data and the LZW state. -/
structure Kept (K : C.Contract) (s s' : SD C) : Prop where
  eq : s' = { s with lzw := s'.lzw, state := s'.state }
  check : s'.lzw.checkForEndCode = s.lzw.checkForEndCode
  fit : K.Fit s.lzw → K.Fit s'.lzw

theorem kept_refl (K : C.Contract) (s : SD C) : Kept K s s := ⟨rfl, rfl, id⟩

theorem kept_trans {K : C.Contract} {s s1 s2 : SD C} (h : Kept K s s1) (h' : Kept K s1 s2) : Kept K s s2 := by
  refine ⟨?_, h'.check.trans h.check, fun hf => h'.fit (h.fit hf)⟩
  have h1 := h.eq
  have h2 := h'.eq
  rw [h1] at h2
  exact h2

/-- `Feed K more s l out e tail`: the decoder is in image data, with `l` to be read; together with `more`, which is not
in `l`, the data expand to `out` and end with `e`; they are followed by `tail`. -/
inductive Feed (K : C.Contract) (more : List UInt8) : SD C → List UInt8 → List UInt8 → LzwEnd → Option (List UInt8) → Prop
  | sub {s : SD C} {l out : List UInt8} {left : Nat} {st : C.σ} {e : LzwEnd} (hst : s.state = .decodeSubBlock left)
      (hd : s.lzw.decoder = some st) (hy : K.Yields st ((blocks left l).1 ++ more) out e)
      (hm : more = [] ∨ (blocks left l).2 = none) : Feed K more s l out e (blocks left l).2
  | fin {s : SD C} {rest : List UInt8} {e : LzwEnd} (hst : s.state = .frameDecoded) (he : e ≠ .invalid)
      (hc : s.lzw.checkForEndCode = true → e = .ended) : Feed K more s (0 :: rest) [] e (some rest)

/-- The possible results of a step. -/
def FeedRes (K : C.Contract) (more : List UInt8) (cap : Nat) (s s' : SD C) (l rest out : List UInt8) (e : LzwEnd)
    (tail : Option (List UInt8)) (r : Outcome (Nat × Decoded)) : Prop :=
  match r with
  | .ok (n, .nothing) => Kept K s s' ∧ Feed K more s' (l.drop n ++ rest) out e tail
  | .ok (n, .bytesDecoded p) => Kept K s s' ∧ p ≠ [] ∧ p.length ≤ cap ∧
      ∃ out', out = p ++ out' ∧ Feed K more s' (l.drop n ++ rest) out' e tail
  | .ok (n, .dataEnd) => out = [] ∧ e ≠ .invalid ∧ (s.lzw.checkForEndCode = true → e = .ended) ∧
      tail = some (l.drop n ++ rest) ∧ s' = { s with state := .blockEnd, current := none }
  | .err e' => (e' = .io .invalidCode ∧ e = .invalid) ∨
      (e' = .io .noEndCode ∧ s.lzw.checkForEndCode = true ∧ e = .starved ∧ out = [])
  | _ => False

theorem kept_step (K : C.Contract) {s : SD C} {st : C.σ} (hd : s.lzw.decoder = some st) (inp : List UInt8) (cap : Nat)
    (state : State) :
    Kept K s { s with lzw := { s.lzw with decoder := some (C.decodeBytes st inp cap).st }, state := state } := by
  refine ⟨rfl, rfl, fun hf st' hst' => ?_⟩
  simp only [Option.some.injEq] at hst'
  rw [← hst', K.size_step]
  exact hf st hd

theorem kept_state (K : C.Contract) (s : SD C) (state : State) : Kept K s { s with state := state } := ⟨rfl, rfl, id⟩

theorem feed_step (K : C.Contract) {more rest out bs : List UInt8} {cap : Nat} {s s' : SD C} {b : UInt8} {e : LzwEnd}
    {tail : Option (List UInt8)} {r : Outcome (Nat × Decoded)} (hw : WF s)
    (hf : Feed K more s (b :: bs ++ rest) out e tail) (hcap : 0 < cap)
    (h : nextState s (b :: bs) (.slice cap) = (s', r)) : FeedRes K more cap s s' (b :: bs) rest out e tail r := by
  generalize hl : b :: bs ++ rest = l at hf
  cases hf with
  | @sub _ _ left st _ hst hd hy hm =>
    subst hl
    have hk : s.skipFrameDecoding = false := by
      have := hw.st
      simp only [stOk, hst] at this
      exact this.2.2.1
    unfold nextState at h
    simp only [hst] at h
    unfold onDecodeSubBlock at h
    rw [if_neg (by simp [hk])] at h
    by_cases hleft : left > 0
    · rw [if_pos hleft] at h
      simp only at h
      -- the part of the slice that belongs to the sub-block
      have hsplit : b :: bs ++ rest = (b :: bs).take (min left (b :: bs).length) ++
          ((b :: bs).drop (min left (b :: bs).length) ++ rest) := by
        rw [← List.append_assoc, List.take_append_drop]
      have hlen : ((b :: bs).take (min left (b :: bs).length)).length = min left (b :: bs).length := by
        rw [List.length_take]; omega
      have hB : ∀ c, c ≤ min left (b :: bs).length →
          blocks left (b :: bs ++ rest) = ((b :: bs).take c ++ (blocks (left - c) ((b :: bs).drop c ++ rest)).1,
            (blocks (left - c) ((b :: bs).drop c ++ rest)).2) := by
        intro c hc
        have hc' : ((b :: bs).take c).length = c := by rw [List.length_take]; omega
        have : b :: bs ++ rest = (b :: bs).take c ++ ((b :: bs).drop c ++ rest) := by
          rw [← List.append_assoc, List.take_append_drop]
        rw [this, Spec.blocks_append _ _ _ (by omega), hc']
      rw [LzwReader.hasEnded_some hd] at h
      by_cases he : C.hasEnded st = true
      · rw [if_pos (.inl he)] at h
        unfold goto at h
        simp only [Prod.mk.injEq] at h
        obtain ⟨rfl, rfl⟩ := h
        refine ⟨kept_state K _ _, ?_⟩
        rw [hB _ (Nat.le_refl _)] at hy hm ⊢
        obtain ⟨rfl, rfl⟩ := K.det hy (K.ended _ he)
        exact .sub (st := st) rfl hd (K.ended _ he) hm
      · rw [if_neg (by simp [he])] at h
        rw [LzwReader.decodeBytes_slice hd] at h
        -- what the codec sees
        have hy' := hy
        rw [hB _ (Nat.le_refl _)] at hy'
        simp only [List.append_assoc] at hy'
        generalize hinp : (b :: bs).take (min left (b :: bs).length) = inp at hy' h
        have hinl : inp.length = min left (b :: bs).length := by rw [← hinp]; exact hlen
        have hine : inp ≠ [] := by
          intro hc
          rw [hc] at hinl
          simp only [List.length_nil, List.length_cons] at hinl
          omega
        obtain ⟨po, pe, hpy, hpe⟩ := K.prefix_yields hy'
        have hsafe := K.safe.consumed_le st inp cap
        have hsafe2 := K.safe.out_le st inp cap
        by_cases hinv : (C.decodeBytes st inp cap).status = .invalidCode
        · simp only [hinv] at h
          simp only [Prod.mk.injEq, Outcome.ioErr] at h
          obtain ⟨rfl, rfl⟩ := h
          have := K.invalid cap hpy hinv
          subst this
          rcases hpe with ⟨h, _⟩ | ⟨_, h⟩
          · cases h
          · exact .inl ⟨rfl, h.symm⟩
        · obtain ⟨out', ho, hy2⟩ := K.step cap hy' hinv
          have hnp : (C.decodeBytes st inp cap).status ≠ .noProgress := by
            intro hc
            obtain ⟨n1, n2, n3⟩ := K.noProgress hc
            have := K.progress cap hpy hine hcap hinv n1 n2
            rw [n3] at this; cases this
          have hres : (match (C.decodeBytes st inp cap).status with
              | .done => .ok ((C.decodeBytes st inp cap).consumed, (C.decodeBytes st inp cap).out)
              | .ok => .ok ((C.decodeBytes st inp cap).consumed, (C.decodeBytes st inp cap).out)
              | .noProgress => if s.lzw.checkForEndCode then .ioErr .noEndCode
                  else .ok ((C.decodeBytes st inp cap).consumed, (C.decodeBytes st inp cap).out)
              | .invalidCode => .ioErr .invalidCode : Outcome (Nat × List UInt8)) =
              .ok ((C.decodeBytes st inp cap).consumed, (C.decodeBytes st inp cap).out) := by
            cases hs : (C.decodeBytes st inp cap).status <;> first | rfl | exact absurd hs hinv | exact absurd hs hnp
          rw [hres] at h
          simp only at h
          -- the number of bytes reported as consumed
          have hgo : ∀ c, c ≤ min left (b :: bs).length →
              K.Yields (C.decodeBytes st inp cap).st (inp.drop c ++
                ((blocks (left - min left (b :: bs).length) ((b :: bs).drop (min left (b :: bs).length) ++ rest)).1 ++ more))
                out' e →
              Feed K more
                { s with lzw := { s.lzw with decoder := some (C.decodeBytes st inp cap).st }, state := .decodeSubBlock (left - c) }
                ((b :: bs).drop c ++ rest) out' e (blocks left (b :: bs ++ rest)).2 := by
            intro c hc hyc
            have h1 := hB c hc
            have h2 := hB _ (Nat.le_refl _)
            rw [h1] at h2
            simp only [Prod.mk.injEq] at h2
            have h3 : (blocks (left - c) ((b :: bs).drop c ++ rest)).1 = inp.drop c ++
                (blocks (left - min left (b :: bs).length) ((b :: bs).drop (min left (b :: bs).length) ++ rest)).1 := by
              have h4 := h2.1
              rw [hinp, ← List.take_append_drop c inp] at h4
              have h5 : inp.take c = (b :: bs).take c := by
                rw [← hinp, List.take_take]
                congr 1
                omega
              rw [h5, List.append_assoc] at h4
              exact List.append_cancel_left h4
            rw [h1] at hm ⊢
            refine .sub (st := (C.decodeBytes st inp cap).st) rfl rfl ?_ hm
            rw [h3, List.append_assoc]
            exact hyc
          by_cases hz : (C.decodeBytes st inp cap).consumed = 0 ∧ (C.decodeBytes st inp cap).out.length = 0
          · rw [if_pos hz] at h
            rw [if_neg (by omega)] at h
            unfold goto at h
            simp only [Prod.mk.injEq] at h
            obtain ⟨rfl, rfl⟩ := h
            rw [if_pos hz.2]
            have hout : (C.decodeBytes st inp cap).out = [] := List.eq_nil_of_length_eq_zero hz.2
            have hend := K.progress cap hpy hine hcap hinv hz.1 hout
            obtain ⟨rfl, rfl⟩ := K.det hy2 (K.ended _ hend)
            rw [hout] at ho
            refine ⟨kept_step K hd inp cap _, ?_⟩
            subst ho
            exact hgo _ (Nat.le_refl _) (K.ended _ hend)
          · rw [if_neg hz] at h
            rw [if_neg (by omega)] at h
            unfold goto at h
            simp only [Prod.mk.injEq] at h
            obtain ⟨rfl, rfl⟩ := h
            have hF := hgo _ (by omega) hy2
            by_cases hol : (C.decodeBytes st inp cap).out.length = 0
            · rw [if_pos hol]
              have hout : (C.decodeBytes st inp cap).out = [] := List.eq_nil_of_length_eq_zero hol
              rw [hout] at ho
              subst ho
              exact ⟨kept_step K hd inp cap _, hF⟩
            · rw [if_neg hol]
              exact ⟨kept_step K hd inp cap _, fun hc => hol (by rw [hc]; rfl), hsafe2, out', ho, hF⟩
    · have h0 : left = 0 := by omega
      subst h0
      rw [if_neg hleft] at h
      by_cases hb : b ≠ 0
      · rw [if_pos hb] at h
        unfold goto at h
        simp only [Prod.mk.injEq] at h
        obtain ⟨rfl, rfl⟩ := h
        refine ⟨kept_state K _ _, ?_⟩
        rw [List.cons_append, Spec.blocks_next hb] at hy hm ⊢
        exact .sub (st := st) rfl hd hy hm
      · rw [if_neg hb] at h
        have hb0 : b = 0 := by simpa using hb
        subst hb0
        rw [LzwReader.decodeBytes_slice hd] at h
        rw [List.cons_append, Spec.blocks_end] at hy hm ⊢
        have hm' : more = [] := by
          rcases hm with h | h
          · exact h
          · cases h
        subst hm'
        simp only [List.append_nil] at hy
        have hsafe2 := K.safe.out_le st [] cap
        by_cases hinv : (C.decodeBytes st [] cap).status = .invalidCode
        · simp only [hinv] at h
          simp only [Prod.mk.injEq, Outcome.ioErr] at h
          obtain ⟨rfl, rfl⟩ := h
          exact .inl ⟨rfl, K.invalid cap hy hinv⟩
        · obtain ⟨out', ho, hy2⟩ := K.step (rest := []) cap (by simpa using hy) hinv
          simp only [List.drop_nil, List.append_nil] at hy2
          have hok : ∀ x : Outcome (Nat × List UInt8), x = .ok ((C.decodeBytes st [] cap).consumed, (C.decodeBytes st [] cap).out) →
              (s.lzw.checkForEndCode = true → (C.decodeBytes st [] cap).status ≠ .noProgress) →
              (match (({ s.lzw with decoder := some (C.decodeBytes st [] cap).st } : LzwReader C), x) with
                | (lzw, .ok (_, bytes)) =>
                  let s := { s with lzw := lzw }
                  if bytes.length = 0 then goto s 0 .frameDecoded
                  else goto s 0 (.decodeSubBlock 0) (.bytesDecoded bytes)
                | (lzw, .err e) => ({ s with lzw := lzw }, .err e)
                | (lzw, .panic) => ({ s with lzw := lzw }, .panic)
                | (lzw, .diverge) => ({ s with lzw := lzw }, .diverge)) = (s', r) →
              FeedRes K [] cap s s' (0 :: bs) rest out e (some (bs ++ rest)) r := by
            rintro x rfl hchk h
            simp only at h
            by_cases hol : (C.decodeBytes st [] cap).out.length = 0
            · rw [if_pos hol] at h
              unfold goto at h
              simp only [Prod.mk.injEq] at h
              obtain ⟨rfl, rfl⟩ := h
              have hout : (C.decodeBytes st [] cap).out = [] := List.eq_nil_of_length_eq_zero hol
              obtain ⟨f1, f2, f3⟩ := K.flush cap hy hcap hinv hout
              subst f1
              refine ⟨kept_step K hd [] cap _, ?_⟩
              refine .fin rfl f2 ?_
              intro hc
              have hnp := hchk hc
              have hsafe := K.safe.consumed_le st [] cap
              simp only [List.length_nil, Nat.le_zero] at hsafe
              have : (C.decodeBytes st [] cap).status = .done := by
                cases hs : (C.decodeBytes st [] cap).status with
                | done => rfl
                | ok =>
                  rcases K.ok hs with h | h
                  · exact absurd hsafe h
                  · exact absurd hout h
                | noProgress => exact absurd hs hnp
                | invalidCode => exact absurd hs hinv
              have := K.ended [] (K.done this)
              exact (K.det hy2 this).2
            · rw [if_neg hol] at h
              unfold goto at h
              simp only [Prod.mk.injEq] at h
              obtain ⟨rfl, rfl⟩ := h
              refine ⟨kept_step K hd [] cap _, fun hc => hol (by rw [hc]; rfl), hsafe2, out', ho, ?_⟩
              have := Feed.sub (K := K) (more := []) (l := 0 :: bs ++ rest) (left := 0)
                (s := { s with
                    lzw := { s.lzw with decoder := some (C.decodeBytes st [] cap).st }, state := .decodeSubBlock 0 })
                (st := (C.decodeBytes st [] cap).st) (out := out') (e := e) rfl rfl
                (by rw [List.cons_append, Spec.blocks_end, List.append_nil]; exact hy2) (.inl rfl)
              rw [List.cons_append, Spec.blocks_end] at this
              exact this
          cases hs : (C.decodeBytes st [] cap).status with
          | invalidCode => exact absurd hs hinv
          | ok => simp only [hs] at h; exact hok _ rfl (fun _ => by rw [hs]; simp) h
          | done => simp only [hs] at h; exact hok _ rfl (fun _ => by rw [hs]; simp) h
          | noProgress =>
            by_cases hc : s.lzw.checkForEndCode = true
            · simp only [hs, hc, if_true, Outcome.ioErr, Prod.mk.injEq] at h
              obtain ⟨rfl, rfl⟩ := h
              obtain ⟨n1, n2, n3⟩ := K.noProgress hs
              obtain ⟨f1, f2, f3⟩ := K.flush cap hy hcap hinv n2
              refine .inr ⟨rfl, hc, ?_, f1⟩
              cases e with
              | starved => rfl
              | invalid => exact absurd rfl f2
              | ended => rw [f3 rfl] at n3; cases n3
            · simp only [hs] at h
              rw [if_neg hc] at h
              exact hok _ rfl (fun h => absurd h hc) h
  | @fin rest0 _ hst he hc =>
    simp only [List.cons_append, List.cons.injEq] at hl
    obtain ⟨rfl, rfl⟩ := hl
    unfold nextState at h
    simp only [hst] at h
    unfold onFrameDecoded goto at h
    simp only at h
    rw [if_neg (by simp)] at h
    simp only [Prod.mk.injEq] at h
    obtain ⟨rfl, rfl⟩ := h
    exact ⟨rfl, he, hc, rfl, rfl⟩

theorem feed_steps (K : C.Contract) {more l l' rest out : List UInt8} {cap : Nat} {s s' : SD C} {e : LzwEnd}
    {tail : Option (List UInt8)} (h : Steps (.slice cap) s l s' l') (hw : WF s) (hl : Look s l) (hcap : 0 < cap)
    (hf : Feed K more s (l ++ rest) out e tail) : Kept K s s' ∧ Feed K more s' (l' ++ rest) out e tail := by
  induction h with
  | refl => exact ⟨kept_refl K _, hf⟩
  | @step s s1 s' b bs l' n h hs ih =>
    obtain ⟨w1, w2, w3⟩ := tr_wf K.safe hw (tr_of_nextState hw.ibuf h)
    obtain ⟨k1, f1⟩ := feed_step K hw hf hcap h
    obtain ⟨k2, f2⟩ := ih w1 w2 f1
    exact ⟨kept_trans k1 k2, f2⟩

theorem feed_nil {K : C.Contract} {more out : List UInt8} {s : SD C} {e : LzwEnd} {tail : Option (List UInt8)}
    (h : Feed K more s [] out e tail) : tail = none := by
  generalize hl : ([] : List UInt8) = l at h
  cases h with
  | sub => subst hl; rw [Spec.blocks_nil]
  | fin => cases hl

end SD

namespace RD

variable {C : Codec}

/-- The possible results of `decode_next` in image data. -/
def FeedRes (K : C.Contract) (more : List UInt8) (cap : Nat) (d d' : RD C) (out : List UInt8) (e : LzwEnd)
    (tail : Option (List UInt8)) (r : Outcome (Option Decoded)) : Prop :=
  match r with
  | .ok (some (.bytesDecoded p)) => d'.atEof = false ∧ SD.Kept K d.sd d'.sd ∧ p ≠ [] ∧ p.length ≤ cap ∧
      ∃ out', out = p ++ out' ∧ SD.Feed K more d'.sd d'.reader.bytes out' e tail
  | .ok (some .dataEnd) => d'.atEof = false ∧ out = [] ∧ e ≠ .invalid ∧
      (d.sd.lzw.checkForEndCode = true → e = .ended) ∧ tail = some d'.reader.bytes ∧
      ∃ s1, SD.Kept K d.sd s1 ∧ d'.sd = { s1 with state := .blockEnd, current := none }
  | .err e' => (e' = .io .invalidCode ∧ e = .invalid) ∨
      (e' = .io .noEndCode ∧ d.sd.lzw.checkForEndCode = true ∧ e = .starved ∧ out = []) ∨
      (e' = .io .unexpectedEof ∧ tail = none) ∨ (∃ c, e' = .io (.reader c))
  | _ => False

theorem feed_pull (K : C.Contract) {more out : List UInt8} {cap : Nat} {d d' : RD C} {e : LzwEnd}
    {tail : Option (List UInt8)} {r : Outcome (Option Decoded)} (h : Pull (.slice cap) d d' r) (hi : Inv d)
    (hc : d.reader.Clean) (hn : d.atEof = false) (hcap : 0 < cap)
    (hf : SD.Feed K more d.sd d.reader.bytes out e tail) : FeedRes K more cap d d' out e tail r := by
  induction h with
  | eof h => rw [hn] at h; cases h
  | @readErr d r e h hfb => exact .inr (.inr (.inr ⟨e, rfl⟩))
  | @eos d r h hfb =>
    obtain ⟨h1, h2⟩ := Reader.clean_eof hfb hc
    rw [h2] at hf
    exact .inr (.inr (.inl ⟨rfl, SD.feed_nil hf⟩))
  | @more d d' r b bs s1 out h hfb hs hp ih =>
    have hlk := look_fill hi h hfb
    obtain ⟨w1, w2, w3, w4⟩ := SD.steps_wf K.safe hs hi.wf hlk
    obtain ⟨rest, hr1, hr2⟩ := bytes_eq hfb
    rw [hr1] at hf
    obtain ⟨k, f⟩ := SD.feed_steps K hs hi.wf hlk hcap hf
    have := ih ⟨w1, fun _ => w2, fun _ => w4 (hi.live h)⟩ (Reader.clean_fill' hfb hc _) h (by rw [hr2]; exact f)
    unfold FeedRes at this ⊢
    simp only [k.check] at this
    split <;> simp only at this
    · obtain ⟨h0, h1, h2⟩ := this
      exact ⟨h0, SD.kept_trans k h1, h2⟩
    · obtain ⟨h0, h1, h2, h3, h4, s2, h5, h6⟩ := this
      exact ⟨h0, h1, h2, h3, h4, s2, SD.kept_trans k h5, h6⟩
    · exact this
  | @event d r b b1 bs bs1 s1 s' n ev h hfb hs hst hev hev' =>
    have hlk := look_fill hi h hfb
    obtain ⟨w1, w2, w3, w4⟩ := SD.steps_wf K.safe hs hi.wf hlk
    obtain ⟨rest, hr1, hr2⟩ := bytes_eq hfb
    rw [hr1] at hf
    obtain ⟨k, f⟩ := SD.feed_steps K hs hi.wf hlk hcap hf
    have := SD.feed_step K w1 f hcap hst
    unfold SD.FeedRes at this
    unfold FeedRes
    simp only [k.check, hr2] at this ⊢
    cases ev with
    | nothing => exact absurd rfl hev
    | bytesDecoded p =>
      obtain ⟨h1, h2⟩ := this
      exact ⟨h, SD.kept_trans k h1, h2⟩
    | dataEnd =>
      obtain ⟨h1, h2, h3, h4, h5⟩ := this
      exact ⟨h, h1, h2, h3, h4, s1, k, h5⟩
    | _ => exact this
  | @trailer d r b b1 bs bs1 s1 s' n h hfb hs hst =>
    have hlk := look_fill hi h hfb
    obtain ⟨w1, w2, w3, w4⟩ := SD.steps_wf K.safe hs hi.wf hlk
    obtain ⟨rest, hr1, hr2⟩ := bytes_eq hfb
    rw [hr1] at hf
    obtain ⟨k, f⟩ := SD.feed_steps K hs hi.wf hlk hcap hf
    exact (SD.feed_step K w1 f hcap hst).elim
  | @err d r b b1 bs bs1 s1 s' e h hfb hs hst =>
    have hlk := look_fill hi h hfb
    obtain ⟨w1, w2, w3, w4⟩ := SD.steps_wf K.safe hs hi.wf hlk
    obtain ⟨rest, hr1, hr2⟩ := bytes_eq hfb
    rw [hr1] at hf
    obtain ⟨k, f⟩ := SD.feed_steps K hs hi.wf hlk hcap hf
    have := SD.feed_step K w1 f hcap hst
    unfold SD.FeedRes at this
    simp only [k.check] at this
    rcases this with h | h
    · exact .inl h
    · exact .inr (.inl h)

end RD

end Gif
