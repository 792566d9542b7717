import Verif.Lemmas.Cost
import Verif.Spec.Cost
import Verif.Spec.History
import Verif.Props.Ahead
/-!
# C68: frames are not for free
-/

namespace Gif

namespace SD

variable {C : Codec}

theorem need_pos {s : SD C} (h : ibufOk s) : 0 < need s := by
  unfold ibufOk at h
  cases hs : s.state <;> simp only [hs, required] at h <;> simp only [need, hs] <;> (try split) <;>
    (try simp only [if_neg (show ¬ (6 = 0) by decide), if_neg (show ¬ (7 = 0) by decide), if_neg (show ¬ (9 = 0) by decide)] at h) <;> omega

end SD

namespace Decoder

open RD (Paid Bought)

variable {C : Codec}

/-- Every call is paid for. -/
theorem ask_paid (hS : C.Safe) (d : Decoder C) (hi : d.Inv) (a : Ask) :
    Paid d.rd (d.ask a).1.rd ∧ ((d.ask a).2.announces = true → Bought d.rd (d.ask a).1.rd) := by
  cases a with
  | info =>
    obtain ⟨h1, h2⟩ := frameRun_paid hS (nextFrameInfo_run hS d hi.rd) hi.rd
    simp only [ask]
    generalize d.nextFrameInfo = x at *
    obtain ⟨d', out⟩ := x
    refine ⟨h1, fun h => h2 ?_⟩
    cases out with
    | ok b => cases b <;> simp_all [Told.announces]
    | _ => simp [Told.announces] at h
  | read =>
    obtain ⟨h1, h2⟩ := readNextFrame_paid hS d hi
    simp only [ask]
    generalize d.readNextFrame = x at *
    obtain ⟨d', out⟩ := x
    refine ⟨h1, fun h => ?_⟩
    cases out with
    | ok o =>
      cases o with
      | some f => exact h2 f rfl
      | none => simp [Told.announces] at h
    | _ => simp [Told.announces] at h
  | fill buf =>
    have h := (Converter.fillLoop_keeps d.conv d.currentFrame (RD.decodeNextBytes_paid hS d.rd) (buf.length + 1) d.rd buf
      ⟨hi.rd, .refl _⟩).2
    simp only [ask, fillBuffer, Converter.fillBuffer]
    generalize d.conv.fillLoop d.currentFrame RD.decodeNextBytes (buf.length + 1) d.rd buf = x at *
    obtain ⟨rd, b, o⟩ := x
    cases o <;> exact ⟨h, by simp [Told.announces]⟩
  | into buf =>
    have h := (Converter.readIntoBuffer_keeps d.conv d.currentFrame (RD.decodeNextBytes_paid hS d.rd) d.rd buf
      ⟨hi.rd, .refl _⟩).2
    simp only [ask, readIntoBuffer]
    generalize d.conv.readIntoBuffer d.currentFrame RD.decodeNextBytes d.rd buf = x at *
    obtain ⟨rd, b, o⟩ := x
    cases o <;> exact ⟨h, by simp [Told.announces]⟩
  | take =>
    simp only [ask, takeCurrentFrame]
    split <;> exact ⟨.refl _, by simp [Told.announces]⟩

theorem transcript_cost (hS : C.Safe) : ∀ (as : List Ask) (d : Decoder C), d.Inv → 0 < announced (transcript as d) →
    ¬ d.rd.Dead ∧ (after as d).rd.reader.bytes.length + 13 * announced (transcript as d) + d.rd.sd.need ≤ d.rd.reader.bytes.length + 13 := by
  intro as
  induction as with
  | nil => intro d _ h; simp [transcript, announced] at h
  | cons a as ih =>
    intro d hi h
    obtain ⟨h1, h2⟩ := ask_paid hS d hi a
    have hi' := inv_ask hS d hi a
    have hl := (after_left as (d.ask a).1).2.length_le
    have ih := ih _ hi'
    have hc : announced (transcript (a :: as) d) =
        (if (d.ask a).2.announces = true then 1 else 0) + announced (transcript as (d.ask a).1) := by
      simp only [transcript, announced, List.filter_cons]
      split <;> simp <;> omega
    rw [hc] at h ⊢
    show _ ∧ (after as (d.ask a).1).rd.reader.bytes.length + _ + _ ≤ _
    by_cases ha : (d.ask a).2.announces = true
    · have hb := h2 ha
      simp only [ha, if_true] at h ⊢
      refine ⟨hb.1, ?_⟩
      by_cases hz : 0 < announced (transcript as (d.ask a).1)
      · obtain ⟨k1, k2⟩ := ih hz
        have := hb.2.2.resolve_left k1
        omega
      · have := hb.2.1
        omega
    · simp only [ha, Bool.false_eq_true, if_false] at h ⊢
      obtain ⟨k1, k2⟩ := ih (by omega)
      have := h1.2.resolve_left k1
      exact ⟨fun hd => k1 (h1.1 hd), by omega⟩

/-- C68. However a program uses a decoder (any calls in any order, going on after errors), and whatever the reader does: every
frame it is told of costs 13 bytes of input, and the first one 12 bytes more. -/
theorem frames_cost (hS : C.Safe) (o : DecodeOptions) (r : Reader) (as : List Ask)
    (h : 0 < announced (transcriptFrom C o r as)) : 13 * announced (transcriptFrom C o r as) + 12 ≤ r.bytes.length := by
  have hi := (inv_readInfo hS o r).1
  have hp := readInfo_paid hS o r
  unfold transcriptFrom at *
  generalize readInfo C o r = x at *
  obtain ⟨d, out⟩ := x
  cases out with
  | ok u =>
    have hc : announced ((Told.opened (.ok ()), d.view) :: transcript as d) = announced (transcript as d) := by
      simp [announced, Told.announces]
    simp only at h ⊢
    rw [hc] at h ⊢
    obtain ⟨h1, h2⟩ := transcript_cost hS as d hi h
    have := hp.resolve_left h1
    simp only at this
    omega
  | _ => simp [announced, Told.announces] at h

/-- C68: also what is left to the reader counts. -/
theorem frames_cost_rest (hS : C.Safe) {o : DecodeOptions} {r : Reader} {d : Decoder C} (ho : readInfo C o r = (d, .ok ()))
    (as : List Ask) (h : 0 < announced (transcript as d)) :
    13 * announced (transcript as d) + 12 + (after as d).intoInner.bytes.length ≤ r.bytes.length := by
  have hi := (inv_readInfo hS o r).1
  have hp := readInfo_paid hS o r
  rw [ho] at hi hp
  obtain ⟨h1, h2⟩ := transcript_cost hS as d hi h
  have := hp.resolve_left h1
  simp only at this
  show _ + (after as d).rd.reader.bytes.length ≤ _
  omega

/-! ## Loops -/

theorem loop_ends_aux (hS : C.Safe) : ∀ (n : Nat) (d : Decoder C), d.Inv → d.rd.reader.bytes.length < n →
    ∃ fs x, Looped d fs x ∧ x.returns = true ∧
      (fs ≠ [] → ¬ d.rd.Dead ∧ 13 * fs.length + d.rd.sd.need ≤ d.rd.reader.bytes.length + 13) := by
  intro n
  induction n with
  | zero => intro d _ h; omega
  | succ n ih =>
    intro d hi hn
    have hs := readNextFrame_spec hS d hi
    obtain ⟨_, hb⟩ := readNextFrame_paid hS d hi
    generalize hx : d.readNextFrame = x at *
    obtain ⟨d', out⟩ := x
    cases out with
    | ok o =>
      cases o with
      | none => exact ⟨[], _, .done hx, rfl, by simp⟩
      | some f =>
        have hb := hb f rfl
        have hpos := SD.need_pos hi.rd.wf.ibuf
        have h1 := hb.2.1
        obtain ⟨fs, x, l1, l2, l3⟩ := ih d' hs.1 (by simp only at h1; omega)
        refine ⟨f :: fs, x, .frame hx l1, l2, fun _ => ⟨hb.1, ?_⟩⟩
        simp only [List.length_cons]
        by_cases hf : fs = []
        · subst hf; simp only [List.length_nil] at *; omega
        · obtain ⟨k1, k2⟩ := l3 hf
          have := hb.2.2.resolve_left k1
          simp only at this
          omega
    | err e => exact ⟨[], _, .err hx, rfl, by simp⟩
    | panic => have := hs.2.1; cases this
    | diverge => have := hs.2.1; cases this

/-- C68: the loop of every manual ends, after at most one round per 13 bytes. -/
theorem read_loop_ends (hS : C.Safe) {o : DecodeOptions} {r : Reader} {d : Decoder C} (ho : readInfo C o r = (d, .ok ())) :
    ∃ fs x, Looped d fs x ∧ x.returns = true ∧ (fs ≠ [] → 13 * fs.length + 12 ≤ r.bytes.length) := by
  have hi := (inv_readInfo hS o r).1
  have hp := readInfo_paid hS o r
  rw [ho] at hi hp
  obtain ⟨fs, x, h1, h2, h3⟩ := loop_ends_aux hS _ d hi (Nat.lt_succ_self _)
  refine ⟨fs, x, h1, h2, fun hf => ?_⟩
  obtain ⟨k1, k2⟩ := h3 hf
  have := hp.resolve_left k1
  simp only at this
  omega

/-- The loop has one outcome. -/
theorem looped_det {d : Decoder C} {fs fs' : List Frame} {x x' : Outcome Unit} (h : Looped d fs x) (h' : Looped d fs' x') :
    fs = fs' ∧ x = x' := by
  induction h generalizing fs' x' with
  | done h =>
    cases h' with
    | frame h1 h2 => rw [h] at h1; cases h1
    | _ => rename_i h'; rw [h] at h'; cases h' <;> exact ⟨rfl, rfl⟩
  | err h =>
    cases h' with
    | frame h1 h2 => rw [h] at h1; cases h1
    | _ => rename_i h'; rw [h] at h'; cases h' <;> exact ⟨rfl, rfl⟩
  | panic h =>
    cases h' with
    | frame h1 h2 => rw [h] at h1; cases h1
    | _ => rename_i h'; rw [h] at h'; cases h' <;> exact ⟨rfl, rfl⟩
  | diverge h =>
    cases h' with
    | frame h1 h2 => rw [h] at h1; cases h1
    | _ => rename_i h'; rw [h] at h'; cases h' <;> exact ⟨rfl, rfl⟩
  | frame h _ ih =>
    cases h' with
    | frame h1 h2 =>
      rw [h] at h1
      cases h1
      obtain ⟨rfl, rfl⟩ := ih h2
      exact ⟨rfl, rfl⟩
    | _ => rename_i h'; rw [h] at h'; cases h'

end Decoder

namespace DecoderIter

variable {C : Codec}

theorem items_end_aux (hS : C.Safe) : ∀ (n : Nat) (it : DecoderIter C), it.inner.Inv → it.inner.rd.reader.bytes.length < n →
    ∃ (fs : List Frame) (e : List DecodingError), Items it (fs.map .ok ++ e.map .error) ∧ e.length ≤ 1 ∧
      (fs ≠ [] → ¬ it.inner.rd.Dead ∧ 13 * fs.length + it.inner.rd.sd.need ≤ it.inner.rd.reader.bytes.length + 13) := by
  intro n
  induction n with
  | zero => intro d _ h; omega
  | succ n ih =>
    intro it hi hn
    cases hend : it.ended with
    | true =>
      exact ⟨[], [], .done (it' := it) (by unfold next; rw [if_pos hend]), by simp, by simp⟩
    | false =>
      have hs := Decoder.readNextFrame_spec hS it.inner hi
      obtain ⟨_, hb⟩ := Decoder.readNextFrame_paid hS it.inner hi
      have hnext : ∀ x, it.inner.readNextFrame = x → it.next = (match x with
          | (d, .ok (some _)) =>
            match d.takeCurrentFrame with
            | (d, some f) => ({ it with inner := d }, .ok (some (.ok f)))
            | (d, none) => ({ it with inner := d }, .ok none)
          | (d, .ok none) => ({ inner := d, ended := true }, .ok none)
          | (d, .err e) => ({ inner := d, ended := true }, .ok (some (.error e)))
          | (d, .panic) => ({ it with inner := d }, .panic)
          | (d, .diverge) => ({ it with inner := d }, .diverge)) := by
        intro x hx; subst hx; unfold next; rw [if_neg (by simp [hend])]; rfl
      generalize hx : it.inner.readNextFrame = x at *
      replace hnext := hnext x rfl
      obtain ⟨d', out⟩ := x
      cases out with
      | ok o =>
        cases o with
        | none => exact ⟨[], [], .done hnext, by simp, by simp⟩
        | some f =>
          simp only at hnext
          have hb := hb f rfl
          have hpos := SD.need_pos hi.rd.wf.ibuf
          have h1 := hb.2.1
          have hinv := hs.1
          unfold Decoder.takeCurrentFrame at hnext
          split at hnext
          · rename_i heq
            split at heq
            · cases heq
            · cases heq
              obtain ⟨fs, e, l1, l2, l3⟩ := ih { it with inner := { d' with currentFrame := d'.currentFrame.afterTake } }
                ⟨hinv.rd, hinv.limit⟩ (by simp only at h1 ⊢; omega)
              refine ⟨d'.currentFrame.take :: fs, e, .item hnext l1, l2, fun _ => ⟨hb.1, ?_⟩⟩
              simp only [List.length_cons]
              by_cases hf : fs = []
              · subst hf; simp only [List.length_nil] at *; omega
              · obtain ⟨k1, k2⟩ := l3 hf
                have := hb.2.2.resolve_left k1
                simp only at this k2
                omega
          · exact ⟨[], [], .done hnext, by simp, by simp⟩
      | err e =>
        refine ⟨[], [e], .item hnext (.done (it' := { inner := d', ended := true }) rfl), by simp, by simp⟩
      | panic => have := hs.2.1; cases this
      | diverge => have := hs.2.1; cases this

/-- C68: `for` loops end, too: some frames, and at most one error after them. -/
theorem items_end (hS : C.Safe) {o : DecodeOptions} {r : Reader} {d : Decoder C} (ho : Decoder.readInfo C o r = (d, .ok ())) :
    ∃ (fs : List Frame) (e : List DecodingError), Items (new d) (fs.map .ok ++ e.map .error) ∧ e.length ≤ 1 ∧
      (fs ≠ [] → 13 * fs.length + 12 ≤ r.bytes.length) := by
  have hi := (Decoder.inv_readInfo hS o r).1
  have hp := Decoder.readInfo_paid hS o r
  rw [ho] at hi hp
  obtain ⟨fs, e, h1, h2, h3⟩ := items_end_aux hS _ (new d) hi (Nat.lt_succ_self _)
  refine ⟨fs, e, h1, h2, fun hf => ?_⟩
  obtain ⟨k1, k2⟩ := h3 hf
  have := hp.resolve_left k1
  simp only [new] at this k2
  omega

end DecoderIter

end Gif
