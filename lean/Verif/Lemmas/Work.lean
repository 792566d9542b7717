import Verif.Spec.Work
import Verif.Lemmas.History
import Verif.Lemmas.DecInv
/-!
How many steps a call takes.
-/

namespace Gif

variable {C : Codec}

/-- Not an error of the reader. -/
def DecodingError.own : DecodingError → Bool
  | .io (.reader _) => false
  | .io .unexpectedEof => false
  | _ => true

/-- Not an error of the reader. -/
abbrev Outcome.Own {α : Type} (out : Outcome α) : Prop :=
  (match out with
    | .err e => e.own
    | _ => true) = true

namespace SD

theorem goto_own (s : SD C) (n : Nat) (t : State) (ev : Decoded) : (goto s n t ev).2.Own := by
  rfl

theorem ensureMin_own (s : SD C) (buf : List UInt8) (n : Nat) (k : SD C → Nat → List UInt8 → StepResult C)
    (hk : ∀ s m b, (k s m b).2.Own) : (ensureMin s buf n k).2.Own := by
  unfold ensureMin
  split
  · exact hk _ _ _
  · split
    · simp only
      split
      · rfl
      · split
        · rfl
        · exact hk _ _ _
    · exact hk _ _ _

theorem reset_own (r : LzwReader C) (m : UInt8) : (r.reset m).2.Own := by
  unfold LzwReader.reset
  repeat' split
  all_goals rfl

theorem decodeBytes_own (r : LzwReader C) (b : List UInt8) (o : OutSpec) : (r.decodeBytes b o).2.Own := by
  unfold LzwReader.decodeBytes
  split
  · rfl
  · split
    all_goals first | (rfl; done) | skip
    all_goals simp only
    all_goals repeat' split
    all_goals rfl

theorem control_own (s : SD C) : s.readControlExtension.2.Own := by
  unfold readControlExtension
  repeat' split
  all_goals rfl

theorem append_own (o : OutSpec) (l : List UInt8) (m : MemoryLimit) : (append o l m).Own := by
  unfold append
  repeat' split
  all_goals rfl

theorem copy_own (s : SD C) (left : Nat) (b : UInt8) (buf : List UInt8) (o : OutSpec) :
    (onCopySubBlock s left b buf o).2.Own := by
  unfold onCopySubBlock
  split
  · rfl
  · split
    · simp only
      have hd := append_own o (buf.take (min left buf.length)) s.memoryLimit
      generalize append o (buf.take (min left buf.length)) s.memoryLimit = x at *
      cases x with
      | ok p => simp only [goto]; split <;> rfl
      | err e => exact hd
      | panic => rfl
      | diverge => rfl
    · split <;> exact goto_own _ _ _ _

theorem decode_own (s : SD C) (left : Nat) (b : UInt8) (buf : List UInt8) (o : OutSpec) :
    (onDecodeSubBlock s left b buf o).2.Own := by
  unfold onDecodeSubBlock
  split
  · rfl
  · split
    · simp only
      split
      · exact goto_own _ _ _ _
      · have hd := decodeBytes_own s.lzw (buf.take (min left buf.length)) o
        generalize s.lzw.decodeBytes (buf.take (min left buf.length)) o = x at *
        obtain ⟨l, out⟩ := x
        cases out with
        | ok p => simp only [goto]; (repeat' split) <;> (rfl)
        | err e => exact hd
        | panic => rfl
        | diverge => rfl
    · split
      · exact goto_own _ _ _ _
      · have hd := decodeBytes_own s.lzw [] o
        generalize s.lzw.decodeBytes [] o = x at *
        obtain ⟨l, out⟩ := x
        cases out with
        | ok p => simp only [goto]; split <;> rfl
        | err e => exact hd
        | panic => rfl
        | diverge => rfl

theorem nextState_own (s : SD C) (b : UInt8) (bs : List UInt8) (o : OutSpec) : (nextState s (b :: bs) o).2.Own := by
  unfold nextState
  simp only
  · split
    · apply ensureMin_own
      intro s m b
      unfold onMagic
      repeat' split
      all_goals rfl
    · apply ensureMin_own
      intro s m b
      unfold onScreenDescriptor goto
      repeat' split
      all_goals first | (rfl) | (simp only; split <;> rfl)
    · apply ensureMin_own
      intro s m b
      unfold onImageBlockStart goto
      repeat' split
      all_goals first | (rfl) | (simp only; repeat' split)
      all_goals rfl
    · unfold onGlobalPalette goto
      repeat' split
      all_goals first | (rfl) | (simp only; repeat' split)
      all_goals rfl
    · unfold onBlockStart goto
      repeat' split
      all_goals first | (rfl) | (simp only; repeat' split)
      all_goals rfl
    · unfold onBlockEnd goto
      repeat' split
      all_goals rfl
    · exact goto_own _ _ _ _
    · unfold onExtensionDataBlock goto
      have hc := control_own { s with extIsBlockEnd := true }
      split
      · simp only
        split <;> rfl
      · split
        · simp only
          split
          · rfl
          · generalize readControlExtension _ = x at *
            obtain ⟨s', out⟩ := x
            cases out with
            | err e => exact hc
            | _ => rfl
          · rfl
        · rfl
    · unfold onApplicationExtension goto
      repeat' split
      all_goals first | (rfl) | (simp only; repeat' split)
      all_goals rfl
    · unfold onLocalPalette goto
      repeat' split
      all_goals first | (rfl) | (simp only; repeat' split)
      all_goals rfl
    · rename_i m _
      unfold onLzwInit goto
      have hr := reset_own s.lzw m
      split
      · generalize s.lzw.reset m = x at *
        obtain ⟨l, out⟩ := x
        cases out with
        | err e => exact hr
        | _ => rfl
      · split <;> rfl
    · exact copy_own _ _ _ _ _
    · exact decode_own _ _ _ _ _
    · unfold onFrameDecoded goto
      simp only
      split <;> rfl
    · exact goto_own _ _ _ _

/-- Pixels an event carries. -/
def made : Decoded → Nat
  | .bytesDecoded bytes => bytes.length
  | _ => 0

theorem tr_copied {o : OutSpec} {b : UInt8} {bs : List UInt8} {s s' : SD C} {n : Nat} {l : List UInt8}
    (h : Tr o b bs s s' n (.lzwDataCopied l)) : ∃ left, s.state = .copySubBlock left ∧ 0 < left ∧
      append o ((b :: bs).take (min left (b :: bs).length)) s.memoryLimit = .ok (n, l) ∧
      s' = { s with state := .copySubBlock (left - n) } := by
  generalize hev : Decoded.lzwDataCopied l = ev at h
  cases h with
  | copy left consumed copied hs hk hl ha hc => cases hev; exact ⟨left, hs, hl, ha, rfl⟩
  | decode => split at hev <;> cases hev
  | _ => first | (cases hev; done) | (split at hev <;> cases hev)

/-- Every step consumes, makes pixels, or moves forward, but for copying nothing into an empty slice. -/
theorem tr_made (hS : C.Safe) {o : OutSpec} {b : UInt8} {bs : List UInt8} {s s' : SD C} {n : Nat} {ev : Decoded}
    (h : Tr o b bs s s' n ev) (ht : s.state ≠ .trailer) (hev : o ≠ .slice 0 ∨ ∀ l, ev ≠ .lzwDataCopied l) :
    rank s' + 1 ≤ rank s + 4 * n + made ev := by
  have hr := rank_le s'
  by_cases hc : ∃ l, ev = .lzwDataCopied l
  · obtain ⟨l, rfl⟩ := hc
    have ho : o ≠ .slice 0 := hev.elim id fun h => absurd rfl (h l)
    obtain ⟨left, hs, hl, ha, _⟩ := tr_copied h
    · have : 0 < n := by
        unfold append at ha
        have hlen : 0 < ((b :: bs).take (min left (b :: bs).length)).length := by
          rw [List.length_take, List.length_cons]; omega
        cases o with
        | slice c =>
          simp only at ha
          cases ha
          have : c ≠ 0 := fun h => ho (by rw [h])
          simp only [List.length_take, List.length_cons] at *
          omega
        | vec l =>
          simp only at ha
          split at ha
          · cases ha; exact hlen
          · cases ha
        | none =>
          simp only at ha
          cases ha; exact hlen
      omega
  · have hm : made ev = produced ev := by
      cases ev with
      | lzwDataCopied l => exact absurd ⟨l, rfl⟩ hc
      | _ => rfl
    rw [hm]
    by_cases ho : o ≠ .slice 0 ∨ s.skipFrameDecoding = false
    · exact tr_progress hS h ht ho
    · have hk' : s.skipFrameDecoding = true := by
        cases hx : s.skipFrameDecoding with
        | true => rfl
        | false => exact absurd (.inr hx) ho
      have key : 0 < n ∨ rank s' < rank s := by
        cases h with
        | copy left consumed copied hs hk hl ha _ => exact absurd ⟨_, rfl⟩ hc
        | decode left consumed bytes lzw hs hk hl he hon hd n1 hn hc => rw [hk] at hk'; cases hk'
        | decodeFlush consumed bytes lzw hs hk hb hd hne => rw [hk] at hk'; cases hk'
        | collect h0 h => exact .inl (by simp)
        | magic v hs hi hl hv => exact .inl (by omega)
        | screen w0 w1 h0 h1 flags bg asp hs hi hl hv => exact .inl (by omega)
        | imageHeader f l0 l1 t0 t1 w0 w1 h0 h1 flags hs hi hl hv => exact .inl (by omega)
        | gctData left hs hl => exact .inl (by simp only [List.length_cons]; omega)
        | headerEnd t hs hh => exact .inr (by simp [rank, hs, hh])
        | image hs hh => exact .inr (by simp [rank, hs, hh])
        | blockEndTrailer hs hb => exact .inr (by simp only [rank, hs]; split <;> omega)
        | extData left hs hl => exact .inl (by simp only [List.length_cons]; omega)
        | extEndApp hs => exact .inr (by simp [rank, hs])
        | lctData left f hs hl => exact .inl (by simp only [List.length_cons]; omega)
        | copyEnd hs => exact .inr (by simp [rank, hs])
        | decodeSkip left hs hk hl => exact .inl (by simp only [List.length_cons]; omega)
        | decodeEnd consumed lzw hs => exact .inr (by simp [rank, hs])
        | trailerLoop hs => exact absurd hs ht
        | _ => exact .inl (by omega)
      omega

/-- Copying nothing into an empty slice is at least no step back. -/
theorem tr_made_weak (hS : C.Safe) {o : OutSpec} {b : UInt8} {bs : List UInt8} {s s' : SD C} {n : Nat} {ev : Decoded}
    (h : Tr o b bs s s' n ev) (ht : s.state ≠ .trailer) : rank s' ≤ rank s + 4 * n + made ev := by
  by_cases hc : ∃ l, ev = .lzwDataCopied l
  · obtain ⟨l, rfl⟩ := hc
    obtain ⟨left, hs, hl, ha, rfl⟩ := tr_copied h
    · have : rank { s with state := State.copySubBlock (left - n) } = rank s := by simp [rank, hs]
      omega
  · have := tr_made hS h ht (.inr fun l hl => hc ⟨l, hl⟩)
    omega

theorem updateWork_silent {o : OutSpec} {fuel : Nat} {s s1 : SD C} {b : UInt8} {bs : List UInt8} {n : Nat}
    (h : nextState s (b :: bs) o = (s1, .ok (n, .nothing))) :
    updateWork o (fuel + 1) s (b :: bs) = 1 + updateWork o fuel s1 ((b :: bs).drop n) := by
  rw [updateWork, h]

theorem updateWork_event {o : OutSpec} {fuel : Nat} {s s1 : SD C} {b : UInt8} {bs : List UInt8} {n : Nat} {ev : Decoded}
    (h : nextState s (b :: bs) o = (s1, .ok (n, ev))) (hev : ev ≠ .nothing) :
    updateWork o (fuel + 1) s (b :: bs) = 1 := by
  rw [updateWork, h]
  cases ev <;> first | exact absurd rfl hev | rfl

theorem updateWork_err {o : OutSpec} {fuel : Nat} {s s1 : SD C} {b : UInt8} {bs : List UInt8} {e : DecodingError}
    (h : nextState s (b :: bs) o = (s1, .err e)) : updateWork o (fuel + 1) s (b :: bs) = 1 := by
  rw [updateWork, h]

theorem updateLoop_event {len : Nat} {o : OutSpec} {fuel : Nat} {s s1 : SD C} {b : UInt8} {bs : List UInt8} {n : Nat}
    {ev : Decoded} (h : nextState s (b :: bs) o = (s1, .ok (n, ev))) (hev : ev ≠ .nothing) :
    updateLoop len o (fuel + 1) s (b :: bs) = (s1, .ok (len - ((b :: bs).drop n).length, ev)) := by
  rw [updateLoop, h]
  cases ev <;> first | exact absurd rfl hev | rfl

/-- What `update` did, paid with what it consumed and made. -/
theorem updateLoop_work (hS : C.Safe) (len : Nat) (o : OutSpec) : ∀ (fuel : Nat) (s : SD C) (l : List UInt8),
    WF s → Look s l → s.state ≠ .trailer → l.length ≤ len →
    (∀ s' c ev, updateLoop len o fuel s l = (s', .ok (c, ev)) →
      updateWork o fuel s l + rank s' + 4 * (len - c) ≤ rank s + 4 * l.length + made ev + 1 ∧
      (o ≠ .slice 0 ∨ (∀ l, ev ≠ .lzwDataCopied l) →
        updateWork o fuel s l + rank s' + 4 * (len - c) ≤ rank s + 4 * l.length + made ev)) ∧
    (∀ s' e, updateLoop len o fuel s l = (s', .err e) →
      updateWork o fuel s l ≤ rank s + 4 * l.length + 1 ∧ e.own = true) := by
  intro fuel
  induction fuel with
  | zero =>
    intro s l hw hl ht hlen
    cases l with
    | nil =>
      refine ⟨fun s' c ev h => ?_, fun s' e h => ?_⟩
      · rw [updateLoop] at h; cases h; simp [updateWork, made]; try omega
      · rw [updateLoop] at h; cases h
    | cons b bs =>
      refine ⟨fun s' c ev h => ?_, fun s' e h => ?_⟩
      · rw [updateLoop] at h; cases h
      · rw [updateLoop] at h; cases h
  | succ fuel ih =>
    intro s l hw hl ht hlen
    cases l with
    | nil =>
      refine ⟨fun s' c ev h => ?_, fun s' e h => ?_⟩
      · rw [updateLoop] at h; cases h; simp [updateWork, made]; try omega
      · rw [updateLoop] at h; cases h
    | cons b bs =>
      have hown := nextState_own s b bs o
      match hx : nextState s (b :: bs) o with
      | (s1, .ok (n, ev)) =>
        rcases nextState_cases hS hw hl hx with ⟨n', ev', he, htr, hw', hl', hn⟩ | ⟨⟨e, he⟩, _⟩
        · cases he
          have hd : ((b :: bs).drop n).length = (b :: bs).length - n := List.length_drop
          by_cases hev : ev = .nothing
          · subst hev
            have h1 := tr_made hS htr ht (.inr fun l hl => by cases hl)
            obtain ⟨i1, i2⟩ := ih s1 ((b :: bs).drop n) hw' hl'
              (fun hc => by have := (tr_trailer htr ht).1 hc; simp at this) (by omega)
            simp only [made] at h1
            rw [updateWork_silent hx, updateLoop, hx]
            refine ⟨fun s' c ev h => ?_, fun s' e h => ?_⟩
            · obtain ⟨j1, j2⟩ := i1 s' c ev h
              exact ⟨by omega, fun hc => by have := j2 hc; omega⟩
            · obtain ⟨j1, j2⟩ := i2 s' e h
              exact ⟨by omega, j2⟩
          · rw [updateWork_event hx hev, updateLoop_event hx hev]
            refine ⟨fun s' c ev' h => ?_, fun s' e h => by cases h⟩
            cases h
            have hw1 := tr_made_weak hS htr ht
            refine ⟨by omega, fun hc => ?_⟩
            have := tr_made hS htr ht hc
            omega
        · cases he
      | (s1, .err e) =>
        rw [hx] at hown
        rw [updateWork_err hx, updateLoop, hx]
        refine ⟨fun s' c ev h => (by cases h), fun s' e' h => ?_⟩
        cases h
        exact ⟨by omega, hown⟩
      | (s1, .panic) => rw [updateLoop, hx]; exact ⟨fun s' c ev h => (by cases h), fun s' e' h => (by cases h)⟩
      | (s1, .diverge) => rw [updateLoop, hx]; exact ⟨fun s' c ev h => (by cases h), fun s' e' h => (by cases h)⟩

end SD

namespace RD

/-- What `decode_next` did, paid with what it consumed and made. -/
theorem decodeNextLoop_work (hS : C.Safe) (o : OutSpec) : ∀ (fuel : Nat) (d : RD C), Inv d →
    (∀ d', decodeNextLoop o fuel d = (d', .ok none) → decodeNextWork o fuel d + meas d' ≤ meas d) ∧
    (∀ d' ev, decodeNextLoop o fuel d = (d', .ok (some ev)) →
      decodeNextWork o fuel d + meas d' ≤ meas d + SD.made ev + 1 ∧
      (o ≠ .slice 0 ∨ (∀ l, ev ≠ .lzwDataCopied l) → decodeNextWork o fuel d + meas d' ≤ meas d + SD.made ev)) ∧
    (∀ d' e, decodeNextLoop o fuel d = (d', .err e) →
      decodeNextWork o fuel d ≤ meas d + 1 ∧ (e.own = false → decodeNextWork o fuel d + meas d' ≤ meas d)) := by
  intro fuel
  induction fuel with
  | zero =>
    intro d _
    exact ⟨fun d' h => by (rw [decodeNextLoop] at h; cases h), fun d' ev h => by (rw [decodeNextLoop] at h; cases h),
      fun d' e h => by (rw [decodeNextLoop] at h; cases h)⟩
  | succ fuel ih =>
    intro d hi
    rw [decodeNextLoop, decodeNextWork]
    by_cases ha : d.atEof = true
    · simp only [ha, if_true]
      exact ⟨fun d' h => (by cases h; omega), fun d' ev h => (by cases h), fun d' e h => (by cases h)⟩
    · have ha' : d.atEof = false := by simpa using ha
      simp only [ha', Bool.false_eq_true, if_false]
      match hfb : d.reader.fillBuf with
      | (r, .error e) =>
        refine ⟨fun d' h => (by cases h), fun d' ev h => (by cases h), fun d' e' h => ?_⟩
        cases h
        have := (Reader.bytes_fillBuf_err hfb).1
        simp only [meas, this]
        exact ⟨by omega, fun _ => by omega⟩
      | (r, .ok []) =>
        refine ⟨fun d' h => (by cases h), fun d' ev h => (by cases h), fun d' e' h => ?_⟩
        have := (Reader.bytes_fillBuf_ok hfb).2.1
        simp only [List.isEmpty_nil, if_true] at h ⊢
        cases h
        simp only [meas, this]
        exact ⟨by omega, fun _ => by omega⟩
      | (r, .ok (b :: bs)) =>
        simp only [List.isEmpty_cons, Bool.false_eq_true, if_false]
        obtain ⟨g1, g2, g3, g4, g5⟩ := Reader.bytes_fillBuf_ok hfb
        have hlk := look_fill hi ha' hfb
        obtain ⟨u1, u2⟩ := SD.updateLoop_work hS (b :: bs).length o (2 * (b :: bs).length + 2) d.sd (b :: bs) hi.wf hlk
          (hi.live ha') (Nat.le_refl _)
        have hret := SD.update_cases hS o d.sd (b :: bs) hi.wf hlk (hi.live ha')
        have hcons : ∀ c, c ≤ (b :: bs).length → (r.consume c).bytes.length + c = d.reader.bytes.length := by
          intro c hc
          have := bytes_length r (r.buf.drop c)
          rw [List.length_drop, g1] at this
          rw [← g2]
          unfold Reader.consume
          rw [g1]
          omega
        match hu : SD.update d.sd (b :: bs) o with
        | (s', .ok (c, ev)) =>
          have hc : c ≤ (b :: bs).length := by
            obtain ⟨s1, l1, _, he⟩ := hret
            rw [hu] at he
            cases he <;> omega
          have hb := hcons c hc
          obtain ⟨v1, v2⟩ := u1 s' c ev hu
          by_cases hev : ev = .nothing
          · subst hev
            have v3 := v2 (.inr fun l hl => by cases hl)
            simp only [SD.made] at v3
            simp only
            have hinv : Inv ({ reader := r.consume c, sd := s', atEof := false } : RD C) := by
              obtain ⟨s1, l1, hs, he⟩ := hret
              rw [hu] at he
              obtain ⟨w1, w2, w3, w4⟩ := SD.steps_wf hS hs hi.wf hlk
              have hb0 : (r.consume (b :: bs).length).buf = [] := by simp [Reader.consume, g1]
              cases he with
              | all => exact ⟨w1, fun _ => (by rw [hb0]; exact w2), fun _ => w4 (hi.live ha')⟩
              | event hn hev => exact absurd rfl hev
            obtain ⟨i1, i2, i3⟩ := ih _ hinv
            have hm : meas ({ reader := r.consume c, sd := s', atEof := false } : RD C) = 4 * (r.consume c).bytes.length + s'.rank := rfl
            have hm' : meas d = 4 * d.reader.bytes.length + d.sd.rank := rfl
            refine ⟨fun d' h => ?_, fun d' ev h => ?_, fun d' e h => ?_⟩
            · have := i1 d' h
              omega
            · obtain ⟨j1, j2⟩ := i2 d' ev h
              exact ⟨by omega, fun hx => by have := j2 hx; omega⟩
            · obtain ⟨j1, j2⟩ := i3 d' e h
              exact ⟨by omega, fun hx => by have := j2 hx; omega⟩
          · have hm' : meas d = 4 * d.reader.bytes.length + d.sd.rank := rfl
            by_cases hev' : ev = .blockStart .trailer
            · subst hev'
              have v3 := v2 (.inr fun l hl => by cases hl)
              simp only [SD.made] at v3
              simp only
              cases fuel with
              | zero =>
                simp only [decodeNextLoop]
                exact ⟨fun d' h => (by cases h), fun d' ev h => (by cases h), fun d' e h => (by cases h)⟩
              | succ fuel =>
                simp only [decodeNextLoop, if_true]
                refine ⟨fun d' h => ?_, fun d' ev h => (by cases h), fun d' e h => (by cases h)⟩
                cases h
                simp only [meas]
                omega
            · have hm : meas ({ reader := r.consume c, sd := s', atEof := false } : RD C) =
                  4 * (r.consume c).bytes.length + s'.rank := rfl
              have wrap : ∀ (ev : Decoded), (SD.updateWork o (2 * (b :: bs).length + 2) d.sd (b :: bs) + s'.rank +
                    4 * ((b :: bs).length - c) ≤ d.sd.rank + 4 * (b :: bs).length + SD.made ev + 1) →
                  (o ≠ .slice 0 ∨ (∀ l, ev ≠ .lzwDataCopied l) → SD.updateWork o (2 * (b :: bs).length + 2) d.sd (b :: bs) +
                    s'.rank + 4 * ((b :: bs).length - c) ≤ d.sd.rank + 4 * (b :: bs).length + SD.made ev) →
                  (∀ d', (({ reader := r.consume c, sd := s', atEof := false } : RD C), Outcome.ok (some ev)) = (d', .ok none) →
                    SD.updateWork o (2 * (b :: bs).length + 2) d.sd (b :: bs) + 0 + meas d' ≤ meas d) ∧
                  (∀ d' ev', (({ reader := r.consume c, sd := s', atEof := false } : RD C), Outcome.ok (some ev)) =
                      (d', .ok (some ev')) →
                    SD.updateWork o (2 * (b :: bs).length + 2) d.sd (b :: bs) + 0 + meas d' ≤ meas d + SD.made ev' + 1 ∧
                    (o ≠ .slice 0 ∨ (∀ l, ev' ≠ .lzwDataCopied l) →
                      SD.updateWork o (2 * (b :: bs).length + 2) d.sd (b :: bs) + 0 + meas d' ≤ meas d + SD.made ev')) ∧
                  (∀ d' e, (({ reader := r.consume c, sd := s', atEof := false } : RD C), Outcome.ok (some ev)) = (d', .err e) →
                    SD.updateWork o (2 * (b :: bs).length + 2) d.sd (b :: bs) + 0 ≤ meas d + 1 ∧
                    (e.own = false → SD.updateWork o (2 * (b :: bs).length + 2) d.sd (b :: bs) + 0 + meas d' ≤ meas d)) := by
                intro ev v1 v2
                refine ⟨fun d' h => (by cases h), fun d' ev' h => ?_, fun d' e h => (by cases h)⟩
                cases h
                exact ⟨by omega, fun hx => by have := v2 hx; omega⟩
              cases ev with
              | nothing => exact absurd rfl hev
              | blockStart t =>
                cases t with
                | trailer => exact absurd rfl hev'
                | image => exact wrap _ v1 v2
                | extension => exact wrap _ v1 v2
              | _ => exact wrap _ v1 v2
        | (s', .err e) =>
          obtain ⟨v1, v2⟩ := u2 s' e hu
          refine ⟨fun d' h => (by cases h), fun d' ev h => (by cases h), fun d' e' h => ?_⟩
          cases h
          have h3 : (b :: bs).length ≤ d.reader.bytes.length := by have := hcons 0 (by omega); have := hcons (b :: bs).length (by omega); omega
          simp only [meas]
          refine ⟨by omega, fun hx => ?_⟩
          rw [v2] at hx; cases hx
        | (s', .panic) => exact ⟨fun d' h => (by cases h), fun d' ev h => (by cases h), fun d' e' h => (by cases h)⟩
        | (s', .diverge) => exact ⟨fun d' h => (by cases h), fun d' ev h => (by cases h), fun d' e' h => (by cases h)⟩

end RD

end Gif
