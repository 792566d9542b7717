import Verif.Spec.Growing
import Verif.Lemmas.Work
import Verif.Props.Chunks
/-!
# C92: the decoder can wait for a file that is still being written

A decoder that met the end of the file too early has lost nothing: when more bytes have come, `next_frame_info` goes on
as if they had been there from the beginning.
-/

namespace Gif

variable {C : Codec}

namespace Growing

/-- A pause seen as an error. -/
def hushEv : ReadEv → ReadEv
  | .data [] => .err 0
  | ev => ev

/-- The reader with its pauses as errors. -/
def hush (r : Reader) : Reader := { r with src := r.src.map hushEv }

theorem hush_bytes (r : Reader) : (hush r).bytes = r.bytes := by
  obtain ⟨buf, src⟩ := r
  simp only [hush, Reader.bytes, List.map_map]
  congr 3
  funext ev
  cases ev with
  | data bs => cases bs <;> rfl
  | err c => rfl

theorem hush_clean (r : Reader) : (hush r).Clean := by
  intro bs h
  simp only [hush, List.mem_map] at h
  obtain ⟨ev, _, h⟩ := h
  cases ev with
  | data l =>
    cases l with
    | nil => cases h
    | cons b l => cases h; simp
  | err c => cases h

theorem hush_errors (r : Reader) : (hush r).errors.length = r.pauses := by
  obtain ⟨buf, src⟩ := r
  simp only [hush, Reader.errors, Reader.pauses]
  induction src with
  | nil => rfl
  | cons ev src ih =>
    cases ev with
    | data l =>
      cases l with
      | nil => simpa [hushEv, ReadEv.gave] using ih
      | cons b l => simpa [hushEv, ReadEv.gave] using ih
    | err c => simpa [hushEv, ReadEv.gave] using ih

theorem hush_ready (r : Reader) : (hush r).withoutErrors = r.ready := by
  obtain ⟨buf, src⟩ := r
  simp only [hush, Reader.withoutErrors, Reader.ready, Reader.mk.injEq, true_and]
  induction src with
  | nil => rfl
  | cons ev src ih =>
    cases ev with
    | data l =>
      cases l with
      | nil => simpa [hushEv, ReadEv.gave] using ih
      | cons b l => simpa [hushEv, ReadEv.gave] using ih
    | err c => simpa [hushEv, ReadEv.gave] using ih

theorem hush_consume (r : Reader) (n : Nat) : (hush r).consume n = hush (r.consume n) := rfl

/-- `fill_buf` of both readers. -/
theorem hush_fill (r : Reader) :
    ((hush r).fillBuf = (hush r.fillBuf.1, r.fillBuf.2) ∧
      (r.fillBuf.2 = .ok [] → r.fillBuf.1 = { buf := [], src := [] })) ∨
    (r.fillBuf.2 = .ok [] ∧ (hush r).fillBuf = (hush r.fillBuf.1, .error 0)) := by
  obtain ⟨buf, src⟩ := r
  cases buf with
  | cons b buf => exact .inl ⟨rfl, fun h => by cases h⟩
  | nil =>
    cases src with
    | nil => exact .inl ⟨rfl, fun _ => rfl⟩
    | cons ev src =>
      cases ev with
      | err c => exact .inl ⟨rfl, fun h => by cases h⟩
      | data l =>
        cases l with
        | nil => exact .inr ⟨rfl, rfl⟩
        | cons b l => exact .inl ⟨rfl, fun h => by cases h⟩

/-- The decoder of streams over the hushed reader. -/
def hushRD (d : RD C) : RD C := { d with reader := hush d.reader }

/-- The decoder over the hushed reader. -/
def hushed (d : Decoder C) : Decoder C := { d with rd := hushRD d.rd }

theorem updateLoop_own (len : Nat) (o : OutSpec) : ∀ (n : Nat) (s : SD C) (buf : List UInt8),
    (SD.updateLoop len o n s buf).2.Own := by
  intro n
  induction n with
  | zero => intro s buf; cases buf <;> rfl
  | succ n ih =>
    intro s buf
    cases buf with
    | nil => rfl
    | cons b bs =>
      have hp := SD.nextState_own s b bs o
      rw [SD.updateLoop]
      split
      · exact ih _ _
      · rfl
      · rename_i h; rw [h] at hp; exact hp
      · rfl
      · rfl

/-- A decoder at the end of its input. -/
def Dry (d : RD C) : Prop := d.atEof = false ∧ d.reader = { buf := [], src := [] }

theorem loop_hush (o : OutSpec) : ∀ (fuel : Nat) (d : RD C),
    ((hushRD d).decodeNextLoop o fuel = (hushRD (d.decodeNextLoop o fuel).1, (d.decodeNextLoop o fuel).2) ∧
      ((d.decodeNextLoop o fuel).2 = .ioErr .unexpectedEof → Dry (d.decodeNextLoop o fuel).1)) ∨
    ((d.decodeNextLoop o fuel).2 = .ioErr .unexpectedEof ∧
      (hushRD d).decodeNextLoop o fuel = (hushRD (d.decodeNextLoop o fuel).1, .ioErr (.reader 0))) := by
  intro fuel
  induction fuel with
  | zero => intro d; exact .inl ⟨rfl, fun h => by cases h⟩
  | succ fuel ih =>
    intro d
    rw [RD.decodeNextLoop, RD.decodeNextLoop]
    by_cases he : d.atEof = true
    · have he' : (hushRD d).atEof = true := he
      rw [if_pos he, if_pos he']
      exact .inl ⟨rfl, fun h => by cases h⟩
    · have he' : ¬ (hushRD d).atEof = true := he
      rw [if_neg he, if_neg he']
      have hf := hush_fill d.reader
      have hr : (hushRD d).reader = hush d.reader := rfl
      rw [hr]
      generalize d.reader.fillBuf = x at *
      obtain ⟨r, res⟩ := x
      simp only at hf
      rcases hf with ⟨hf, hd⟩ | ⟨rfl, hf⟩
      · rw [hf]
        cases res with
        | error e =>
          refine .inl ⟨rfl, fun h => ?_⟩
          simp [Outcome.ioErr] at h
        | ok buf =>
          simp only
          cases buf with
          | nil =>
            obtain rfl := hd rfl
            refine .inl ⟨rfl, fun _ => ⟨by simpa using he, rfl⟩⟩
          | cons b bs =>
            have hp : (d.sd.update (b :: bs) o).2.Own := updateLoop_own _ _ _ _ _
            have hs : (hushRD d).sd = d.sd := rfl
            rw [hs]
            simp only [List.isEmpty_cons, Bool.false_eq_true, if_false]
            generalize d.sd.update (b :: bs) o = y at *
            obtain ⟨sd, res⟩ := y
            cases res with
            | ok q =>
              obtain ⟨n, ev⟩ := q
              simp only [hush_consume]
              cases ev with
              | nothing => exact ih { d with reader := r.consume n, sd := sd }
              | blockStart k =>
                cases k with
                | trailer => exact ih { d with reader := r.consume n, sd := sd, atEof := true }
                | _ => exact .inl ⟨rfl, fun h => by cases h⟩
              | _ => exact .inl ⟨rfl, fun h => by cases h⟩
            | err e =>
              refine .inl ⟨rfl, fun h => ?_⟩
              simp only [Outcome.ioErr, Outcome.err.injEq] at h
              subst h
              cases hp
            | panic => exact .inl ⟨rfl, fun h => by cases h⟩
            | diverge => exact .inl ⟨rfl, fun h => by cases h⟩
      · rw [hf]
        exact .inr ⟨rfl, rfl⟩

theorem next_hush (o : OutSpec) (d : RD C) :
    ((hushRD d).decodeNext o = (hushRD (d.decodeNext o).1, (d.decodeNext o).2) ∧
      ((d.decodeNext o).2 = .ioErr .unexpectedEof → Dry (d.decodeNext o).1)) ∨
    ((d.decodeNext o).2 = .ioErr .unexpectedEof ∧
      (hushRD d).decodeNext o = (hushRD (d.decodeNext o).1, .ioErr (.reader 0))) := by
  have : (hushRD d).reader.src.length = d.reader.src.length := by simp [hushRD, hush]
  unfold RD.decodeNext
  rw [this]
  exact loop_hush o _ d

theorem frames_hush : ∀ (fuel : Nat) (d : Decoder C),
    (Decoder.nextFrameLoop fuel (hushed d) = (hushed (Decoder.nextFrameLoop fuel d).1, (Decoder.nextFrameLoop fuel d).2) ∧
      ((Decoder.nextFrameLoop fuel d).2 = .ioErr .unexpectedEof → Dry (Decoder.nextFrameLoop fuel d).1.rd)) ∨
    ((Decoder.nextFrameLoop fuel d).2 = .ioErr .unexpectedEof ∧
      Decoder.nextFrameLoop fuel (hushed d) = (hushed (Decoder.nextFrameLoop fuel d).1, .ioErr (.reader 0))) := by
  intro fuel
  induction fuel with
  | zero => intro d; exact .inl ⟨rfl, fun h => by cases h⟩
  | succ fuel ih =>
    intro d
    have hn := next_hush .none d.rd
    rw [Decoder.nextFrameLoop, Decoder.nextFrameLoop]
    have hr : (hushed d).rd = hushRD d.rd := rfl
    rw [hr]
    generalize RD.decodeNext .none d.rd = x at *
    obtain ⟨rd, res⟩ := x
    simp only at hn
    rcases hn with ⟨hn, hd⟩ | ⟨rfl, hn⟩
    · rw [hn]
      cases res with
      | ok q =>
        cases q with
        | none => exact .inl ⟨rfl, fun h => by cases h⟩
        | some ev =>
          cases ev with
          | frameMetadata t =>
            simp only
            have hc : (hushRD rd).sd.current = rd.sd.current := rfl
            rw [hc]
            cases rd.sd.current with
            | none => exact .inl ⟨rfl, fun h => by cases h⟩
            | some f =>
              simp only
              have hg : (hushed d).globalPalette = d.globalPalette := rfl
              refine .inl ⟨?_, fun h => ?_⟩
              · unfold Decoder.globalPalette
                cases h1 : f.take.palette <;> cases h2 : d.conv.globalPalette <;> simp [hushed, hushRD, h2]
              · split at h <;> cases h
          | _ => exact ih { d with rd := rd }
      | err e =>
        refine .inl ⟨rfl, fun h => hd ?_⟩
        simp only [Outcome.ioErr, Outcome.err.injEq] at h ⊢
        exact h
      | panic => exact .inl ⟨rfl, fun h => by cases h⟩
      | diverge => exact .inl ⟨rfl, fun h => by cases h⟩
    · rw [hn]
      exact .inr ⟨rfl, rfl⟩

theorem info_hush (d : Decoder C) :
    ((hushed d).nextFrameInfo = (hushed d.nextFrameInfo.1, d.nextFrameInfo.2) ∧
      (d.nextFrameInfo.2 = .ioErr .unexpectedEof → Dry d.nextFrameInfo.1.rd)) ∨
    (d.nextFrameInfo.2 = .ioErr .unexpectedEof ∧
      (hushed d).nextFrameInfo = (hushed d.nextFrameInfo.1, .ioErr (.reader 0))) := by
  have : (hushed d).rd.eventFuel = d.rd.eventFuel := by
    simp only [RD.eventFuel, hushed, hushRD, hush_bytes]
  unfold Decoder.nextFrameInfo
  rw [this]
  exact frames_hush _ d

/-- At the end of the input every further call fails in the same way and changes nothing. -/
theorem info_dry {d : Decoder C} (h : Dry d.rd) : d.nextFrameInfo = (d, .ioErr .unexpectedEof) := by
  obtain ⟨⟨reader, sd, atEof⟩, conv, bg, rep, cur, typ⟩ := d
  obtain ⟨h1, h2⟩ := h
  simp only at h1 h2
  subst h1 h2
  rfl

theorem wait_dry {d : Decoder C} (h : Dry d.rd) : ∀ n, d.waitInfo n = (d, .ioErr .unexpectedEof) := by
  intro n
  induction n with
  | zero => exact info_dry h
  | succ n ih => rw [Decoder.waitInfo, info_dry h]; exact ih

theorem wait_hush : ∀ (n : Nat) (d : Decoder C),
    (∀ c, (Decoder.patientInfo n (hushed d)).2 ≠ .ioErr (.reader c)) →
    (Decoder.patientInfo n (hushed d)) = (hushed (d.waitInfo n).1, (d.waitInfo n).2) := by
  intro n
  induction n with
  | zero =>
    intro d hn
    rcases info_hush d with ⟨h, _⟩ | ⟨_, h⟩
    · exact h
    · exact absurd (congrArg Prod.snd h) (hn 0)
  | succ n ih =>
    intro d hn
    rw [Decoder.patientInfo] at hn ⊢
    rw [Decoder.waitInfo]
    rcases info_hush d with ⟨h, hd⟩ | ⟨h1, h2⟩
    · rw [h] at hn ⊢
      generalize d.nextFrameInfo = x at *
      obtain ⟨d', out⟩ := x
      simp only at hd hn ⊢
      cases out with
      | err e =>
        cases e with
        | io i =>
          cases i with
          | reader c => exact ih d' hn
          | unexpectedEof =>
            simp only
            rw [wait_dry (hd rfl)]
          | _ => rfl
        | _ => rfl
      | _ => rfl
    · rw [h2] at hn ⊢
      generalize d.nextFrameInfo = x at *
      obtain ⟨d', out⟩ := x
      simp only at h1 hn ⊢
      subst h1
      exact ih d' hn

end Growing

namespace Decoder

open Growing

/-- One round of the loop of `scan`, with pauses and without. -/
theorem wait_scan (hS : C.Safe) (n : Nat) : ∀ (k : Nat) {d d2 : Decoder C}, Behind (hushed d) d2 →
    d.rd.reader.pauses ≤ n → scan (waitInfo n) k d = scan nextFrameInfo k d2 := by
  intro k
  induction k with
  | zero => intro d d2 _ _; rfl
  | succ k ih =>
    intro d d2 h hn
    have he : (hushed d).rd.reader.errors.length ≤ n := by
      show (hush d.rd.reader).errors.length ≤ n
      rw [hush_errors]; exact hn
    have key := behind_patient hS n h he
    have hr := (inv_nextFrameInfo hS d2 h.inv2).2
    have hnr := (frameRun_reliable (nextFrameInfo_run hS d2 h.inv2.rd) h.rel).2
    have hw := wait_hush n d (by intro c; rw [key.1]; exact hnr c)
    rw [hw] at key
    simp only [scan]
    generalize waitInfo n d = x1 at *
    generalize d2.nextFrameInfo = x2 at *
    obtain ⟨d1', out1⟩ := x1
    obtain ⟨d2', out2⟩ := x2
    simp only at *
    obtain ⟨rfl, key⟩ := key
    cases out1 with
    | ok b =>
      obtain ⟨k1, k2, k3⟩ := key b rfl
      have hv : d1'.view = d2'.view := k2
      have hp : d1'.rd.reader.pauses ≤ n := by
        rw [← hush_errors]; exact k3
      simp only [hv, ih k1 hp]
    | err e => rfl
    | panic => cases hr
    | diverge => cases hr

/-- C92: a program that repeats the `next_frame_info` calls that failed because of the reader or because the file seemed
to end too early, sees the same as with a reader that had all bytes ready; when the bytes have really ended, it gets the
same error, however long it waits. -/
theorem waits_for_bytes (hS : C.Safe) (o : DecodeOptions) (r : Reader) (d : Decoder C) (hr : Reach o r d) (k n : Nat)
    (hn : d.rd.reader.pauses ≤ n) :
    scan (waitInfo n) k d =
      scan nextFrameInfo k { d with rd := { d.rd with reader := d.rd.reader.ready } } := by
  have hi := (reach_inv hS hr).1
  have hh : (hushed d).Inv := by
    refine ⟨⟨hi.rd.wf, hi.rd.look, hi.rd.live⟩, hi.limit⟩
  have hc : (hushed d).rd.reader.Clean := hush_clean _
  refine wait_scan hS n k ?_ hn
  rw [← hush_ready]
  refine ⟨rfl, fun _ => rfl, ⟨[], ?_⟩, rfl, rfl, rfl, rfl, rfl, hc, withoutErrors_reliable hc, hh, withoutErrors_inv hh⟩
  intro evs r h
  simp only [withoutErrors_bytes]
  exact h

/-! ## The hypotheses can be met -/

/-- Two frames in a file that grows: the reader finds its end in the data of the first frame, twice, then fails, then
finds its end in the second descriptor. -/
def animationGrowing : Reader :=
  { buf := [], src := [
      .data [0x47, 0x49, 0x46, 0x38, 0x39, 0x61, 2, 0, 1, 0, 0x80, 1, 0, 10, 20, 30, 40, 50],
      .data [60, 0x21, 0xFE, 2, 7, 8, 0, 0x2C, 0, 0, 0, 0, 2, 0, 1, 0, 0, 2, 2, 0x4C], .data [], .data [], .err 6,
      .data [0x0A, 0, 0x21, 0xF9, 4, 4, 5, 0, 0, 0, 0x2C, 0, 0], .data [],
      .data [0, 0, 2, 0, 1, 0, 0x80, 1, 2, 3, 4, 5, 6, 2, 2, 0x4C, 0x0A, 0, 0x3B, 99]] }

/-- The decoder over `animationGrowing` after `read_info`. -/
def growingDecoder : Decoder Ref.lzw := (readInfo Ref.lzw DecodeOptions.new animationGrowing).1

set_option maxRecDepth 100000 in
/-- The hypotheses of C92 are met by a decoder with four pauses before it; without waiting the scan fails, with waiting both
frames are found, and the end. -/
example : Reach DecodeOptions.new animationGrowing growingDecoder ∧ growingDecoder.rd.reader.pauses = 4 ∧
    (scan nextFrameInfo 3 growingDecoder).map (fun | .info b _ => some b | _ => none) = [some true, none] ∧
    (scan (waitInfo 4) 3 growingDecoder).map (fun | .info b _ => some b | _ => none) =
      [some true, some true, some false] :=
  ⟨.opened (by decide +kernel), by decide +kernel, by decide +kernel, by decide +kernel⟩

set_option maxRecDepth 100000 in
/-- Only `next_frame_info` can be repeated. The frame during which `read_next_frame` failed is lost: the next call gives
the second frame, here the one with the local palette. -/
theorem read_next_frame_loses :
    (growingDecoder.readNextFrame.2 = .ioErr .unexpectedEof) ∧
    growingDecoder.readNextFrame.1.readNextFrame.2 = .ioErr .unexpectedEof ∧
    growingDecoder.readNextFrame.1.readNextFrame.1.readNextFrame.2 = .ioErr (.reader 6) ∧
    growingDecoder.readNextFrame.1.readNextFrame.1.readNextFrame.1.readNextFrame.2 = .ioErr .unexpectedEof ∧
    (match growingDecoder.readNextFrame.1.readNextFrame.1.readNextFrame.1.readNextFrame.1.readNextFrame.2 with
      | .ok (some f) => f.palette
      | _ => none) = some [1, 2, 3, 4, 5, 6] :=
  ⟨by decide +kernel, by decide +kernel, by decide +kernel, by decide +kernel, by decide +kernel⟩

end Decoder

end Gif
