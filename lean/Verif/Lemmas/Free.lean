import Verif.Lemmas.Damage
import Verif.Lemmas.FreeFilm
/-!
`freeRead`, the search for raw frames without a limit for the data, on files that end too early.
-/

namespace Gif

variable {C : Codec}

namespace Decoder

/-- Copying the data of an image without a limit. -/
theorem free_copy (hS : C.Safe) {rd : RD C} (hi : rd.Inv) (hr : rd.reader.Reliable) (he : rd.atEof = false) {left : Nat}
    (hst : rd.sd.state = .copySubBlock left) (hk : rd.sd.skipFrameDecoding = true) (m : UInt8)
    (hok : (copyLzw m (rd.capTo .unlimited)).2.2 = .ok ()) :
    ((copyLzw m (rd.capTo .unlimited)).1.capTo rd.sd.memoryLimit).sd = { rd.sd with state := .blockEnd, current := none } ∧
    ((copyLzw m (rd.capTo .unlimited)).1.capTo rd.sd.memoryLimit).Inv ∧
    (copyLzw m (rd.capTo .unlimited)).1.reader.Reliable ∧
    (copyLzw m (rd.capTo .unlimited)).1.atEof = false ∧
    (copyLzw m (rd.capTo .unlimited)).1.reader.bytes.length < rd.reader.bytes.length := by
  obtain ⟨a1, a2, a3, a4⟩ := free_copied hS hi hr he hst hk m hok
  refine ⟨a1, a2, a3, a4, ?_⟩
  have hi' := capTo_inv .unlimited hi rfl
  have w := copyLoop_run hS _ (rd.capTo .unlimited) [m] hi' (meas_lt_fuel _)
  obtain ⟨_, p1⟩ := copyRun_eval hS w hi' (Reader.reliable_clean hr) he
  have c2 : copyLzw m (rd.capTo .unlimited) = copyLoop (rd.capTo .unlimited).eventFuel (rd.capTo .unlimited) [m] := rfl
  rw [c2] at hok ⊢
  generalize copyLoop (rd.capTo .unlimited).eventFuel (rd.capTo .unlimited) [m] = y at *
  obtain ⟨rd', vec, o⟩ := y
  simp only at *
  subst hok
  exact (SD.eval_left hS p1.2 hi'.wf rfl).2 rfl

/-- A search that found a frame. -/
theorem free_consumed (hS : C.Safe) {d : Decoder C} (hi : d.Inv) (hr : d.rd.reader.Reliable) (hk : d.rd.sd.skipFrameDecoding = true)
    {f : Frame} (h : d.freeRead.2 = .ok (some f)) :
    d.nextFrameInfo.2 = .ok true ∧ d.freeRead.1.rd.atEof = false ∧
      d.freeRead.1.rd.reader.bytes.length < d.nextFrameInfo.1.rd.reader.bytes.length := by
  have t := skip_dataType hS hi hk
  have hf := info_found hS hi
  have hj := (inv_nextFrameInfo hS d hi).1
  have hl := (frameRun_reliable (nextFrameInfo_run hS d hi.rd) hr).1
  obtain ⟨_, _, ho, _⟩ := frameRun_spec hS (nextFrameInfo_run hS d hi.rd) hi.rd
  simp only [SD.opts, Prod.mk.injEq] at ho
  unfold freeRead at h ⊢
  generalize d.nextFrameInfo = x at *
  obtain ⟨d', out⟩ := x
  simp only at *
  cases out with
  | ok b =>
    cases b with
    | false => cases h
    | true =>
      obtain ⟨m, hm⟩ := t rfl
      obtain ⟨he, ⟨left, g1, g2⟩ | ⟨left, m', g1, g2⟩⟩ := hf rfl
      · rw [hm] at g2; cases g2
      have key := free_copy hS hj.rd hl he g1 (ho.1.trans hk) m
      simp only [hm] at h ⊢
      generalize copyLzw m (d'.rd.capTo .unlimited) = y at *
      obtain ⟨rd, vec, o⟩ := y
      simp only at *
      cases o with
      | ok u =>
        cases u
        obtain ⟨_, _, _, k4, k5⟩ := key rfl
        exact ⟨trivial, k4, k5⟩
      | err e => cases h
      | panic => cases h
      | diverge => cases h
  | err e => cases h
  | panic => cases h
  | diverge => cases h

theorem free_skip (hS : C.Safe) {d : Decoder C} (hi : d.Inv) (hr : d.rd.reader.Reliable) (hk : d.rd.sd.skipFrameDecoding = true)
    {x : Option Frame} (h : d.freeRead.2 = .ok x) : d.freeRead.1.rd.sd.skipFrameDecoding = true := by
  have t := skip_dataType hS hi hk
  have hf := info_found hS hi
  have hj := (inv_nextFrameInfo hS d hi).1
  have hl := (frameRun_reliable (nextFrameInfo_run hS d hi.rd) hr).1
  obtain ⟨_, _, ho, _⟩ := frameRun_spec hS (nextFrameInfo_run hS d hi.rd) hi.rd
  simp only [SD.opts, Prod.mk.injEq] at ho
  unfold freeRead at h ⊢
  generalize d.nextFrameInfo = x at *
  obtain ⟨d', out⟩ := x
  simp only at *
  cases out with
  | ok b =>
    cases b with
    | false => exact ho.1.trans hk
    | true =>
      obtain ⟨m, hm⟩ := t rfl
      obtain ⟨he, ⟨left, g1, g2⟩ | ⟨left, m', g1, g2⟩⟩ := hf rfl
      · rw [hm] at g2; cases g2
      have key := free_copy hS hj.rd hl he g1 (ho.1.trans hk) m
      simp only [hm] at h ⊢
      generalize copyLzw m (d'.rd.capTo .unlimited) = y at *
      obtain ⟨rd, vec, o⟩ := y
      simp only at *
      cases o with
      | ok u =>
        cases u
        obtain ⟨k1, _⟩ := key rfl
        simp only [k1]
        exact ho.1.trans hk
      | err e => cases h
      | panic => cases h
      | diverge => cases h
  | err e => cases h
  | panic => cases h
  | diverge => cases h

/-- `freeRead` on two decoders, the second with more bytes. -/
theorem cut_free (hS : C.Safe) {q : List UInt8} {d1 d2 : Decoder C} (h : Cut q d1 d2)
    (hk : d1.rd.sd.skipFrameDecoding = true) :
    (d1.freeRead.2 = d2.freeRead.2 ∧ ∀ x, d1.freeRead.2 = .ok x → Cut q d1.freeRead.1 d2.freeRead.1) ∨
    (q ≠ [] ∧ d1.freeRead.2 = .ioErr .unexpectedEof) := by
  have hinfo := cut_info hS h
  have hk2 : d2.rd.sd.skipFrameDecoding = true := by rw [← h.sd]; exact hk
  have t1 := skip_dataType hS h.inv1 hk
  have f1 := info_found hS h.inv1
  have f2 := info_found hS h.inv2
  obtain ⟨_, _, s1, _⟩ := frameRun_spec hS (nextFrameInfo_run hS d1 h.inv1.rd) h.inv1.rd
  obtain ⟨_, _, s2, _⟩ := frameRun_spec hS (nextFrameInfo_run hS d2 h.inv2.rd) h.inv2.rd
  simp only [SD.opts, Prod.mk.injEq] at s1 s2
  unfold freeRead
  generalize d1.nextFrameInfo = x1 at *
  generalize d2.nextFrameInfo = x2 at *
  obtain ⟨d1', out1⟩ := x1
  obtain ⟨d2', out2⟩ := x2
  simp only at *
  rcases hinfo with ⟨ho, hc⟩ | ⟨hq, ho⟩
  · subst ho
    cases out1 with
    | ok b =>
      replace hc := hc _ rfl
      cases b with
      | false => exact .inl ⟨rfl, fun _ _ => hc⟩
      | true =>
        obtain ⟨m, hm1⟩ := t1 rfl
        have hm2 : d2'.dataType = .lzw m := by rw [← hc.typ]; exact hm1
        obtain ⟨e1, ⟨left1, g1, g2⟩ | ⟨left1, m1, g1, g2⟩⟩ := f1 rfl
        · rw [hm1] at g2; cases g2
        obtain ⟨e2, ⟨left2, g3, g4⟩ | ⟨left2, m2, g3, g4⟩⟩ := f2 rfl
        · rw [hm2] at g4; cases g4
        have i1 := capTo_inv .unlimited hc.inv1.rd rfl
        have i2 := capTo_inv .unlimited hc.inv2.rd rfl
        have r1 := copyLoop_run hS _ (d1'.rd.capTo .unlimited) [m] i1 (meas_lt_fuel _)
        have r2 := copyLoop_run hS _ (d2'.rd.capTo .unlimited) [m] i2 (meas_lt_fuel _)
        have hsd : (d1'.rd.capTo .unlimited).sd = (d2'.rd.capTo .unlimited).sd := by
          unfold RD.capTo
          rw [hc.sd]
        have key := cut_copy hS r1 r2 hsd hc.bytes e1 e2 i1 i2 hc.rel1 hc.rel2
        have k1 := free_copy hS hc.inv1.rd hc.rel1 e1 g1 (s1.1.trans hk) m
        have k2 := free_copy hS hc.inv2.rd hc.rel2 e2 g3 (s2.1.trans hk2) m
        have c1 : copyLzw m (d1'.rd.capTo .unlimited) = copyLoop (d1'.rd.capTo .unlimited).eventFuel (d1'.rd.capTo .unlimited) [m] := rfl
        have c2 : copyLzw m (d2'.rd.capTo .unlimited) = copyLoop (d2'.rd.capTo .unlimited).eventFuel (d2'.rd.capTo .unlimited) [m] := rfl
        simp only [hm1, hm2]
        rw [c1] at k1 ⊢
        rw [c2] at k2 ⊢
        rw [← hc.cur]
        generalize copyLoop (d1'.rd.capTo .unlimited).eventFuel (d1'.rd.capTo .unlimited) [m] = y1 at *
        generalize copyLoop (d2'.rd.capTo .unlimited).eventFuel (d2'.rd.capTo .unlimited) [m] = y2 at *
        obtain ⟨rd1, vec1, o1⟩ := y1
        obtain ⟨rd2, vec2, o2⟩ := y2
        simp only at *
        rcases key with ⟨rfl, key⟩ | ⟨hq, rfl⟩
        · left
          cases o1 with
          | ok u =>
            cases u
            obtain ⟨_, rfl, kb, k4, k5⟩ := key rfl
            obtain ⟨a1, a2, a3, a4, _⟩ := k1 rfl
            obtain ⟨b1, b2, b3, b4, _⟩ := k2 rfl
            exact ⟨rfl, fun _ _ => ⟨a1.trans (by rw [hc.sd]; exact b1.symm), a4.trans b4.symm, kb, hc.conv, hc.bg, hc.rep, rfl, rfl,
              a3, b3, ⟨a2, hc.inv1.limit⟩, ⟨b2, hc.inv2.limit⟩⟩⟩
          | err e => exact ⟨rfl, by simp⟩
          | panic => exact ⟨rfl, by simp⟩
          | diverge => exact ⟨rfl, by simp⟩
        · exact .inr ⟨hq, rfl⟩
    | err e => exact .inl ⟨rfl, by simp⟩
    | panic => exact .inl ⟨rfl, by simp⟩
    | diverge => exact .inl ⟨rfl, by simp⟩
  · subst ho
    exact .inr ⟨hq, rfl⟩

/-- The same, if the first decoder runs out of bytes. -/
theorem free_behind (hS : C.Safe) {q : List UInt8} {d1 d2 : Decoder C} (h : Cut q d1 d2) (hk : d1.rd.sd.skipFrameDecoding = true)
    (h1 : d1.freeRead.2 = .ioErr .unexpectedEof) {f : Frame} (h2 : d2.freeRead.2 = .ok (some f)) :
    d2.freeRead.1.rd.reader.bytes.length < q.length := by
  have hk2 : d2.rd.sd.skipFrameDecoding = true := by rw [← h.sd]; exact hk
  obtain ⟨b1, b2, b3⟩ := free_consumed hS h.inv2 h.rel2 hk2 h2
  rcases cut_info hS h with ⟨ho, hc⟩ | ⟨_, ho⟩
  · have ho1 : d1.nextFrameInfo.2 = .ok true := ho.trans b1
    replace hc := hc _ ho1
    obtain ⟨m, hm1⟩ := skip_dataType hS h.inv1 hk ho1
    have hm2 : d2.nextFrameInfo.1.dataType = .lzw m := by rw [← hc.typ]; exact hm1
    have f1 := (info_found hS h.inv1 ho1).1
    have f2 := (info_found hS h.inv2 b1).1
    clear b2 b3
    unfold freeRead at h1 h2 ⊢
    generalize d1.nextFrameInfo = x1 at *
    generalize d2.nextFrameInfo = x2 at *
    obtain ⟨d1', out1⟩ := x1
    obtain ⟨d2', out2⟩ := x2
    simp only at *
    subst ho1 b1
    have i1 := capTo_inv .unlimited hc.inv1.rd rfl
    have i2 := capTo_inv .unlimited hc.inv2.rd rfl
    have r1 := copyLoop_run hS _ (d1'.rd.capTo .unlimited) [m] i1 (meas_lt_fuel _)
    have r2 := copyLoop_run hS _ (d2'.rd.capTo .unlimited) [m] i2 (meas_lt_fuel _)
    have hsd : (d1'.rd.capTo .unlimited).sd = (d2'.rd.capTo .unlimited).sd := by
      unfold RD.capTo
      rw [hc.sd]
    have c1 : copyLzw m (d1'.rd.capTo .unlimited) = copyLoop (d1'.rd.capTo .unlimited).eventFuel (d1'.rd.capTo .unlimited) [m] := rfl
    have c2 : copyLzw m (d2'.rd.capTo .unlimited) = copyLoop (d2'.rd.capTo .unlimited).eventFuel (d2'.rd.capTo .unlimited) [m] := rfl
    simp only [hm1, hm2, c1, c2] at h1 h2 ⊢
    generalize copyLoop (d1'.rd.capTo .unlimited).eventFuel (d1'.rd.capTo .unlimited) [m] = y1 at *
    generalize copyLoop (d2'.rd.capTo .unlimited).eventFuel (d2'.rd.capTo .unlimited) [m] = y2 at *
    obtain ⟨rd1, vec1, o1⟩ := y1
    obtain ⟨rd2, vec2, o2⟩ := y2
    simp only at *
    cases o1 with
    | err e1 =>
      cases o2 with
      | ok u =>
        cases u
        simp only at h1 h2
        have he : e1 = .io .unexpectedEof := by
          simp only [Outcome.ioErr, Outcome.err.injEq] at h1
          exact h1
        subst he
        show rd2.reader.bytes.length < q.length
        exact copy_behind hS r1 r2 hsd hc.bytes f1 f2 i1 i2 hc.rel1 hc.rel2
      | err => cases h2
      | panic => cases h2
      | diverge => cases h2
    | ok => cases h1
    | panic => cases h1
    | diverge => cases h1
  · have := info_behind hS h ho b1
    omega

/-- The raw frames that a decoder of pixels follows, on a file and on its beginning. -/
theorem cut_reads (hS : C.Safe) {q : List UInt8} : ∀ (k : Nat) {d1 d2 : Decoder C}, Cut q d1 d2 →
    d1.rd.sd.skipFrameDecoding = true →
    reads freeRead k d1 = reads freeRead k d2 ∨
      (q ≠ [] ∧ ∃ n, reads freeRead k d1 = (reads freeRead k d2).take n ++ [.failed (.io .unexpectedEof)] ∧
        n < (reads freeRead k d2).length) := by
  intro k
  induction k with
  | zero => intro d1 d2 _ _; exact .inl rfl
  | succ k ih =>
    intro d1 d2 h hk
    have key := cut_free hS h hk
    have hs := fun x => free_skip (x := x) hS h.inv1 h.rel1 hk
    simp only [reads]
    generalize d1.freeRead = x1 at *
    generalize d2.freeRead = x2 at *
    obtain ⟨d1', o1⟩ := x1
    obtain ⟨d2', o2⟩ := x2
    simp only at *
    rcases key with ⟨rfl, key⟩ | ⟨hq, rfl⟩
    · cases o1 with
      | ok x =>
        have hc := key x rfl
        simp only [cut_view hc]
        rcases ih hc (hs x rfl) with h | ⟨hq, n, hn, hl⟩
        · exact .inl (by rw [h])
        · exact .inr ⟨hq, n + 1, by rw [hn, List.take_succ_cons, List.cons_append], by simpa using hl⟩
      | err e => exact .inl rfl
      | panic => exact .inl rfl
      | diverge => exact .inl rfl
    · refine .inr ⟨hq, 0, by simp [Outcome.ioErr], ?_⟩
      cases o2 <;> simp

theorem cut_ghostFilm (hS : C.Safe) (o : DecodeOptions) {q : List UInt8} {r1 r2 : Reader} (h1 : r1.Reliable) (h2 : r2.Reliable)
    (hb : r2.bytes = r1.bytes ++ q) (k : Nat) :
    ghostFilm (C := C) freeRead o r1 k = ghostFilm (C := C) freeRead o r2 k ∨
      (q ≠ [] ∧ ∃ n, ghostFilm (C := C) freeRead o r1 k = (ghostFilm (C := C) freeRead o r2 k).take n ++ [.failed (.io .unexpectedEof)] ∧
        n < (ghostFilm (C := C) freeRead o r2 k).length) := by
  have key := cut_readInfo (C := C) hS { o with skipFrameDecoding := true } h1 h2 hb
  have ho := readInfo_skip (C := C) hS { o with skipFrameDecoding := true } r1
  unfold ghostFilm
  generalize readInfo C { o with skipFrameDecoding := true } r1 = x1 at *
  generalize readInfo C { o with skipFrameDecoding := true } r2 = x2 at *
  obtain ⟨d1, out1⟩ := x1
  obtain ⟨d2, out2⟩ := x2
  simp only at *
  rcases key with ⟨rfl, c⟩ | ⟨hq, rfl⟩
  · cases out1 with
    | ok u =>
      replace c := c rfl
      simp only
      rcases cut_reads hS k c ho with he | ⟨hq, n, hn, hl⟩
      · exact .inl (by rw [he, cut_view c])
      · exact .inr ⟨hq, n + 1, by rw [hn, cut_view c, List.take_succ_cons, List.cons_append], by simpa using hl⟩
    | err e => exact .inl rfl
    | panic => exact .inl rfl
    | diverge => exact .inl rfl
  · refine .inr ⟨hq, 0, by simp [Outcome.ioErr], ?_⟩
    cases out2 <;> simp

end Decoder

end Gif
