import Verif.Lemmas.Limit
import Verif.Lemmas.Sim
/-!
`freeRead`, the search for raw frames without a limit for the data, and the search of a decoder without any limit.
-/

namespace Gif

variable {C : Codec}

namespace Decoder

/-- Copying the data of an image without a limit. -/
theorem free_copied (hS : C.Safe) {rd : RD C} (hi : rd.Inv) (hr : rd.reader.Reliable) (he : rd.atEof = false) {left : Nat}
    (hst : rd.sd.state = .copySubBlock left) (hk : rd.sd.skipFrameDecoding = true) (m : UInt8)
    (hok : (copyLzw m (rd.capTo .unlimited)).2.2 = .ok ()) :
    ((copyLzw m (rd.capTo .unlimited)).1.capTo rd.sd.memoryLimit).sd = { rd.sd with state := .blockEnd, current := none } ∧
    ((copyLzw m (rd.capTo .unlimited)).1.capTo rd.sd.memoryLimit).Inv ∧
    (copyLzw m (rd.capTo .unlimited)).1.reader.Reliable ∧
    (copyLzw m (rd.capTo .unlimited)).1.atEof = false := by
  have hi' := capTo_inv .unlimited hi rfl
  have w := copyLoop_run hS _ (rd.capTo .unlimited) [m] hi' (meas_lt_fuel _)
  have hinv := (copyRun_spec hS w hi' rfl).1
  have hrel := (copyRun_reliable w hr).1
  obtain ⟨_, p1⟩ := copyRun_eval hS w hi' (Reader.reliable_clean hr) he
  have c2 : copyLzw m (rd.capTo .unlimited) = copyLoop (rd.capTo .unlimited).eventFuel (rd.capTo .unlimited) [m] := rfl
  rw [c2] at hok ⊢
  generalize copyLoop (rd.capTo .unlimited).eventFuel (rd.capTo .unlimited) [m] = y at *
  obtain ⟨rd', vec, o⟩ := y
  simp only at *
  subst hok
  obtain ⟨r, hr', hce⟩ := SD.copy_eval rd.reader.bytes (rd.capTo .unlimited).sd left [m] hst hk
  have hd := SD.eval_det hr' p1.2
  subst hd
  have hsd : rd'.sd = { (rd.capTo .unlimited).sd with state := .blockEnd, current := none } := by
    rcases hce with ⟨_, hce⟩ | hce
    · cases hce
    · cases hbl : (Spec.blocks left rd.reader.bytes).2 with
      | some rest => rw [hbl] at hce; simp only [SD.Res.event.injEq] at hce; exact hce.1
      | none => rw [hbl] at hce; obtain ⟨_, _, h⟩ := hce; cases h
  have h1 : (rd'.capTo rd.sd.memoryLimit).sd = { rd.sd with state := .blockEnd, current := none } := by
    unfold RD.capTo
    rw [hsd]
    rfl
  have hext : rd.sd.memoryLimit.sizeOk rd'.sd.extData.length = true := by
    rw [hsd]
    exact hi.wf.ext
  exact ⟨h1, capTo_inv _ hinv hext, hrel, p1.1⟩


/-- The policy without a memory limit. -/
def _root_.Gif.Policy.free (l : Policy) : Policy := { l with memoryLimit := .unlimited }

theorem _root_.Gif.Policy.le_free (l : Policy) : l.Le l.free := ⟨fun _ _ => rfl, id, id, id⟩

/-- The errors of the memory limit. -/
def _root_.Gif.Spec.OfLimit (e : DecodingError) : Prop := e = .format .memoryLimit ∨ e = .io .outOfMemory

theorem refusal_free {l : Policy} {e : DecodingError} (h : Refusal l l.free e) : Spec.OfLimit e := by
  unfold Refusal at h
  split at h
  · exact .inl rfl
  · exact .inr rfl
  · have h1 := h.1; have h2 := h.2; simp only [Policy.free] at h2; rw [h1] at h2; cases h2
  · have h1 := h.1; have h2 := h.2; simp only [Policy.free] at h2; rw [h1] at h2; cases h2
  · have h1 := h.1; have h2 := h.2; simp only [Policy.free] at h2; rw [h1] at h2; cases h2
  · exact h.elim

/-- `freeRead` does what `read_next_frame` does without a memory limit, unless what precedes the data exceeds the limit. -/
theorem freeRead_relax (hS : C.Safe) {l : Policy} {d : Decoder C} (hi : d.Inv) (hr : d.rd.reader.Reliable)
    (hk : d.rd.sd.skipFrameDecoding = true) (hl : d.Limited l) :
    (((d.relax l.free).readNextFrame.2 = d.freeRead.2 ∧ ∀ x, d.freeRead.2 = .ok x →
      (d.relax l.free).readNextFrame.1 = d.freeRead.1.relax l.free ∧ d.freeRead.1.Limited l ∧ d.freeRead.1.Inv ∧
      d.freeRead.1.rd.reader.Reliable ∧ d.freeRead.1.rd.sd.skipFrameDecoding = true)) ∨
    ∃ e, Spec.OfLimit e ∧ d.freeRead.2 = .err e := by
  have t := skip_dataType hS hi hk
  have hf := info_found hS hi
  have hj := (inv_nextFrameInfo hS d hi).1
  have hl' := (frameRun_reliable (nextFrameInfo_run hS d hi.rd) hr).1
  obtain ⟨_, _, ho, _⟩ := frameRun_spec hS (nextFrameInfo_run hS d hi.rd) hi.rd
  simp only [SD.opts, Prod.mk.injEq] at ho
  obtain ⟨h1, h2⟩ := nextFrameInfo_relax l.le_free d hl
  unfold freeRead readNextFrame
  rcases h2 with h2 | h2
  · rw [h2]
    generalize d.nextFrameInfo = x at *
    obtain ⟨d', out⟩ := x
    simp only at *
    cases out with
    | ok b =>
      cases b with
      | false => exact .inl ⟨rfl, fun _ _ => ⟨rfl, h1, hj, hl', ho.1.trans hk⟩⟩
      | true =>
        left
        obtain ⟨m, hm⟩ := t rfl
        obtain ⟨he, ⟨left, g1, g2⟩ | ⟨left, m', g1, g2⟩⟩ := hf rfl
        · rw [hm] at g2; cases g2
        have key := free_copied hS hj.rd hl' he g1 (ho.1.trans hk) m
        have ed : (d'.relax l.free).dataType = .lzw m := hm
        have ef : (d'.relax l.free).currentFrame = d'.currentFrame := rfl
        have er : (d'.relax l.free).rd = d'.rd.capTo .unlimited := by
          have hp := h1.1
          unfold SD.policy at hp
          subst hp
          rfl
        have hlim : d'.rd.sd.memoryLimit = l.memoryLimit := by rw [← h1.1]; rfl
        simp only [ed, hm, ef, er]
        have hpol : (copyLzw m (d'.rd.capTo .unlimited)).1.sd.policy = l.free := by
          have hp : (d'.rd.capTo .unlimited).sd.policy = l.free := by rw [← h1.1]; rfl
          exact (copyLoop_relax l.free.le_free _ _ [m] hp).1
        generalize copyLzw m (d'.rd.capTo .unlimited) = y at *
        obtain ⟨rd, vec, o⟩ := y
        simp only at *
        cases o with
        | ok u =>
          cases u
          obtain ⟨k1, k2, k3, k4⟩ := key rfl
          refine ⟨by cases d'.currentFrame.ownedCap <;> rfl, fun _ _ => ⟨?_, ⟨?_, h1.2⟩, ⟨k2, hj.limit⟩, k3, ?_⟩⟩
          · have e1 : (rd.capTo d'.rd.sd.memoryLimit).relax l.free = rd := by
              obtain ⟨sd, rr, ee⟩ := rd
              unfold SD.policy at hpol
              unfold RD.relax RD.capTo SD.relax
              simp only at *
              rw [← hpol]
            unfold relax
            cases d'.currentFrame.ownedCap <;> simp only [e1]
          · rw [k1, ← h1.1]
            rfl
          · rw [k1]
            exact ho.1.trans hk
        | err e => exact ⟨rfl, by simp⟩
        | panic => exact ⟨rfl, by simp⟩
        | diverge => exact ⟨rfl, by simp⟩
    | err e => exact .inl ⟨rfl, by simp⟩
    | panic => exact .inl ⟨rfl, by simp⟩
    | diverge => exact .inl ⟨rfl, by simp⟩
  · right
    generalize d.nextFrameInfo = x at *
    obtain ⟨d', out⟩ := x
    simp only at h2
    obtain ⟨e, rfl, he⟩ := h2
    exact ⟨e, refusal_free he, rfl⟩

/-- `a` is `b`, or a part of it and then an error of the memory limit. -/
def _root_.Gif.Spec.CutByLimit (a b : List Seen) : Prop :=
  a = b ∨ ∃ k e, Spec.OfLimit e ∧ a = b.take k ++ [.failed e]

theorem reads_relax (hS : C.Safe) {l : Policy} : ∀ (k : Nat) {d : Decoder C}, d.Inv → d.rd.reader.Reliable →
    d.rd.sd.skipFrameDecoding = true → d.Limited l →
    Spec.CutByLimit (reads freeRead k d) (reads readNextFrame k (d.relax l.free))
  | 0, _, _, _, _, _ => .inl rfl
  | k + 1, d, hi, hr, hk, hl => by
    unfold reads
    rcases freeRead_relax hS hi hr hk hl with ⟨ho, hc⟩ | ⟨e, he, ho⟩
    · generalize (d.relax l.free).readNextFrame = x2 at *
      generalize d.freeRead = x1 at *
      obtain ⟨d1, out1⟩ := x1
      obtain ⟨d2, out2⟩ := x2
      simp only at *
      subst ho
      cases out2 with
      | ok f =>
        obtain ⟨rfl, k2, k3, k4, k5⟩ := hc f rfl
        have hv : (d1.relax l.free).view = d1.view := rfl
        simp only [hv]
        rcases reads_relax hS k k3 k4 k5 k2 with h | ⟨j, e, he, h⟩
        · exact .inl (by rw [h])
        · exact .inr ⟨j + 1, e, he, by rw [h]; rfl⟩
      | err e => exact .inl rfl
      | panic => exact .inl rfl
      | diverge => exact .inl rfl
    · right
      generalize d.freeRead = x1 at *
      obtain ⟨d1, out1⟩ := x1
      simp only at *
      subst ho
      exact ⟨0, e, he, rfl⟩

/-- The film of `freeRead` is that of a decoder without a memory limit, or it ends with an error of the limit. -/
theorem ghostFilm_cut (hS : C.Safe) (o : DecodeOptions) {r : Reader} (hr : r.Reliable) (k : Nat) :
    Spec.CutByLimit (ghostFilm (C := C) freeRead o r k) (rawFilm C { o with memoryLimit := .unlimited } r k) := by
  rw [← ghostFilm_raw]
  obtain ⟨h1, h2⟩ := readInfo_relax (C := C) { o with skipFrameDecoding := true } (Policy.le_free _) r
  have e : DecodeOptions.relax (DecodeOptions.policy { o with skipFrameDecoding := true }).free { o with skipFrameDecoding := true } =
    { o with memoryLimit := .unlimited, skipFrameDecoding := true } := rfl
  rw [e] at h2
  have hinv := (inv_readInfo (C := C) hS { o with skipFrameDecoding := true } r).1
  have hskip := readInfo_skip (C := C) hS { o with skipFrameDecoding := true } r
  have hrel : (readInfo C { o with skipFrameDecoding := true } r).2 = .ok () →
      (readInfo C { o with skipFrameDecoding := true } r).1.rd.reader.Reliable := fun h => by
    rcases cut_readInfo (C := C) hS { o with skipFrameDecoding := true } hr hr (q := []) (by simp) with ⟨_, h2⟩ | ⟨h2, _⟩
    · exact (h2 h).rel1
    · exact absurd rfl h2
  unfold ghostFilm
  rcases h2 with h2 | ⟨e, h2, he⟩
  · rw [h2]
    generalize readInfo C { o with skipFrameDecoding := true } r = x at *
    obtain ⟨d, out⟩ := x
    simp only at *
    cases out with
    | ok u =>
      have hv : (d.relax (DecodeOptions.policy { o with skipFrameDecoding := true }).free).view = d.view := rfl
      simp only [hv]
      rcases reads_relax hS k hinv (hrel rfl) hskip h1 with h | ⟨j, e, he, h⟩
      · exact .inl (by rw [h])
      · exact .inr ⟨j + 1, e, he, by rw [h]; rfl⟩
    | err e => exact .inl rfl
    | panic => exact .inl rfl
    | diverge => exact .inl rfl
  · right
    generalize readInfo C { o with skipFrameDecoding := true } r = x at *
    obtain ⟨d, out⟩ := x
    simp only at *
    subst h2
    exact ⟨0, e, refusal_free he, rfl⟩

end Decoder

end Gif
