import Verif.Lemmas.Remain
import Verif.Spec.Stream
import Verif.Props.Grammar
/-!
# C67: what is left for the next one who reads
-/

namespace Gif.Decoder

variable {C : Codec}

/-- **C67**: whatever is called, also after errors, the reader that `into_inner` returns gives an end of the bytes of the original
reader, with read calls that have not been made yet: no byte comes twice, and none is skipped from there on. -/
theorem rest_is_suffix (C : Codec) (o : DecodeOptions) (r : Reader) (as : List Ask) :
    (after as (readInfo C o r).1).intoInner.src <:+ r.src ∧ (after as (readInfo C o r).1).intoInner.bytes <:+ r.bytes :=
  (readInfo_left o r).trans (after_left as _)

theorem afterReads_left (n : Nat) : ∀ d : Decoder C, d.rd.reader.Left (afterReads n d).rd.reader := by
  induction n with
  | zero => intro d; exact .refl _
  | succ n ih => intro d; exact (readNextFrame_left d).trans (ih _)

theorem wrap_bytes (r : Reader) : r.wrap.bytes = r.bytes := by
  unfold Reader.wrap Reader.bytes
  split
  · simp [*]
  · simp

theorem wrap_reliable {r : Reader} (h : r.Reliable) : r.wrap.Reliable := by
  intro ev hev
  unfold Reader.wrap at hev
  simp only at hev
  split at hev
  · exact h ev hev
  · rename_i hb
    rcases List.mem_cons.1 hev with rfl | hev
    · exact ⟨_, rfl, hb⟩
    · exact h ev hev

theorem drained_session : ∀ (fs : List Frame) (v : Frame → View) (w : View) (d : Decoder C),
    session (List.replicate (fs.length + 1) .read) d = fs.map (fun f => .frame (some f) (v f)) ++ [.frame none w] →
    Drained d fs (afterReads (fs.length + 1) d) := by
  intro fs
  induction fs with
  | nil =>
    intro v w d h
    match hr : d.readNextFrame with
    | (d1, .ok none) => simp only [List.length_nil, afterReads, hr]; exact .done hr
    | (d1, .ok (some f)) => simp [session, see, hr] at h
    | (d1, .err e) => simp [session, see, hr] at h
    | (d1, .panic) => simp [session, see, hr] at h
    | (d1, .diverge) => simp [session, see, hr] at h
  | cons f fs ih =>
    intro v w d h
    rw [List.length_cons, List.replicate_succ, session] at h
    match hr : d.readNextFrame with
    | (d1, .ok none) => simp [see, hr] at h
    | (d1, .ok (some g)) =>
      simp only [see, hr, List.map_cons, List.cons_append, List.cons.injEq, Seen.frame.injEq, Option.some.injEq] at h
      obtain ⟨⟨rfl, -⟩, h⟩ := h
      refine .frame hr ?_
      have := ih v w d1 h
      rw [List.length_cons, afterReads, hr]
      exact this
    | (d1, .err e) => simp [see, hr] at h
    | (d1, .panic) => simp [see, hr] at h
    | (d1, .diverge) => simp [see, hr] at h

theorem drained_screenplay {o : DecodeOptions} {r : Reader} {g : Spec.File} {fs : List Frame}
    (h : sessionFrom C o r (List.replicate (fs.length + 1) .read) = g.screenplay fs 1) :
    ∃ d, readInfo C o r = (d, .ok ()) ∧ d.view = g.view Frame.default ∧ Drained d fs (afterReads (fs.length + 1) d) := by
  unfold sessionFrom Spec.File.screenplay at h
  match hr : readInfo C o r with
  | (d, .ok ()) =>
    rw [hr] at h
    simp only [List.cons_append, List.cons.injEq, Seen.opened.injEq, List.replicate_one] at h
    exact ⟨d, rfl, h.1, drained_session fs _ _ d h.2⟩
  | (d, .err e) => rw [hr] at h; simp at h
  | (d, .panic) => rw [hr] at h; simp at h
  | (d, .diverge) => rw [hr] at h; simp at h

/-- **C67** with `skip_frame_decoding`: files that are accepted, one after the other in one stream and cut in any way, are read as
each of them alone, and what follows the last one is left to the reader. -/
theorem stream_raw (hS : C.Safe) {o : DecodeOptions} (hs : o.skipFrameDecoding = true) : ∀ (gs : List Spec.File),
    (∀ g ∈ gs, g.Readable o ∧ ∀ x ∈ g.frames, g.verdict o x.2 = none) → ∀ {junk : List UInt8} {r : Reader}, r.Reliable →
    r.bytes = gs.flatMap Spec.File.render ++ junk →
    ∃ r', Stream C o r (gs.map fun g => (g.view Frame.default, g.frames.map Spec.rawFrame)) r' ∧ r'.bytes = junk ∧ r'.Reliable := by
  intro gs
  induction gs with
  | nil => intro _ junk r hr hb; exact ⟨r, .done r, hb, hr⟩
  | cons g gs ih =>
    intro hg junk r hr hb
    obtain ⟨h1, h2⟩ := hg g List.mem_cons_self
    rw [List.flatMap_cons, List.append_assoc] at hb
    have hfilm := grammar_raw_frames hS h1 h2 hr hb 1
    have ho : { o with skipFrameDecoding := true } = o := by rw [← hs]
    unfold rawFilm at hfilm
    rw [ho] at hfilm
    have hlen : (g.frames.map Spec.rawFrame).length = g.frames.length := List.length_map ..
    rw [← hlen] at hfilm
    obtain ⟨d, e1, e2, e3⟩ := drained_screenplay hfilm
    obtain ⟨-, e4⟩ := end_leaves_rest_raw_partial hS hs h1 h2 hr hb
    rw [hlen] at e3
    rw [e1] at e4
    have hrel : (afterReads (g.frames.length + 1) d).intoInner.Reliable := by
      have := (readInfo_left (C := C) o r).trans (afterReads_left (g.frames.length + 1) _)
      rw [e1] at this
      exact this.reliable hr
    obtain ⟨r', i1, i2, i3⟩ := ih (fun x hx => hg x (List.mem_cons_of_mem _ hx)) (wrap_reliable hrel) ((wrap_bytes _).trans e4)
    refine ⟨r', ?_, i2, i3⟩
    rw [List.map_cons, ← e2]
    exact .file e1 e3 i1

/-- **C67** with pixels, in part: files of C04, one after the other in one stream. What is missing is what C04 leaves out. -/
theorem stream_frames_partial (K : C.Contract) {o : DecodeOptions} (hs : o.skipFrameDecoding = false) (hce : o.checkForEndCode = false) :
    ∀ (gs : List (Spec.File × List (List UInt8))), (∀ x ∈ gs, x.1.Readable o ∧ x.1.ShowAll K o x.1.frames x.2) →
    ∀ {junk : List UInt8} {r : Reader}, r.Reliable → r.bytes = gs.flatMap (fun x => x.1.render) ++ junk →
    ∃ r', Stream C o r (gs.map fun x => (x.1.view Frame.default, x.1.pictures o.colorOutput x.2)) r' ∧ r'.bytes = junk ∧ r'.Reliable := by
  intro gs
  induction gs with
  | nil => intro _ junk r hr hb; exact ⟨r, .done r, hb, hr⟩
  | cons x gs ih =>
    intro hg junk r hr hb
    obtain ⟨g, pxs⟩ := x
    obtain ⟨h1, h2⟩ := hg (g, pxs) List.mem_cons_self
    simp only at h1 h2
    rw [List.flatMap_cons, List.append_assoc] at hb
    have hfilm := grammar_frames_partial K hs hce h1 h2 hr hb 1
    have hlen : (g.pictures o.colorOutput pxs).length = g.frames.length := by
      have key : ∀ (xs : List (Spec.Graphic × Spec.Image)) (ps : List (List UInt8)), g.ShowAll K o xs ps → xs.length = ps.length := by
        intro xs
        induction xs with
        | nil => intro ps h; cases ps with
          | nil => rfl
          | cons => exact h.elim
        | cons x xs ih => intro ps h; cases ps with
          | nil => exact h.elim
          | cons p ps => rw [List.length_cons, List.length_cons, ih ps h.2]
      unfold Spec.File.pictures
      rw [List.length_zipWith, ← key _ _ h2, Nat.min_self]
    rw [← hlen] at hfilm
    obtain ⟨d, e1, e2, e3⟩ := drained_screenplay hfilm
    obtain ⟨-, e4⟩ := end_leaves_rest_partial K hs hce h1 h2 hr hb
    rw [hlen] at e3
    rw [e1] at e4
    have hrel : (afterReads (g.frames.length + 1) d).intoInner.Reliable := by
      have := (readInfo_left (C := C) o r).trans (afterReads_left (g.frames.length + 1) _)
      rw [e1] at this
      exact this.reliable hr
    obtain ⟨r', i1, i2, i3⟩ := ih (fun x hx => hg x (List.mem_cons_of_mem _ hx)) (wrap_reliable hrel) ((wrap_bytes _).trans e4)
    refine ⟨r', ?_, i2, i3⟩
    rw [List.map_cons, ← e2]
    exact .file e1 e3 i1

/-- A stream is read in one way only. -/
theorem stream_unique {o : DecodeOptions} {r r1 : Reader} {xs : List (View × List Frame)} (h : Stream C o r xs r1) :
    ∀ {ys : List (View × List Frame)} {r2 : Reader}, Stream C o r ys r2 → xs.length = ys.length → xs = ys ∧ r1 = r2 := by
  have drained : ∀ {d d1 d2 : Decoder C} {fs gs : List Frame}, Drained d fs d1 → Drained d gs d2 → fs = gs ∧ d1 = d2 := by
    intro d d1 d2 fs gs h
    induction h generalizing gs d2 with
    | done e => intro h'; cases h' with
      | done e' => rw [e] at e'; cases e'; exact ⟨rfl, rfl⟩
      | frame e' _ => rw [e] at e'; cases e'
    | frame e _ ih => intro h'; cases h' with
      | done e' => rw [e] at e'; cases e'
      | frame e' h2 =>
        rw [e] at e'
        cases e'
        obtain ⟨rfl, rfl⟩ := ih h2
        exact ⟨rfl, rfl⟩
  induction h with
  | done r =>
    intro ys r2 h' hl
    cases h' with
    | done => exact ⟨rfl, rfl⟩
    | file => simp at hl
  | file e hd _ ih =>
    intro ys r2 h' hl
    cases h' with
    | done => simp at hl
    | file e' hd' h2 =>
      rw [e] at e'
      cases e'
      obtain ⟨rfl, rfl⟩ := drained hd hd'
      obtain ⟨rfl, rfl⟩ := ih h2 (by simpa using hl)
      exact ⟨rfl, rfl⟩

end Gif.Decoder
