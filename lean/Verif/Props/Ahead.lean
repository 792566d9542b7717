import Verif.Lemmas.Ahead
import Verif.Spec.Transcript
import Verif.Spec.Film
import Verif.Props.Damage
/-!
# C65: what has not been read has no influence; frames are there as soon as their bytes are
-/

namespace Gif

namespace Decoder

variable {C : Codec}

/-! ## Any calls -/

theorem inv_ask (hS : C.Safe) (d : Decoder C) (hi : d.Inv) (a : Ask) : (d.ask a).1.Inv := by
  cases a with
  | info => exact (inv_nextFrameInfo hS d hi).1
  | read => exact (readNextFrame_spec hS d hi).1
  | fill buf =>
    have := (inv_fillBuffer hS d buf hi).1
    simp only [ask]
    generalize d.fillBuffer buf = x at *
    obtain ⟨d', b, o⟩ := x
    cases o <;> exact this
  | into buf =>
    have := (inv_readIntoBuffer hS d buf hi).1
    simp only [ask]
    generalize d.readIntoBuffer buf = x at *
    obtain ⟨d', b, o⟩ := x
    cases o <;> exact this
  | take =>
    simp only [ask, takeCurrentFrame]
    split <;> exact ⟨hi.rd, hi.limit⟩

/-- One call. -/
theorem ask_ahead (hS : C.Safe) (ext : List ReadEv) (d : Decoder C) (hi : d.Inv) (a : Ask) (he : (d.ask a).2.eof = false) :
    (d.ahead ext).ask a = ((d.ask a).1.ahead ext, (d.ask a).2) := by
  have hh : ∀ {α : Type} [DecidableEq α] {x : Outcome α}, x.returns = true → (x == .ioErr .unexpectedEof) = false → x.here := by
    intro α _ x h1 h2
    refine ⟨fun h => (by rw [h] at h1; cases h1), fun h => ?_⟩
    rw [h] at h2
    simp at h2
  cases a with
  | info =>
    have hr := (inv_nextFrameInfo hS d hi).2
    simp only [ask] at he ⊢
    match h : d.nextFrameInfo with
    | (d', x) =>
      rw [h] at he hr
      rw [nextFrameInfo_ahead ext h (hh hr he)]
  | read =>
    have hr := (readNextFrame_spec hS d hi).2.1
    simp only [ask] at he ⊢
    match h : d.readNextFrame with
    | (d', x) =>
      rw [h] at he hr
      rw [readNextFrame_ahead ext h (hh hr he)]
  | fill buf =>
    have hr := (inv_fillBuffer hS d buf hi).2.1
    simp only [ask] at he ⊢
    match h : d.fillBuffer buf with
    | (d', b, .ok m) => rw [fillBuffer_ahead ext h (Outcome.here_ok _)]
    | (d', b, .err e) =>
      rw [h] at he
      simp only [Told.eof] at he
      have := hh (α := List UInt8 × Bool) rfl he
      rw [fillBuffer_ahead ext h (Outcome.here_err this)]
    | (d', b, .panic) => rw [h] at hr; cases hr
    | (d', b, .diverge) => rw [h] at hr; cases hr
  | into buf =>
    have hr := (inv_readIntoBuffer hS d buf hi).2.1
    simp only [ask] at he ⊢
    match h : d.readIntoBuffer buf with
    | (d', b, .ok m) => rw [readIntoBuffer_ahead ext h (Outcome.here_ok _)]
    | (d', b, .err e) =>
      rw [h] at he
      simp only [Told.eof] at he
      have := hh (α := List UInt8) rfl he
      rw [readIntoBuffer_ahead ext h (Outcome.here_err this)]
    | (d', b, .panic) => rw [h] at hr; cases hr
    | (d', b, .diverge) => rw [h] at hr; cases hr
  | take =>
    simp only [ask, takeCurrentFrame]
    rw [show (d.ahead ext).currentFrame = d.currentFrame from rfl]
    split <;> rfl

/-- Calls, up to the first that reports the end of the input. -/
theorem transcript_ahead (hS : C.Safe) (ext : List ReadEv) : ∀ (as : List Ask) (d : Decoder C), d.Inv →
    ((∀ x ∈ transcript as d, x.1.eof = false) ∧ transcript as (d.ahead ext) = transcript as d ∧
      after as (d.ahead ext) = (after as d).ahead ext) ∨
    ∃ k x, (transcript as d)[k]? = some x ∧ x.1.eof = true ∧
      (transcript as (d.ahead ext)).take k = (transcript as d).take k ∧
      ∀ y ∈ (transcript as d).take k, y.1.eof = false
  | [], d, _ => .inl ⟨by simp [transcript], rfl, rfl⟩
  | a :: as, d, hi => by
    by_cases he : (d.ask a).2.eof = true
    · exact .inr ⟨0, ((d.ask a).2, (d.ask a).1.view), rfl, he, rfl, by simp⟩
    · have he' : (d.ask a).2.eof = false := by simpa using he
      have h1 := ask_ahead hS ext d hi a he'
      rcases transcript_ahead hS ext as _ (inv_ask hS d hi a) with ⟨h2, h3, h4⟩ | ⟨k, x, h2, h3, h4, h5⟩
      · refine .inl ⟨?_, ?_, ?_⟩
        · intro x hx
          rcases List.mem_cons.1 hx with rfl | hx
          · exact he'
          · exact h2 x hx
        · simp only [transcript, h1, h3]; rfl
        · simp only [after, h1]; exact h4
      · refine .inr ⟨k + 1, x, ?_, h3, ?_, ?_⟩
        · simp only [transcript, List.getElem?_cons_succ]; exact h2
        · simp only [transcript, h1, List.take_succ_cons, h4]; rfl
        · intro y hy
          simp only [transcript, List.take_succ_cons, List.mem_cons] at hy
          rcases hy with rfl | hy
          · exact he'
          · exact h5 y hy

/-- **C65**: whatever the input, the options and the calls, also calls after errors: the program is told the same, whatever
further `read` calls would give, up to the call that reports that the input came to its end. -/
theorem causal (hS : C.Safe) (o : DecodeOptions) (r : Reader) (ext : List ReadEv) (as : List Ask) :
    ((∀ x ∈ transcriptFrom C o r as, x.1.eof = false) ∧
      transcriptFrom C o { r with src := r.src ++ ext } as = transcriptFrom C o r as) ∨
    ∃ k x, (transcriptFrom C o r as)[k]? = some x ∧ x.1.eof = true ∧
      (transcriptFrom C o { r with src := r.src ++ ext } as).take k = (transcriptFrom C o r as).take k ∧
      ∀ y ∈ (transcriptFrom C o r as).take k, y.1.eof = false := by
  obtain ⟨hi, hret⟩ := inv_readInfo (C := C) hS o r
  rw [show ({ r with src := r.src ++ ext } : Reader) = r.ahead ext from rfl]
  unfold transcriptFrom
  match h : readInfo C o r with
  | (d, .ok ()) =>
    rw [h] at hi
    rw [readInfo_ahead ext h (Outcome.here_ok _)]
    simp only
    rcases transcript_ahead hS ext as d hi with ⟨h2, h3, _⟩ | ⟨k, x, h2, h3, h4, h5⟩
    · refine .inl ⟨?_, ?_⟩
      · intro x hx
        rcases List.mem_cons.1 hx with rfl | hx
        · rfl
        · exact h2 x hx
      · rw [h3]; rfl
    · refine .inr ⟨k + 1, x, by simpa using h2, h3, ?_, ?_⟩
      · simp only [List.take_succ_cons, h4]; rfl
      · intro y hy
        simp only [List.take_succ_cons, List.mem_cons] at hy
        rcases hy with rfl | hy
        · rfl
        · exact h5 y hy
  | (d, .err e) =>
    by_cases he : e = .io .unexpectedEof
    · subst he
      exact .inr ⟨0, _, rfl, rfl, rfl, by simp⟩
    · have hx : (.err e : Outcome Unit).here := ⟨by simp, by simpa using he⟩
      rw [readInfo_ahead ext h hx]
      refine .inl ⟨?_, rfl⟩
      intro x hx'
      simp only [List.mem_singleton] at hx'
      subst hx'
      simpa [Told.eof] using he
  | (d, .panic) => rw [h] at hret; cases hret
  | (d, .diverge) => rw [h] at hret; cases hret

/-- **C65**: and the `read` calls are not made before they are needed: as long as the end of the input is not reported, the
decoder is left with all of them. -/
theorem causal_reads (hS : C.Safe) (o : DecodeOptions) (r : Reader) (ext : List ReadEv) (as : List Ask)
    (hok : (readInfo C o r).2 = .ok ()) (he : ∀ x ∈ transcriptFrom C o r as, x.1.eof = false) :
    (after as (readInfo C o { r with src := r.src ++ ext }).1).intoInner =
      { (after as (readInfo C o r).1).intoInner with src := (after as (readInfo C o r).1).intoInner.src ++ ext } := by
  obtain ⟨hi, _⟩ := inv_readInfo (C := C) hS o r
  rw [show ({ r with src := r.src ++ ext } : Reader) = r.ahead ext from rfl]
  unfold transcriptFrom at he
  match h : readInfo C o r with
  | (d, x) =>
    rw [h] at he hok hi
    cases hok
    rw [readInfo_ahead ext h (Outcome.here_ok _)]
    rcases transcript_ahead hS ext as d hi with ⟨_, _, h4⟩ | ⟨k, x, h2, h3, _, _⟩
    · simp only; rw [h4]; rfl
    · have := he x (List.mem_cons_of_mem _ (List.mem_of_getElem? h2))
      rw [h3] at this
      cases this

/-! ## Sessions -/

theorem see_ahead (hS : C.Safe) (ext : List ReadEv) (d : Decoder C) (hi : d.Inv) (c : Call) :
    (d.see c).1 = .failed (.io .unexpectedEof) ∨
    (d.ahead ext).see c = ((d.see c).1, (d.see c).2.map (ahead ext)) := by
  cases c with
  | info =>
    have hr := (inv_nextFrameInfo hS d hi).2
    unfold see
    match h : d.nextFrameInfo with
    | (d', .ok f) => right; rw [nextFrameInfo_ahead ext h (Outcome.here_ok _)]; rfl
    | (d', .err e) =>
      by_cases he : e = .io .unexpectedEof
      · left; subst he; rfl
      · right; rw [nextFrameInfo_ahead ext h ⟨by simp, by simpa using he⟩]; rfl
    | (d', .panic) => rw [h] at hr; cases hr
    | (d', .diverge) => rw [h] at hr; cases hr
  | read =>
    have hr := (readNextFrame_spec hS d hi).2.1
    unfold see
    match h : d.readNextFrame with
    | (d', .ok f) => right; rw [readNextFrame_ahead ext h (Outcome.here_ok _)]; rfl
    | (d', .err e) =>
      by_cases he : e = .io .unexpectedEof
      · left; subst he; rfl
      · right; rw [readNextFrame_ahead ext h ⟨by simp, by simpa using he⟩]; rfl
    | (d', .panic) => rw [h] at hr; cases hr
    | (d', .diverge) => rw [h] at hr; cases hr

theorem inv_see (hS : C.Safe) (d d' : Decoder C) (hi : d.Inv) (c : Call) (h : (d.see c).2 = some d') : d'.Inv := by
  cases c with
  | info =>
    have hr := (inv_nextFrameInfo hS d hi).1
    unfold see at h
    generalize d.nextFrameInfo = x at *
    obtain ⟨d1, x⟩ := x
    cases x <;> cases h
    exact hr
  | read =>
    have hr := (readNextFrame_spec hS d hi).1
    unfold see at h
    generalize d.readNextFrame = x at *
    obtain ⟨d1, x⟩ := x
    cases x <;> cases h
    exact hr

theorem session_ahead (hS : C.Safe) (ext : List ReadEv) : ∀ (cs : List Call) (d : Decoder C), d.Inv →
    session cs (d.ahead ext) = session cs d ∨
      ∃ k, k < (session cs (d.ahead ext)).length ∧
        session cs d = (session cs (d.ahead ext)).take k ++ [.failed (.io .unexpectedEof)]
  | [], _, _ => .inl rfl
  | c :: cs, d, hi => by
    have h := see_ahead hS ext d hi c
    have hi' := inv_see hS d
    rw [session, session]
    match hs : d.see c with
    | (x, none) =>
      rw [hs] at h
      rcases h with h | h
      · simp only at h
        subst h
        exact .inr ⟨0, by split <;> simp, rfl⟩
      · rw [h]; exact .inl rfl
    | (x, some d') =>
      rw [hs] at h
      rcases h with h | h
      · exfalso
        simp only at h
        subst h
        cases c with
        | info =>
          unfold see at hs
          generalize d.nextFrameInfo = y at hs
          obtain ⟨d1, y⟩ := y
          cases y <;> cases hs
        | read =>
          unfold see at hs
          generalize d.readNextFrame = y at hs
          obtain ⟨d1, y⟩ := y
          cases y <;> cases hs
      · rw [h]
        simp only [Option.map_some]
        rcases session_ahead hS ext cs d' (hi' d' hi c (by rw [hs])) with h1 | ⟨k, hk, h1⟩
        · left; rw [h1]
        · right; exact ⟨k + 1, Nat.succ_lt_succ hk, by rw [h1]; rfl⟩

/-- **C65**, and C08 with the pixels, for every file, if it ends after some `read` call: the session sees the beginning of what it
sees with more of the file and then `UnexpectedEof`, or it sees the same. -/
theorem session_causal (hS : C.Safe) (o : DecodeOptions) (r : Reader) (ext : List ReadEv) (cs : List Call) :
    sessionFrom C o { r with src := r.src ++ ext } cs = sessionFrom C o r cs ∨
    ∃ k, k < (sessionFrom C o { r with src := r.src ++ ext } cs).length ∧
      sessionFrom C o r cs = (sessionFrom C o { r with src := r.src ++ ext } cs).take k ++ [.failed (.io .unexpectedEof)] := by
  obtain ⟨hi, hret⟩ := inv_readInfo (C := C) hS o r
  rw [show ({ r with src := r.src ++ ext } : Reader) = r.ahead ext from rfl]
  unfold sessionFrom
  match h : readInfo C o r with
  | (d, .ok ()) =>
    rw [h] at hi
    rw [readInfo_ahead ext h (Outcome.here_ok _)]
    rcases session_ahead hS ext cs d hi with h1 | ⟨k, hk, h1⟩
    · left; simp only [h1]; rfl
    · right; exact ⟨k + 1, Nat.succ_lt_succ hk, by simp only [h1]; rfl⟩
  | (d, .err e) =>
    by_cases he : e = .io .unexpectedEof
    · right; subst he; exact ⟨0, by split <;> simp, rfl⟩
    · left; rw [readInfo_ahead ext h ⟨by simp, by simpa using he⟩]
  | (d, .panic) => rw [h] at hret; cases hret
  | (d, .diverge) => rw [h] at hret; cases hret

/-! ## Frames are there as soon as their bytes are -/

theorem screenplay_no_eof (g : Spec.File) (fs : List Frame) (k : Nat) : .failed (.io .unexpectedEof) ∉ g.screenplay fs k := by
  simp [Spec.File.screenplay]

theorem reads_left (hS : C.Safe) (ext : List ReadEv) : ∀ (n : Nat) (d : Decoder C), d.Inv →
    .failed (.io .unexpectedEof) ∉ session (List.replicate n .read) d →
    (session (List.replicate n .read) d).length = n →
    afterReads n (d.ahead ext) = (afterReads n d).ahead ext
  | 0, _, _, _, _ => rfl
  | n + 1, d, hi, hne, hlen => by
    rw [List.replicate_succ, session] at hne hlen
    have hret := (readNextFrame_spec hS d hi)
    unfold see at hne hlen
    match h : d.readNextFrame with
    | (d', .ok f) =>
      rw [h] at hne hlen hret
      simp only [List.mem_cons, not_or, List.length_cons] at hne hlen
      have := readNextFrame_ahead ext h (Outcome.here_ok _)
      show afterReads n (d.ahead ext).readNextFrame.1 = (afterReads n d.readNextFrame.1).ahead ext
      rw [this, h]
      exact reads_left hS ext n d' hret.1 hne.2 (by omega)
    | (d', .err e) =>
      rw [h] at hne hlen
      simp only [List.length_cons, List.length_nil] at hlen
      obtain rfl : n = 0 := by omega
      simp only [List.mem_singleton, Seen.failed.injEq] at hne
      have := readNextFrame_ahead ext h ⟨by simp, fun hx => hne (by cases hx; rfl)⟩
      show (d.ahead ext).readNextFrame.1 = d.readNextFrame.1.ahead ext
      rw [this, h]
    | (d', .panic) => rw [h] at hret; cases hret.2.1
    | (d', .diverge) => rw [h] at hret; cases hret.2.1

/-- The session gives the same with more behind, and does not read it. -/
theorem prompt (hS : C.Safe) {o : DecodeOptions} {r : Reader} {n : Nat} {g : Spec.File} {fs : List Frame} (hl : fs.length = n)
    (h : sessionFrom C o r (List.replicate n .read) = g.screenplay fs 0) (later : List ReadEv) :
    sessionFrom C o { r with src := r.src ++ later } (List.replicate n .read) = g.screenplay fs 0 ∧
    later <:+ (afterReads n (readInfo C o { r with src := r.src ++ later }).1).intoInner.src := by
  have hno := screenplay_no_eof g fs 0
  rw [← h] at hno
  constructor
  · rcases session_causal hS o r later (List.replicate n .read) with h1 | ⟨k, _, h1⟩
    · rw [h1, h]
    · exact absurd (by rw [h1]; simp) hno
  · obtain ⟨hi, hret⟩ := inv_readInfo (C := C) hS o r
    rw [show ({ r with src := r.src ++ later } : Reader) = r.ahead later from rfl]
    unfold sessionFrom at hno h
    match hx : readInfo C o r with
    | (d, .ok ()) =>
      rw [hx] at hi hno h
      rw [readInfo_ahead later hx (Outcome.here_ok _)]
      simp only [List.mem_cons, not_or] at hno
      have hlen : (session (List.replicate n .read) d).length = n := by
        have := congrArg List.length h
        simpa [Spec.File.screenplay, hl] using this
      show later <:+ (afterReads n (d.ahead later)).rd.reader.src
      rw [reads_left hS later n d hi hno.2 hlen]
      exact ⟨_, rfl⟩
    | (d, .err e) =>
      rw [hx] at h
      have := congrArg List.head? h
      simp [Spec.File.screenplay] at this
    | (d, .panic) => rw [hx] at hret; cases hret
    | (d, .diverge) => rw [hx] at hret; cases hret

/-- **C65** with `skip_frame_decoding`: when the bytes up to the end of an image have arrived, all images so far are returned,
without a further `read` call. -/
theorem prompt_raw (hS : C.Safe) {o : DecodeOptions} {g : Spec.File} (hg : g.Readable o) (hne : g.frames ≠ [])
    (hacc : ∀ x ∈ g.frames, g.verdict o x.2 = none) {rest : List UInt8} {r : Reader} (hr : r.Reliable)
    (hb : r.bytes = g.renderHead ++ Spec.renderBlks g.blocks ++ rest) (later : List ReadEv) :
    rawFilm C o { r with src := r.src ++ later } g.frames.length = g.screenplay (g.frames.map Spec.rawFrame) 0 ∧
    later <:+ (afterReads g.frames.length
      (readInfo C { o with skipFrameDecoding := true } { r with src := r.src ++ later }).1).intoInner.src :=
  prompt hS (by simp) (damage_raw hS hg hne hacc hr hb) later

/-- **C65** with the pixels. -/
theorem prompt_frames (K : C.Contract) {o : DecodeOptions} (hs : o.skipFrameDecoding = false)
    (hce : o.checkForEndCode = false) {g : Spec.File} (hg : g.Readable o) (hne : g.frames ≠ []) {pxs : List (List UInt8)}
    (hpx : g.ShowAll K o g.frames pxs)
    {rest : List UInt8} {r : Reader} (hr : r.Reliable)
    (hb : r.bytes = g.renderHead ++ Spec.renderBlks g.blocks ++ rest) (later : List ReadEv) :
    sessionFrom C o { r with src := r.src ++ later } (List.replicate g.frames.length .read) =
      g.screenplay (g.pictures o.colorOutput pxs) 0 ∧
    later <:+ (afterReads g.frames.length (readInfo C o { r with src := r.src ++ later }).1).intoInner.src := by
  refine prompt K.safe ?_ (damage_frames K hs hce hg hne hpx hr hb) later
  have : ∀ (xs : List (Spec.Graphic × Spec.Image)) (pxs : List (List UInt8)), g.ShowAll K o xs pxs → xs.length = pxs.length := by
    intro xs
    induction xs with
    | nil => intro pxs h; cases pxs with
      | nil => rfl
      | cons => exact h.elim
    | cons x xs ih => intro pxs h; cases pxs with
      | nil => exact h.elim
      | cons px pxs => simp [ih pxs h.2]
  simp [Spec.File.pictures, this _ _ hpx]

end Decoder

end Gif
