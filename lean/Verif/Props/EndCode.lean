import Verif.Props.Film
/-!
# C45: `check_lzw_end_code`

What the option changes: nothing but that a session may end earlier, with the error that says that the end code is missing. It
does so for every frame without an end code that is read to the end or left behind; it does so for frames with an end code
too (`Props/Film.lean`), except if every frame is fetched with `fill_buffer` until this returns `false`.
-/

namespace Gif

open Spec (Sane ExpandAll rawFrames Pixels)

namespace Decoder

variable {C : Codec}

/-- The session of the decoder with the option, in terms of the raw frames. -/
theorem filmFrom_ended (K : C.Contract) (o : DecodeOptions) (hs : o.skipFrameDecoding = false) {r r0 : Reader}
    (h : r.Reliable) (h0 : r0.Reliable) (hb : r.bytes = r0.bytes) (acts : List Act) (sure : Prop) {outs : List Pixels}
    (hsane : Sane K o r0 (Spec.seeks acts)) (hok : Spec.Gentle K acts (rawFrames (rawFilm C o r0 (Spec.seeks acts))))
    (hex : ExpandAll K (rawFrames (rawFilm C o r0 (Spec.seeks acts))) outs)
    (hsure : sure → (∀ px ∈ outs, px.2 = .ended) ∧ Spec.Drained acts none outs) :
    FilmRes ⟨true, sure⟩ True [] outs (filmFrom C { o with checkForEndCode := true } r acts)
      (screening o acts (rawFilm C o r0 (Spec.seeks acts)) outs) := by
  refine filmFrom_checked K ⟨true, sure⟩ { o with checkForEndCode := true } hs rfl o.checkForEndCode h h0 (by rw [hb]; simp)
    acts _ (Nat.le_refl _) outs ?_ hex ?_ hsure
  · intro e he
    exact ⟨fun h => hsane.whole (h ▸ he), fun h => hsane.small (h ▸ he)⟩
  · exact hok.imp (Spec.expand_all_valid K _ _ hex) id

/-- `filmFrom_ended` for data of any length. -/
theorem filmFrom_ended_free (K : C.Contract) (o : DecodeOptions) (hs : o.skipFrameDecoding = false) {r r0 : Reader}
    (h : r.Reliable) (h0 : r0.Reliable) (hb : r.bytes = r0.bytes) (acts : List Act) (sure : Prop) {outs : List Pixels}
    (hsane : Sane K { o with memoryLimit := .unlimited } r0 (Spec.seeks acts))
    (hok : Spec.Gentle K acts (rawFrames (rawFilm C { o with memoryLimit := .unlimited } r0 (Spec.seeks acts))))
    (hex : ExpandAll K (rawFrames (ghostFilm (C := C) freeRead o r0 (Spec.seeks acts))) outs)
    (hsure : sure → (∀ px ∈ outs, px.2 = .ended) ∧ Spec.Drained acts none outs) :
    FilmRes ⟨true, sure⟩ True [] outs (filmFrom C { o with checkForEndCode := true } r acts)
      (screening o acts (ghostFilm (C := C) freeRead o r0 (Spec.seeks acts)) outs) := by
  obtain ⟨hbad, hsub, _⟩ := ghost_sane K o h0 hsane
  refine filmFrom_ghost K (ghost_free K) ⟨true, sure⟩ { o with checkForEndCode := true } hs rfl o.checkForEndCode h h0
    (by rw [hb]; simp) acts _ (Nat.le_refl _) outs ?_ hex ?_ hsure
  · exact fun e he => ⟨hbad e he, fun h => h.elim⟩
  · exact (gentle_sub hsub hok).imp (Spec.expand_all_valid K _ _ hex) id

/-- C45, what the option changes: a session with it gives the same as one without it, whatever the pieces the bytes come in, or
it gives a part of it and then fails because of a missing end code. -/
theorem check_only_rejects_partial (K : C.Contract) (o : DecodeOptions) (hs : o.skipFrameDecoding = false)
    (hce : o.checkForEndCode = false) {r1 r2 : Reader} (h1 : r1.Reliable) (h2 : r2.Reliable) (hb : r1.bytes = r2.bytes)
    (acts : List Act) (hsane : Sane K { o with memoryLimit := .unlimited } r2 (Spec.seeks acts))
    (hok : Spec.Gentle K acts (rawFrames (rawFilm C { o with memoryLimit := .unlimited } r2 (Spec.seeks acts)))) :
    filmFrom C { o with checkForEndCode := true } r1 acts = filmFrom C o r2 acts ∨
    ∃ n, n < (filmFrom C o r2 acts).length ∧ filmFrom C { o with checkForEndCode := true } r1 acts =
      (filmFrom C o r2 acts).take n ++ [.seen (.failed (.io .noEndCode))] := by
  obtain ⟨outs, hex, hf⟩ := filmFrom_screened K o hs hce h2 acts _ (Nat.le_refl _) hsane hok
  rw [follows_nil (hf h2 (by simp))]
  rcases (filmFrom_ended_free K o hs h1 h2 hb acts False hsane hok hex fun h => h.elim).follows with h | ⟨_, h⟩
  · exact .inl (follows_nil h)
  · exact .inr h

theorem expandAll_get {K : C.Contract} : ∀ {fs : List Frame} {outs : List Pixels}, ExpandAll K fs outs → ∀ {j : Nat} {f : Frame},
    fs[j]? = some f → ∃ px, outs[j]? = some px ∧ Spec.Expands K f px
  | [], _, _, j, f, hf => by simp at hf
  | _ :: _, [], h, _, _, _ => h.elim
  | g :: fs, px :: outs, h, 0, f, hf => by
    simp only [List.getElem?_cons_zero, Option.some.injEq] at hf
    subst hf
    exact ⟨px, rfl, h.1⟩
  | g :: fs, px :: outs, h, j + 1, f, hf => by
    obtain ⟨px', h1, h2⟩ := expandAll_get h.2 (j := j) (by simpa using hf)
    exact ⟨px', by simpa using h1, h2⟩

/-- The data of the frame have no end code. -/
def NoEndCode (K : C.Contract) (f : Frame) : Prop :=
  ∀ m data px, f.buffer = m :: data → ¬ K.Yields (C.new m) data px .ended

/-- C45, frames without an end code: if the data of frame `j` (counted from 0) have no end code, then `fill_buffer` does not
say that there is nothing left of this frame, and no call of `next_frame_info` or `read_next_frame` after the one that found
this frame succeeds. -/
theorem missing_end_code_found_partial (K : C.Contract) (o : DecodeOptions) (hs : o.skipFrameDecoding = false) {r : Reader}
    (h : r.Reliable) (acts : List Act) (hsane : Sane K o r (Spec.seeks acts))
    (hok : Spec.Gentle K acts (rawFrames (rawFilm C o r (Spec.seeks acts)))) {j : Nat} {f : Frame}
    (hf : (rawFrames (rawFilm C o r (Spec.seeks acts)))[j]? = some f) (hno : NoEndCode K f) :
    let film := filmFrom C { o with checkForEndCode := true } r acts
    Spec.sought film ≤ j + 1 ∧
    ∀ n buf, film[n]? = some (.filled buf false) → Spec.sought (film.take n) ≠ j + 1 := by
  obtain ⟨outs, hex⟩ := Spec.expand_all K _ (rawFilm_buffer K.safe o r _) hsane.regular
  have key := filmFrom_ended K o hs h h rfl acts False hsane hok hex fun h => h.elim
  obtain ⟨px, hpx, ⟨⟨m, data, hb, hy⟩, _⟩⟩ := expandAll_get hex hf
  have hne : px.2 ≠ .ended := fun he => hno m data px.1 hb (he ▸ hy)
  exact ⟨key.bound rfl j px hpx hne, fun n buf hn hs => hne ((key.fills rfl n buf hn).2 j px hs hpx)⟩

/-- The frame has data with an end code, that expand to `n` pixels. -/
def EndsAfter (K : C.Contract) (f : Frame) (n : Nat) : Prop :=
  ∃ m data px, f.buffer = m :: data ∧ px.length = n ∧ K.Yields (C.new m) data px .ended

/-- Calls that fetch each frame with buffers of room for `n + 1` pixels. -/
def fetching (nss : List (List Nat)) : List Act := nss.flatMap fun ns => .info :: ns.map .fill

theorem seeks_fills (ns : List Nat) (as : List Act) : Spec.seeks (ns.map .fill ++ as) = Spec.seeks as := by
  induction ns with
  | nil => rfl
  | cons n ns ih => simpa [Spec.seeks] using ih

theorem seeks_fetching (nss : List (List Nat)) : Spec.seeks (fetching nss) = nss.length := by
  induction nss with
  | nil => rfl
  | cons ns nss ih =>
    show Spec.seeks (.info :: (ns.map .fill ++ fetching nss)) = _
    simp only [Spec.seeks, seeks_fills, ih, List.length_cons]

theorem drained_idle_fills (outs : List Pixels) (as : List Act) : ∀ ns : List Nat, Spec.Drained as none outs →
    Spec.Drained (ns.map .fill ++ as) none outs
  | [], h => h
  | _ :: ns, h => by
    simp only [List.map_cons, List.cons_append, Spec.Drained]
    exact drained_idle_fills outs as ns h

theorem drained_fills (outs : List Pixels) (as : List Act) (h : Spec.Drained as none outs) : ∀ (ns : List Nat) (px : List UInt8),
    px.length < (ns.map (· + 1)).sum → Spec.Drained (ns.map .fill ++ as) (some px) outs
  | [], px, hn => by simp at hn
  | n :: ns, px, hn => by
    simp only [List.map_cons, List.cons_append, Spec.Drained]
    split
    · refine drained_fills outs as h ns _ ?_
      simp only [List.map_cons, List.sum_cons] at hn
      rw [List.length_drop]
      omega
    · exact drained_idle_fills outs as ns h

theorem drained_fetching : ∀ (nss : List (List Nat)) (outs : List Pixels),
    (∀ (j : Nat) (px : Pixels) (ns : List Nat), outs[j]? = some px → nss[j]? = some ns → px.1.length < (ns.map (· + 1)).sum) →
    Spec.Drained (fetching nss) none outs
  | [], outs, _ => trivial
  | ns :: nss, [], _ => by
    show Spec.Drained (.info :: (ns.map .fill ++ fetching nss)) none []
    exact ⟨rfl, drained_idle_fills [] _ ns (drained_fetching nss [] (by simp))⟩
  | ns :: nss, px :: outs, h => by
    show Spec.Drained (.info :: (ns.map .fill ++ fetching nss)) none (px :: outs)
    refine ⟨rfl, drained_fills outs _ (drained_fetching nss outs ?_) ns px.1 (h 0 px ns rfl rfl)⟩
    intro j px ns h1 h2
    exact h (j + 1) px ns (by simpa using h1) (by simpa using h2)

theorem rawFrames_le : ∀ l : List Seen, (rawFrames l).length ≤ l.length
  | [] => Nat.le_refl _
  | .frame (some f) _ :: l => by have := rawFrames_le l; simp only [rawFrames, List.length_cons]; omega
  | .frame none _ :: l => by have := rawFrames_le l; simp only [rawFrames, List.length_cons]; omega
  | .opened _ :: l => by have := rawFrames_le l; simp only [rawFrames, List.length_cons]; omega
  | .info _ _ :: l => by have := rawFrames_le l; simp only [rawFrames, List.length_cons]; omega
  | .failed _ :: l => by have := rawFrames_le l; simp only [rawFrames, List.length_cons]; omega
  | .crashed :: l => by have := rawFrames_le l; simp only [rawFrames, List.length_cons]; omega

theorem session_le : ∀ (cs : List Call) (d : Decoder C), (session cs d).length ≤ cs.length
  | [], d => Nat.le_refl _
  | c :: cs, d => by
    rw [session]
    split
    · simp only [List.length_cons]; have := session_le cs ‹Decoder C›; omega
    · simp

theorem rawFrames_length (o : DecodeOptions) (r : Reader) (k : Nat) : (rawFrames (rawFilm C o r k)).length ≤ k := by
  unfold rawFilm sessionFrom
  split
  · rename_i d _
    have h1 := rawFrames_le (session (List.replicate k .read) d)
    have h2 := session_le (List.replicate k .read) d
    rw [List.length_replicate] at h2
    simp only [rawFrames]
    omega
  · simp [rawFrames]
  · simp [rawFrames]

/-- C45, frames with an end code: if all the frames have data with an end code, and each is fetched with `fill_buffer` until
this has said that there is nothing left, then the option makes no difference, whatever the pieces the bytes come in. What is
missing: other reading patterns, for which the claim is false (`check_end_code_fails_skip`, `chunk_invariant_fails_check`). -/
theorem end_codes_accepted_partial (K : C.Contract) (o : DecodeOptions) (hs : o.skipFrameDecoding = false)
    (hce : o.checkForEndCode = false) {r1 r2 : Reader} (h1 : r1.Reliable) (h2 : r2.Reliable) (hb : r1.bytes = r2.bytes)
    (nss : List (List Nat)) (hsane : Sane K o r2 nss.length)
    (hend : ∀ (j : Nat) (f : Frame), (rawFrames (rawFilm C o r2 nss.length))[j]? = some f → ∀ ns, nss[j]? = some ns →
      ∃ n, EndsAfter K f n ∧ n < (ns.map (· + 1)).sum) :
    filmFrom C { o with checkForEndCode := true } r1 (fetching nss) = filmFrom C o r2 (fetching nss) := by
  rw [← seeks_fetching nss] at hsane hend
  have hlen' : (rawFrames (rawFilm C o r2 (Spec.seeks (fetching nss)))).length ≤ nss.length := by rw [seeks_fetching]; exact rawFrames_length o r2 _
  obtain ⟨outs, hex⟩ := Spec.expand_all K _ (rawFilm_buffer K.safe o r2 _) hsane.regular
  have hall : ∀ (j : Nat) (px : Pixels), outs[j]? = some px → ∃ f ns, (rawFrames (rawFilm C o r2 (Spec.seeks (fetching nss))))[j]? = some f ∧
      Spec.Expands K f px ∧ nss[j]? = some ns := by
    intro j px hj
    have hl : ∀ (fs : List Frame) (os : List Pixels), ExpandAll K fs os → fs.length = os.length := by
      intro fs
      induction fs with
      | nil => intro os h; cases os with
        | nil => rfl
        | cons _ _ => exact h.elim
      | cons f fs ih => intro os h; cases os with
        | nil => exact h.elim
        | cons _ os => simp [ih os h.2]
    have hjl := (List.getElem?_eq_some_iff.mp hj).1
    have he := hl _ _ hex
    have hj1 : j < (rawFrames (rawFilm C o r2 (Spec.seeks (fetching nss)))).length := by omega
    obtain ⟨px', p1, p2⟩ := expandAll_get hex (List.getElem?_eq_getElem hj1)
    rw [hj] at p1
    cases p1
    exact ⟨_, nss[j]'(by omega), List.getElem?_eq_getElem hj1, p2, List.getElem?_eq_getElem (by omega)⟩
  have hended : ∀ px ∈ outs, px.2 = .ended := by
    intro px hpx
    obtain ⟨j, hj⟩ := List.getElem?_of_mem hpx
    obtain ⟨f, ns, hf, ⟨⟨m, data, hb, hy⟩, _⟩, hn⟩ := hall j px hj
    obtain ⟨n, ⟨m', data', px', hb', _, hy'⟩, _⟩ := hend j f hf ns hn
    rw [hb] at hb'
    cases hb'
    exact (K.det hy hy').2
  have hdr : Spec.Drained (fetching nss) none outs := by
    refine drained_fetching nss outs fun j px ns hj hn => ?_
    obtain ⟨f, ns', hf, ⟨⟨m, data, hb, hy⟩, _⟩, hn'⟩ := hall j px hj
    rw [hn] at hn'
    cases hn'
    obtain ⟨n, ⟨m', data', px', hb', hlen, hy'⟩, hlt⟩ := hend j f hf ns hn
    rw [hb] at hb'
    cases hb'
    rw [(K.det hy hy').1, hlen]
    exact hlt
  have hval : ∀ f ∈ rawFrames (rawFilm C o r2 (Spec.seeks (fetching nss))), Spec.Valid K f := by
    intro f hf m data px hb hy
    obtain ⟨j, hj⟩ := List.getElem?_of_mem hf
    have hjl := (List.getElem?_eq_some_iff.mp hj).1
    obtain ⟨n, ⟨m', data', px', hb', _, hy'⟩, _⟩ := hend j f hj _ (List.getElem?_eq_getElem (by omega))
    rw [hb] at hb'
    cases hb'
    cases (K.det hy hy').2
  obtain ⟨outs', hex', hf⟩ := filmFrom_screening K o hs hce h2 (fetching nss) _ (Nat.le_refl _) hsane (.inl hval)
  have heq : outs' = outs := by
    have : ∀ (fs : List Frame) (a b : List Pixels), ExpandAll K fs a → ExpandAll K fs b → a = b := by
      intro fs
      induction fs with
      | nil => intro a b ha hb; cases a with
        | nil => cases b with
          | nil => rfl
          | cons _ _ => exact hb.elim
        | cons _ _ => exact ha.elim
      | cons f fs ih => intro a b ha hb; cases a with
        | nil => exact ha.elim
        | cons x a => cases b with
          | nil => exact hb.elim
          | cons y b =>
            obtain ⟨⟨⟨m, data, hx, hy⟩, _⟩, ha⟩ := ha
            obtain ⟨⟨⟨m', data', hx', hy'⟩, _⟩, hb⟩ := hb
            rw [hx] at hx'
            cases hx'
            obtain ⟨d1, d2⟩ := K.det hy hy'
            rw [ih a b ha hb, Prod.ext d1 d2]
    exact this _ _ _ hex' hex
  subst heq
  rw [follows_nil (hf h2 (by simp))]
  have key := (filmFrom_ended K o hs h1 h2 hb (fetching nss) True hsane (.inl hval) hex fun _ => ⟨hended, hdr⟩).follows
  rcases key with h | ⟨h, _⟩
  · exact follows_nil h
  · exact absurd trivial h.2

/-! ### Cases -/

set_option maxRecDepth 100000 in
/-- The assumptions of `end_codes_accepted_partial` are met by the animation, in two pieces and byte by byte. -/
example : filmFrom Ref.lzw { DecodeOptions.new with checkForEndCode := true } animationBytewise (fetching [[0, 0, 0], [2], []]) =
    filmFrom Ref.lzw .new animation (fetching [[0, 0, 0], [2], []]) := by
  refine end_codes_accepted_partial Ref.lzwContract .new rfl rfl animationBytewise_reliable animation_reliable (by decide)
    [[0, 0, 0], [2], []] animation_sane.1 ?_
  have e : (rawFrames (rawFilm Ref.lzw .new animation 3)).map (·.buffer) = [[2, 0x4C, 0x0A], [2, 0x4C, 0x0A]] := by decide +kernel
  intro j f hf ns hn
  have hb : ((rawFrames (rawFilm Ref.lzw .new animation 3)).map (·.buffer))[j]? = some f.buffer := by
    rw [List.getElem?_map]; exact congrArg (Option.map (·.buffer)) hf
  rw [e] at hb
  match j with
  | 0 => cases hn; exact ⟨2, ⟨2, [0x4C, 0x0A], [1, 1], by simpa using hb.symm, rfl, by decide +kernel, by decide +kernel⟩, by decide⟩
  | 1 => cases hn; exact ⟨2, ⟨2, [0x4C, 0x0A], [1, 1], by simpa using hb.symm, rfl, by decide +kernel, by decide +kernel⟩, by decide⟩
  | j + 2 => simp at hb

set_option maxRecDepth 100000 in
/-- The assumptions of `missing_end_code_found_partial` are met by a file of one frame without an end code: `fill_buffer` and
`next_frame_info` fail. Without the option they do not. -/
example :
    let r := single 1 1 0 [1, 0x0C, 0, 0x3B] []
    let check := { DecodeOptions.new with checkForEndCode := true }
    (Sane Ref.lzwContract .new r 2 ∧ ∀ f ∈ rawFrames (rawFilm Ref.lzw .new r 2), Spec.Valid Ref.lzwContract f) ∧
    (∃ f, (rawFrames (rawFilm Ref.lzw .new r 2))[0]? = some f ∧ NoEndCode Ref.lzwContract f) ∧
    (filmFrom Ref.lzw check r [.info, .fill 0, .fill 0, .info]).drop 2 =
      [.filled [1] true, .seen (.failed (.io .noEndCode))] ∧
    (filmFrom Ref.lzw check r [.read, .info]).drop 2 = [.seen (.failed (.io .noEndCode))] ∧
    Spec.sought (filmFrom Ref.lzw .new r [.info, .fill 0, .fill 0, .info]) = 2 := by
  refine ⟨Ref.tame_sane (by decide +kernel) (by decide +kernel) (by decide +kernel),
    ⟨frameAt (rawFilm Ref.lzw .new (single 1 1 0 [1, 0x0C, 0, 0x3B] []) 2) 1, by decide +kernel, ?_⟩, by decide +kernel, by decide +kernel,
    by decide +kernel⟩
  intro m data px hb hy
  have e : (frameAt (rawFilm Ref.lzw .new (single 1 1 0 [1, 0x0C, 0, 0x3B] []) 2) 1).buffer = [2, 0x0C] := by decide +kernel
  rw [e] at hb
  cases hb
  have hy' : Ref.lzwContract.Yields (Ref.lzw.new 2) [0x0C] [1] .starved := ⟨by decide +kernel, by decide +kernel⟩
  cases (Ref.lzwContract.det hy hy').2

end Decoder

end Gif
