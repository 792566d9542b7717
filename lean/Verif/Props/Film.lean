import Verif.Lemmas.FreeFilm
import Verif.Ref.Lawful
/-!
C03, C08, C19, C44, C49: decoding of pixels.
-/

namespace Gif

open Spec (Pixels rawFrames Sane Regular Valid ExpandAll Expands watch)

namespace Decoder

variable {C : Codec}

theorem copyLoop_prefix : ∀ (n : Nat) (rd : RD C) (vec : List UInt8), vec <+: (copyLoop n rd vec).2.1 := by
  intro n
  induction n with
  | zero => intro rd vec; exact List.prefix_refl _
  | succ n ih =>
    intro rd vec
    rw [copyLoop]
    split
    · exact (List.prefix_append _ _).trans (ih _ _)
    all_goals exact List.prefix_refl _

/-- A raw frame starts with the code size. -/
theorem raw_buffer (hS : C.Safe) : ∀ (k : Nat) (d : Decoder C), d.Inv → d.rd.sd.skipFrameDecoding = true →
    ∀ f ∈ rawFrames (session (List.replicate k .read) d), f.buffer ≠ [] := by
  intro k
  induction k with
  | zero => intro d _ _ f hf; cases hf
  | succ k ih =>
    intro d hi hk f hf
    rw [List.replicate_succ, session] at hf
    simp only [see] at hf
    have hinv := (readNextFrame_spec hS d hi).1
    have hopt := readNextFrame_opts hS d hi
    simp only [SD.opts, Prod.mk.injEq] at hopt
    have hty := skip_dataType hS hi hk
    have hspec := frameRun_spec hS (nextFrameInfo_run hS d hi.rd) hi.rd
    have h1 := fun m => readNextFrame_raw (m := m) (d := d) (d' := d.nextFrameInfo.1)
    obtain ⟨h2, h3⟩ := readNextFrame_other (d := d) (d' := d.nextFrameInfo.1) (out := d.nextFrameInfo.2) rfl
    have hi' := (inv_nextFrameInfo hS d hi).1
    generalize d.nextFrameInfo = x at *
    obtain ⟨d', out⟩ := x
    simp only at *
    cases out with
    | ok b =>
      cases b with
      | false =>
        rw [h2 rfl] at hf hinv hopt
        exact ih d' hinv (hopt.1.trans hk) f hf
      | true =>
        obtain ⟨m, hm⟩ := hty rfl
        replace h1 := h1 m rfl hm (hspec.2.2.2.2.2.2.1 rfl).2.1
        have hc := copyLoop_prefix d'.rd.eventFuel d'.rd [m]
        have hcl : copyLzw m d'.rd = copyLoop d'.rd.eventFuel d'.rd [m] := rfl
        rw [hcl] at h1
        generalize copyLoop d'.rd.eventFuel d'.rd [m] = y at *
        obtain ⟨rd, vec, o⟩ := y
        rw [h1] at hf hinv hopt
        cases o with
        | ok u =>
          simp only [rawFrames, List.mem_cons] at hf hinv hopt
          rcases hf with rfl | hf
          · intro h
            simp only at h hc
            rw [h] at hc
            exact absurd hc.length_le (by simp)
          · exact ih _ hinv (hopt.1.trans hk) f hf
        | err e => cases hf
        | panic => cases hf
        | diverge => cases hf
    | err e => rw [h3 e rfl] at hf; cases hf
    | panic => cases hspec.2.1
    | diverge => cases hspec.2.1

theorem rawFilm_buffer (hS : C.Safe) (o : DecodeOptions) (r : Reader) (k : Nat) :
    ∀ f ∈ rawFrames (rawFilm C o r k), f.buffer ≠ [] := by
  unfold rawFilm sessionFrom
  have hi := inv_readInfo hS { o with skipFrameDecoding := true } r
  have ho := readInfo_skip hS { o with skipFrameDecoding := true } r
  generalize readInfo C { o with skipFrameDecoding := true } r = x at *
  obtain ⟨d, out⟩ := x
  cases out with
  | ok u => exact raw_buffer hS k d hi.1 ho
  | err e => intro f hf; cases hf
  | panic => intro f hf; cases hf
  | diverge => intro f hf; cases hf

end Decoder

namespace Spec

variable {C : Codec} (K : C.Contract)

/-- The data of regular frames expand to something. -/
theorem expand_all : ∀ (fs : List Frame), (∀ f ∈ fs, f.buffer ≠ []) → (∀ f ∈ fs, Regular K f) → ∃ outs, ExpandAll K fs outs
  | [], _, _ => ⟨[], trivial⟩
  | f :: fs, hb, hr => by
    obtain ⟨outs, h⟩ := expand_all fs (fun g hg => hb g (List.mem_cons_of_mem _ hg))
      (fun g hg => hr g (List.mem_cons_of_mem _ hg))
    have hb0 := hb f (List.mem_cons_self ..)
    obtain ⟨h0, h1⟩ := hr f (List.mem_cons_self ..)
    obtain ⟨m, data, he⟩ := List.exists_cons_of_ne_nil hb0
    obtain ⟨px, e, hy⟩ := K.total m data
    refine ⟨(px, e) :: outs, ⟨⟨m, data, he, hy⟩, h0, ?_⟩, h⟩
    intro hinv
    simp only at hinv
    subst hinv
    exact h1 m data px he hy

theorem expand_all_valid : ∀ (fs : List Frame) (outs : List Pixels), ExpandAll K fs outs → (∀ f ∈ fs, Valid K f) →
    ∀ px ∈ outs, px.2 ≠ .invalid
  | [], [], _, _ => by intro px h; cases h
  | [], _ :: _, h, _ => h.elim
  | _ :: _, [], h, _ => h.elim
  | f :: fs, px :: outs, h, hv => by
    intro p hp
    rcases List.mem_cons.mp hp with rfl | hp
    · obtain ⟨⟨⟨m, data, he, hy⟩, _⟩, _⟩ := h
      intro hinv
      rw [hinv] at hy
      exact hv f (List.mem_cons_self ..) m data _ he hy
    · exact expand_all_valid fs outs h.2 (fun g hg => hv g (List.mem_cons_of_mem _ hg)) p hp

/-- Calls that do not fetch image data piecemeal, or frames without invalid codes. -/
def Gentle (acts : List Act) (fs : List Frame) : Prop :=
  (∀ f ∈ fs, Valid K f) ∨ ∀ a ∈ acts, a = .info ∨ a = .read

end Spec

namespace Decoder

variable {C : Codec}

/-- What a session gives of a sane file. -/
def screening (o : DecodeOptions) (acts : List Act) (raw : List Seen) (outs : List Pixels) : List Got :=
  match raw with
  | .opened v :: raw => .seen (.opened v) :: Spec.watch o.colorOutput o.memoryLimit acts v none raw outs
  | x => x.map .seen

theorem filmFrom_screening (K : C.Contract) (o : DecodeOptions) (hs : o.skipFrameDecoding = false)
    (hce : o.checkForEndCode = false) {r0 : Reader} (h0 : r0.Reliable) (acts : List Act) (k : Nat)
    (hk : Spec.seeks acts ≤ k) (hsane : Sane K o r0 k) (hok : Spec.Gentle K acts (rawFrames (rawFilm C o r0 k))) :
    ∃ outs, ExpandAll K (rawFrames (rawFilm C o r0 k)) outs ∧
      ∀ {more : List UInt8} {r : Reader}, r.Reliable → r0.bytes = r.bytes ++ more →
        Spec.Follows more (filmFrom C o r acts) (screening o acts (rawFilm C o r0 k) outs) := by
  obtain ⟨outs, hex⟩ := Spec.expand_all K _ (rawFilm_buffer K.safe o r0 k) hsane.regular
  refine ⟨outs, hex, fun {more r} h hb => ?_⟩
  refine filmFrom_watch K o hs hce h h0 hb acts k hk outs ?_ hex ?_
  · intro e he
    exact ⟨fun h => hsane.whole (h ▸ he), fun h => hsane.small (h ▸ he)⟩
  · exact hok.imp (Spec.expand_all_valid K _ _ hex) id

theorem rawFrames_take : ∀ (k : Nat) (l : List Seen) (e : DecodingError) (f : Frame),
    f ∈ rawFrames (l.take k ++ [.failed e]) → f ∈ rawFrames l
  | 0, _, _, _, h => by simp [rawFrames] at h
  | _ + 1, [], _, _, h => by simp [rawFrames] at h
  | k + 1, x :: l, e, f, h => by
    have ih := rawFrames_take k l e f
    match x, h with
    | .frame (some g) _, h =>
      simp only [List.take_succ_cons, List.cons_append, rawFrames, List.mem_cons] at h ⊢
      exact h.imp id ih
    | .frame none _, h => exact ih h
    | .opened _, h => exact ih h
    | .info _ _, h => exact ih h
    | .failed _, h => exact ih h
    | .crashed, h => exact ih h

/-- What is known of the raw frames of a sane file, if a memory limit holds for everything but the data. -/
theorem ghost_sane (K : C.Contract) (o : DecodeOptions) {r : Reader} (h : r.Reliable) {k : Nat}
    (hsane : Sane K { o with memoryLimit := .unlimited } r k) :
    (∀ e, .failed e ∈ ghostFilm (C := C) freeRead o r k → e ≠ .io .unexpectedEof) ∧
    (∀ f ∈ rawFrames (ghostFilm (C := C) freeRead o r k), f ∈ rawFrames (rawFilm C { o with memoryLimit := .unlimited } r k)) ∧
    ∃ outs, ExpandAll K (rawFrames (ghostFilm (C := C) freeRead o r k)) outs := by
  have h1 : (∀ e, .failed e ∈ ghostFilm (C := C) freeRead o r k → e ≠ .io .unexpectedEof) ∧
      ∀ f ∈ rawFrames (ghostFilm (C := C) freeRead o r k), f ∈ rawFrames (rawFilm C { o with memoryLimit := .unlimited } r k) := by
    rcases ghostFilm_cut K.safe o h k with hc | ⟨j, e', he', hc⟩
    · rw [hc]
      exact ⟨fun e he hx => hsane.whole (hx ▸ he), fun _ hf => hf⟩
    · rw [hc]
      refine ⟨fun e he hx => ?_, fun f hf => rawFrames_take _ _ _ _ hf⟩
      subst hx
      rcases List.mem_append.mp he with he | he
      · exact hsane.whole (List.mem_of_mem_take he)
      · simp only [List.mem_singleton, Seen.failed.injEq] at he
        subst he
        rcases he' with he' | he' <;> cases he'
  exact ⟨h1.1, h1.2, Spec.expand_all K _ (fun f hf => rawFilm_buffer K.safe _ r k f (h1.2 f hf))
    fun f hf => hsane.regular f (h1.2 f hf)⟩

theorem gentle_sub {K : C.Contract} {acts : List Act} {fs gs : List Frame} (h : ∀ f ∈ gs, f ∈ fs) (hg : Spec.Gentle K acts fs) :
    Spec.Gentle K acts gs := hg.imp (fun hv f hf => hv f (h f hf)) id

/-- `filmFrom_screening` for data of any length. -/
theorem filmFrom_screened (K : C.Contract) (o : DecodeOptions) (hs : o.skipFrameDecoding = false)
    (hce : o.checkForEndCode = false) {r0 : Reader} (h0 : r0.Reliable) (acts : List Act) (k : Nat)
    (hk : Spec.seeks acts ≤ k) (hsane : Sane K { o with memoryLimit := .unlimited } r0 k)
    (hok : Spec.Gentle K acts (rawFrames (rawFilm C { o with memoryLimit := .unlimited } r0 k))) :
    ∃ outs, ExpandAll K (rawFrames (ghostFilm (C := C) freeRead o r0 k)) outs ∧
      ∀ {more : List UInt8} {r : Reader}, r.Reliable → r0.bytes = r.bytes ++ more →
        Spec.Follows more (filmFrom C o r acts) (screening o acts (ghostFilm (C := C) freeRead o r0 k) outs) := by
  obtain ⟨hbad, hsub, outs, hex⟩ := ghost_sane K o h0 hsane
  refine ⟨outs, hex, fun {more r} h hb => ?_⟩
  refine filmFrom_free K o hs hce h h0 hb acts k hk outs hbad hex ?_
  exact (gentle_sub hsub hok).imp (Spec.expand_all_valid K _ _ hex) id

theorem follows_nil {a b : List Got} (h : Spec.Follows [] a b) : a = b := by
  rcases h with h | ⟨h, _⟩
  · exact h
  · exact absurd rfl h

/-- C03 with pixels: what `next_frame_info`, `read_next_frame`, `fill_buffer` and `read_into_buffer` give in any order does not
depend on how the bytes are cut into pieces. -/
theorem pixels_chunk_invariant_partial (K : C.Contract) (o : DecodeOptions) (hs : o.skipFrameDecoding = false)
    (hce : o.checkForEndCode = false) {r1 r2 : Reader} (h1 : r1.Reliable) (h2 : r2.Reliable) (hb : r1.bytes = r2.bytes)
    (acts : List Act) (hsane : Sane K { o with memoryLimit := .unlimited } r1 (Spec.seeks acts))
    (hok : Spec.Gentle K acts (rawFrames (rawFilm C { o with memoryLimit := .unlimited } r1 (Spec.seeks acts)))) :
    filmFrom C o r1 acts = filmFrom C o r2 acts := by
  obtain ⟨outs, _, h⟩ := filmFrom_screened K o hs hce h1 acts _ (Nat.le_refl _) hsane hok
  rw [follows_nil (h h1 (by simp)), follows_nil (h h2 (by rw [hb]; simp))]

/-- C08 with pixels: a decoder of a truncated file gives the same as a decoder of the whole file, up to an `UnexpectedEof`. -/
theorem pixels_prefix_partial (K : C.Contract) (o : DecodeOptions) (hs : o.skipFrameDecoding = false)
    (hce : o.checkForEndCode = false) {r r0 : Reader} (h : r.Reliable) (h0 : r0.Reliable) (hb : r.bytes <+: r0.bytes)
    (acts : List Act) (hsane : Sane K { o with memoryLimit := .unlimited } r0 (Spec.seeks acts))
    (hok : Spec.Gentle K acts (rawFrames (rawFilm C { o with memoryLimit := .unlimited } r0 (Spec.seeks acts)))) :
    filmFrom C o r acts = filmFrom C o r0 acts ∨
    ∃ n, n < (filmFrom C o r0 acts).length ∧
      filmFrom C o r acts = (filmFrom C o r0 acts).take n ++ [.seen (.failed (.io .unexpectedEof))] := by
  obtain ⟨outs, _, hf⟩ := filmFrom_screened K o hs hce h0 acts _ (Nat.le_refl _) hsane hok
  obtain ⟨more, hm⟩ := hb
  rw [follows_nil (hf h0 (by simp))]
  exact (hf h hm.symm).imp id (fun ⟨_, h⟩ => h)

end Decoder

namespace Spec

variable {C : Codec} (K : C.Contract)

/-- What was seen of the first calls does not depend on those that follow. -/
theorem watch_split (c : ColorOutput) (lim : MemoryLimit) : ∀ (as : List Act) (v : View) (live : Option (List UInt8))
    (raw : List Seen) (outs : List Pixels), ExpandAll K (rawFrames raw) outs →
    (∀ bs, watch c lim (as ++ bs) v live raw outs = watch c lim as v live raw outs) ∨
    ∃ v' live' outs', ExpandAll K (rawFrames (raw.drop (seeks as))) outs' ∧ ∀ bs,
      watch c lim (as ++ bs) v live raw outs = watch c lim as v live raw outs ++ watch c lim bs v' live' (raw.drop (seeks as)) outs' := by
  intro as
  induction as with
  | nil => intro v live raw outs h; exact .inr ⟨v, live, outs, h, fun bs => by simp [watch, seeks]⟩
  | cons a as ih =>
    intro v live raw outs h
    have step : ∀ (x : List Got) (v1 live1 raw1 outs1) (hr : raw1.drop (seeks as) = raw.drop (seeks (a :: as))),
        (∀ cs, watch c lim (a :: cs) v live raw outs = x ++ watch c lim cs v1 live1 raw1 outs1) →
        ExpandAll K (rawFrames raw1) outs1 →
        (∀ bs, watch c lim ((a :: as) ++ bs) v live raw outs = watch c lim (a :: as) v live raw outs) ∨
        ∃ v' live' outs', ExpandAll K (rawFrames (raw.drop (seeks (a :: as)))) outs' ∧ ∀ bs,
          watch c lim ((a :: as) ++ bs) v live raw outs =
            watch c lim (a :: as) v live raw outs ++ watch c lim bs v' live' (raw.drop (seeks (a :: as))) outs' := by
      intro x v1 live1 raw1 outs1 hr hx h1
      rcases ih v1 live1 raw1 outs1 h1 with h2 | ⟨v', live', outs', h2, h3⟩
      · left
        intro bs
        rw [List.cons_append, hx, hx, h2]
      · right
        rw [← hr]
        exact ⟨v', live', outs', h2, fun bs => by rw [List.cons_append, hx, hx, h3, List.append_assoc]⟩
    have stop : ∀ (x : List Got), (∀ cs, watch c lim (a :: cs) v live raw outs = x) →
        (∀ bs, watch c lim ((a :: as) ++ bs) v live raw outs = watch c lim (a :: as) v live raw outs) ∨
        ∃ v' live' outs', ExpandAll K (rawFrames (raw.drop (seeks (a :: as)))) outs' ∧ ∀ bs,
          watch c lim ((a :: as) ++ bs) v live raw outs =
            watch c lim (a :: as) v live raw outs ++ watch c lim bs v' live' (raw.drop (seeks (a :: as))) outs' :=
      fun x hx => .inl fun bs => by rw [List.cons_append, hx, hx]
    cases a with
    | info =>
      match raw, outs, h with
      | .frame (some f) v0 :: raw, px :: outs, h =>
        exact step [_] _ _ raw outs rfl (fun cs => rfl) h.2
      | .frame (some f) v0 :: raw, [], h => exact h.elim
      | .frame none v0 :: raw, outs, h => exact step [_] _ _ raw outs rfl (fun cs => by simp only [watch]; rfl) h
      | .failed e :: raw, outs, h => exact stop [.seen (.failed e)] (fun cs => by simp only [watch])
      | [], outs, h => exact stop [] (fun cs => by simp only [watch])
      | .crashed :: raw, outs, h => exact stop [] (fun cs => by simp only [watch])
      | .opened _ :: raw, outs, h => exact stop [] (fun cs => by simp only [watch])
      | .info _ _ :: raw, outs, h => exact stop [] (fun cs => by simp only [watch])
    | read =>
      match raw, outs, h with
      | .frame (some f) v0 :: raw, px :: outs, h =>
        cases hd : deliver c lim v0.globalPalette f px with
        | ok g => exact step [_] _ _ raw outs rfl (fun cs => by simp only [watch, hd]; rfl) h.2
        | error e => exact stop [.seen (.failed e)] (fun cs => by simp only [watch, hd])
      | .frame (some f) v0 :: raw, [], h => exact h.elim
      | .frame none v0 :: raw, outs, h => exact step [_] _ _ raw outs rfl (fun cs => by simp only [watch]; rfl) h
      | .failed e :: raw, outs, h => exact stop [.seen (.failed e)] (fun cs => by simp only [watch])
      | [], outs, h => exact stop [] (fun cs => by simp only [watch])
      | .crashed :: raw, outs, h => exact stop [] (fun cs => by simp only [watch])
      | .opened _ :: raw, outs, h => exact stop [] (fun cs => by simp only [watch])
      | .info _ _ :: raw, outs, h => exact stop [] (fun cs => by simp only [watch])
    | fill n =>
      cases live with
      | none => exact step [] v none raw outs rfl (fun cs => by simp only [watch]; rfl) h
      | some px =>
        by_cases hl : n + 1 ≤ px.length
        · exact step [_] v _ raw outs rfl (fun cs => by simp only [watch]; rw [if_pos hl]; rfl) h
        · exact step [_] v _ raw outs rfl (fun cs => by simp only [watch]; rw [if_neg hl]; rfl) h
    | into =>
      cases live with
      | none => exact step [] v none raw outs rfl (fun cs => by simp only [watch]; rfl) h
      | some px =>
        by_cases hl : v.currentFrame.width.toNat * v.currentFrame.height.toNat ≤ px.length
        · exact step [_] v _ raw outs rfl (fun cs => by simp only [watch]; rw [if_pos hl]; rfl) h
        · exact stop [.seen (.failed (.format .imageTruncated))] (fun cs => by simp only [watch]; rw [if_neg hl])

/-- Calls of `fill_buffer` pour out the pixels. -/
theorem watch_fill (c : ColorOutput) (lim : MemoryLimit) (v : View) (raw : List Seen) (outs : List Pixels) :
    ∀ (ns : List Nat) (px : List UInt8), watch c lim (ns.map .fill) v (some px) raw outs =
      pour c (paletteOf v.globalPalette v.currentFrame) v.currentFrame.transparent ns px := by
  have hn : ∀ ns : List Nat, watch c lim (ns.map .fill) v none raw outs = [] := by
    intro ns
    induction ns with
    | nil => rfl
    | cons n ns ih => simpa only [List.map_cons, watch] using ih
  intro ns
  induction ns with
  | nil => intro px; rfl
  | cons n ns ih =>
    intro px
    simp only [List.map_cons, watch, pour]
    rw [ih, hn]

theorem colours_append (c : ColorOutput) (p : List UInt8) (t : Option UInt8) (i j : List UInt8) :
    colours c p t (i ++ j) = colours c p t i ++ colours c p t j := by
  cases c with
  | indexed => rfl
  | rgba =>
    simp only [colours]
    rw [← Converter.expandPixels_eq _ _ _ _ (by simp), ← Converter.expandPixels_eq _ _ _ _ (by simp), ← Converter.expandPixels_eq _ _ _ _ (by simp),
      ← Converter.expandPixels_append _ _ _ _ _ _ (by simp), List.replicate_append_replicate, List.length_append, Nat.mul_add]

theorem colours_length (c : ColorOutput) (p : List UInt8) (t : Option UInt8) (i : List UInt8) :
    (colours c p t i).length = i.length * channels c := by
  cases c with
  | indexed => simp [colours, channels]
  | rgba =>
    simp only [colours, channels]
    rw [← Converter.expandPixels_eq _ _ _ _ (by simp), Converter.expandPixels_length, List.length_replicate, Nat.mul_comm]

/-- As long as there are enough pixels, the buffers are pieces of the image. -/
theorem pour_pieces (c : ColorOutput) (p : List UInt8) (t : Option UInt8) : ∀ (ns : List Nat) (px rest : List UInt8),
    (ns.map (· + 1)).sum ≤ px.length →
    pour c p t ns (px ++ rest) = (pieces (colours c p t px) (ns.map fun n => (n + 1) * channels c)).map (.filled · true) := by
  intro ns
  induction ns with
  | nil => intro px rest _; rfl
  | cons n ns ih =>
    intro px rest h
    simp only [List.map_cons, List.sum_cons] at h
    rw [pour, if_pos (by simp only [List.length_append]; omega), List.map_cons, pieces, List.map_cons,
      List.take_append_of_le_length (by omega), List.drop_append_of_le_length (by omega), ih _ _ (by simp; omega)]
    have e : colours c p t px = colours c p t (px.take (n + 1)) ++ colours c p t (px.drop (n + 1)) := by
      rw [← colours_append, List.take_append_drop]
    have hl : (colours c p t (px.take (n + 1))).length = (n + 1) * channels c := by
      rw [colours_length, List.length_take, Nat.min_eq_left (by omega)]
    have e1 : (colours c p t px).take ((n + 1) * channels c) = colours c p t (px.take (n + 1)) := by
      rw [e]; exact List.take_left' hl
    have e2 : (colours c p t px).drop ((n + 1) * channels c) = colours c p t (px.drop (n + 1)) := by
      rw [e]; exact List.drop_left' hl
    rw [e1, e2]

end Spec

namespace Decoder

variable {C : Codec}

theorem seeks_append (as bs : List Act) : Spec.seeks (as ++ bs) = Spec.seeks as + Spec.seeks bs := by
  induction as with
  | nil => simp [Spec.seeks]
  | cons a as ih => cases a <;> simp only [List.cons_append, Spec.seeks, ih] <;> omega

theorem seeks_fill (ns : List Nat) : Spec.seeks (ns.map .fill) = 0 := by
  induction ns with
  | nil => rfl
  | cons n ns ih => exact ih

/-- After some calls the session goes on with the raw frames that are left, or it is over. -/
theorem split_of (K : C.Contract) (o : DecodeOptions) {r1 : Reader} (h1 : r1.Reliable) (as : List Act) (k : Nat)
    (hk : Spec.seeks as ≤ k) {rf : List Seen} (hok : Spec.Gentle K as (rawFrames rf)) {outs : List Pixels}
    (hex : ExpandAll K (rawFrames rf) outs)
    (key : ∀ (r2 : Reader), r2.Reliable → r2.bytes = r1.bytes → ∀ bs, Spec.seeks as + Spec.seeks bs ≤ k →
      Spec.Gentle K (as ++ bs) (rawFrames rf) → filmFrom C o r2 (as ++ bs) = screening o (as ++ bs) rf outs) :
    (∀ r2 : Reader, r2.Reliable → r2.bytes = r1.bytes → ∀ bs, Spec.seeks as + Spec.seeks bs ≤ k →
      Spec.Gentle K (as ++ bs) (rawFrames rf) → filmFrom C o r2 (as ++ bs) = filmFrom C o r1 as) ∨
    ∃ v' live' outs', ExpandAll K (rawFrames (rf.drop (Spec.seeks as + 1))) outs' ∧
      ∀ r2 : Reader, r2.Reliable → r2.bytes = r1.bytes → ∀ bs, Spec.seeks as + Spec.seeks bs ≤ k →
      Spec.Gentle K (as ++ bs) (rawFrames rf) → filmFrom C o r2 (as ++ bs) =
        filmFrom C o r1 as ++ watch o.colorOutput o.memoryLimit bs v' live' (rf.drop (Spec.seeks as + 1)) outs' := by
  have k0 := key r1 h1 rfl [] (by simpa [Spec.seeks] using hk) (by rw [List.append_nil]; exact hok)
  rw [List.append_nil] at k0
  match rf, hex with
  | .opened v1 :: raw, hex =>
    simp only [screening] at key k0
    rcases Spec.watch_split K o.colorOutput o.memoryLimit as v1 none raw outs hex with h | ⟨v', live', outs', h2, h3⟩
    · left
      intro r2 hr hb bs hl hg
      rw [key r2 hr hb bs hl hg, h, k0]
    · right
      refine ⟨v', live', outs', h2, fun r2 hr hb bs hl hg => ?_⟩
      rw [key r2 hr hb bs hl hg, h3, k0]
      rfl
  | [], hex => exact .inl fun r2 hr hb bs hl hg => by rw [key r2 hr hb bs hl hg, k0]; rfl
  | .failed e :: raw', hex => exact .inl fun r2 hr hb bs hl hg => by rw [key r2 hr hb bs hl hg, k0]; rfl
  | .crashed :: raw', hex => exact .inl fun r2 hr hb bs hl hg => by rw [key r2 hr hb bs hl hg, k0]; rfl
  | .frame _ _ :: raw', hex => exact .inl fun r2 hr hb bs hl hg => by rw [key r2 hr hb bs hl hg, k0]; rfl
  | .info _ _ :: raw', hex => exact .inl fun r2 hr hb bs hl hg => by rw [key r2 hr hb bs hl hg, k0]; rfl

theorem film_split (K : C.Contract) (o : DecodeOptions) (hs : o.skipFrameDecoding = false)
    (hce : o.checkForEndCode = false) {r1 : Reader} (h1 : r1.Reliable) (as : List Act) (k : Nat) (hk : Spec.seeks as ≤ k)
    (hsane : Sane K o r1 k) (hok : Spec.Gentle K as (rawFrames (rawFilm C o r1 k))) :
    (∀ r2 : Reader, r2.Reliable → r2.bytes = r1.bytes → ∀ bs, Spec.seeks as + Spec.seeks bs ≤ k →
      Spec.Gentle K (as ++ bs) (rawFrames (rawFilm C o r1 k)) → filmFrom C o r2 (as ++ bs) = filmFrom C o r1 as) ∨
    ∃ v' live' outs', ExpandAll K (rawFrames ((rawFilm C o r1 k).drop (Spec.seeks as + 1))) outs' ∧
      ∀ r2 : Reader, r2.Reliable → r2.bytes = r1.bytes → ∀ bs, Spec.seeks as + Spec.seeks bs ≤ k →
      Spec.Gentle K (as ++ bs) (rawFrames (rawFilm C o r1 k)) → filmFrom C o r2 (as ++ bs) =
        filmFrom C o r1 as ++
          watch o.colorOutput o.memoryLimit bs v' live' ((rawFilm C o r1 k).drop (Spec.seeks as + 1)) outs' := by
  obtain ⟨outs, hex⟩ := Spec.expand_all K _ (rawFilm_buffer K.safe o r1 _) hsane.regular
  refine split_of K o h1 as k hk hok hex fun r2 h2 hb bs hbs hg => ?_
  refine follows_nil (filmFrom_watch K o hs hce h2 h1 (by rw [hb]; simp) (as ++ bs) _ (by rw [seeks_append]; omega) outs
    ?_ hex ?_)
  · intro e he
    exact ⟨fun h => hsane.whole (h ▸ he), fun h => hsane.small (h ▸ he)⟩
  · exact hg.imp (Spec.expand_all_valid K _ _ hex) id

/-- `film_split` for data of any length. -/
theorem free_split (K : C.Contract) (o : DecodeOptions) (hs : o.skipFrameDecoding = false)
    (hce : o.checkForEndCode = false) {r1 : Reader} (h1 : r1.Reliable) (as : List Act) (k : Nat) (hk : Spec.seeks as ≤ k)
    (hsane : Sane K { o with memoryLimit := .unlimited } r1 k) (hok : Spec.Gentle K as (rawFrames (ghostFilm (C := C) freeRead o r1 k))) :
    (∀ r2 : Reader, r2.Reliable → r2.bytes = r1.bytes → ∀ bs, Spec.seeks as + Spec.seeks bs ≤ k →
      Spec.Gentle K (as ++ bs) (rawFrames (ghostFilm (C := C) freeRead o r1 k)) → filmFrom C o r2 (as ++ bs) = filmFrom C o r1 as) ∨
    ∃ v' live' outs', ExpandAll K (rawFrames ((ghostFilm (C := C) freeRead o r1 k).drop (Spec.seeks as + 1))) outs' ∧
      ∀ r2 : Reader, r2.Reliable → r2.bytes = r1.bytes → ∀ bs, Spec.seeks as + Spec.seeks bs ≤ k →
      Spec.Gentle K (as ++ bs) (rawFrames (ghostFilm (C := C) freeRead o r1 k)) → filmFrom C o r2 (as ++ bs) =
        filmFrom C o r1 as ++
          watch o.colorOutput o.memoryLimit bs v' live' ((ghostFilm (C := C) freeRead o r1 k).drop (Spec.seeks as + 1)) outs' := by
  obtain ⟨hbad, _, outs, hex⟩ := ghost_sane K o h1 hsane
  refine split_of K o h1 as k hk hok hex fun r2 h2 hb bs hbs hg => ?_
  exact follows_nil (filmFrom_free K o hs hce h2 h1 (by rw [hb]; simp) (as ++ bs) _ (by rw [seeks_append]; omega) outs
    hbad hex (hg.imp (Spec.expand_all_valid K _ _ hex) id))

/-- C19, in general: there are palette indices `px` such that `read_into_buffer` gives the picture they describe, if they
suffice, and any calls of `fill_buffer` give the pixels one after the other, and `true` as long as the buffer is filled. -/
theorem fill_buffer_stream (K : C.Contract) (o : DecodeOptions) (hs : o.skipFrameDecoding = false)
    (hce : o.checkForEndCode = false) {r1 : Reader} (h1 : r1.Reliable)
    (as : List Act) (hsane : Sane K { o with memoryLimit := .unlimited } r1 (Spec.seeks as + 1))
    (hval : ∀ f ∈ rawFrames (rawFilm C { o with memoryLimit := .unlimited } r1 (Spec.seeks as + 1)), Valid K f) (v : View)
    (hv : filmFrom C o r1 (as ++ [.info]) = filmFrom C o r1 as ++ [.seen (.info true v)]) :
    ∃ px : List UInt8,
      (∀ r2 : Reader, r2.Reliable → r2.bytes = r1.bytes →
        filmFrom C o r2 (as ++ [.info, .into]) = filmFrom C o r1 as ++ [.seen (.info true v),
          if v.currentFrame.width.toNat * v.currentFrame.height.toNat ≤ px.length then
            .image (Spec.picture o.colorOutput v.globalPalette v.currentFrame px)
          else .seen (.failed (.format .imageTruncated))]) ∧
      ∀ r2 : Reader, r2.Reliable → r2.bytes = r1.bytes → ∀ ns : List Nat,
        filmFrom C o r2 (as ++ .info :: ns.map .fill) = filmFrom C o r1 as ++ .seen (.info true v) ::
          Spec.pour o.colorOutput (Spec.paletteOf v.globalPalette v.currentFrame) v.currentFrame.transparent ns px := by
  have hg : ∀ bs, Spec.Gentle K bs (rawFrames (ghostFilm (C := C) freeRead o r1 (Spec.seeks as + 1))) :=
    fun _ => .inl fun f hf => hval f ((ghost_sane K o h1 hsane).2.1 f hf)
  rcases free_split K o hs hce h1 as (Spec.seeks as + 1) (by omega) hsane (hg _) with h | ⟨v', live', outs', h2, h3⟩
  · have := congrArg List.length ((h r1 h1 rfl [.info] (by simp [Spec.seeks]) (hg _)).symm.trans hv)
    simp at this
  · have ki := (h3 r1 h1 rfl [.info] (by simp [Spec.seeks]) (hg _)).symm.trans hv
    replace ki := List.append_cancel_left ki
    generalize (ghostFilm (C := C) freeRead o r1 (Spec.seeks as + 1)).drop (Spec.seeks as + 1) = raw' at *
    match raw', outs', h2 with
    | .frame (some f) v0 :: raw', px :: outs', h2 =>
      simp only [Spec.watch, List.cons.injEq, Got.seen.injEq, Seen.info.injEq, and_true, true_and] at ki
      subst ki
      refine ⟨px.1, ?_, ?_⟩
      · intro r2 hr hb
        rw [h3 r2 hr hb _ (by simp [Spec.seeks]) (hg _)]
        simp only [Spec.watch]
        split <;> rfl
      · intro r2 hr hb ns
        rw [h3 r2 hr hb _ (by simp [Spec.seeks, seeks_fill]) (hg _)]
        simp only [Spec.watch]
        rw [Spec.watch_fill]
    | .frame (some f) v0 :: raw', [], h2 => exact h2.elim
    | .frame none v0 :: raw', outs', h2 => simp [Spec.watch] at ki
    | .failed e :: raw', outs', h2 => simp [Spec.watch] at ki
    | [], outs', h2 => simp [Spec.watch] at ki
    | .crashed :: raw', outs', h2 => simp [Spec.watch] at ki
    | .opened _ :: raw', outs', h2 => simp [Spec.watch] at ki
    | .info _ _ :: raw', outs', h2 => simp [Spec.watch] at ki

/-- C19: calls of `fill_buffer` give the consecutive pieces of what `read_into_buffer` gives. -/
theorem fill_buffer_pieces_partial (K : C.Contract) (o : DecodeOptions) (hs : o.skipFrameDecoding = false)
    (hce : o.checkForEndCode = false) {r1 r2 : Reader} (h1 : r1.Reliable) (h2 : r2.Reliable) (hb : r2.bytes = r1.bytes)
    (as : List Act) (hsane : Sane K { o with memoryLimit := .unlimited } r1 (Spec.seeks as + 1))
    (hval : ∀ f ∈ rawFrames (rawFilm C { o with memoryLimit := .unlimited } r1 (Spec.seeks as + 1)), Valid K f) (v : View) (image : List UInt8)
    (hv : filmFrom C o r1 (as ++ [.info]) = filmFrom C o r1 as ++ [.seen (.info true v)])
    (hi : filmFrom C o r1 (as ++ [.info, .into]) = filmFrom C o r1 as ++ [.seen (.info true v), .image image])
    (hni : v.currentFrame.interlaced = false) (ns : List Nat)
    (hns : (ns.map (· + 1)).sum ≤ v.currentFrame.width.toNat * v.currentFrame.height.toNat) :
    filmFrom C o r2 (as ++ .info :: ns.map .fill) = filmFrom C o r1 as ++ .seen (.info true v) ::
      (Spec.pieces image (ns.map fun n => (n + 1) * Spec.channels o.colorOutput)).map (.filled · true) := by
  obtain ⟨px, ha, hf⟩ := fill_buffer_stream K o hs hce h1 as hsane hval v hv
  rw [ha r1 h1 rfl] at hi
  replace hi := List.append_cancel_left hi
  rw [hf r2 h2 hb]
  by_cases hl : v.currentFrame.width.toNat * v.currentFrame.height.toNat ≤ px.length
  · rw [if_pos hl] at hi
    simp only [List.cons.injEq, true_and, and_true, Got.image.injEq] at hi
    subst hi
    rw [← List.take_append_drop (v.currentFrame.width.toNat * v.currentFrame.height.toNat) px, Spec.pour_pieces]
    · simp only [Spec.picture, Spec.pixelOrder, hni, List.take_append_drop]
      rfl
    · rw [List.length_take]; omega
  · rw [if_neg hl] at hi
    simp at hi

/-- C17, C18: what `read_next_frame` returns for a frame of a file, after any calls: the picture that the palette indices its
data expand to describe. -/
theorem read_frame_picture (K : C.Contract) (o : DecodeOptions) (hs : o.skipFrameDecoding = false)
    (hce : o.checkForEndCode = false) {r : Reader} (h : r.Reliable) (as : List Act)
    (hsane : Sane K o r (Spec.seeks as + 1))
    (hok : Spec.Gentle K as (rawFrames (rawFilm C o r (Spec.seeks as + 1))))
    (hgo : filmFrom C o r (as ++ [.read]) ≠ filmFrom C o r as) (f : Frame) (v : View)
    (hf : (rawFilm C o r (Spec.seeks as + 1))[Spec.seeks as + 1]? = some (.frame (some f) v)) :
    ∃ px, Expands K f px ∧ filmFrom C o r (as ++ [.read]) = filmFrom C o r as ++
      [match Spec.deliver o.colorOutput o.memoryLimit v.globalPalette f px with
        | .ok g => .seen (.frame (some g) { v with currentFrame := g })
        | .error e => .seen (.failed e)] := by
  have hok' : Spec.Gentle K (as ++ [.read]) (rawFrames (rawFilm C o r (Spec.seeks as + 1))) := by
    refine hok.imp id fun h a ha => ?_
    rcases List.mem_append.mp ha with ha | ha
    · exact h a ha
    · exact .inr (List.mem_singleton.mp ha)
  rcases film_split K o hs hce h as (Spec.seeks as + 1) (by omega) hsane hok with h' | ⟨v', live', outs', h2, h3⟩
  · exact absurd (h' r h rfl [.read] (by simp [Spec.seeks]) hok') hgo
  · have hr := h3 r h rfl [.read] (by simp [Spec.seeks]) hok'
    obtain ⟨hlt, hget⟩ := List.getElem?_eq_some_iff.mp hf
    rw [List.drop_eq_getElem_cons hlt, hget] at hr h2
    match outs', h2 with
    | px :: outs', h2 =>
      refine ⟨px, h2.1, hr.trans ?_⟩
      simp only [Spec.watch]
      cases Spec.deliver o.colorOutput o.memoryLimit v.globalPalette f px <;> rfl
    | [], h2 => exact h2.elim

/-- C44: the pixels of a frame depend on the frame and the global palette, not on what was done with the frames before. The
frames may be in different files, and other calls may have preceded. -/
theorem frame_independent_partial (K : C.Contract) (o : DecodeOptions) (hs : o.skipFrameDecoding = false)
    (hce : o.checkForEndCode = false) {r1 r2 : Reader} (h1 : r1.Reliable) (h2 : r2.Reliable) (as1 as2 : List Act)
    (hsane1 : Sane K o r1 (Spec.seeks as1 + 1)) (hsane2 : Sane K o r2 (Spec.seeks as2 + 1))
    (hok1 : Spec.Gentle K as1 (rawFrames (rawFilm C o r1 (Spec.seeks as1 + 1))))
    (hok2 : Spec.Gentle K as2 (rawFrames (rawFilm C o r2 (Spec.seeks as2 + 1))))
    (hgo1 : filmFrom C o r1 (as1 ++ [.read]) ≠ filmFrom C o r1 as1)
    (hgo2 : filmFrom C o r2 (as2 ++ [.read]) ≠ filmFrom C o r2 as2)
    (f1 f2 : Frame) (v1 v2 : View)
    (hf1 : (rawFilm C o r1 (Spec.seeks as1 + 1))[Spec.seeks as1 + 1]? = some (.frame (some f1) v1))
    (hf2 : (rawFilm C o r2 (Spec.seeks as2 + 1))[Spec.seeks as2 + 1]? = some (.frame (some f2) v2))
    (hsame : (f1.width, f1.height, f1.interlaced, f1.palette, f1.transparent, f1.buffer, v1.globalPalette) =
      (f2.width, f2.height, f2.interlaced, f2.palette, f2.transparent, f2.buffer, v2.globalPalette)) :
    (∃ e, filmFrom C o r1 (as1 ++ [.read]) = filmFrom C o r1 as1 ++ [.seen (.failed e)] ∧
      filmFrom C o r2 (as2 ++ [.read]) = filmFrom C o r2 as2 ++ [.seen (.failed e)]) ∨
    ∃ g1 g2 w1 w2, filmFrom C o r1 (as1 ++ [.read]) = filmFrom C o r1 as1 ++ [.seen (.frame (some g1) w1)] ∧
      filmFrom C o r2 (as2 ++ [.read]) = filmFrom C o r2 as2 ++ [.seen (.frame (some g2) w2)] ∧
      g1.buffer = g2.buffer ∧ g1.palette = g2.palette ∧ g1.transparent = g2.transparent ∧
      g1.width = g2.width ∧ g1.height = g2.height := by
  obtain ⟨px1, hx1, e1⟩ := read_frame_picture K o hs hce h1 as1 hsane1 hok1 hgo1 f1 v1 hf1
  obtain ⟨px2, hx2, e2⟩ := read_frame_picture K o hs hce h2 as2 hsane2 hok2 hgo2 f2 v2 hf2
  simp only [Prod.mk.injEq] at hsame
  obtain ⟨q1, q2, q3, q4, q5, q6, q7⟩ := hsame
  have hpx : px1 = px2 := by
    obtain ⟨⟨m1, data1, b1, y1⟩, _⟩ := hx1
    obtain ⟨⟨m2, data2, b2, y2⟩, _⟩ := hx2
    rw [b1, b2] at q6
    cases q6
    obtain ⟨p, q⟩ := K.det y1 y2
    exact Prod.ext p q
  subst hpx
  have hpic : Spec.picture o.colorOutput v1.globalPalette f1 px1.1 = Spec.picture o.colorOutput v2.globalPalette f2 px1.1 := by
    unfold Spec.picture Spec.paletteOf Spec.pixelOrder
    rw [q1, q2, q3, q4, q5, q7]
  rw [e1, e2]
  unfold Spec.deliver
  rw [q1, q2]
  cases o.memoryLimit.bufferSize o.colorOutput f2.width f2.height with
  | none => exact .inl ⟨_, rfl, rfl⟩
  | some n =>
    dsimp only
    by_cases hi : px1.2 = .invalid
    · rw [if_pos hi, if_pos hi]
      exact .inl ⟨_, rfl, rfl⟩
    · rw [if_neg hi, if_neg hi]
      by_cases hl : px1.1.length < f2.width.toNat * f2.height.toNat
      · rw [if_pos hl, if_pos hl]
        exact .inl ⟨_, rfl, rfl⟩
      · rw [if_neg hl, if_neg hl]
        exact .inr ⟨_, _, _, _, rfl, rfl, hpic, q4, q5, q1, q2⟩

end Decoder

namespace Spec

variable {C : Codec} (K : C.Contract)

theorem rowOf_take (w n : Nat) (px : List UInt8) (k : Nat) (h : (k + 1) * w ≤ n) : rowOf w (px.take n) k = rowOf w px k := by
  unfold rowOf
  rw [List.drop_take, List.take_take]
  congr 1
  rw [Nat.succ_mul] at h
  have : w * k = k * w := Nat.mul_comm ..
  omega

/-- Superfluous pixels do not matter. -/
theorem picture_take (c : ColorOutput) (g : Option (List UInt8)) (f : Frame) (px : List UInt8) :
    picture c g f (px.take (f.width.toNat * f.height.toNat)) = picture c g f px := by
  unfold picture
  congr 1
  unfold pixelOrder
  split
  · unfold deinterlace
    simp only [List.flatMap]
    congr 1
    apply List.map_congr_left
    intro r hr
    apply rowOf_take
    have hm : r ∈ interlaceOrder f.height.toNat := (interlaceOrder_perm _).mem_iff.mpr hr
    have := List.idxOf_lt_length_of_mem hm
    rw [interlaceOrder_length] at this
    rw [Nat.mul_comm f.width.toNat]
    exact Nat.mul_le_mul_right _ this
  · rw [List.take_take, Nat.min_self]

theorem rowOf_flatMap (w : Nat) : ∀ (rows : List (List UInt8)), (∀ x ∈ rows, x.length = w) → ∀ (k : Nat) (h : k < rows.length),
    rowOf w rows.flatten k = rows[k] := by
  intro rows
  induction rows with
  | nil => intro _ k h; simp at h
  | cons x rows ih =>
    intro hl k h
    have hx := hl x (List.mem_cons_self ..)
    unfold rowOf
    cases k with
    | zero => simp only [List.flatten_cons, Nat.zero_mul, List.drop_zero, List.getElem_cons_zero]; exact List.take_left' hx
    | succ k =>
      have e : (k + 1) * w = x.length + k * w := by rw [Nat.succ_mul, hx]; omega
      rw [List.flatten_cons, e, List.drop_append, List.drop_of_length_le (by omega), List.nil_append,
        Nat.add_sub_cancel_left, List.getElem_cons_succ]
      exact ih (fun y hy => hl y (List.mem_cons_of_mem _ hy)) k (by simpa using h)

/-- C17: in the picture of an interlaced frame the `k`-th line of pixels is the row with the `k`-th number in the interlace
order. -/
theorem picture_rows (g : Option (List UInt8)) (f : Frame) (px : List UInt8) (hi : f.interlaced = true)
    (hl : f.width.toNat * f.height.toNat ≤ px.length) (k : Nat) (hk : k < f.height.toNat) :
    rowOf f.width.toNat (picture .indexed g f px) ((interlaceOrder f.height.toNat).getD k 0) = rowOf f.width.toNat px k := by
  have hk' : k < (interlaceOrder f.height.toNat).length := by rw [interlaceOrder_length]; exact hk
  have hlt : (interlaceOrder f.height.toNat)[k] < f.height.toNat := interlaceOrder_lt (List.getElem_mem hk')
  have hrow : ∀ j, j < f.height.toNat → (rowOf f.width.toNat px j).length = f.width.toNat := by
    intro j hj
    have h3 : (j + 1) * f.width.toNat ≤ f.height.toNat * f.width.toNat := Nat.mul_le_mul_right _ hj
    rw [Nat.mul_comm f.height.toNat] at h3
    rw [Nat.succ_mul] at h3
    unfold rowOf
    rw [List.length_take, List.length_drop]
    omega
  have hidx : ∀ r, r < f.height.toNat → (interlaceOrder f.height.toNat).idxOf r < f.height.toNat := by
    intro r hr
    have hm : r ∈ interlaceOrder f.height.toNat := (interlaceOrder_perm _).mem_iff.mpr (List.mem_range.mpr hr)
    have := List.idxOf_lt_length_of_mem hm
    rwa [interlaceOrder_length] at this
  have hd : (interlaceOrder f.height.toNat).getD k 0 = (interlaceOrder f.height.toNat)[k] := by
    simp [List.getD, List.getElem?_eq_getElem hk']
  rw [hd]
  simp only [picture, colours, pixelOrder, hi, if_true, deinterlace, List.flatMap]
  rw [rowOf_flatMap _ _ _ _ (by simpa using hlt)]
  · rw [List.getElem_map, List.getElem_range, List.Nodup.idxOf_getElem (interlaceOrder_nodup _)]
  · intro x hx
    obtain ⟨r, hr, rfl⟩ := List.mem_map.mp hx
    exact hrow _ (hidx r (List.mem_range.mp hr))

/-- C18: the picture in RGBA is the palette lookup of the picture in palette indices, four zero bytes where the palette has no
such colour. -/
theorem picture_rgba (g : Option (List UInt8)) (f : Frame) (px : List UInt8) (k : Nat)
    (hk : k < (picture .indexed g f px).length) :
    (picture .rgba g f px).length = 4 * (picture .indexed g f px).length ∧
    ((picture .rgba g f px).drop (4 * k)).take 4 =
      let i := (picture .indexed g f px)[k]
      let palette := (f.palette.or g).getD []
      if 3 * i.toNat + 3 ≤ palette.length then
        [palette.getD (3 * i.toNat) 0, palette.getD (3 * i.toNat + 1) 0, palette.getD (3 * i.toNat + 2) 0,
          if f.transparent = some i then 0 else 255]
      else [0, 0, 0, 0] := by
  have hl : (picture .rgba g f px).length = 4 * (picture .indexed g f px).length := by
    simp only [picture]
    rw [colours_length, colours_length]
    simp only [channels]; omega
  refine ⟨hl, ?_⟩
  have e : picture .rgba g f px = ((List.range (picture .indexed g f px).length).map fun k =>
      rgbaPixel (paletteOf g f) f.transparent ((picture .indexed g f px).getD k 0)
        (((List.replicate (4 * (picture .indexed g f px).length) 0).drop (4 * k)).take 4)).flatten := rfl
  have h4 : ∀ j, j < (picture .indexed g f px).length →
      ((List.replicate (4 * (picture .indexed g f px).length) (0 : UInt8)).drop (4 * j)).take 4 = [0, 0, 0, 0] := by
    intro j hj
    rw [List.drop_replicate, List.take_replicate, Nat.min_eq_left (by omega)]
    rfl
  have hrow := rowOf_flatMap 4 ((List.range (picture .indexed g f px).length).map fun k =>
      rgbaPixel (paletteOf g f) f.transparent ((picture .indexed g f px).getD k 0)
        (((List.replicate (4 * (picture .indexed g f px).length) 0).drop (4 * k)).take 4)) (by
      intro x hx
      obtain ⟨r, hr, rfl⟩ := List.mem_map.mp hx
      rw [h4 r (List.mem_range.mp hr)]
      unfold rgbaPixel
      split <;> rfl) k (by simpa using hk)
  rw [← e] at hrow
  rw [Nat.mul_comm 4 k]
  refine Eq.trans hrow ?_
  have hd : (picture .indexed g f px).getD k 0 = (picture .indexed g f px)[k] := by
    simp [List.getD, List.getElem?_eq_getElem hk]
  rw [List.getElem_map, List.getElem_range, h4 k hk, hd]
  unfold rgbaPixel paletteOf
  simp only [Option.or_eq_orElse]
  rfl

theorem picture_bare (c : ColorOutput) (g : Option (List UInt8)) (f f' : Frame) (px px' : List UInt8) (h : bare f = bare f')
    (hpx : px.take (f.width.toNat * f.height.toNat) = px'.take (f.width.toNat * f.height.toNat)) :
    shown c g f px = shown c g f' px' := by
  simp only [bare, Frame.mk.injEq] at h
  obtain ⟨q1, q2, q3, q4, q5, q6, q7, q8, q9, q10, _, _⟩ := h
  have hp : picture c g f px = picture c g f' px' := by
    rw [← picture_take c g f px, hpx, ← picture_take c g f' px', q7, q8]
    unfold picture paletteOf pixelOrder
    rw [q3, q7, q8, q9, q10]
  unfold shown
  rw [hp]
  cases f; cases f'
  simp only at *
  simp only [q1, q2, q3, q4, q5, q6, q7, q8, q10]

theorem rest_eq {v w : View} (h : { v with currentFrame := Frame.default } = { w with currentFrame := Frame.default })
    (f : Frame) : { v with currentFrame := f } = { w with currentFrame := f } := by
  simp only [View.mk.injEq] at h ⊢
  exact ⟨h.1, h.2.1, h.2.2.1, h.2.2.2.1, h.2.2.2.2.1, trivial⟩

theorem sameSeen_cases {x y : Seen} (h : SameSeen K x y) :
    (∃ f v g w, x = .frame (some f) v ∧ y = .frame (some g) w ∧ SamePixels K f g ∧
      { v with currentFrame := Frame.default } = { w with currentFrame := Frame.default }) ∨
    (∃ v w, x = .frame none v ∧ y = .frame none w ∧
      { v with currentFrame := Frame.default } = { w with currentFrame := Frame.default }) ∨
    (x = y ∧ ∀ f v, x ≠ .frame f v) := by
  unfold SameSeen at h
  split at h
  · exact .inl ⟨_, _, _, _, rfl, rfl, h.1, h.2⟩
  · exact .inr (.inl ⟨_, _, rfl, rfl, h⟩)
  · rename_i n1 n2
    refine .inr (.inr ⟨h, fun f v hx => ?_⟩)
    subst h
    cases f with
    | none => exact n2 v v hx hx
    | some f => exact n1 f v f v hx hx

theorem watch_same (c : ColorOutput) (lim : MemoryLimit) : ∀ (as : List Act), (∀ a ∈ as, a = .info ∨ a = .read) →
    ∀ (v : View) (live live' : Option (List UInt8)) (raw raw' : List Seen) (outs outs' : List Pixels),
    SameFilm K raw raw' → ExpandAll K (rawFrames raw) outs → ExpandAll K (rawFrames raw') outs' →
    watch c lim as v live raw outs = watch c lim as v live' raw' outs' := by
  intro as
  induction as with
  | nil => intros; rfl
  | cons a as ih =>
    intro ha v live live' raw raw' outs outs' hsf h h'
    have ih' := ih (fun b hb => ha b (List.mem_cons_of_mem _ hb))
    cases raw with
    | nil =>
      cases raw' with
      | cons _ _ => exact hsf.elim
      | nil => rcases ha a (List.mem_cons_self ..) with rfl | rfl <;> simp only [watch]
    | cons x raw =>
      cases raw' with
      | nil => exact hsf.elim
      | cons y raw' =>
      obtain ⟨hxy, hsf⟩ := hsf
      rcases sameSeen_cases K hxy with ⟨f, w, f', w', rfl, rfl, hpx, hw⟩ | ⟨w, w', rfl, rfl, hw⟩ | ⟨rfl, hn⟩
      · cases outs with
        | nil => exact h.elim
        | cons px outs =>
          cases outs' with
          | nil => exact h'.elim
          | cons px' outs' =>
          obtain ⟨hb, m, m', data, data', p, p', e, e', b, b', y, y', i, i', l, l', ht⟩ := hpx
          obtain ⟨⟨⟨m1, data1, b1, y1⟩, _⟩, h⟩ := h
          obtain ⟨⟨⟨m2, data2, b2, y2⟩, _⟩, h'⟩ := h'
          rw [b] at b1
          cases b1
          rw [b'] at b2
          cases b2
          obtain ⟨p1, p2⟩ := K.det y1 y
          obtain ⟨p1', p2'⟩ := K.det y2 y'
          obtain ⟨px1, px2⟩ := px
          obtain ⟨px1', px2'⟩ := px'
          simp only at p1 p2 p1' p2'
          subst p1 p2 p1' p2'
          have hg : w.globalPalette = w'.globalPalette := by
            simp only [View.mk.injEq] at hw; exact hw.2.2.1
          have hw' : f.width = f'.width ∧ f.height = f'.height := by
            simp only [bare, Frame.mk.injEq] at hb; exact ⟨hb.2.2.2.2.2.2.1, hb.2.2.2.2.2.2.2.1⟩
          have hd : deliver c lim w.globalPalette f (px1, px2) = deliver c lim w'.globalPalette f' (px1', px2') := by
            unfold deliver
            simp only
            rw [if_neg i, if_neg i', if_neg (by omega), if_neg (by rw [← hw'.1, ← hw'.2]; omega), ← hw'.1, ← hw'.2, ← hg,
              picture_bare c w.globalPalette f f' px1 px1' hb ht]
          rcases ha a (List.mem_cons_self ..) with rfl | rfl
          · simp only [watch]
            rw [hb, rest_eq hw, ih' _ _ _ raw raw' outs outs' hsf h h']
          · simp only [watch]
            rw [hd]
            cases deliver c lim w'.globalPalette f' (px1', px2') with
            | ok g => simp only [rest_eq hw g]; rw [ih' _ none none raw raw' outs outs' hsf h h']
            | error e => rfl
      · rcases ha a (List.mem_cons_self ..) with rfl | rfl <;>
          (simp only [watch, rest_eq hw]; rw [ih' _ none none raw raw' outs outs' hsf h h'])
      · cases x with
        | frame f v => exact absurd rfl (hn f v)
        | failed e => rcases ha a (List.mem_cons_self ..) with rfl | rfl <;> simp only [watch]
        | crashed => rcases ha a (List.mem_cons_self ..) with rfl | rfl <;> simp only [watch]
        | opened v => rcases ha a (List.mem_cons_self ..) with rfl | rfl <;> simp only [watch]
        | info b v => rcases ha a (List.mem_cons_self ..) with rfl | rfl <;> simp only [watch]

end Spec

namespace Decoder

variable {C : Codec}

theorem rawFilm_shape (o : DecodeOptions) (r : Reader) (k : Nat) :
    (∃ v raw, rawFilm C o r k = .opened v :: raw) ∨ (∃ e, rawFilm C o r k = [.failed e]) ∨ rawFilm C o r k = [.crashed] := by
  unfold rawFilm sessionFrom
  split
  · exact .inl ⟨_, _, rfl⟩
  · exact .inr (.inl ⟨_, rfl⟩)
  · exact .inr (.inr rfl)

/-- C49: compressed data that expand to more pixels than the frame has give the same frames, now and later, as data without
the superfluous pixels. -/
theorem extra_pixels_ignored_partial (K : C.Contract) (o : DecodeOptions) (hs : o.skipFrameDecoding = false)
    (hce : o.checkForEndCode = false) {r1 r2 : Reader} (h1 : r1.Reliable) (h2 : r2.Reliable) (acts : List Act)
    (ha : ∀ a ∈ acts, a = .info ∨ a = .read) (hsane1 : Sane K o r1 (Spec.seeks acts)) (hsane2 : Sane K o r2 (Spec.seeks acts))
    (hsame : Spec.SameFilm K (rawFilm C o r1 (Spec.seeks acts)) (rawFilm C o r2 (Spec.seeks acts))) :
    filmFrom C o r1 acts = filmFrom C o r2 acts := by
  obtain ⟨outs1, hx1, e1⟩ := filmFrom_screening K o hs hce h1 acts _ (Nat.le_refl _) hsane1 (.inr ha)
  obtain ⟨outs2, hx2, e2⟩ := filmFrom_screening K o hs hce h2 acts _ (Nat.le_refl _) hsane2 (.inr ha)
  rw [follows_nil (e1 h1 (by simp)), follows_nil (e2 h2 (by simp))]
  have s1 := rawFilm_shape (C := C) o r1 (Spec.seeks acts)
  have s2 := rawFilm_shape (C := C) o r2 (Spec.seeks acts)
  generalize rawFilm C o r1 (Spec.seeks acts) = a1 at *
  generalize rawFilm C o r2 (Spec.seeks acts) = a2 at *
  rcases s1 with ⟨v, raw, rfl⟩ | ⟨e, rfl⟩ | rfl <;> rcases s2 with ⟨v', raw', rfl⟩ | ⟨e', rfl⟩ | rfl <;>
    simp only [Spec.SameFilm, Spec.SameSeen, and_true, Seen.opened.injEq, Seen.failed.injEq, reduceCtorEq, false_and] at hsame
  · obtain ⟨rfl, hsame⟩ := hsame
    simp only [screening]
    rw [Spec.watch_same K _ _ acts ha _ none none raw raw' outs1 outs2 hsame hx1 hx2]
  · subst hsame; rfl
  · rfl

end Decoder

/-! ## Examples -/

namespace Ref

/-- The frame has pixels and its data no invalid code. -/
def tame (f : Frame) : Bool :=
  match f.buffer with
  | [] => false
  | m :: data => decide (0 < f.width.toNat * f.height.toNat) && decide (((Dec.new m).feed data).stop.toEnd ≠ .invalid)

theorem tame_valid {f : Frame} (h : tame f = true) : Valid lzwContract f := by
  intro m data px hb hy
  unfold tame at h
  rw [hb] at h
  simp only [Bool.and_eq_true, decide_eq_true_eq] at h
  exact h.2 hy.2

theorem tame_regular {f : Frame} (h : tame f = true) : Regular lzwContract f := by
  refine ⟨?_, fun m data px hb hy => absurd hy (tame_valid h m data px hb)⟩
  unfold tame at h
  split at h
  · cases h
  · simp only [Bool.and_eq_true, decide_eq_true_eq] at h
    exact h.1

theorem tame_sane {o : DecodeOptions} {r : Reader} {k : Nat} (h1 : .failed (.io .unexpectedEof) ∉ Decoder.rawFilm lzw o r k)
    (h2 : .failed (.format .memoryLimit) ∉ Decoder.rawFilm lzw o r k)
    (h3 : (rawFrames (Decoder.rawFilm lzw o r k)).all tame = true) :
    Sane lzwContract o r k ∧ ∀ f ∈ rawFrames (Decoder.rawFilm lzw o r k), Valid lzwContract f :=
  ⟨⟨h1, h2, fun f hf => tame_regular (List.all_eq_true.mp h3 f hf)⟩, fun f hf => tame_valid (List.all_eq_true.mp h3 f hf)⟩

end Ref

namespace Decoder

set_option maxRecDepth 100000 in
theorem animation_sane :
    Sane Ref.lzwContract .new animation 3 ∧ ∀ f ∈ rawFrames (rawFilm Ref.lzw .new animation 3), Valid Ref.lzwContract f :=
  Ref.tame_sane (by decide +kernel) (by decide +kernel) (by decide +kernel)

/-- The same without a memory limit. -/
theorem animation_free :
    Sane Ref.lzwContract { DecodeOptions.new with memoryLimit := .unlimited } animation 3 ∧
    ∀ f ∈ rawFrames (rawFilm Ref.lzw { DecodeOptions.new with memoryLimit := .unlimited } animation 3), Valid Ref.lzwContract f :=
  Ref.tame_sane (by decide +kernel) (by decide +kernel) (by decide +kernel)

/-- The assumptions of `pixels_chunk_invariant_partial` are met by an animation, in two pieces or byte by byte. -/
example : filmFrom Ref.lzw .new animation [.read, .info, .fill 0, .info] =
    filmFrom Ref.lzw .new animationBytewise [.read, .info, .fill 0, .info] :=
  pixels_chunk_invariant_partial Ref.lzwContract .new rfl rfl animation_reliable animationBytewise_reliable (by decide)
    [.read, .info, .fill 0, .info] animation_free.1 (.inl animation_free.2)

set_option maxRecDepth 100000 in
/-- What is read: two frames of two pixels. -/
example : (filmFrom Ref.lzw .new animation [.read, .read, .read]).map
    (fun | .seen (.frame f _) => f.map (·.buffer) | _ => none) = [none, some [1, 1], some [1, 1], none] := by decide +kernel

set_option maxRecDepth 100000 in
/-- The assumptions of `pixels_prefix_partial` are met by the animation and its first 66 bytes, and the second case occurs. -/
example : animationCut.bytes <+: animation.bytes ∧
    Spec.Gentle Ref.lzwContract [.read, .read, .read]
      (rawFrames (rawFilm Ref.lzw { DecodeOptions.new with memoryLimit := .unlimited } animation 3)) ∧
    (filmFrom Ref.lzw .new animationCut [.read, .read, .read]).length = 3 ∧
    (filmFrom Ref.lzw .new animationCut [.read, .read, .read]).getLast? = some (.seen (.failed (.io .unexpectedEof))) :=
  ⟨⟨animation.bytes.drop 66, by decide +kernel⟩, .inl animation_free.2, by decide +kernel, by decide +kernel⟩

/-- A file of one frame, in pieces. -/
def single (w h flags : UInt8) (data : List UInt8) (rest : List (List UInt8)) : Reader :=
  { buf := [], src := (([0x47, 0x49, 0x46, 0x38, 0x39, 0x61, w, 0, h, 0, 0x80, 1, 0, 10, 20, 30, 40, 50, 60,
      0x2C, 0, 0, 0, 0, w, 0, h, 0, flags, 2] ++ data) :: rest).map .data }

theorem single_reliable (w h flags : UInt8) (data : List UInt8) (rest : List (List UInt8)) (hr : ∀ x ∈ rest, x ≠ []) :
    (single w h flags data rest).Reliable := by
  intro ev hev
  simp only [single, List.map_cons, List.mem_cons, List.mem_map] at hev
  rcases hev with rfl | ⟨x, hx, rfl⟩
  · exact ⟨_, rfl, by simp⟩
  · exact ⟨x, rfl, hr x hx⟩

/-- Two bytes of memory. -/
def twoBytes : DecodeOptions := { DecodeOptions.new with memoryLimit := .bytes 2 (by decide) }

set_option maxRecDepth 100000 in
/-- The assumptions of `pixels_chunk_invariant_partial` are met as well if the data of a frame of two pixels, three bytes, exceed the
limit: the frame is decoded, though it cannot be read raw. -/
example : filmFrom Ref.lzw twoBytes (single 2 1 0 [2, 0x4C, 0x0A, 0, 0x3B] []) [.read, .info] =
      filmFrom Ref.lzw twoBytes (single 2 1 0 [2] [[0x4C], [0x0A, 0], [0x3B]]) [.read, .info] ∧
    (filmFrom Ref.lzw twoBytes (single 2 1 0 [2, 0x4C, 0x0A, 0, 0x3B] []) [.read, .info]).map
      (fun | .seen (.frame f _) => f.map (·.buffer) | _ => none) = [none, some [1, 1], none] ∧
    .failed (.format .memoryLimit) ∈ rawFilm Ref.lzw twoBytes (single 2 1 0 [2, 0x4C, 0x0A, 0, 0x3B] []) 1 :=
  have h : _ ∧ ∀ f ∈ _, _ := Ref.tame_sane (o := { twoBytes with memoryLimit := .unlimited })
    (r := single 2 1 0 [2, 0x4C, 0x0A, 0, 0x3B] []) (k := 2) (by decide +kernel) (by decide +kernel) (by decide +kernel)
  ⟨pixels_chunk_invariant_partial Ref.lzwContract twoBytes rfl rfl (single_reliable _ _ _ _ _ (by simp))
    (single_reliable _ _ _ _ _ (by simp)) (by decide) [.read, .info] h.1 (.inl h.2), by decide +kernel, by decide +kernel⟩

/-- C03 is false as it is stated, with an invalid code after the pixels: the second call depends on how the file is cut. -/
theorem chunk_invariant_fails_invalid : ¬ ∀ r1 r2 : Reader, r1.Reliable → r2.Reliable → r1.bytes = r2.bytes →
    filmFrom Ref.lzw .new r1 [.read, .read] = filmFrom Ref.lzw .new r2 [.read, .read] := by
  intro h
  exact absurd (h (single 1 1 0 [2, 0xCC] [[1, 0, 0x3B]]) (single 1 1 0 [2, 0xCC, 1, 0, 0x3B] [])
    (single_reliable _ _ _ _ _ (by simp)) (single_reliable _ _ _ _ _ (by simp)) (by decide +kernel)) (by decide +kernel)

/-- C03 is false as it is stated, with a truncated file: its interlaced frame is complete or not depending on how the file is
cut. -/
theorem chunk_invariant_fails_truncated : ¬ ∀ r1 r2 : Reader, r1.Reliable → r2.Reliable → r1.bytes = r2.bytes →
    filmFrom Ref.lzw .new r1 [.read] = filmFrom Ref.lzw .new r2 [.read] := by
  intro h
  exact absurd (h (single 1 2 0x40 [2, 0x4C] [[0x0A]]) (single 1 2 0x40 [2, 0x4C, 0x0A] [])
    (single_reliable _ _ _ _ _ (by simp)) (single_reliable _ _ _ _ _ (by simp)) (by decide +kernel)) (by decide +kernel)

/-- C03 and C45 are false as they are stated with the option `check_lzw_end_code`: whether a complete file with an end code
can be read depends on how it is cut. -/
theorem chunk_invariant_fails_check : ¬ ∀ r1 r2 : Reader, r1.Reliable → r2.Reliable → r1.bytes = r2.bytes →
    filmFrom Ref.lzw { DecodeOptions.new with checkForEndCode := true } r1 [.read, .read] =
    filmFrom Ref.lzw { DecodeOptions.new with checkForEndCode := true } r2 [.read, .read] := by
  intro h
  exact absurd (h (single 1 1 0 [2, 0x4C] [[1, 0, 0x3B]]) (single 1 1 0 [2, 0x4C, 1, 0, 0x3B] [])
    (single_reliable _ _ _ _ _ (by simp)) (single_reliable _ _ _ _ _ (by simp)) (by decide +kernel)) (by decide +kernel)

/-- C45 is false as it is stated: with the option a complete file, whose data carry an end code, cannot be read any more if a
frame is skipped. -/
theorem check_end_code_fails_skip : ¬ ∀ r : Reader, r.Reliable →
    (∀ f ∈ rawFrames (rawFilm Ref.lzw .new r 2), ∃ m data px, f.buffer = m :: data ∧
      Ref.lzwContract.Yields (Ref.lzw.new m) data px .ended) →
    filmFrom Ref.lzw { DecodeOptions.new with checkForEndCode := true } r [.info, .info] =
    filmFrom Ref.lzw .new r [.info, .info] := by
  intro h
  refine absurd (h (single 1 1 0 [2, 0x4C, 1, 0, 0x3B] []) (single_reliable _ _ _ _ _ (by simp)) ?_) (by decide +kernel)
  have e : (rawFrames (rawFilm Ref.lzw .new (single 1 1 0 [2, 0x4C, 1, 0, 0x3B] []) 2)).map (·.buffer) = [[2, 0x4C, 1]] := by
    decide +kernel
  intro f hf
  have := List.mem_map_of_mem (f := fun f : Frame => f.buffer) hf
  rw [e, List.mem_singleton] at this
  exact ⟨2, [0x4C, 1], [1], this, by decide +kernel, by decide +kernel⟩

set_option maxRecDepth 100000 in
/-- The assumptions of `fill_buffer_pieces_partial` are met by the second frame of the animation. -/
example : ∃ v image, filmFrom Ref.lzw .new animation ([.read] ++ [.info]) =
      filmFrom Ref.lzw .new animation [.read] ++ [.seen (.info true v)] ∧
    filmFrom Ref.lzw .new animation ([.read] ++ [.info, .into]) =
      filmFrom Ref.lzw .new animation [.read] ++ [.seen (.info true v), .image image] ∧
    v.currentFrame.interlaced = false ∧ image = [1, 1] ∧
    (([0, 0] : List Nat).map (· + 1)).sum ≤ v.currentFrame.width.toNat * v.currentFrame.height.toNat := by
  refine ⟨
    { width := 2, height := 1, globalPalette := some [10, 20, 30, 40, 50, 60], bgColor := some 1,
      repetition := .finite 0
      currentFrame := { Frame.default with width := 2, height := 1, delay := 5, palette := some [1, 2, 3, 4, 5, 6] } },
    [1, 1], ?_⟩
  decide +kernel

set_option maxRecDepth 100000 in
/-- With an empty buffer C19 fails: the pixels are lost. `fill_buffer_pieces_partial` is about buffers that are not empty. -/
theorem fill_buffer_empty_loses :
    let d := (readInfo Ref.lzw .new animation).1.nextFrameInfo.1
    (d.fillBuffer [0, 0]).2 = ([1, 1], .ok true) ∧ (d.fillBuffer []).2 = ([], .ok false) ∧
    ((d.fillBuffer []).1.fillBuffer [0, 0]).2 = ([0, 0], .fmtErr .unexpectedData) := by decide +kernel

/-- The frame at a place. -/
def frameAt (l : List Seen) (n : Nat) : Frame :=
  match l[n]? with
  | some (.frame (some f) _) => f
  | _ => .default

set_option maxRecDepth 100000 in
/-- The assumptions of `frame_independent_partial` are met by the second frame of the animation, with the first frame read
completely or in part, and both calls return it. -/
example :
    filmFrom Ref.lzw .new animation ([.read] ++ [.read]) ≠ filmFrom Ref.lzw .new animation [.read] ∧
    filmFrom Ref.lzw .new animationBytewise ([.info, .fill 0] ++ [.read]) ≠
      filmFrom Ref.lzw .new animationBytewise [.info, .fill 0] ∧
    (rawFilm Ref.lzw .new animation 2)[2]? = (rawFilm Ref.lzw .new animationBytewise 2)[2]? ∧
    ∃ f v, (rawFilm Ref.lzw .new animation 2)[2]? = some (.frame (some f) v) ∧ f.buffer = [2, 0x4C, 0x0A] ∧
      f.palette = some [1, 2, 3, 4, 5, 6] := by
  refine ⟨by decide +kernel, by decide +kernel, by decide +kernel, frameAt (rawFilm Ref.lzw .new animation 2) 2,
    { width := 2, height := 1, globalPalette := some [10, 20, 30, 40, 50, 60], bgColor := some 1,
      repetition := .finite 0, currentFrame := frameAt (rawFilm Ref.lzw .new animation 2) 2 }, ?_⟩
  decide +kernel

end Decoder

namespace Ref

/-- A test for `SamePixels`. -/
def samePixels (f g : Frame) : Bool :=
  decide (Spec.bare f = Spec.bare g) &&
  match f.buffer, g.buffer with
  | m :: data, m' :: data' =>
    let a := (Dec.new m).feed data
    let b := (Dec.new m').feed data'
    let n := f.width.toNat * f.height.toNat
    decide (a.stop.toEnd ≠ .invalid ∧ b.stop.toEnd ≠ .invalid ∧ n ≤ a.pending.length ∧ n ≤ b.pending.length ∧
      a.pending.take n = b.pending.take n)
  | _, _ => false

theorem samePixels_same {f g : Frame} (h : samePixels f g = true) : Spec.SamePixels lzwContract f g := by
  unfold samePixels at h
  simp only [Bool.and_eq_true, decide_eq_true_eq] at h
  refine ⟨h.1, ?_⟩
  have h2 := h.2
  split at h2
  · rename_i m data m' data' hf hg
    simp only [decide_eq_true_eq] at h2
    exact ⟨m, m', data, data', _, _, _, _, hf, hg, ⟨rfl, rfl⟩, ⟨rfl, rfl⟩, h2⟩
  · cases h2

/-- A test for `SameFilm`. -/
def sameFilm : List Seen → List Seen → Bool
  | [], [] => true
  | .opened v :: l, .opened w :: l' => decide (v = w) && sameFilm l l'
  | .frame (some f) v :: l, .frame (some g) w :: l' =>
    samePixels f g && decide ({ v with currentFrame := Frame.default } = { w with currentFrame := Frame.default }) &&
      sameFilm l l'
  | .frame none v :: l, .frame none w :: l' =>
    decide ({ v with currentFrame := Frame.default } = { w with currentFrame := Frame.default }) && sameFilm l l'
  | _, _ => false

theorem sameFilm_same : ∀ {a b : List Seen}, sameFilm a b = true → Spec.SameFilm lzwContract a b := by
  intro a b
  fun_induction sameFilm a b with
  | case1 => intro _; trivial
  | case2 v l w l' ih =>
    intro h
    simp only [Bool.and_eq_true, decide_eq_true_eq] at h
    exact ⟨congrArg Seen.opened h.1, ih h.2⟩
  | case3 f v l g w l' ih =>
    intro h
    simp only [Bool.and_eq_true, decide_eq_true_eq] at h
    exact ⟨⟨samePixels_same h.1.1, h.1.2⟩, ih h.2⟩
  | case4 v l w l' ih =>
    intro h
    simp only [Bool.and_eq_true, decide_eq_true_eq] at h
    exact ⟨h.1, ih h.2⟩
  | case5 => intro h; cases h

end Ref

namespace Decoder

set_option maxRecDepth 100000 in
/-- The assumptions of `extra_pixels_ignored_partial` are met by a frame of one pixel with data for one or for two. -/
example : (single 1 1 0 [2, 0x4C, 0x0A, 0, 0x3B] []).Reliable ∧ (single 1 1 0 [2, 0x4C, 1, 0, 0x3B] []).Reliable ∧
    Sane Ref.lzwContract .new (single 1 1 0 [2, 0x4C, 0x0A, 0, 0x3B] []) 2 ∧
    Sane Ref.lzwContract .new (single 1 1 0 [2, 0x4C, 1, 0, 0x3B] []) 2 ∧
    Spec.SameFilm Ref.lzwContract (rawFilm Ref.lzw .new (single 1 1 0 [2, 0x4C, 0x0A, 0, 0x3B] []) 2)
      (rawFilm Ref.lzw .new (single 1 1 0 [2, 0x4C, 1, 0, 0x3B] []) 2) := by
  refine ⟨single_reliable _ _ _ _ _ (by simp), single_reliable _ _ _ _ _ (by simp),
    (Ref.tame_sane (by decide +kernel) (by decide +kernel) (by decide +kernel)).1,
    (Ref.tame_sane (by decide +kernel) (by decide +kernel) (by decide +kernel)).1, ?_⟩
  exact Ref.sameFilm_same (by decide +kernel)

end Decoder

end Gif
