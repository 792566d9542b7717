import Verif.Lemmas.Reel
import Verif.Props.Film
/-!
C04, C15, C39, C43, C47: decoding of the files of the grammar.
-/

namespace Gif

open Spec (Pixels rawFrames ExpandAll Expands watch)

namespace Decoder

variable {C : Codec}

/-- C04 with `skip_frame_decoding`, and the errors: header, frames with their compressed data, `Ok(None)`; or an error for the
first image that has to be rejected. -/
theorem grammar_reel (hS : C.Safe) {o : DecodeOptions} {g : Spec.File} (hg : g.Readable o) {junk : List UInt8} {r : Reader}
    (hr : r.Reliable) (hb : r.bytes = g.render ++ junk) (k : Nat) :
    rawFilm C o r k = .opened (g.view Frame.default) :: g.reel o k Frame.default g.frames := by
  have hg' : g.Readable { o with skipFrameDecoding := true } :=
    hg.congr rfl rfl
  obtain ⟨h1, h2, h3, h4⟩ := stage_open (C := C) hS (o := { o with skipFrameDecoding := true }) rfl hg' hr hb
  have h5 := stage_reel hS k h3
  unfold rawFilm sessionFrom
  generalize readInfo C { o with skipFrameDecoding := true } r = x at *
  obtain ⟨d, out⟩ := x
  simp only at *
  subst h1
  have key : ∀ (k : Nat) (cur : Frame) (xs : List (Spec.Graphic × Spec.Image)),
      g.reel { o with skipFrameDecoding := true } k cur xs = g.reel o k cur xs := by
    intro k
    induction k with
    | zero => intro cur xs; cases xs <;> rfl
    | succ k ih =>
      intro cur xs
      cases xs with
      | nil => simp only [Spec.File.reel, ih]
      | cons x xs => simp only [Spec.File.reel, ih]; rfl
  simp only [h4, h5, h2, key]

/-- The same without a memory limit for the data of the images. -/
theorem grammar_free (hS : C.Safe) {o : DecodeOptions} {g : Spec.File} (hg : g.Readable o) {junk : List UInt8} {r : Reader}
    (hr : r.Reliable) (hb : r.bytes = g.render ++ junk) (k : Nat) :
    ghostFilm (C := C) freeRead o r k = .opened (g.view Frame.default) ::
      g.reel { o with memoryLimit := .unlimited } k Frame.default g.frames := by
  have hg' : g.Readable { o with skipFrameDecoding := true } :=
    hg.congr rfl rfl
  obtain ⟨h1, h2, h3, h4⟩ := stage_open (C := C) hS (o := { o with skipFrameDecoding := true }) rfl hg' hr hb
  have h5 := stage_free_reel hS k h3
  unfold ghostFilm
  generalize readInfo C { o with skipFrameDecoding := true } r = x at *
  obtain ⟨d, out⟩ := x
  simp only at *
  subst h1
  have key : ∀ (k : Nat) (cur : Frame) (xs : List (Spec.Graphic × Spec.Image)),
      g.reel { o with skipFrameDecoding := true, memoryLimit := .unlimited } k cur xs =
        g.reel { o with memoryLimit := .unlimited } k cur xs := by
    intro k
    induction k with
    | zero => intro cur xs; cases xs <;> rfl
    | succ k ih =>
      intro cur xs
      cases xs with
      | nil => simp only [Spec.File.reel, ih]
      | cons x xs => simp only [Spec.File.reel, ih]; rfl
  simp only [h4, h5, h2, key]

end Decoder

namespace Spec

/-- Calls after the last image. -/
theorem reel_nil (o : DecodeOptions) (g : File) (cur : Frame) (k : Nat) :
    g.reel o k cur [] = List.replicate k (.frame none (g.view cur)) := by
  induction k with
  | zero => rfl
  | succ k ih => rw [File.reel, ih, List.replicate_succ]

/-- Without rejected images, every image is a frame. -/
theorem reel_accept (o : DecodeOptions) (g : File) (k : Nat) : ∀ (xs : List (Graphic × Image)) (cur : Frame),
    (∀ x ∈ xs, g.verdict o x.2 = none) →
    g.reel o (xs.length + k) cur xs = xs.map (fun x => .frame (some (rawFrame x)) (g.view (rawFrame x))) ++
      List.replicate k (.frame none (g.view (((xs.map rawFrame).getLast?).getD cur)))
  | [], cur, _ => by
    rw [List.length_nil, Nat.zero_add, reel_nil]
    rfl
  | x :: xs, cur, h => by
    rw [List.length_cons, Nat.add_right_comm, File.reel]
    simp only [h x List.mem_cons_self]
    rw [reel_accept o g k xs (rawFrame x) (fun y hy => h y (List.mem_cons_of_mem _ hy))]
    simp only [List.map_cons, List.cons_append]
    rw [List.getLast?_cons, Option.getD_some]

theorem reel_errors (o : DecodeOptions) (g : File) : ∀ (k : Nat) (xs : List (Graphic × Image)) (cur : Frame) (e : DecodingError),
    .failed e ∈ g.reel o k cur xs → ∃ x ∈ xs, g.verdict o x.2 = some e
  | 0, xs, cur, e, h => by cases h
  | k + 1, [], cur, e, h => by
    rw [reel_nil] at h
    have := List.eq_of_mem_replicate h
    cases this
  | k + 1, x :: xs, cur, e, h => by
    rw [File.reel] at h
    cases hv : g.verdict o x.2 with
    | some e' =>
      simp only [hv, List.mem_singleton, Seen.failed.injEq] at h
      exact ⟨x, List.mem_cons_self, by rw [h, hv]⟩
    | none =>
      simp only [hv, List.mem_cons] at h
      rcases h with h | h
      · cases h
      · obtain ⟨y, hy, he⟩ := reel_errors o g k xs _ e h
        exact ⟨y, List.mem_cons_of_mem _ hy, he⟩

theorem rawFrames_append : ∀ (a b : List Seen), rawFrames (a ++ b) = rawFrames a ++ rawFrames b
  | [], b => rfl
  | x :: a, b => by
    have := rawFrames_append a b
    cases x with
    | frame f v => cases f <;> simp [rawFrames, this]
    | _ => simpa [rawFrames] using this

theorem rawFrames_none (k : Nat) (v : View) : rawFrames (List.replicate k (.frame none v)) = [] := by
  induction k with
  | zero => rfl
  | succ k ih => rw [List.replicate_succ]; exact ih

theorem rawFrames_map {α : Type} (f : α → Frame) (v : α → View) (l : List α) :
    rawFrames (l.map fun x => .frame (some (f x)) (v x)) = l.map f := by
  induction l with
  | nil => rfl
  | cons x l ih => simp [rawFrames, ih]

variable {C : Codec} (K : C.Contract)

theorem showAll_verdict (o : DecodeOptions) (g : File) : ∀ (xs : List (Graphic × Image)) (pxs : List (List UInt8)),
    g.ShowAll K o xs pxs → ∀ x ∈ xs, g.headVerdict o x.2 = none
  | [], _, _ => by intro x h; cases h
  | x :: xs, [], h => h.elim
  | x :: xs, px :: pxs, h => by
    intro y hy
    rcases List.mem_cons.mp hy with rfl | hy
    · exact h.1.1
    · exact showAll_verdict o g xs pxs h.2 y hy

theorem verdict_fits {o : DecodeOptions} {g : File} {i : Image} (h : g.headVerdict o i = none)
    (hl : o.memoryLimit.sizeOk i.data.length = true) : g.verdict o i = none := by
  unfold File.verdict
  simp only [h, hl, if_true]

/-- How the data of the images end. -/
theorem showAll_expand (o : DecodeOptions) (g : File) : ∀ (xs : List (Graphic × Image)) (pxs : List (List UInt8)),
    g.ShowAll K o xs pxs → ∃ outs : List Pixels, outs.map Prod.fst = pxs ∧ (∀ px ∈ outs, px.2 ≠ .invalid) ∧
      ExpandAll K (xs.map rawFrame) outs
  | [], [], _ => ⟨[], rfl, (by intro px h; cases h), trivial⟩
  | [], _ :: _, h => h.elim
  | x :: xs, [], h => h.elim
  | x :: xs, px :: pxs, h => by
    obtain ⟨outs, h1, h2, h3⟩ := showAll_expand o g xs pxs h.2
    obtain ⟨⟨_, ha, _, hl, e, he, hy⟩, _⟩ := h
    refine ⟨(px, e) :: outs, by simp [h1], ?_, ⟨⟨_, _, rfl, hy⟩, ha, fun h => absurd h he⟩, h3⟩
    intro p hp
    rcases List.mem_cons.mp hp with rfl | hp
    · exact he
    · exact h2 p hp

/-- Reading all the frames. -/
theorem watch_reads (o : DecodeOptions) (g : File) (k : Nat) : ∀ (xs : List (Graphic × Image)) (outs : List Pixels) (v : View)
    (cur : Frame), v.currentFrame = cur → g.ShowAll K o xs (outs.map Prod.fst) → (∀ px ∈ outs, px.2 ≠ .invalid) →
    ∀ cur', watch o.colorOutput o.memoryLimit (List.replicate (xs.length + k) .read) v none
      (xs.map (fun x => .frame (some (rawFrame x)) (g.view (rawFrame x))) ++ List.replicate k (.frame none (g.view cur'))) outs =
    ((List.zipWith (fun x px => shown o.colorOutput g.table (rawFrame x) px) xs (outs.map Prod.fst)).map
      (fun f => .seen (.frame (some f) (g.view f))) ++
    List.replicate k (.seen (.frame none (g.view ((List.zipWith (fun x px => shown o.colorOutput g.table (rawFrame x) px) xs
      (outs.map Prod.fst)).getLast?.getD cur)))))
  | [], outs, v, cur, hv, h, hne, cur' => by
    cases outs with
    | cons px outs => exact h.elim
    | nil =>
      simp only [List.length_nil, Nat.zero_add, List.map_nil, List.nil_append, List.zipWith_nil_left, List.getLast?_nil, Option.getD_none]
      induction k generalizing v with
      | zero => rfl
      | succ k ih =>
        simp only [List.replicate_succ, watch]
        rw [ih _ (by exact hv), hv]
        rfl
  | x :: xs, [], v, cur, hv, h, hne, cur' => h.elim
  | x :: xs, px :: outs, v, cur, hv, h, hne, cur' => by
    obtain ⟨⟨_, ha, ⟨n, hn⟩, hl, e, he, hy⟩, h2⟩ := h
    have hd : deliver o.colorOutput o.memoryLimit (g.view (rawFrame x)).globalPalette (rawFrame x) px =
        .ok (shown o.colorOutput g.table (rawFrame x) px.1) := by
      unfold deliver
      have : (rawFrame x).width = x.2.width ∧ (rawFrame x).height = x.2.height := ⟨rfl, rfl⟩
      simp only [this.1, this.2, hn]
      rw [if_neg (hne px List.mem_cons_self), if_neg (by omega)]
      rfl
    rw [List.length_cons, Nat.add_right_comm, List.replicate_succ]
    simp only [List.map_cons, List.cons_append, watch, hd, List.zipWith_cons_cons, List.getLast?_cons, Option.getD_some]
    rw [watch_reads o g k xs outs _ (shown o.colorOutput g.table (rawFrame x) px.1) rfl h2
      (fun p hp => hne p (List.mem_cons_of_mem _ hp)) cur']
    rfl

end Spec

namespace Decoder

variable {C : Codec}

/-- C04 with `skip_frame_decoding`. -/
theorem grammar_raw_frames (hS : C.Safe) {o : DecodeOptions} {g : Spec.File} (hg : g.Readable o)
    (hacc : ∀ x ∈ g.frames, g.verdict o x.2 = none) {junk : List UInt8} {r : Reader} (hr : r.Reliable)
    (hb : r.bytes = g.render ++ junk) (k : Nat) :
    rawFilm C o r (g.frames.length + k) = g.screenplay (g.frames.map Spec.rawFrame) k := by
  rw [grammar_reel hS hg hr hb, Spec.reel_accept o g k _ _ hacc]
  simp only [Spec.File.screenplay, List.map_map, List.cons_append]
  rfl

/-- `read_next_frame` only. -/
theorem film_reads (k : Nat) : ∀ (d : Decoder C) (live : Bool),
    film (List.replicate k .read) d live = (session (List.replicate k .read) d).map .seen := by
  induction k with
  | zero => intro d live; rfl
  | succ k ih =>
    intro d live
    simp only [List.replicate_succ, film, act, session, see]
    generalize d.readNextFrame = x
    obtain ⟨d', out⟩ := x
    cases out <;> simp [ih]

theorem filmFrom_reads (o : DecodeOptions) (r : Reader) (k : Nat) :
    filmFrom C o r (List.replicate k .read) = (sessionFrom C o r (List.replicate k .read)).map .seen := by
  unfold filmFrom sessionFrom
  generalize readInfo C o r = x
  obtain ⟨d, out⟩ := x
  cases out <;> simp [film_reads]

theorem seeks_reads (k : Nat) : Spec.seeks (List.replicate k .read) = k := by
  induction k with
  | zero => rfl
  | succ k ih => rw [List.replicate_succ, Spec.seeks, ih]

/-- C04: header, frames with their pixels in order, `Ok(None)`. What is missing: extensions and images without data and files
without blocks, for which the claim is false (`GrammarCases.lean`); images without pixels (C48) and with too few of them;
extensions larger than the memory limit; `check_lzw_end_code`. -/
theorem grammar_frames_partial (K : C.Contract) {o : DecodeOptions} (hs : o.skipFrameDecoding = false)
    (hce : o.checkForEndCode = false) {g : Spec.File} (hg : g.Readable o) {pxs : List (List UInt8)}
    (hpx : g.ShowAll K o g.frames pxs) {junk : List UInt8} {r : Reader} (hr : r.Reliable)
    (hb : r.bytes = g.render ++ junk) (k : Nat) :
    sessionFrom C o r (List.replicate (g.frames.length + k) .read) = g.screenplay (g.pictures o.colorOutput pxs) k := by
  obtain ⟨outs, h1, h2, h3⟩ := Spec.showAll_expand K o g _ _ hpx
  have hacc := Spec.showAll_verdict K o g _ _ hpx
  have hacc' : ∀ x ∈ g.frames, g.verdict { o with memoryLimit := .unlimited } x.2 = none := fun x hx => by
    rw [verdict_unlimited]; exact hacc x hx
  have hfree := grammar_free K.safe hg hr hb (g.frames.length + k)
  have hraw : ghostFilm (C := C) freeRead o r (g.frames.length + k) = g.screenplay (g.frames.map Spec.rawFrame) k := by
    rw [hfree, Spec.reel_accept _ g k _ _ hacc']
    simp only [Spec.File.screenplay, List.map_map, List.cons_append]
    rfl
  have hw := follows_nil (filmFrom_free K o hs hce hr hr (more := []) (by simp) (List.replicate (g.frames.length + k) .read)
    (g.frames.length + k) (Nat.le_of_eq (seeks_reads _)) outs ?_ ?_ (.inl h2))
  · rw [hraw] at hw
    simp only [Spec.File.screenplay, List.map_map, List.cons_append] at hw
    have := Spec.watch_reads K o g k g.frames outs (g.view Frame.default) Frame.default rfl (h1 ▸ hpx) h2
    rw [filmFrom_reads] at hw
    have inj : ∀ {a b : List Seen}, a.map Got.seen = b.map Got.seen → a = b :=
      fun h => (List.map_inj_right (fun a b h => by cases h; rfl)).1 h
    refine inj (hw.trans ?_)
    rw [h1] at this
    simp only [Spec.File.screenplay, Spec.File.pictures, List.map_cons, List.map_append, List.map_map, List.map_replicate,
      List.cons_append]
    congr 1
    exact this _
  · intro e he
    rw [hfree] at he
    rcases List.mem_cons.mp he with h | h
    · cases h
    · obtain ⟨x, hx, hv⟩ := Spec.reel_errors _ g _ _ _ _ h
      rw [hacc' x hx] at hv
      cases hv
  · rw [hraw]
    simp only [Spec.File.screenplay, List.cons_append]
    show ExpandAll K (rawFrames (_ ++ _)) outs
    rw [Spec.rawFrames_append, Spec.rawFrames_none, List.append_nil, Spec.rawFrames_map, List.map_id']
    exact h3

/-- The decoder after `n` calls of `read_next_frame`. -/
def afterReads : Nat → Decoder C → Decoder C
  | 0, d => d
  | n + 1, d => afterReads n d.readNextFrame.1

/-- Both decoders read frames. -/
theorem phase_reads (K : C.Contract) {o o' : DecodeOptions} {g : Spec.File} (ho : ∀ i, g.headVerdict o' i = g.headVerdict o i)
    {junk : List UInt8} {ys : List (Spec.Graphic × Spec.Image)} :
    ∀ (xs : List (Spec.Graphic × Spec.Image)) (pxs : List (List UInt8)) (d d0 : Decoder C),
    Pair d d0 → Phase K .off True [] True d d0 none → Stage o' g junk d0 (xs ++ ys) → g.ShowAll K o xs pxs →
    d.conv.colorOutput = o.colorOutput → d.conv.memoryLimit = o.memoryLimit →
    ∃ d1, Pair (afterReads xs.length d) d1 ∧ Phase K .off True [] True (afterReads xs.length d) d1 none ∧ Stage o' g junk d1 ys
  | [], [], d, d0, hp, hph, hst, _, _, _ => ⟨d0, hp, hph, hst⟩
  | [], _ :: _, d, d0, hp, hph, hst, h, _, _ => h.elim
  | x :: xs, [], d, d0, hp, hph, hst, h, _, _ => h.elim
  | x :: xs, px :: pxs, d, d0, hp, hph, hst, hsh, hc, hl => by
    have hr := stage_free K.safe hst
    obtain ⟨⟨hv, ha, ⟨n, hn⟩, hlen, e, he, hy⟩, hsh'⟩ := hsh
    unfold StageFree at hr
    simp only [List.cons_append, ho, hv] at hr
    obtain ⟨r1, r2, r3⟩ := hr
    have hinfo := phase_ghost (ghost_free K) hp hph fun h => h.elim
    have hspec := frameRun_spec K.safe (nextFrameInfo_run K.safe d hp.inv.rd) hp.inv.rd
    have hri := (readNextFrame_spec K.safe d hp.inv).1
    have ho3 := readNextFrame_pixels (d := d) (d' := d.nextFrameInfo.1)
    rcases hinfo with ⟨h, _⟩ | ⟨h, _⟩ | ⟨_, hinfo⟩
    · exact absurd rfl h
    · exact absurd h Check.off_may
    · rw [r1] at hinfo
      obtain ⟨h1, h2, h3, h4, h5, h6, h7⟩ := hinfo
      obtain ⟨hlv, hs⟩ := h7 _ _ _ _ rfl hy
      replace ho3 := ho3 (by rw [← h1]) h2
      have hrd := read_frame K (px := (px, e)) hlv h4 (Nat.pos_of_mul_pos_right ha) (Nat.pos_of_mul_pos_left ha)
        (fun h => absurd h he)
      have hcol : d.nextFrameInfo.1.conv = d.conv := hspec.2.2.2.1
      show ∃ d1, Pair (afterReads xs.length d.readNextFrame.1) d1 ∧ Phase K .off True [] True (afterReads xs.length d.readNextFrame.1) d1 none ∧ _
      have hdel : Spec.deliver d.nextFrameInfo.1.conv.colorOutput d.nextFrameInfo.1.conv.memoryLimit
          d.nextFrameInfo.1.globalPalette (Spec.rawFrame x) (px, e) =
          .ok (Spec.shown d.nextFrameInfo.1.conv.colorOutput d.nextFrameInfo.1.globalPalette (Spec.rawFrame x) px) := by
        unfold Spec.deliver
        have : (Spec.rawFrame x).width = x.2.width ∧ (Spec.rawFrame x).height = x.2.height := ⟨rfl, rfl⟩
        rw [hcol, hc, hl]
        simp only [this.1, this.2, hn]
        rw [if_neg he, if_neg (by omega)]
      generalize d.nextFrameInfo.1.conv.readFrame d.nextFrameInfo.1.currentFrame RD.decodeNextBytes d.nextFrameInfo.1.rd = y at *
      obtain ⟨rd, fr, out⟩ := y
      rcases hrd with ⟨h, _⟩ | ⟨h, _⟩ | hrd
      · exact absurd rfl h
      · cases h.1
      · rw [hdel] at hrd
        obtain ⟨rfl, rfl, q1, q2, q3, q4, q5, q6⟩ := hrd
        simp only at ho3
        rw [ho3] at hri ⊢
        refine phase_reads K ho xs pxs { d.nextFrameInfo.1 with
            rd := rd
            currentFrame := Spec.shown d.nextFrameInfo.1.conv.colorOutput d.nextFrameInfo.1.globalPalette
              (Spec.rawFrame x) px } d0.freeRead.1
          ⟨h3.conv, h3.bg, h3.rep, q5.trans h3.width, q6.trans h3.height, q4, h3.rel0, hri, h3.inv0, h3.skip0⟩
          (.ahead q2 h6 (ahead_mono (q1 fun _ h => h) fun _ => trivial)) r3 hsh' ?_ ?_
        · show d.nextFrameInfo.1.conv.colorOutput = _
          rw [hcol, hc]
        · show d.nextFrameInfo.1.conv.memoryLimit = _
          rw [hcol, hl]

/-- The same from the start of a file. -/
theorem phase_open (K : C.Contract) {o : DecodeOptions} (hs : o.skipFrameDecoding = false)
    (hce : o.checkForEndCode = false) {g : Spec.File} (hg : g.Readable o) {xs ys : List (Spec.Graphic × Spec.Image)}
    (hf : g.frames = xs ++ ys) {pxs : List (List UInt8)} (hpx : g.ShowAll K o xs pxs) {junk : List UInt8} {r : Reader}
    (hr : r.Reliable) (hb : r.bytes = g.render ++ junk) :
    (readInfo C o r).2 = .ok () ∧ ∃ d1, Pair (afterReads xs.length (readInfo C o r).1) d1 ∧
      Phase K .off True [] True (afterReads xs.length (readInfo C o r).1) d1 none ∧
      Stage { o with skipFrameDecoding := true } g junk d1 ys := by
  have hg' : g.Readable { o with skipFrameDecoding := true } :=
    hg.congr rfl rfl
  obtain ⟨h1, h2, h3, h4⟩ := stage_open (C := C) K.safe (o := { o with skipFrameDecoding := true }) rfl hg' hr hb
  rcases both_readInfo K .off o hs hce o.checkForEndCode hr hr (more := []) (by simp) True with ⟨h, _⟩ | ⟨hok, hall⟩
  · exact absurd rfl h
  · obtain ⟨p1, p2, p3, p4, p5⟩ := hall (hok.trans h1)
    exact ⟨hok.trans h1, phase_reads K (o := o) (o' := { o with skipFrameDecoding := true }) (fun _ => rfl) _ _ _ _ p1 p2
      (hf ▸ h3) hpx p4 p5⟩

theorem stage_eof {o : DecodeOptions} {g : Spec.File} {junk : List UInt8} {d : Decoder C}
    {xs : List (Spec.Graphic × Spec.Image)} (h : Stage o g junk d xs) (hx : xs ≠ []) : d.rd.atEof = false := by
  cases h with
  | at_ gr bs hi hr he hb hh hbs hl hv => exact he
  | done he hb hv => exact absurd rfl hx

theorem afterReads_succ (n : Nat) : ∀ d : Decoder C, afterReads (n + 1) d = (afterReads n d).readNextFrame.1 := by
  induction n with
  | zero => intro d; rfl
  | succ n ih => intro d; exact ih _

/-- C39: when `read_next_frame` has returned `Ok(None)`, the reader has the bytes after the trailer and no others. What is
missing: the files that C04 excludes; for files with an empty extension the claim is false. -/
theorem end_leaves_rest_partial (K : C.Contract) {o : DecodeOptions} (hs : o.skipFrameDecoding = false)
    (hce : o.checkForEndCode = false) {g : Spec.File} (hg : g.Readable o) {pxs : List (List UInt8)}
    (hpx : g.ShowAll K o g.frames pxs) {junk : List UInt8} {r : Reader} (hr : r.Reliable)
    (hb : r.bytes = g.render ++ junk) :
    (afterReads g.frames.length (readInfo C o r).1).readNextFrame.2 = .ok none ∧
    (afterReads (g.frames.length + 1) (readInfo C o r).1).rd.reader.bytes = junk := by
  obtain ⟨_, d1, hp, hph, hst⟩ := phase_open K hs hce hg (xs := g.frames) (ys := []) (by simp) hpx hr hb
  rw [afterReads_succ]
  generalize afterReads g.frames.length (readInfo C o r).1 = d at *
  obtain ⟨s1, s2, s3, s4, s5⟩ := stage_free K.safe hst
  have hinfo := phase_ghost (ghost_free K) hp hph fun h => h.elim
  obtain ⟨ho1, _⟩ := readNextFrame_other (d := d) (d' := d.nextFrameInfo.1) (out := d.nextFrameInfo.2) rfl
  rcases hinfo with ⟨h, _⟩ | ⟨h, _⟩ | ⟨_, hinfo⟩
  · exact absurd rfl h
  · exact absurd h Check.off_may
  · rw [s1] at hinfo
    obtain ⟨h1, h2, h3, h4, h5, h6⟩ := hinfo
    rw [ho1 h1]
    rw [List.append_nil] at h6
    exact ⟨rfl, h6 ▸ s5⟩

/-- With `skip_frame_decoding`, from the start of a file. -/
theorem stage_reads (hS : C.Safe) {o : DecodeOptions} (hs : o.skipFrameDecoding = true) {g : Spec.File}
    (hg : g.Readable o) {xs ys : List (Spec.Graphic × Spec.Image)} (hf : g.frames = xs ++ ys)
    (hacc : ∀ x ∈ xs, g.verdict o x.2 = none) {junk : List UInt8} {r : Reader} (hr : r.Reliable)
    (hb : r.bytes = g.render ++ junk) : Stage o g junk (afterReads xs.length (readInfo C o r).1) ys := by
  obtain ⟨h1, h2, h3, h4⟩ := stage_open (C := C) hS hs hg hr hb
  have key : ∀ (xs : List (Spec.Graphic × Spec.Image)) (d : Decoder C), Stage o g junk d (xs ++ ys) →
      (∀ x ∈ xs, g.verdict o x.2 = none) → Stage o g junk (afterReads xs.length d) ys := by
    intro xs
    induction xs with
    | nil => intro d hst _; exact hst
    | cons x xs ih =>
      intro d hst hv
      have hr := stage_read hS hst
      unfold StageRead at hr
      simp only [List.cons_append, hv x List.mem_cons_self] at hr
      exact ih _ hr.2.2 (fun y hy => hv y (List.mem_cons_of_mem _ hy))
  exact key _ _ (hf ▸ h3) hacc

/-- C39 with `skip_frame_decoding`, for all the files that are accepted. -/
theorem end_leaves_rest_raw_partial (hS : C.Safe) {o : DecodeOptions} (hs : o.skipFrameDecoding = true) {g : Spec.File}
    (hg : g.Readable o) (hacc : ∀ x ∈ g.frames, g.verdict o x.2 = none) {junk : List UInt8} {r : Reader} (hr : r.Reliable)
    (hb : r.bytes = g.render ++ junk) :
    (afterReads g.frames.length (readInfo C o r).1).readNextFrame.2 = .ok none ∧
    (afterReads (g.frames.length + 1) (readInfo C o r).1).rd.reader.bytes = junk := by
  obtain ⟨s1, s2, s3, s4, s5⟩ := stage_read hS (stage_reads (C := C) hS hs hg (ys := []) (by simp) hacc hr hb)
  rw [afterReads_succ]
  exact ⟨s1, s5⟩

/-- What `next_frame_info` says of the next image, whatever its data. -/
theorem grammar_info (K : C.Contract) {o : DecodeOptions} (hs : o.skipFrameDecoding = false)
    (hce : o.checkForEndCode = false) {g : Spec.File} (hg : g.Readable o) {xs ys : List (Spec.Graphic × Spec.Image)}
    {x : Spec.Graphic × Spec.Image} (hf : g.frames = xs ++ x :: ys) {pxs : List (List UInt8)} (hpx : g.ShowAll K o xs pxs)
    {junk : List UInt8} {r : Reader} (hr : r.Reliable) (hb : r.bytes = g.render ++ junk) :
    (afterReads xs.length (readInfo C o r).1).nextFrameInfo.2 = match g.headVerdict o x.2 with
      | some e => .err e
      | none => .ok true := by
  obtain ⟨_, d1, hp, hph, hst⟩ := phase_open K hs hce hg hf hpx hr hb
  have hi := stage_info K.safe hst
  have he1 := stage_eof hst (by simp)
  unfold StageInfo at hi
  have hv : g.headVerdict { o with skipFrameDecoding := true } x.2 = g.headVerdict o x.2 := rfl
  simp only [hv] at hi
  generalize afterReads xs.length (readInfo C o r).1 = d at *
  cases hph with
  | eof h h0 hb => rw [he1] at h0; cases h0
  | ahead h h0 ha =>
    have hbo := ahead_both K hp ha h h0
    rcases hbo with ⟨h, _⟩ | ⟨h, _⟩ | ⟨_, hbo⟩
    · exact absurd rfl h
    · exact absurd h Check.off_may
    · generalize d.nextFrameInfo.2 = out at *
      generalize g.headVerdict o x.2 = v at *
      cases v with
      | some e =>
        simp only at hi ⊢
        rw [hi] at hbo
        cases out with
        | ok b => cases b <;> cases hbo.1
        | err e' => cases hbo; rfl
        | panic => cases hbo
        | diverge => cases hbo
      | none =>
        simp only at hi ⊢
        rw [hi.1] at hbo
        cases out with
        | ok b =>
          cases b
          · cases hbo.1
          · rfl
        | err e' => cases hbo
        | panic => cases hbo
        | diverge => cases hbo

/-- The same with `skip_frame_decoding`. -/
theorem grammar_info_raw (hS : C.Safe) {o : DecodeOptions} (hs : o.skipFrameDecoding = true) {g : Spec.File}
    (hg : g.Readable o) {xs ys : List (Spec.Graphic × Spec.Image)} {x : Spec.Graphic × Spec.Image}
    (hf : g.frames = xs ++ x :: ys) (hacc : ∀ x ∈ xs, g.verdict o x.2 = none)
    {junk : List UInt8} {r : Reader} (hr : r.Reliable) (hb : r.bytes = g.render ++ junk) :
    (afterReads xs.length (readInfo C o r).1).nextFrameInfo.2 = match g.headVerdict o x.2 with
      | some e => .err e
      | none => .ok true := by
  have hi := stage_info hS (stage_reads (C := C) hS hs hg hf hacc hr hb)
  unfold StageInfo at hi
  simp only at hi
  generalize g.headVerdict o x.2 = v at *
  cases v with
  | some e => exact hi
  | none => exact hi.1

theorem headVerdict_position (o : DecodeOptions) (g : Spec.File) (i : Spec.Image) :
    (match g.headVerdict o i with
      | some e => Outcome.err e
      | none => .ok true) = .fmtErr .frameOutOfBounds ↔
      o.checkFrameConsistency = true ∧ ¬ (i.left.toNat + i.width.toNat ≤ g.width.toNat ∧
        i.top.toNat + i.height.toNat ≤ g.height.toNat) := by
  show _ ↔ o.checkFrameConsistency = true ∧ ¬ g.Contains i
  unfold Spec.File.headVerdict
  by_cases h : o.checkFrameConsistency = true ∧ ¬ g.Contains i
  · simp only [h, if_true, not_false_eq_true, and_self]
  · rw [if_neg h]
    simp only [h, iff_false]
    by_cases h1 : i.minCode.toNat < 1 ∨ 11 < i.minCode.toNat
    · rw [if_pos h1]
      intro hh; cases hh
    · rw [if_neg h1]
      by_cases h2 : i.table = none ∧ g.table = none
      · rw [if_pos h2]
        intro hh; cases hh
      · rw [if_neg h2]
        intro hh; cases hh

/-- C15: `next_frame_info` rejects an image for its position if and only if `check_frame_consistency` is on and the image
does not lie on the screen. `xs` are the images before it, which can be decoded; nothing is assumed about the image itself. -/
theorem frame_consistency (K : C.Contract) {o : DecodeOptions} (hs : o.skipFrameDecoding = false)
    (hce : o.checkForEndCode = false) {g : Spec.File} (hg : g.Readable o) {xs ys : List (Spec.Graphic × Spec.Image)}
    {x : Spec.Graphic × Spec.Image} (hf : g.frames = xs ++ x :: ys) {pxs : List (List UInt8)} (hpx : g.ShowAll K o xs pxs)
    {junk : List UInt8} {r : Reader} (hr : r.Reliable) (hb : r.bytes = g.render ++ junk) :
    (afterReads xs.length (readInfo C o r).1).nextFrameInfo.2 = .fmtErr .frameOutOfBounds ↔
      o.checkFrameConsistency = true ∧ ¬ (x.2.left.toNat + x.2.width.toNat ≤ g.width.toNat ∧
        x.2.top.toNat + x.2.height.toNat ≤ g.height.toNat) := by
  rw [grammar_info K hs hce hg hf hpx hr hb]
  exact headVerdict_position o g x.2

/-- C15 with `skip_frame_decoding`. -/
theorem frame_consistency_raw (hS : C.Safe) {o : DecodeOptions} (hs : o.skipFrameDecoding = true) {g : Spec.File}
    (hg : g.Readable o) {xs ys : List (Spec.Graphic × Spec.Image)} {x : Spec.Graphic × Spec.Image}
    (hf : g.frames = xs ++ x :: ys) (hacc : ∀ x ∈ xs, g.verdict o x.2 = none)
    {junk : List UInt8} {r : Reader} (hr : r.Reliable) (hb : r.bytes = g.render ++ junk) :
    (afterReads xs.length (readInfo C o r).1).nextFrameInfo.2 = .fmtErr .frameOutOfBounds ↔
      o.checkFrameConsistency = true ∧ ¬ (x.2.left.toNat + x.2.width.toNat ≤ g.width.toNat ∧
        x.2.top.toNat + x.2.height.toNat ≤ g.height.toNat) := by
  rw [grammar_info_raw hS hs hg hf hacc hr hb]
  exact headVerdict_position o g x.2

end Decoder

namespace Spec

/-- What the control extensions of a part of a file without images say: the last one counts. -/
def lastGraphic (mid : List Blk) : Graphic :=
  match (mid.filterMap fun
    | .control c => some c
    | _ => none).getLast? with
  | some c => c.graphic
  | none => .default

/-- The images of a part of a file. -/
def images (bs : List Blk) : List Image :=
  bs.filterMap fun
    | .image i => some i
    | _ => none

theorem frames_images : ∀ (bs : List Blk) (gr : Graphic), (frames gr bs).map (·.2) = images bs
  | [], _ => rfl
  | .control c :: bs, _ => by rw [frames, frames_images bs]; rfl
  | .ext l x :: bs, _ => by rw [frames, frames_images bs]; rfl
  | .image i :: bs, _ => by rw [frames, List.map_cons, frames_images bs]; rfl
  | .unknown t x :: bs, _ => by rw [frames, frames_images bs]; rfl

theorem frames_last (i : Image) (post : List Blk) : ∀ (mid : List Blk) (gr : Graphic), images mid = [] →
    frames gr (mid ++ .image i :: post) = ((match (mid.filterMap fun
      | .control c => some c
      | _ => none).getLast? with
      | some c => c.graphic
      | none => gr), i) :: frames .default post
  | [], gr, _ => rfl
  | .control c :: mid, gr, h => by
    rw [List.cons_append, frames, frames_last i post mid _ h]
    simp only [List.filterMap_cons, List.getLast?_cons]
    generalize (List.filterMap _ mid).getLast? = x
    cases x <;> rfl
  | .ext l x :: mid, gr, h => by
    rw [List.cons_append, frames, frames_last i post mid _ h]
    rfl
  | .image i :: mid, gr, h => by cases h
  | .unknown t x :: mid, gr, h => by
    rw [List.cons_append, frames, frames_last i post mid _ h]
    rfl

theorem frames_split (p : List Blk) (j : Image) (bs : List Blk) : ∀ (gr : Graphic),
    frames gr (p ++ .image j :: bs) = frames gr (p ++ [.image j]) ++ frames .default bs := by
  induction p with
  | nil => intro gr; rfl
  | cons b p ih =>
    intro gr
    cases b with
    | control c => exact ih _
    | ext l x => exact ih _
    | image i => simp only [List.cons_append, frames, ih]
    | unknown t x => exact ih _

/-- An image and what is between it and the image before it determine its frame. -/
theorem frames_local {pre mid post : List Blk} {i : Image} (hpre : pre = [] ∨ ∃ p j, pre = p ++ [.image j])
    (hmid : images mid = []) (gr : Graphic) (hgr : pre = [] → gr = .default) :
    frames gr (pre ++ mid ++ .image i :: post) = frames gr pre ++ (lastGraphic mid, i) :: frames .default post := by
  rcases hpre with rfl | ⟨p, j, rfl⟩
  · rw [hgr rfl]
    exact frames_last i post mid _ hmid
  · have := frames_split p j (mid ++ .image i :: post) gr
    simp only [List.append_assoc, List.cons_append, List.nil_append] at this ⊢
    rw [this, frames_last i post mid _ hmid]
    rfl

/-- `images` counts the frames. -/
theorem images_length (gr : Graphic) (bs : List Blk) : (images bs).length = (frames gr bs).length := by
  rw [← frames_images bs gr, List.length_map]

theorem showAll_length {C : Codec} (K : C.Contract) (o : DecodeOptions) (g : File) :
    ∀ (xs : List (Graphic × Image)) (pxs : List (List UInt8)), g.ShowAll K o xs pxs → pxs.length = xs.length
  | [], [], _ => rfl
  | [], _ :: _, h => h.elim
  | _ :: _, [], h => h.elim
  | _ :: xs, _ :: pxs, h => by rw [List.length_cons, List.length_cons, showAll_length K o g xs pxs h.2]

end Spec

namespace Decoder

variable {C : Codec}

/-- C43: the frame of an image is what the image and the control extensions since the image before it say, whatever is
before and after them. What is missing: the files that C04 excludes; for files with an empty extension the claim is false. -/
theorem metadata_local_partial (K : C.Contract) {o : DecodeOptions} (hs : o.skipFrameDecoding = false)
    (hce : o.checkForEndCode = false) {g : Spec.File} (hg : g.Readable o) {pxs : List (List UInt8)}
    (hpx : g.ShowAll K o g.frames pxs) {junk : List UInt8} {r : Reader} (hr : r.Reliable)
    (hb : r.bytes = g.render ++ junk) {pre mid post : List Spec.Blk} {i : Spec.Image}
    (hbs : g.blocks = pre ++ mid ++ .image i :: post) (hpre : pre = [] ∨ ∃ p j, pre = p ++ [.image j])
    (hmid : Spec.images mid = []) :
    ∃ f v px, (sessionFrom C o r (List.replicate g.frames.length .read))[(Spec.images pre).length + 1]? =
        some (.frame (some f) v) ∧ pxs[(Spec.images pre).length]? = some px ∧
      f = { left := i.left, top := i.top, width := i.width, height := i.height, palette := i.table, interlaced := false
            delay := (Spec.lastGraphic mid).delay
            dispose := Spec.disposalOf (Spec.lastGraphic mid).disposal
            transparent := (Spec.lastGraphic mid).transparent
            needsUserInput := (Spec.lastGraphic mid).userInput
            buffer := f.buffer
            ownedCap := f.ownedCap } := by
  have h := grammar_frames_partial K hs hce hg hpx hr hb 0
  have hf : g.frames = Spec.frames .default pre ++ (Spec.lastGraphic mid, i) :: Spec.frames .default post := by
    unfold Spec.File.frames
    rw [hbs]
    exact Spec.frames_local hpre hmid _ (fun _ => rfl)
  have hl := Spec.showAll_length K o g _ _ hpx
  have hlt : (Spec.images pre).length < g.frames.length := by
    rw [Spec.images_length .default, hf]
    simp
  have hget : g.frames[(Spec.images pre).length]? = some (Spec.lastGraphic mid, i) := by
    rw [Spec.images_length .default, hf]
    simp
  have hpl : pxs[(Spec.images pre).length]? = some (pxs[(Spec.images pre).length]'(by omega)) := List.getElem?_eq_getElem _
  refine ⟨Spec.shown o.colorOutput g.table (Spec.rawFrame (Spec.lastGraphic mid, i)) (pxs[(Spec.images pre).length]'(by omega)),
    g.view (Spec.shown o.colorOutput g.table (Spec.rawFrame (Spec.lastGraphic mid, i)) (pxs[(Spec.images pre).length]'(by omega))),
    _, ?_, hpl, rfl⟩
  rw [Nat.add_zero] at h
  rw [h]
  unfold Spec.File.screenplay Spec.File.pictures
  rw [List.replicate_zero, List.append_nil, List.getElem?_cons_succ, List.getElem?_map, List.getElem?_zipWith, hget, hpl]
  rfl

/-- C43 with `skip_frame_decoding`. -/
theorem metadata_local_raw_partial (hS : C.Safe) {o : DecodeOptions} {g : Spec.File} (hg : g.Readable o)
    (hacc : ∀ x ∈ g.frames, g.verdict o x.2 = none) {junk : List UInt8} {r : Reader} (hr : r.Reliable)
    (hb : r.bytes = g.render ++ junk) {pre mid post : List Spec.Blk} {i : Spec.Image}
    (hbs : g.blocks = pre ++ mid ++ .image i :: post) (hpre : pre = [] ∨ ∃ p j, pre = p ++ [.image j])
    (hmid : Spec.images mid = []) :
    ∃ v, (rawFilm C o r g.frames.length)[(Spec.images pre).length + 1]? = some (.frame (some
      { left := i.left, top := i.top, width := i.width, height := i.height, palette := i.table, interlaced := i.interlaced
        delay := (Spec.lastGraphic mid).delay
        dispose := Spec.disposalOf (Spec.lastGraphic mid).disposal
        transparent := (Spec.lastGraphic mid).transparent
        needsUserInput := (Spec.lastGraphic mid).userInput
        buffer := i.minCode :: i.subs.flatten
        ownedCap := some (i.subs.flatten.length + 1) }) v) := by
  have h := grammar_raw_frames hS hg hacc hr hb 0
  have hf : g.frames = Spec.frames .default pre ++ (Spec.lastGraphic mid, i) :: Spec.frames .default post := by
    unfold Spec.File.frames
    rw [hbs]
    exact Spec.frames_local hpre hmid _ (fun _ => rfl)
  have hget : g.frames[(Spec.images pre).length]? = some (Spec.lastGraphic mid, i) := by
    rw [Spec.images_length .default, hf]
    simp
  refine ⟨g.view (Spec.rawFrame (Spec.lastGraphic mid, i)), ?_⟩
  rw [Nat.add_zero] at h
  rw [h]
  unfold Spec.File.screenplay
  rw [List.replicate_zero, List.append_nil, List.getElem?_cons_succ, List.getElem?_map, List.getElem?_map, hget]
  rfl

end Decoder

end Gif
