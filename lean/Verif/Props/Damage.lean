import Verif.Lemmas.Free
import Verif.Props.RoundTripApi
/-!
C64: what is damaged behind a frame does not affect the frame.
-/

namespace Gif

open Spec (Pixels rawFrames ExpandAll Expands watch)

namespace Decoder

variable {C : Codec}

theorem frames_cons {bs : List Spec.Blk} {gr : Spec.Graphic} (h : Spec.frames gr bs ≠ []) : bs ≠ [] := by
  rintro rfl
  exact h rfl

/-- At least the trailer is left, and more before an image. -/
theorem here_length {junk : List UInt8} {s : SD C} {bs : List Spec.Blk} {l : List UInt8} (h : SD.Here junk s bs l) :
    1 ≤ l.length ∧ ∀ gr, Spec.frames gr bs ≠ [] → 2 ≤ l.length := by
  cases h with
  | blocks bs h =>
    rw [List.length_append, List.length_cons]
    refine ⟨by omega, fun gr hf => ?_⟩
    cases bs with
    | nil => exact absurd rfl hf
    | cons b bs =>
      have : 1 ≤ (Spec.renderBlks (b :: bs)).length := by
        cases b with
        | control c => simp [Spec.renderBlks, Spec.Blk.render, Spec.Control.render]
        | ext l subs => simp [Spec.renderBlks, Spec.Blk.render]
        | image i => simp [Spec.renderBlks, Spec.Blk.render, Spec.Image.render, Spec.Image.renderHead]
        | unknown t subs => simp [Spec.renderBlks, Spec.Blk.render]
      omega
  | image i bs h =>
    have : 1 ≤ i.render.tail.length := by
      simp [Spec.Image.render, Spec.Image.renderHead, Spec.le16]
    simp only [List.length_append, List.length_cons]
    exact ⟨by omega, fun _ _ => by omega⟩
  | unknown t subs bs h =>
    have : 1 ≤ (Spec.renderSubs subs).length := by
      simp [Spec.renderSubs]
    simp only [List.length_append, List.length_cons]
    exact ⟨by omega, fun _ _ => by omega⟩
  | trailer h =>
    simp only [List.length_cons]
    exact ⟨by omega, fun gr hf => absurd rfl hf⟩

/-- A decoder that reads a file without its trailer does what one with the whole file does. -/
theorem stage_cut (hS : C.Safe) {o : DecodeOptions} {g : Spec.File} :
    ∀ (xs : List (Spec.Graphic × Spec.Image)) {d1 d2 : Decoder C}, Cut [0x3B] d1 d2 → Stage o g [] d2 xs →
    (∀ x ∈ xs, g.verdict o x.2 = none) → d2.rd.sd.skipFrameDecoding = true →
    session (List.replicate xs.length .read) d1 = session (List.replicate xs.length .read) d2
  | [], d1, d2, _, _, _, _ => rfl
  | x :: xs, d1, d2, h, hst, hacc, hk => by
    have hk1 : d1.rd.sd.skipFrameDecoding = true := by rw [h.sd]; exact hk
    have hread := stage_read hS hst
    unfold StageRead at hread
    simp only [hacc x List.mem_cons_self] at hread
    obtain ⟨e1, e2, e3⟩ := hread
    obtain ⟨b1, b2, b3⟩ := read_consumed hS h.inv2 h.rel2 hk e1
    have hlen : 1 ≤ d2.readNextFrame.1.rd.reader.bytes.length := by
      cases e3 with
      | at_ gr bs hi hr he hb hh hbs hl hv => exact (here_length hl).1
      | done he hb hv => rw [b2] at he; cases he
    have ho := readNextFrame_opts hS d2 h.inv2
    simp only [SD.opts, Prod.mk.injEq] at ho
    rcases cut_read hS h hk1 with ⟨hc, hcut⟩ | ⟨_, hc⟩
    · rw [List.length_cons, List.replicate_succ]
      have hok : d1.readNextFrame.2 = .ok (some (Spec.rawFrame x)) := hc.trans e1
      replace hcut := hcut _ hok
      have ih := stage_cut hS xs hcut e3 (fun y hy => hacc y (List.mem_cons_of_mem _ hy)) (ho.1.trans hk)
      simp only [session, see]
      have hv := cut_view hcut
      generalize d1.readNextFrame = x1 at *
      generalize d2.readNextFrame = x2 at *
      obtain ⟨d1', out1⟩ := x1
      obtain ⟨d2', out2⟩ := x2
      simp only at *
      subst hok e1
      simp only [ih, hv]
    · have := read_behind hS h hk1 hc e1
      simp only [List.length_cons, List.length_nil] at this
      omega

/-- **C64** with `skip_frame_decoding`: header and images are read, whatever is behind them: nothing, a trailer, the beginning of
another block, garbage. -/
theorem damage_raw (hS : C.Safe) {o : DecodeOptions} {g : Spec.File} (hg : g.Readable o) (hne : g.frames ≠ [])
    (hacc : ∀ x ∈ g.frames, g.verdict o x.2 = none) {rest : List UInt8} {r : Reader} (hr : r.Reliable)
    (hb : r.bytes = g.renderHead ++ Spec.renderBlks g.blocks ++ rest) :
    rawFilm C o r g.frames.length = g.screenplay (g.frames.map Spec.rawFrame) 0 := by
  -- the whole file
  have hwhole : ∀ r2 : Reader, r2.Reliable → r2.bytes = g.render →
      rawFilm C o r2 g.frames.length = g.screenplay (g.frames.map Spec.rawFrame) 0 := by
    intro r2 h2 hb2
    have := grammar_raw_frames hS hg hacc (junk := []) h2 (by rw [hb2, List.append_nil]) 0
    exact this
  -- without the trailer
  have hcut : ∀ r1 : Reader, r1.Reliable → r1.bytes = g.renderHead ++ Spec.renderBlks g.blocks →
      rawFilm C o r1 g.frames.length = g.screenplay (g.frames.map Spec.rawFrame) 0 := by
    intro r1 h1 hb1
    have h2 : (Reader.whole g.render).Reliable := Reader.whole_reliable _
    have hb2 : (Reader.whole g.render).bytes = r1.bytes ++ [0x3B] := by
      rw [Reader.whole_bytes, hb1]; simp [Spec.File.render]
    rw [← hwhole _ h2 (Reader.whole_bytes _)]
    generalize Reader.whole g.render = r2 at *
    have hb2' : r2.bytes = g.render ++ [] := by
      rw [hb2, hb1]; simp [Spec.File.render]
    have hg' : g.Readable { o with skipFrameDecoding := true } := hg.congr rfl rfl
    obtain ⟨k1, _, k3, _⟩ := stage_open (C := C) hS (o := { o with skipFrameDecoding := true }) rfl hg' h2 hb2'
    have hlen : 2 ≤ (readInfo C { o with skipFrameDecoding := true } r2).1.rd.reader.bytes.length := by
      generalize hxs : g.frames = xs at k3 hne
      cases k3 with
      | at_ gr bs hi hr he hb hh hbs hl hv => exact (here_length hl).2 gr hne
      | done he hb hv => exact absurd rfl hne
    have hskip := readInfo_skip (C := C) hS { o with skipFrameDecoding := true } r2
    have hcr := cut_readInfo (C := C) hS { o with skipFrameDecoding := true } h1 h2 hb2
    have hbe := open_behind (C := C) hS { o with skipFrameDecoding := true } h1 h2 hb2
    unfold rawFilm sessionFrom
    generalize readInfo C { o with skipFrameDecoding := true } r1 = x1 at *
    generalize readInfo C { o with skipFrameDecoding := true } r2 = x2 at *
    obtain ⟨d1, out1⟩ := x1
    obtain ⟨d2, out2⟩ := x2
    simp only at *
    subst k1
    rcases hcr with ⟨rfl, hc⟩ | ⟨_, rfl⟩
    · replace hc := hc rfl
      simp only
      rw [stage_cut hS g.frames hc k3 hacc hskip, cut_view hc]
    · have := hbe rfl rfl
      simp only [List.length_cons, List.length_nil] at this
      omega
  -- with anything behind
  have h1 := hcut (Reader.whole (g.renderHead ++ Spec.renderBlks g.blocks)) (Reader.whole_reliable _) (Reader.whole_bytes _)
  have h2 := truncated_prefix_partial (C := C) hS { o with skipFrameDecoding := true }
    (Reader.whole (g.renderHead ++ Spec.renderBlks g.blocks)) r (Reader.whole_reliable _) hr
    ⟨rest, by rw [Reader.whole_bytes, hb]⟩ (List.replicate g.frames.length .read) (.inr rfl)
  unfold rawFilm at h1 ⊢
  rcases h2 with h2 | ⟨k, _, h2⟩
  · rw [← h2]; exact h1
  · exfalso
    rw [h1] at h2
    have : (.failed (.io .unexpectedEof) : Seen) ∈ g.screenplay (g.frames.map Spec.rawFrame) 0 := by rw [h2]; simp
    simp [Spec.File.screenplay] at this

/-- `stage_cut` for `freeRead`. -/
theorem stage_cut_free (hS : C.Safe) {o : DecodeOptions} {g : Spec.File} :
    ∀ (xs : List (Spec.Graphic × Spec.Image)) {d1 d2 : Decoder C}, Cut [0x3B] d1 d2 → Stage o g [] d2 xs →
    (∀ x ∈ xs, g.headVerdict o x.2 = none) → d2.rd.sd.skipFrameDecoding = true →
    reads freeRead xs.length d1 = reads freeRead xs.length d2
  | [], d1, d2, _, _, _, _ => rfl
  | x :: xs, d1, d2, h, hst, hacc, hk => by
    have hk1 : d1.rd.sd.skipFrameDecoding = true := by rw [h.sd]; exact hk
    have hread := stage_free hS hst
    unfold StageFree at hread
    simp only [hacc x List.mem_cons_self] at hread
    obtain ⟨e1, e2, e3⟩ := hread
    obtain ⟨b1, b2, b3⟩ := free_consumed hS h.inv2 h.rel2 hk e1
    have hlen : 1 ≤ d2.freeRead.1.rd.reader.bytes.length := by
      cases e3 with
      | at_ gr bs hi hr he hb hh hbs hl hv => exact (here_length hl).1
      | done he hb hv => rw [b2] at he; cases he
    have ho := free_skip hS h.inv2 h.rel2 hk e1
    rcases cut_free hS h hk1 with ⟨hc, hcut⟩ | ⟨_, hc⟩
    · have hok : d1.freeRead.2 = .ok (some (Spec.rawFrame x)) := hc.trans e1
      replace hcut := hcut _ hok
      have ih := stage_cut_free hS xs hcut e3 (fun y hy => hacc y (List.mem_cons_of_mem _ hy)) ho
      simp only [List.length_cons, reads]
      have hv := cut_view hcut
      generalize d1.freeRead = x1 at *
      generalize d2.freeRead = x2 at *
      obtain ⟨d1', out1⟩ := x1
      obtain ⟨d2', out2⟩ := x2
      simp only at *
      subst hok e1
      simp only [ih, hv]
    · have := free_behind hS h hk1 hc e1
      simp only [List.length_cons, List.length_nil] at this
      omega

/-- `damage_raw` for `freeRead`: the data may be longer than the memory limit allows. -/
theorem damage_free (hS : C.Safe) {o : DecodeOptions} {g : Spec.File} (hg : g.Readable o) (hne : g.frames ≠ [])
    (hacc : ∀ x ∈ g.frames, g.headVerdict o x.2 = none) {rest : List UInt8} {r : Reader} (hr : r.Reliable)
    (hb : r.bytes = g.renderHead ++ Spec.renderBlks g.blocks ++ rest) :
    ghostFilm (C := C) freeRead o r g.frames.length = g.screenplay (g.frames.map Spec.rawFrame) 0 := by
  -- the whole file
  have hwhole : ∀ r2 : Reader, r2.Reliable → r2.bytes = g.render →
      ghostFilm (C := C) freeRead o r2 g.frames.length = g.screenplay (g.frames.map Spec.rawFrame) 0 := by
    intro r2 h2 hb2
    have hacc' : ∀ x ∈ g.frames, g.verdict { o with memoryLimit := .unlimited } x.2 = none := fun x hx => by
      rw [verdict_unlimited]; exact hacc x hx
    rw [grammar_free hS hg h2 (junk := []) (by rw [hb2, List.append_nil]) g.frames.length]
    have := Spec.reel_accept { o with memoryLimit := .unlimited } g 0 g.frames Frame.default hacc'
    rw [Nat.add_zero] at this
    rw [this]
    simp only [Spec.File.screenplay, List.map_map, List.cons_append]
    rfl
  -- without the trailer
  have hcut : ∀ r1 : Reader, r1.Reliable → r1.bytes = g.renderHead ++ Spec.renderBlks g.blocks →
      ghostFilm (C := C) freeRead o r1 g.frames.length = g.screenplay (g.frames.map Spec.rawFrame) 0 := by
    intro r1 h1 hb1
    have h2 : (Reader.whole g.render).Reliable := Reader.whole_reliable _
    have hb2 : (Reader.whole g.render).bytes = r1.bytes ++ [0x3B] := by
      rw [Reader.whole_bytes, hb1]; simp [Spec.File.render]
    rw [← hwhole _ h2 (Reader.whole_bytes _)]
    generalize Reader.whole g.render = r2 at *
    have hb2' : r2.bytes = g.render ++ [] := by
      rw [hb2, hb1]; simp [Spec.File.render]
    have hg' : g.Readable { o with skipFrameDecoding := true } := hg.congr rfl rfl
    obtain ⟨k1, _, k3, _⟩ := stage_open (C := C) hS (o := { o with skipFrameDecoding := true }) rfl hg' h2 hb2'
    have hlen : 2 ≤ (readInfo C { o with skipFrameDecoding := true } r2).1.rd.reader.bytes.length := by
      generalize hxs : g.frames = xs at k3 hne
      cases k3 with
      | at_ gr bs hi hr he hb hh hbs hl hv => exact (here_length hl).2 gr hne
      | done he hb hv => exact absurd rfl hne
    have hskip := readInfo_skip (C := C) hS { o with skipFrameDecoding := true } r2
    have hcr := cut_readInfo (C := C) hS { o with skipFrameDecoding := true } h1 h2 hb2
    have hbe := open_behind (C := C) hS { o with skipFrameDecoding := true } h1 h2 hb2
    unfold ghostFilm
    generalize readInfo C { o with skipFrameDecoding := true } r1 = x1 at *
    generalize readInfo C { o with skipFrameDecoding := true } r2 = x2 at *
    obtain ⟨d1, out1⟩ := x1
    obtain ⟨d2, out2⟩ := x2
    simp only at *
    subst k1
    rcases hcr with ⟨rfl, hc⟩ | ⟨_, rfl⟩
    · replace hc := hc rfl
      simp only
      rw [stage_cut_free hS g.frames hc k3 hacc hskip, cut_view hc]
    · have := hbe rfl rfl
      simp only [List.length_cons, List.length_nil] at this
      omega
  -- with anything behind
  have h1 := hcut (Reader.whole (g.renderHead ++ Spec.renderBlks g.blocks)) (Reader.whole_reliable _) (Reader.whole_bytes _)
  rcases cut_ghostFilm (C := C) hS o (r1 := Reader.whole (g.renderHead ++ Spec.renderBlks g.blocks)) (r2 := r)
    (Reader.whole_reliable _) hr (q := rest) (by rw [Reader.whole_bytes, hb]) g.frames.length with h2 | ⟨_, k, h2, _⟩
  · rw [← h2]; exact h1
  · exfalso
    rw [h1] at h2
    have : (.failed (.io .unexpectedEof) : Seen) ∈ g.screenplay (g.frames.map Spec.rawFrame) 0 := by rw [h2]; simp
    simp [Spec.File.screenplay] at this

/-- **C64** with the pixels. -/
theorem damage_frames (K : C.Contract) {o : DecodeOptions} (hs : o.skipFrameDecoding = false)
    (hce : o.checkForEndCode = false) {g : Spec.File} (hg : g.Readable o) (hne : g.frames ≠ []) {pxs : List (List UInt8)}
    (hpx : g.ShowAll K o g.frames pxs) {rest : List UInt8} {r : Reader} (hr : r.Reliable)
    (hb : r.bytes = g.renderHead ++ Spec.renderBlks g.blocks ++ rest) :
    sessionFrom C o r (List.replicate g.frames.length .read) = g.screenplay (g.pictures o.colorOutput pxs) 0 := by
  obtain ⟨outs, h1, h2, h3⟩ := Spec.showAll_expand K o g _ _ hpx
  have hacc := fun x hx => Spec.showAll_verdict K o g _ _ hpx x hx
  have hraw := damage_free K.safe hg hne hacc hr hb
  have hw := follows_nil (filmFrom_free K o hs hce hr hr (more := []) (by simp) (List.replicate g.frames.length .read)
    g.frames.length (Nat.le_of_eq (seeks_reads _)) outs ?_ ?_ (.inl h2))
  · rw [hraw] at hw
    simp only [Spec.File.screenplay, List.map_map, List.cons_append] at hw
    have := Spec.watch_reads K o g 0 g.frames outs (g.view Frame.default) Frame.default rfl (h1 ▸ hpx) h2
    rw [filmFrom_reads] at hw
    have inj : ∀ {a b : List Seen}, a.map Got.seen = b.map Got.seen → a = b :=
      fun h => (List.map_inj_right (fun a b h => by cases h; rfl)).1 h
    refine inj (hw.trans ?_)
    rw [h1] at this
    simp only [Spec.File.screenplay, Spec.File.pictures, List.map_cons, List.map_append, List.map_map, List.map_replicate,
      List.cons_append]
    congr 1
    exact this _
  · intro e he
    rw [hraw] at he
    simp [Spec.File.screenplay] at he
  · rw [hraw]
    simp only [Spec.File.screenplay, List.cons_append]
    show ExpandAll K (rawFrames (_ ++ _)) outs
    rw [Spec.rawFrames_append, Spec.rawFrames_none, List.append_nil, Spec.rawFrames_map, List.map_id']
    exact h3

end Decoder

/-! ## Writers that fail -/

namespace Spec

/-- Stopping at the first error of the writer. -/
theorem written_stop {g : Bool} (code : Nat) (tail : List EncOp) : ∀ (ops : List EncOp),
    written (ops ++ tail) (ops.map (opResult g) ++ [.err (.io (.writer code))]) = written ops (ops.map (opResult g))
  | [] => by
    cases tail with
    | nil => rfl
    | cons op tail =>
      show written (op :: tail) [_] = []
      rw [written, if_neg (fun h => by cases h.2)]
      cases tail <;> rfl
  | op :: ops => by
    rw [List.map_cons, List.cons_append, List.cons_append, written, written, written_stop code tail ops]

theorem written_end (tail : List EncOp) : ∀ (ops : List EncOp) (rs : List (EOut Unit)), rs.length = ops.length →
    written (ops ++ tail) rs = written ops rs
  | [], [], _ => by cases tail <;> rfl
  | op :: ops, [], h => by cases h
  | [], r :: rs, h => by cases h
  | op :: ops, r :: rs, h => by
    rw [List.cons_append, written, written, written_end tail ops rs (by simpa using h)]

theorem repetitions_more {g : Bool} (tail : List EncOp) (more : List (EOut Unit)) : ∀ (ops : List EncOp) (cur : Repeat),
    written ops (ops.map (opResult g)) ≠ [] →
    repetitions (ops ++ tail) (ops.map (opResult g) ++ more) cur = repetitions ops (ops.map (opResult g)) cur
  | [], _, h => absurd rfl h
  | op :: ops, cur, h => by
    rw [List.map_cons, List.cons_append, List.cons_append, repetitions, repetitions]
    by_cases hop : isFrame op = true ∧ opResult g op = .ok ()
    · rw [if_pos hop, if_pos hop]
    · rw [if_neg hop, if_neg hop]
      refine repetitions_more tail more ops _ ?_
      rw [List.map_cons, written, if_neg hop] at h
      exact h

end Spec

open Spec Encoder

variable {C : Codec}

/-- What a writer has received when it fails. -/
theorem until_io (C : Codec) : ∀ (ops : List EncOp) (e : Encoder) (s : Sink), e.w = some s → (∀ op ∈ ops, op.Sane) →
    ∃ (a b : List EncOp) (pre : List UInt8) (s' : Sink), ops = a ++ b ∧ (runUntilIo C e ops).1.w = some s' ∧
      s'.written = s.written ++ renderBlks (a.flatMap (opBlks C e.globalPalette)) ++ pre ∧
      ((runUntilIo C e ops).2 = a.map (opResult e.globalPalette) ∨
        ∃ code, (runUntilIo C e ops).2 = a.map (opResult e.globalPalette) ++ [.err (.io (.writer code))]) := by
  intro ops
  induction ops with
  | nil => intro e s hs _; exact ⟨[], [], [], s, rfl, hs, by simp [renderBlks], .inl rfl⟩
  | cons op ops ih =>
    intro e s hs hsane
    have d := does_op C e op (by simp [hs]) (hsane op (by simp))
    rcases d.cases hs with ⟨s', _, h2, h3, h4⟩ | ⟨s', code, pre, _, h2, h3, _, _, _, h7⟩
    · obtain ⟨a, b, pre, s2, k1, k2, k3, k4⟩ := ih (op.run C e).1 s' h2 (fun o ho => hsane o (by simp [ho]))
      have hpal := d.palette
      rw [hpal] at k3 k4
      by_cases hio : ∃ code, opResult e.globalPalette op = .err (.io (.writer code))
      · obtain ⟨code, hio⟩ := hio
        rcases hx : op.run C e with ⟨e', r⟩
        rw [hx] at h2 h4
        simp only at h2 h4
        rw [hio] at h4
        subst h4
        rw [runUntilIo, hx]
        refine ⟨[op], ops, [], s', rfl, h2, ?_, .inl ?_⟩
        · rw [h3, opChunks_flatten]; simp
        · simp [hio]
      · have hstep : runUntilIo C e (op :: ops) =
            ((runUntilIo C (op.run C e).1 ops).1, (op.run C e).2 :: (runUntilIo C (op.run C e).1 ops).2) := by
          rw [runUntilIo]
          rcases hr : op.run C e with ⟨e', r⟩
          rw [hr] at h4
          simp only at h4
          cases r with
          | ok a => rfl
          | panic => rfl
          | err x =>
            cases x with
            | format y => rfl
            | io y =>
              cases y with
              | writer code => exact absurd ⟨code, h4.symm⟩ hio
              | _ => rfl
        rw [hstep]
        refine ⟨op :: a, b, pre, s2, by rw [k1, List.cons_append], k2, ?_, ?_⟩
        · rw [k3, h3, opChunks_flatten]; simp [renderBlks]
        · simp only [List.map_cons, h4, List.cons_append]
          rcases k4 with k4 | ⟨code, k4⟩
          · left; rw [k4]
          · right; exact ⟨code, by rw [k4]⟩
    · rcases hx : op.run C e with ⟨e', r⟩
      rw [hx] at h2 h7
      simp only at h2 h7
      subst h7
      rw [runUntilIo, hx]
      exact ⟨[], op :: ops, pre, s', rfl, h2, by simp [h3, renderBlks], .inr ⟨code, rfl⟩⟩

/-- `Encoder::new` on any writer. -/
theorem new_written (np : Bool) {s : Sink} {w h : UInt16} {pal : List UInt8} (hpal : pal.length / 3 ≤ 256) {e : Encoder}
    (hnew : Encoder.new np s w h pal = (e, .ok ())) (bs : List Blk) :
    ∃ s', e.w = some s' ∧ s'.written = s.written ++ (fileOf w h pal bs).renderHead ∧ e.globalPalette = decide (3 ≤ pal.length) := by
  have d := does_writeGlobalPalette s w h pal hpal
  have hx : Encoder.new np s w h pal =
      match (fresh s w h false).writeGlobalPalette pal with
      | (e, .ok ()) => (e, .ok ())
      | (e, .err err) =>
        match e.drop np with
        | (e, .panic) => (e, .panic)
        | (e, _) => (e, .err err)
      | (e, .panic) => (e, .panic) := rfl
  rw [hx] at hnew
  rcases d.cases rfl with ⟨s', _, h2, h3, h4⟩ | ⟨s', code, pre, _, h2, h3, _, _, _, h7⟩
  · have hp := d.palette
    generalize (fresh s w h false).writeGlobalPalette pal = x at *
    obtain ⟨e', r⟩ := x
    simp only at *
    subst h4
    simp only [Prod.mk.injEq, and_true] at hnew
    subst hnew
    exact ⟨s', h2, by rw [h3, headerChunks_flatten w h pal hpal bs], hp⟩
  · generalize (fresh s w h false).writeGlobalPalette pal = x at *
    obtain ⟨e', r⟩ := x
    simp only at *
    subst h7
    simp only at hnew
    generalize e'.drop np = y at hnew
    obtain ⟨e'', r⟩ := y
    cases r <;> simp at hnew

/-- What a failing writer holds is a file of the encoder without its trailer, then something. -/
theorem survived (np : Bool) {s : Sink} (hs : s.written = []) {w h : UInt16} {pal : List UInt8} (hpal : pal.length / 3 ≤ 256)
    {e e' : Encoder} {s' : Sink} {ops : List EncOp} (hsane : ∀ op ∈ ops, op.Sane) {rs : List (EOut Unit)}
    (hnew : Encoder.new np s w h pal = (e, .ok ())) (hrun : runUntilIo C e ops = (e', rs)) (hw : e'.w = some s')
    (hne : written ops rs ≠ []) :
    ∃ a b pre, ops = a ++ b ∧ s'.written = (madeFile C w h pal a).renderHead ++ renderBlks (madeFile C w h pal a).blocks ++ pre ∧
      written ops rs = written a (a.map (opResult (3 ≤ pal.length))) ∧
      repetitions ops rs (.finite 0) = repetitions a (a.map (opResult (3 ≤ pal.length))) (.finite 0) := by
  obtain ⟨s1, h1, _, h3⟩ := new_written np hpal hnew []
  obtain ⟨a, b, pre, s2, k1, k2, k3, k4⟩ := until_io C ops e s1 h1 hsane
  obtain ⟨s1', h1', h2', _⟩ := new_written np hpal hnew (a.flatMap (opBlks C (3 ≤ pal.length)))
  rw [h1] at h1'
  cases h1'
  rw [hrun] at k2 k4
  simp only at k2 k4
  rw [hw] at k2
  cases k2
  rw [h3] at k3 k4
  have hwr : written ops rs = written a (a.map (opResult (3 ≤ pal.length))) := by
    rw [k1]
    rcases k4 with k4 | ⟨code, k4⟩
    · rw [k4, written_end b a _ (by simp)]
    · rw [k4, written_stop]
  refine ⟨a, b, pre, k1, ?_, hwr, ?_⟩
  · rw [k3, h2', hs, List.nil_append]; rfl
  · rw [hwr] at hne
    rw [k1]
    rcases k4 with k4 | ⟨code, k4⟩
    · rw [k4]
      have := repetitions_more b [] a (.finite 0) hne
      rwa [List.append_nil] at this
    · rw [k4]
      exact repetitions_more b _ a (.finite 0) hne

/-- **C64** for writers that fail, with `skip_frame_decoding`: all frames for which `write_frame` or
`write_lzw_pre_encoded_frame` returned `Ok` can be read from what the writer has received, whatever has been written behind them. -/
theorem crash_raw (K : C.Contract) {o : DecodeOptions} (np : Bool) {s : Sink} (hs : s.written = []) {w h : UInt16}
    {pal : List UInt8} (hpal : pal.length / 3 ≤ 256) {ops : List EncOp} (hsane : ∀ op ∈ ops, op.Sane)
    (hpl : ∀ op ∈ ops, Plain o op) {e e' : Encoder} {s' : Sink} {rs : List (EOut Unit)}
    (hnew : Encoder.new np s w h pal = (e, .ok ())) (hrun : runUntilIo C e ops = (e', rs)) (hw : e'.w = some s')
    (had : ∀ op ∈ written ops rs, Admissible C o w h op) (hld : ∀ op ∈ written ops rs, Held C o op) (hne : written ops rs ≠ []) {rest : List UInt8} {r : Reader}
    (hr : r.Reliable) (hb : r.bytes = s'.written ++ rest) :
    Decoder.rawFilm C o r (written ops rs).length =
      projection w h pal (repetitions ops rs (.finite 0)) ((written ops rs).map fun op => readRaw (compressed C op)) 0 := by
  obtain ⟨a, b, pre, k1, k2, k3, k4⟩ := survived np hs hpal hsane hnew hrun hw hne
  rw [k3] at had hld hne ⊢
  rw [k4]
  have hsane' : ∀ op ∈ a, op.Sane := fun op ho => hsane op (by rw [k1]; exact List.mem_append_left _ ho)
  have hpl' : ∀ op ∈ a, Plain o op := fun op ho => hpl op (by rw [k1]; exact List.mem_append_left _ ho)
  have henc := encodeFile_eq C np w h pal a hpal hsane'
  have hch := made_changed (C := C) np hpal hsane' henc hne
  have hfr := made_frames (C := C) w h pal a
  have hrd := made_readable K (h := h) hpal hpl' had (made_blocks np hpal hch)
  have hacc : ∀ x ∈ (madeFile C w h pal a).frames, (madeFile C w h pal a).verdict o x.2 = none := by
    rw [hfr]
    intro x hx
    obtain ⟨op, hop, rfl⟩ := List.mem_map.mp hx
    obtain ⟨_, m2, m3⟩ := written_mem _ a op hop
    exact made_held K m2 m3 (had op hop) (hld op hop)
  have hlen : (madeFile C w h pal a).frames.length = (written a (a.map (opResult (3 ≤ pal.length)))).length := by
    rw [hfr, List.length_map]
  have h1 := Decoder.damage_raw (C := C) K.safe hrd (by rw [hfr]; simpa using hne) hacc hr
    (rest := pre ++ rest) (by rw [hb, k2]; simp)
  have h2 := Decoder.grammar_raw_frames (C := C) K.safe hrd hacc (Reader.whole_reliable _) (junk := [])
    (by rw [Reader.whole_bytes, List.append_nil]) 0
  rw [Nat.add_zero] at h2
  have h3 := roundtrip_raw K np hpal hsane' hpl' henc had hld hch (Reader.whole_reliable _) (junk := [])
    (by rw [Reader.whole_bytes, List.append_nil]) 0
  rw [← hlen, h1, ← h2, hlen]
  exact h3

/-- **C64** for writers that fail, with the pixels. -/
theorem crash_pixels (K : C.Contract) {o : DecodeOptions} (hsk : o.skipFrameDecoding = false) (hce : o.checkForEndCode = false)
    (np : Bool) {s : Sink} (hs : s.written = []) {w h : UInt16}
    {pal : List UInt8} (hpal : pal.length / 3 ≤ 256) {ops : List EncOp} (hsane : ∀ op ∈ ops, op.Sane)
    (hpl : ∀ op ∈ ops, Plain o op) {e e' : Encoder} {s' : Sink} {rs : List (EOut Unit)}
    (hnew : Encoder.new np s w h pal = (e, .ok ())) (hrun : runUntilIo C e ops = (e', rs)) (hw : e'.w = some s')
    (had : ∀ op ∈ written ops rs, Admissible C o w h op) (hne : written ops rs ≠ []) {pxs : List (List UInt8)}
    (hc : Contents K o (written ops rs) pxs) {rest : List UInt8} {r : Reader}
    (hr : r.Reliable) (hb : r.bytes = s'.written ++ rest) :
    Decoder.sessionFrom C o r (List.replicate (written ops rs).length .read) =
      projection w h pal (repetitions ops rs (.finite 0))
        (List.zipWith (fun op px => readBack o.colorOutput pal (compressed C op) px) (written ops rs) pxs) 0 := by
  obtain ⟨a, b, pre, k1, k2, k3, k4⟩ := survived np hs hpal hsane hnew hrun hw hne
  rw [k3] at had hne hc ⊢
  rw [k4]
  have hsane' : ∀ op ∈ a, op.Sane := fun op ho => hsane op (by rw [k1]; exact List.mem_append_left _ ho)
  have hpl' : ∀ op ∈ a, Plain o op := fun op ho => hpl op (by rw [k1]; exact List.mem_append_left _ ho)
  have henc := encodeFile_eq C np w h pal a hpal hsane'
  have hch := made_changed (C := C) np hpal hsane' henc hne
  have hfr := made_frames (C := C) w h pal a
  have hrd := made_readable K (h := h) hpal hpl' had (made_blocks np hpal hch)
  have hshow := contents_show K (pal := pal) (all := a) _ _ (fun op hop => by
    obtain ⟨_, m2, m3⟩ := written_mem _ a op hop
    exact ⟨m2, m3, had op hop⟩) hc
  rw [← hfr] at hshow
  have hlen : (madeFile C w h pal a).frames.length = (written a (a.map (opResult (3 ≤ pal.length)))).length := by
    rw [hfr, List.length_map]
  have h1 := Decoder.damage_frames (C := C) K hsk hce hrd (by rw [hfr]; simpa using hne) hshow hr
    (rest := pre ++ rest) (by rw [hb, k2]; simp)
  have h2 := Decoder.grammar_frames_partial (C := C) K hsk hce hrd hshow (Reader.whole_reliable _) (junk := [])
    (by rw [Reader.whole_bytes, List.append_nil]) 0
  rw [Nat.add_zero] at h2
  have h3 := roundtrip_pixels K hsk hce np hpal hsane' hpl' henc had hch hc (Reader.whole_reliable _) (junk := [])
    (by rw [Reader.whole_bytes, List.append_nil]) 0
  rw [← hlen, h1, ← h2, hlen]
  exact h3

end Gif
