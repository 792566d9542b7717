import Verif.Spec.Oversized
import Verif.Lemmas.NoOom
import Verif.Lemmas.Strict
import Verif.Lemmas.Twin
import Verif.Props.Film
import Verif.Props.Safety
/-!
# C77: frames that are larger than the memory limit can be skipped
-/

namespace Gif

namespace Spec

theorem bufferSize_none (c : ColorOutput) (w h : UInt16) (l : MemoryLimit) :
    l.bufferSize c w h = none ↔ ∃ n hn, l = .bytes n hn ∧ n < w.toNat * h.toNat * channels c := by
  have hw : w.toNat < 65536 := w.toNat_lt
  have hh : h.toNat < 65536 := h.toNat_lt
  have hp : w.toNat * h.toNat ≤ 65535 * 65535 := Nat.mul_le_mul (by omega) (by omega)
  unfold MemoryLimit.bufferSize MemoryLimit.bufferSizeOn
  cases c <;> cases l <;> simp only [channels]
  · rw [if_pos (by omega)]; simp
  · rw [if_pos (by omega)]
    split <;> simp_all
  · rw [if_pos (by omega)]; simp
  · rw [if_pos (by omega)]
    split <;> simp_all

end Spec

namespace Decoder

variable {C : Codec}

/-- In pixel mode the only reason for `OutOfMemory` is that the frame found is larger than the limit, and nothing has happened
beyond `next_frame_info`. -/
theorem oom_inv (hS : C.Safe) (d : Decoder C) (hi : d.Inv) (hk : d.rd.sd.skipFrameDecoding = false)
    (h : d.readNextFrame.2 = .ioErr .outOfMemory) :
    ∃ d1, d.nextFrameInfo = (d1, .ok true) ∧ d1.dataType = .pixels ∧
      d1.conv.memoryLimit.bufferSize d1.conv.colorOutput d1.currentFrame.width d1.currentFrame.height = none ∧
      d.readNextFrame = (d1, .ioErr .outOfMemory) := by
  have hr := nextFrameInfo_roomy d
  have ht := frameRun_type hS (nextFrameInfo_run hS d hi.rd) hi.rd hk
  generalize hx : d.nextFrameInfo = x at *
  obtain ⟨d1, out⟩ := x
  cases out with
  | ok b =>
    cases b with
    | true =>
      have ht := ht rfl
      simp only at ht
      refine ⟨d1, rfl, ht, ?_⟩
      rw [readNextFrame_pixels hx ht] at h ⊢
      unfold Converter.readFrame at h ⊢
      rcases Converter.checkBufferSize_cases d1.conv d1.currentFrame with ⟨h1, h2⟩ | ⟨h1, h2⟩
      · exfalso
        rw [h1] at h
        simp only at h
        have hn := Converter.readIntoBuffer_roomy RD.decodeNextBytes_roomy d1.conv { d1.currentFrame with buffer := [], ownedCap := none } d1.rd
          (Converter.frameBuffer d1.currentFrame (d1.conv.bufferSize d1.currentFrame))
        generalize d1.conv.readIntoBuffer { d1.currentFrame with buffer := [], ownedCap := none } RD.decodeNextBytes d1.rd
          (Converter.frameBuffer d1.currentFrame (d1.conv.bufferSize d1.currentFrame)) = y at *
        obtain ⟨rd, vec, out⟩ := y
        cases out with
        | ok u => cases h
        | err e => simp only at h; cases h; exact hn rfl
        | panic => cases h
        | diverge => cases h
      · rw [h1]
        refine ⟨?_, rfl⟩
        unfold Converter.checkBufferSize at h1
        split at h1
        · assumption
        · split at h1 <;> cases h1
    | false => unfold readNextFrame at h; rw [hx] at h; cases h
  | err e => unfold readNextFrame at h; rw [hx] at h; simp only at h; cases h; exact absurd rfl hr
  | panic => unfold readNextFrame at h; rw [hx] at h; cases h
  | diverge => unfold readNextFrame at h; rw [hx] at h; cases h

/-- A frame that is larger than the limit. -/
theorem big_oom {d d1 : Decoder C} (hx : d.nextFrameInfo = (d1, .ok true)) (ht : d1.dataType = .pixels)
    (hb : d1.conv.memoryLimit.bufferSize d1.conv.colorOutput d1.currentFrame.width d1.currentFrame.height = none) :
    d.readNextFrame = (d1, .ioErr .outOfMemory) := by
  rw [readNextFrame_pixels hx ht]
  unfold Converter.readFrame Converter.checkBufferSize
  rw [hb]

/-- **C77**: in pixel mode, `read_next_frame` reports `OutOfMemory` if and only if the next frame takes more bytes than the memory
limit, and then the decoder is in the state in which `next_frame_info` leaves it: whatever is called next gives what it gives
after a call of `next_frame_info`. -/
theorem oversized_is_skipped (hS : C.Safe) {o : DecodeOptions} {r : Reader} {d : Decoder C} (h : Reach o r d)
    (hk : o.skipFrameDecoding = false) :
    (d.readNextFrame.2 = .err (.io .outOfMemory) ↔ d.nextFrameInfo.2 = .ok true ∧ ∃ n hn, o.memoryLimit = .bytes n hn ∧
      Spec.Big o.colorOutput n d.nextFrameInfo.1.currentFrame) ∧
    (d.readNextFrame.2 = .err (.io .outOfMemory) → d.readNextFrame.1 = d.nextFrameInfo.1) := by
  obtain ⟨hi, hc, _⟩ := reach_inv hS h
  have hk' : d.rd.sd.skipFrameDecoding = false := (reach_skip hS h).trans hk
  obtain ⟨_, _, _, h4, _⟩ := frameRun_spec hS (nextFrameInfo_run hS d hi.rd) hi.rd
  have ht := frameRun_type hS (nextFrameInfo_run hS d hi.rd) hi.rd hk'
  have hconv := readInfo_conv hS o r
  refine ⟨⟨fun hx => ?_, fun ⟨hx, n, hn, hl, hb⟩ => ?_⟩, fun hx => ?_⟩
  · obtain ⟨d1, h1, h2, h3, _⟩ := oom_inv hS d hi hk' hx
    rw [h1] at h4 ⊢
    refine ⟨rfl, ?_⟩
    rw [Spec.bufferSize_none, h4, hc, hconv.1, hconv.2] at h3
    exact h3
  · have : d.nextFrameInfo = (d.nextFrameInfo.1, .ok true) := by rw [← hx]
    rw [big_oom this (ht hx)]
    rw [Spec.bufferSize_none, h4, hc, hconv.1, hconv.2]
    exact ⟨n, hn, hl, hb⟩
  · obtain ⟨d1, h1, _, _, h3⟩ := oom_inv hS d hi hk' hx
    rw [h3, h1]

/-- The frame read has the size that was announced. -/
theorem read_size {d d1 : Decoder C} (hx : d.nextFrameInfo = (d1, .ok true)) (ht : d1.dataType = .pixels) {d2 : Decoder C}
    {f : Option Frame} (h : d.readNextFrame = (d2, .ok f)) :
    ∃ g, f = some g ∧ g.width = d1.currentFrame.width ∧ g.height = d1.currentFrame.height := by
  rw [readNextFrame_pixels hx ht] at h
  unfold Converter.readFrame at h
  generalize d1.conv.checkBufferSize d1.currentFrame = x at h
  cases x with
  | ok n =>
    simp only at h
    generalize d1.conv.readIntoBuffer { d1.currentFrame with buffer := [], ownedCap := none } RD.decodeNextBytes d1.rd
      (Converter.frameBuffer d1.currentFrame n) = y at *
    obtain ⟨rd, vec, out⟩ := y
    cases out with
    | ok u => cases h; exact ⟨_, rfl, rfl, rfl⟩
    | err e => cases h
    | panic => cases h
    | diverge => cases h
  | err e => cases h
  | panic => cases h
  | diverge => cases h

/-- The calls that skip the large frames. -/
def mixed (c : ColorOutput) (n : Nat) (gs : List (Option Frame × View)) : List Act :=
  gs.map fun g => match g.1 with
    | some f => if Spec.Big c n f then .info else .read
    | none => .read

/-- What they give. -/
def Mixes (c : ColorOutput) (n : Nat) : List (Option Frame × View) → List Got → Prop
  | [], [] => True
  | (some f, _) :: gs, x :: xs =>
    (if Spec.Big c n f then ∃ w, x = .seen (.info true w) ∧ w.currentFrame.width = f.width ∧ w.currentFrame.height = f.height
      else ∃ w, x = .seen (.frame (some f) w)) ∧ Mixes c n gs xs
  | (none, _) :: gs, x :: xs => (∃ w, x = .seen (.frame none w)) ∧ Mixes c n gs xs
  | _, _ => False

theorem watch_mixed (c : ColorOutput) (lim : MemoryLimit) (n : Nat) : ∀ (gs : List (Option Frame × View)) (v v' : View)
    (live live' : Option (List UInt8)) (raw : List Seen) (outs : List Spec.Pixels),
    Spec.watch c lim (List.replicate gs.length .read) v live raw outs = gs.map (fun g => .seen (.frame g.1 g.2)) →
    Mixes c n gs (Spec.watch c lim (mixed c n gs) v' live' raw outs) := by
  intro gs
  induction gs with
  | nil => intro v v' live live' raw outs _; exact trivial
  | cons g gs ih =>
    intro v v' live live' raw outs h
    obtain ⟨g, w⟩ := g
    simp only [List.length_cons, List.replicate_succ, List.map_cons] at h
    match raw, outs, h with
    | .frame (some f) v0 :: raw, px :: outs, h =>
      simp only [Spec.watch] at h
      cases hd : Spec.deliver c lim v0.globalPalette f px with
      | ok g' =>
        rw [hd] at h
        simp only [List.cons.injEq, Got.seen.injEq, Seen.frame.injEq] at h
        obtain ⟨⟨rfl, _⟩, hrest⟩ := h
        have hg : g'.width = f.width ∧ g'.height = f.height := by
          unfold Spec.deliver at hd
          split at hd
          · cases hd
          · split at hd
            · cases hd
            · split at hd
              · cases hd
              · cases hd; exact ⟨rfl, rfl⟩
        by_cases hb : Spec.Big c n g'
        · have : mixed c n ((some g', w) :: gs) = .info :: mixed c n gs := by simp [mixed, hb]
          rw [this]
          simp only [Spec.watch, Mixes, if_pos hb]
          exact ⟨⟨_, rfl, hg.1.symm, hg.2.symm⟩, ih _ _ _ _ _ _ hrest⟩
        · have : mixed c n ((some g', w) :: gs) = .read :: mixed c n gs := by simp [mixed, hb]
          rw [this]
          simp only [Spec.watch, hd, Mixes, if_neg hb]
          exact ⟨⟨_, rfl⟩, ih _ _ _ _ _ _ hrest⟩
      | error e => rw [hd] at h; cases h
    | .frame (some f) v0 :: raw, [], h => simp [Spec.watch] at h
    | .frame none v0 :: raw, outs, h =>
      simp only [Spec.watch, List.cons.injEq, Got.seen.injEq, Seen.frame.injEq] at h
      obtain ⟨⟨rfl, _⟩, hrest⟩ := h
      have : mixed c n ((none, w) :: gs) = .read :: mixed c n gs := by simp [mixed]
      rw [this]
      simp only [Spec.watch, Mixes]
      exact ⟨⟨_, rfl⟩, ih _ _ _ _ _ _ hrest⟩
    | .failed e :: raw, outs, h => simp [Spec.watch] at h
    | [], outs, h => simp [Spec.watch] at h
    | .crashed :: raw, outs, h => simp [Spec.watch] at h
    | .opened _ :: raw, outs, h => simp [Spec.watch] at h
    | .info _ _ :: raw, outs, h => simp [Spec.watch] at h

/-- With no difference but the memory limit, there are two errors by which it shows. -/
theorem refusal_memory {l m : Policy} (h1 : l.checkForEndCode = m.checkForEndCode) (h2 : l.checkFrameConsistency = m.checkFrameConsistency)
    (h3 : l.allowUnknownBlocks = m.allowUnknownBlocks) {e : DecodingError} (h : Refusal l m e) :
    e = .format .memoryLimit ∨ e = .io .outOfMemory := by
  unfold Refusal at h
  split at h
  · exact .inl rfl
  · exact .inr rfl
  · rw [h1, h.2] at h; cases h.1
  · rw [h2, h.2] at h; cases h.1
  · rw [h3, h.2] at h; cases h.1
  · exact h.elim

theorem keep_mixed (hS : C.Safe) {l m : Policy} (hlm : l.Le m) (he1 : l.checkForEndCode = m.checkForEndCode)
    (he2 : l.checkFrameConsistency = m.checkFrameConsistency) (he3 : l.allowUnknownBlocks = m.allowUnknownBlocks)
    (c : ColorOutput) (n : Nat) (hn : 0 < n) (hl : l.memoryLimit = .bytes n hn) : ∀ (gs : List (Option Frame × View)) (d : Decoder C)
    (live : Bool), d.Inv → d.rd.sd.skipFrameDecoding = false → d.Limited l → d.conv.colorOutput = c →
    Mixes c n gs (film (mixed c n gs) (d.relax m) live) →
    keepReading gs.length d = gs.map (fun g => Spec.limited c n g.1) ∨
    ∃ k, k < gs.length ∧
      keepReading gs.length d = (gs.map (fun g => Spec.limited c n g.1)).take k ++ [.error (.format .memoryLimit)] := by
  intro gs
  induction gs with
  | nil => intro d live _ _ _ _ _; exact .inl rfl
  | cons g gs ih =>
    intro d live hi hk hd hc hx
    obtain ⟨g, w⟩ := g
    -- one step of the program
    have go : ∀ (x : Except DecodingError (Option Frame)) (d' : Decoder C), keepReading (gs.length + 1) d = x :: keepReading gs.length d' →
        x = Spec.limited c n g →
        (keepReading gs.length d' = gs.map (fun g => Spec.limited c n g.1) ∨ ∃ k, k < gs.length ∧
          keepReading gs.length d' = (gs.map (fun g => Spec.limited c n g.1)).take k ++ [.error (.format .memoryLimit)]) →
        keepReading (gs.length + 1) d = ((g, w) :: gs).map (fun g => Spec.limited c n g.1) ∨ ∃ k, k < gs.length + 1 ∧
          keepReading (gs.length + 1) d = (((g, w) :: gs).map (fun g => Spec.limited c n g.1)).take k ++ [.error (.format .memoryLimit)] := by
      rintro x d' h1 rfl (h2 | ⟨k, hk, h2⟩)
      · exact .inl (by rw [h1, h2]; rfl)
      · exact .inr ⟨k + 1, by omega, by rw [h1, h2]; rfl⟩
    have stop : ∀ d', d.readNextFrame = (d', .err (.format .memoryLimit)) →
        keepReading (gs.length + 1) d = ((g, w) :: gs).map (fun g => Spec.limited c n g.1) ∨ ∃ k, k < gs.length + 1 ∧
          keepReading (gs.length + 1) d = (((g, w) :: gs).map (fun g => Spec.limited c n g.1)).take k ++ [.error (.format .memoryLimit)] :=
      fun d' h => .inr ⟨0, by omega, by simp only [keepReading, h]; rfl⟩
    obtain ⟨hin, hret⟩ := inv_nextFrameInfo hS d hi
    obtain ⟨hl1, hl2⟩ := nextFrameInfo_relax hlm d hd
    obtain ⟨_, _, hop, hcv, _⟩ := frameRun_spec hS (nextFrameInfo_run hS d hi.rd) hi.rd
    have ht := frameRun_type hS (nextFrameInfo_run hS d hi.rd) hi.rd hk
    have hroom := nextFrameInfo_roomy d
    have hskip : ∀ d' : Decoder C, d'.rd.sd.opts = d.rd.sd.opts → d'.rd.sd.skipFrameDecoding = false := by
      intro d' h
      simp only [SD.opts, Prod.mk.injEq] at h
      exact h.1.trans hk
    -- a frame that is not large
    have reads : (∀ f, g = some f → ¬ Spec.Big c n f) → ∀ w' xs,
        film (.read :: mixed c n gs) (d.relax m) live = .seen (.frame g w') :: xs → Mixes c n gs xs →
        keepReading (gs.length + 1) d = ((g, w) :: gs).map (fun g => Spec.limited c n g.1) ∨ ∃ k, k < gs.length + 1 ∧
          keepReading (gs.length + 1) d = (((g, w) :: gs).map (fun g => Spec.limited c n g.1)).take k ++ [.error (.format .memoryLimit)] := by
      intro hg w' xs hf hxs
      obtain ⟨hr1, hr2⟩ := readNextFrame_relax hlm d hd
      obtain ⟨hri, _, hrc, _⟩ := readNextFrame_spec hS d hi
      have hro := readNextFrame_opts hS d hi
      have hoom := oom_inv hS d hi hk
      simp only [film, act] at hf
      rcases hr2 with hr2 | ⟨e, hr2, hr3⟩
      · rw [hr2] at hf
        generalize hy : d.readNextFrame = y at *
        obtain ⟨d', out⟩ := y
        cases out with
        | ok f =>
          simp only [List.cons_append, List.nil_append, List.cons.injEq, Got.seen.injEq, Seen.frame.injEq] at hf
          obtain ⟨⟨rfl, _⟩, hf⟩ := hf
          refine go (.ok f) d' (by simp only [keepReading, hy]) ?_ (ih d' false hri (hskip _ hro) hr1 (by rw [hrc]; exact hc) (hf ▸ hxs))
          cases f with
          | none => rfl
          | some f => simp only [Spec.limited, if_neg (hg f rfl)]
        | err e => simp at hf
        | panic => simp at hf
        | diverge => simp at hf
      · rcases refusal_memory he1 he2 he3 hr3 with rfl | rfl
        · exact stop d.readNextFrame.1 (by rw [← hr2])
        · exfalso
          obtain ⟨d1, h1, h2, h3, h4⟩ := hoom hr2
          rw [h1] at hl1 hl2 hcv
          rcases hl2 with hl2 | ⟨e, hl2, _⟩
          · generalize hy : (d.relax m).readNextFrame = y at *
            obtain ⟨d', out⟩ := y
            cases out with
            | ok f =>
              simp only [List.cons_append, List.nil_append, List.cons.injEq, Got.seen.injEq, Seen.frame.injEq] at hf
              obtain ⟨f', rfl, hw, hh⟩ := read_size hl2 h2 hy
              rw [Spec.bufferSize_none] at h3
              obtain ⟨n', hn', h5, h6⟩ := h3
              simp only at hcv
              rw [hl1.2, hl] at h5
              cases h5
              rw [hcv, hc] at h6
              refine hg f' hf.1.1.symm ?_
              unfold Spec.Big
              rw [hw, hh]
              exact h6
            | err e => simp at hf
            | panic => simp at hf
            | diverge => simp at hf
          · cases hl2
    cases g with
    | none =>
      have : mixed c n ((none, w) :: gs) = .read :: mixed c n gs := by simp [mixed]
      rw [this] at hx
      generalize hfx : film (.read :: mixed c n gs) (d.relax m) live = fx at hx reads
      match fx, hx with
      | x :: xs, hx =>
        obtain ⟨⟨w', rfl⟩, hxs⟩ := hx
        exact reads (by intro f hf; cases hf) w' xs rfl hxs
    | some f =>
      by_cases hb : Spec.Big c n f
      · have : mixed c n ((some f, w) :: gs) = .info :: mixed c n gs := by simp [mixed, hb]
        rw [this] at hx
        simp only [film, act] at hx
        rcases hl2 with hl2 | ⟨e, hl2, hl3⟩
        · rw [hl2] at hx
          generalize hy : d.nextFrameInfo = y at *
          obtain ⟨d', out⟩ := y
          cases out with
          | ok found =>
            simp only [List.cons_append, List.nil_append, Mixes, if_pos hb] at hx
            obtain ⟨⟨w', h1, h2, h3⟩, hxs⟩ := hx
            simp only [Got.seen.injEq, Seen.info.injEq] at h1
            obtain ⟨rfl, rfl⟩ := h1
            have hoom := big_oom hy (ht rfl) (by
              rw [Spec.bufferSize_none, hcv, hc, ← hcv, hl1.2, hl]
              refine ⟨n, hn, rfl, ?_⟩
              have e1 : d'.currentFrame.width = f.width := h2
              have e2 : d'.currentFrame.height = f.height := h3
              rw [e1, e2]
              exact hb)
            exact go (.error (.io .outOfMemory)) d' (by simp only [keepReading, hoom]) (by simp only [Spec.limited, if_pos hb])
              (ih d' true hin (hskip _ hop) hl1 (by rw [hcv]; exact hc) hxs)
          | err e => simp only [Mixes, if_pos hb] at hx; obtain ⟨⟨w', h1, _⟩, _⟩ := hx; cases h1
          | panic => cases hret
          | diverge => cases hret
        · rcases refusal_memory he1 he2 he3 hl3 with rfl | rfl
          · refine stop d.nextFrameInfo.1 ?_
            unfold readNextFrame
            generalize d.nextFrameInfo = y at *
            obtain ⟨d', out⟩ := y
            simp only at hl2
            subst hl2
            rfl
          · exact absurd hl2 hroom
      · have : mixed c n ((some f, w) :: gs) = .read :: mixed c n gs := by simp [mixed, hb]
        rw [this] at hx
        generalize hfx : film (.read :: mixed c n gs) (d.relax m) live = fx at hx reads
        match fx, hx with
        | x :: xs, hx =>
          simp only [Mixes, if_neg hb] at hx
          obtain ⟨⟨w', rfl⟩, hxs⟩ := hx
          exact reads (by intro f' hf'; cases hf'; exact hb) w' xs rfl hxs

theorem seeks_mixed (c : ColorOutput) (n : Nat) : ∀ gs : List (Option Frame × View), Spec.seeks (mixed c n gs) = gs.length
  | [] => rfl
  | (none, w) :: gs => by
    have := seeks_mixed c n gs
    simpa [mixed, Spec.seeks] using this
  | (some f, w) :: gs => by
    have := seeks_mixed c n gs
    unfold mixed at *
    by_cases hb : Spec.Big c n f <;> simpa [Spec.seeks, hb] using this

theorem mixed_acts (c : ColorOutput) (n : Nat) (gs : List (Option Frame × View)) : ∀ a ∈ mixed c n gs, a = .info ∨ a = .read := by
  intro a ha
  unfold mixed at ha
  obtain ⟨g, _, rfl⟩ := List.mem_map.mp ha
  split
  · split
    · exact .inl rfl
    · exact .inr rfl
  · exact .inr rfl

/-- **C77** for whole files: if the first calls of `read_next_frame` without a memory limit give `gs`, then a program that reads with a
limit of `n` bytes and goes on after each `OutOfMemory` gets the very same frames, with `OutOfMemory` in the place of those that
take more than `n` bytes. It may be stopped early only by an extension that is larger than the limit (`MemoryLimit`). -/
theorem limit_hides_large_frames_partial (K : C.Contract) (o : DecodeOptions) (hs : o.skipFrameDecoding = false)
    (hce : o.checkForEndCode = false) {n : Nat} {hn : 0 < n} (hl : o.memoryLimit = .bytes n hn) {r : Reader} (hr : r.Reliable)
    {gs : List (Option Frame × View)} (hsane : Spec.Sane K { o with memoryLimit := .unlimited } r gs.length) {v : View}
    (hu : filmFrom C { o with memoryLimit := .unlimited } r (List.replicate gs.length .read) =
      .seen (.opened v) :: gs.map (fun g => .seen (.frame g.1 g.2)))
    {d : Decoder C} (hd : readInfo C o r = (d, .ok ())) :
    keepReading gs.length d = gs.map (fun g => Spec.limited o.colorOutput n g.1) ∨
    ∃ k, k < gs.length ∧
      keepReading gs.length d = (gs.map (fun g => Spec.limited o.colorOutput n g.1)).take k ++ [.error (.format .memoryLimit)] := by
  have hseeks : Spec.seeks (List.replicate gs.length .read) = gs.length := by
    generalize gs.length = k
    induction k with
    | zero => rfl
    | succ k ih => simp [List.replicate_succ, Spec.seeks, ih]
  obtain ⟨outs, hex⟩ := Spec.expand_all K _ (rawFilm_buffer K.safe { o with memoryLimit := .unlimited } r gs.length) hsane.regular
  have hw : ∀ acts, Spec.seeks acts ≤ gs.length → (∀ a ∈ acts, a = .info ∨ a = .read) →
      filmFrom C { o with memoryLimit := .unlimited } r acts = screening { o with memoryLimit := .unlimited } acts
        (rawFilm C { o with memoryLimit := .unlimited } r gs.length) outs := fun acts h1 h2 =>
    follows_nil (filmFrom_watch K { o with memoryLimit := .unlimited } hs hce hr hr (more := []) (by simp) acts gs.length h1 outs
      (fun e he => ⟨fun h => hsane.whole (h ▸ he), fun h => hsane.small (h ▸ he)⟩) hex (.inr h2))
  have hf := hw (List.replicate gs.length .read) (by omega) (fun a ha => .inr (List.eq_of_mem_replicate ha))
  have hg := hw (mixed o.colorOutput n gs) (by rw [seeks_mixed]; omega) (mixed_acts _ _ _)
  rw [hu] at hf
  -- the film of the skipping calls
  have hmix : Mixes o.colorOutput n gs (filmFrom C { o with memoryLimit := .unlimited } r (mixed o.colorOutput n gs)).tail := by
    rw [hg]
    unfold screening at hf ⊢
    generalize rawFilm C { o with memoryLimit := .unlimited } r gs.length = raw at *
    split at hf
    · simp only [List.cons.injEq] at hf
      exact watch_mixed _ _ _ gs _ _ _ _ _ _ hf.2.symm
    · rename_i x hx
      cases raw with
      | nil => cases hf
      | cons x raw =>
        simp only [List.map_cons, List.cons.injEq, Got.seen.injEq] at hf
        exact (hx _ _ (by rw [← hf.1])).elim
  let m : Policy := { o.policy with memoryLimit := .unlimited }
  have hlm : o.policy.Le m := ⟨MemoryLimit.le_unlimited _, id, id, id⟩
  have hro : ({ o with memoryLimit := .unlimited } : DecodeOptions) = o.relax m := rfl
  obtain ⟨h1, h2⟩ := readInfo_relax (C := C) o hlm r
  have hi := inv_readInfo K.safe o r
  have hk := readInfo_skip K.safe o r
  have hc := readInfo_conv K.safe o r
  rw [hd] at h1 h2 hi hk hc
  rcases h2 with h2 | ⟨e, h2, _⟩
  · refine keep_mixed K.safe hlm rfl rfl rfl o.colorOutput n hn hl gs d false hi.1 (hk.trans hs) h1 hc.2 ?_
    rw [hro] at hmix
    unfold filmFrom at hmix
    rw [h2] at hmix
    exact hmix
  · cases h2

end Decoder

end Gif
