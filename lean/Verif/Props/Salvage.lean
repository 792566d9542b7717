import Verif.Spec.Salvage
import Verif.Lemmas.Room
import Verif.Props.Oversized
import Verif.Props.Errors
/-!
# C85: frames that cannot be read can be passed over
-/

namespace Gif

namespace Decoder

variable {C : Codec}

open Converter

/-- The result of `read_into_buffer` on the rows of an interlaced image is that of `fill_buffer` on each of them. -/
theorem readRows_lines (d : Decoder C) (h : Nat) : ∀ (fuel next pass : Nat) (t : RD C) (buf : List UInt8),
    next < h → pass ≤ 4 → (∀ r ∈ InterlaceIter.remaining h next pass, r < h) → (InterlaceIter.remaining h next pass).length < fuel →
    buf.length = h * d.lineLength →
    (fillLines d.lineLength (InterlaceIter.remaining h next pass).length { d with rd := t }).1 =
      { d with rd := (d.conv.readRows d.currentFrame RD.decodeNextBytes fuel ⟨h, next, pass⟩ t buf).1 } ∧
    (d.conv.readRows d.currentFrame RD.decodeNextBytes fuel ⟨h, next, pass⟩ t buf).2.2 =
      whole (fillLines d.lineLength (InterlaceIter.remaining h next pass).length { d with rd := t }).2 := by
  intro fuel
  induction fuel with
  | zero => intro next pass t buf _ _ _ h; omega
  | succ fuel ih =>
    intro next pass t buf hn hp hlt hf hb
    by_cases hp4 : pass = 4
    · subst hp4
      rw [readRows, InterlaceIter.nextRow_end]
      simp [InterlaceIter.remaining, fillLines, whole]
    · obtain ⟨next', pass', he, hrem, hn', hp'⟩ := InterlaceIter.nextRow_spec h next pass hn (by omega)
      rw [hrem] at hlt hf ⊢
      simp only [List.length_cons] at hf ⊢
      rw [readRows, he]
      simp only [fillLines]
      have hll : d.conv.lineLength d.currentFrame = d.lineLength := rfl
      rw [hll]
      have hrow : next * d.lineLength + d.lineLength ≤ buf.length := by
        rw [hb, ← Nat.succ_mul]; exact Nat.mul_le_mul_right _ hn
      rw [if_pos (by rw [List.length_drop]; omega)]
      obtain ⟨t', px, r, _, _, h3⟩ := fillBuffer_room d.conv d.currentFrame RD.decodeNextBytes t d.lineLength
      have hl : ((buf.drop (next * d.lineLength)).take d.lineLength).length = d.lineLength := by
        rw [List.length_take, List.length_drop]; omega
      have hfl := fillBuffer_length d.conv d.currentFrame RD.decodeNextBytes t ((buf.drop (next * d.lineLength)).take d.lineLength)
      obtain ⟨b, hz⟩ : ∃ b, ({ d with rd := t } : Decoder C).fillBuffer (List.replicate d.lineLength 0) = ({ d with rd := t' }, b, r) := by
        unfold Decoder.fillBuffer
        simp only
        rw [h3 _ (List.length_replicate ..)]
        exact ⟨_, rfl⟩
      rw [hz]
      rw [h3 _ hl] at hfl ⊢
      simp only at hfl
      rw [hl] at hfl
      generalize d.conv.convert d.currentFrame px (List.take (d.conv.chan * px.length) (List.take d.lineLength (List.drop (next * d.lineLength) buf))) ++
        List.drop (d.conv.chan * px.length) (List.take d.lineLength (List.drop (next * d.lineLength) buf)) = line at *
      match r with
      | .ok true =>
        simp only
        exact ih next' pass' t' _ hn' hp' (fun r hr => hlt r (List.mem_cons_of_mem _ hr)) (by omega)
          (by simp only [List.length_append, List.length_take, List.length_drop]; omega)
      | .ok false => exact ⟨rfl, rfl⟩
      | .err e => exact ⟨rfl, rfl⟩
      | .panic => exact ⟨rfl, rfl⟩
      | .diverge => exact ⟨rfl, rfl⟩

/-- The calls of `fill_buffer` that `read_next_frame` amounts to, after `next_frame_info`. -/
def fillAll (d : Decoder C) : Decoder C × Outcome Bool :=
  if d.currentFrame.interlaced then fillLines d.lineLength d.currentFrame.height.toNat d
  else fillLines d.bufferSize 1 d

theorem readIntoBuffer_fills (d : Decoder C) (buf : List UInt8) (hb : buf.length = d.bufferSize) :
    d.fillAll.1 = { d with rd := (d.conv.readIntoBuffer d.currentFrame RD.decodeNextBytes d.rd buf).1 } ∧
    (d.conv.readIntoBuffer d.currentFrame RD.decodeNextBytes d.rd buf).2.2 = whole d.fillAll.2 := by
  unfold fillAll Converter.readIntoBuffer
  by_cases hi : d.currentFrame.interlaced = true
  · rw [if_pos hi, if_pos hi]
    rcases Nat.eq_zero_or_pos d.currentFrame.height.toNat with h0 | h0
    · rw [h0]
      simp [readRows, InterlaceIter.nextRow, fillLines, whole]
    · have hperm := InterlaceIter.remaining_zero d.currentFrame.height.toNat ▸ Spec.interlaceOrder_perm d.currentFrame.height.toNat
      have hlen : (InterlaceIter.remaining d.currentFrame.height.toNat 0 0).length = d.currentFrame.height.toNat := by
        rw [hperm.length_eq, List.length_range]
      have := readRows_lines d d.currentFrame.height.toNat (d.currentFrame.height.toNat + 1) 0 0 d.rd buf h0 (by omega)
        (fun r hr => List.mem_range.1 (hperm.mem_iff.1 hr)) (by omega) (by rw [hb]; exact bufferSize_rows _ _)
      rw [hlen] at this
      exact this
  · rw [if_neg hi, if_neg hi]
    simp only
    have hs : d.conv.bufferSize d.currentFrame = d.bufferSize := rfl
    rw [hs, if_pos (by omega)]
    obtain ⟨t', px, r, _, _, h3⟩ := fillBuffer_room d.conv d.currentFrame RD.decodeNextBytes d.rd d.bufferSize
    rw [h3 _ (by rw [List.length_take]; omega)]
    simp only [fillLines, Decoder.fillBuffer]
    rw [h3 _ (List.length_replicate ..)]
    match r with
    | .ok true => exact ⟨rfl, rfl⟩
    | .ok false => exact ⟨rfl, rfl⟩
    | .err e => exact ⟨rfl, rfl⟩
    | .panic => exact ⟨rfl, rfl⟩
    | .diverge => exact ⟨rfl, rfl⟩

/-- What `read_next_frame` does with a frame that is not too large. -/
theorem readNextFrame_fills {d d1 : Decoder C} (hx : d.nextFrameInfo = (d1, .ok true)) (ht : d1.dataType = .pixels)
    (he : d1.currentFrame.buffer = [] ∧ d1.currentFrame.ownedCap = none)
    (hb : d1.conv.memoryLimit.bufferSize d1.conv.colorOutput d1.currentFrame.width d1.currentFrame.height ≠ none) :
    match d1.fillAll.2 with
    | .ok true => ∃ f, d.readNextFrame = ({ d1.fillAll.1 with currentFrame := f }, .ok (some f))
    | .ok false => d.readNextFrame = (d1.fillAll.1, .err (.format .imageTruncated))
    | .err e => d.readNextFrame = (d1.fillAll.1, .err e)
    | .panic => d.readNextFrame = (d1.fillAll.1, .panic)
    | .diverge => d.readNextFrame = (d1.fillAll.1, .diverge) := by
  rw [readNextFrame_pixels hx ht]
  unfold Converter.readFrame
  have hck : d1.conv.checkBufferSize d1.currentFrame = .ok d1.bufferSize := by
    rcases checkBufferSize_cases d1.conv d1.currentFrame with ⟨h, _⟩ | ⟨h, _⟩
    · exact h
    · exfalso
      unfold checkBufferSize at h
      split at h
      · rename_i h'; exact hb h'
      · split at h <;> cases h
  rw [hck]
  simp only
  have hself : ({ d1.currentFrame with buffer := [], ownedCap := none } : Frame) = d1.currentFrame := by
    obtain ⟨h1, h2⟩ := he
    cases hf : d1.currentFrame
    rw [hf] at h1 h2
    simp only at h1 h2
    rw [h1, h2]
  rw [hself]
  obtain ⟨h1, h2⟩ := readIntoBuffer_fills d1 (Converter.frameBuffer d1.currentFrame d1.bufferSize)
    (by unfold frameBuffer; rw [he.2]; exact List.length_replicate ..)
  rw [h1]
  generalize d1.conv.readIntoBuffer d1.currentFrame RD.decodeNextBytes d1.rd (Converter.frameBuffer d1.currentFrame d1.bufferSize) = x at *
  obtain ⟨t, vec, out⟩ := x
  simp only at h2
  subst h2
  generalize d1.fillAll.2 = y
  match y with
  | .ok true => exact ⟨_, rfl⟩
  | .ok false => rfl
  | .err e => rfl
  | .panic => rfl
  | .diverge => rfl

theorem fillLines_errs (hS : C.Safe) {o : DecodeOptions} {r : Reader} (size : Nat) : ∀ (m : Nat) (d : Decoder C), Reach o r d →
    (fillLines size m d).2.returns = true ∧ ∀ e, (fillLines size m d).2 = .err e → Spec.MayFill o r e := by
  intro m
  induction m with
  | zero => intro d _; exact ⟨rfl, by simp [fillLines]⟩
  | succ m ih =>
    intro d h
    have hop := Reach.op h (.fillBuffer (List.replicate size 0))
    have he := fun e => (call_errors hS h e).2.2.1 (List.replicate size 0)
    have hret := (perform_inv hS d (reach_inv hS h).1 (.fillBuffer (List.replicate size 0))).2.1
    simp only [perform] at hop hret
    simp only [fillLines]
    generalize d.fillBuffer (List.replicate size 0) = x at *
    obtain ⟨d', b, r⟩ := x
    match r with
    | .ok true => exact ih d' (hop rfl)
    | .ok false => exact ⟨rfl, by simp⟩
    | .err e => exact ⟨rfl, fun e' h' => he e' h'⟩
    | .panic => cases hret
    | .diverge => cases hret

/-- **C85**: `read_next_frame` in terms of the other calls. If `next_frame_info` finds a frame that is not larger than the memory
limit, `read_next_frame` does to the decoder what `next_frame_info` and `fill_buffer` do: `fill_buffer` for the whole picture at
once, or line after line if the image is interlaced, until the picture is full or a call gives something else than a full buffer.
It fails with `ImageTruncated` exactly if `fill_buffer` returns `false`, and with another error exactly if `fill_buffer` does. -/
theorem read_is_fill (hS : C.Safe) {o : DecodeOptions} {r : Reader} {d : Decoder C} (h : Reach o r d)
    (hk : o.skipFrameDecoding = false) {d1 : Decoder C} (hx : d.nextFrameInfo = (d1, .ok true)) {w hh : Nat}
    (hw : d1.currentFrame.width.toNat = w) (hht : d1.currentFrame.height.toNat = hh)
    (hfit : ∀ n hn, o.memoryLimit = .bytes n hn → w * hh * Spec.channels o.colorOutput ≤ n) {d2 : Decoder C} {x : Outcome Bool}
    (hf : (if d1.currentFrame.interlaced then fillLines (w * Spec.channels o.colorOutput) hh d1
      else fillLines (w * hh * Spec.channels o.colorOutput) 1 d1) = (d2, x)) :
    (x = .ok true ∧ ∃ f, d.readNextFrame = ({ d2 with currentFrame := f }, .ok (some f))) ∨
    (x = .ok false ∧ d.readNextFrame = (d2, .err (.format .imageTruncated))) ∨
    (∃ e, x = .err e ∧ e ≠ .format .imageTruncated ∧ e ≠ .io .outOfMemory ∧ d.readNextFrame = (d2, .err e)) := by
  obtain ⟨hi, _, _⟩ := reach_inv hS h
  obtain ⟨_, hcol, hlim⟩ := reach_sober hS h
  have hk' : d.rd.sd.skipFrameDecoding = false := (reach_skip hS h).trans hk
  have hrun := nextFrameInfo_run hS d hi.rd
  obtain ⟨_, _, _, h4, _, _, h7, _⟩ := frameRun_spec hS hrun hi.rd
  have ht := frameRun_type hS hrun hi.rd hk'
  have hop := Reach.op h .nextFrameInfo
  simp only [perform] at hop
  rw [hx] at h4 h7 ht hop
  have h7 := h7 rfl
  simp only at h4 h7 hop
  have hd1 : Reach o r d1 := hop rfl
  have hcol1 : d1.conv.colorOutput = o.colorOutput := by rw [h4]; exact hcol
  have hch : d1.conv.chan = Spec.channels o.colorOutput := by
    unfold Converter.chan Spec.channels
    rw [hcol1]
    cases o.colorOutput <;> rfl
  have hline : d1.lineLength = w * Spec.channels o.colorOutput := by
    unfold Decoder.lineLength
    rw [lineLength_eq, hw, hch, Nat.mul_comm]
  have hsize : d1.bufferSize = w * hh * Spec.channels o.colorOutput := by
    unfold Decoder.bufferSize
    rw [bufferSize_eq, hw, hht, hch, Nat.mul_comm]
  have hall : d1.fillAll = (d2, x) := by
    unfold fillAll
    rw [hline, hsize, hht]
    exact hf
  have hsome : d1.conv.memoryLimit.bufferSize d1.conv.colorOutput d1.currentFrame.width d1.currentFrame.height ≠ none := by
    rw [Ne, Spec.bufferSize_none, h4, hlim, hcol, hw, hht]
    rintro ⟨n, hn, hl, hlt⟩
    have := hfit n hn hl
    omega
  have hres := readNextFrame_fills hx (ht rfl) ⟨h7.1, h7.2.1⟩ hsome
  have hret : d1.fillAll.2.returns = true ∧ ∀ e, d1.fillAll.2 = .err e → Spec.MayFill o r e := by
    unfold fillAll
    split
    · exact fillLines_errs hS _ _ _ hd1
    · exact fillLines_errs hS _ _ _ hd1
  rw [hall] at hres hret
  simp only at hres hret
  match x with
  | .ok true => exact .inl ⟨rfl, hres⟩
  | .ok false => exact .inr (.inl ⟨rfl, hres⟩)
  | .err e =>
    have := hret.2 e rfl
    refine .inr (.inr ⟨e, rfl, ?_, ?_, hres⟩)
    · rintro rfl; exact this
    · rintro rfl; exact this
  | .panic => cases hret.1
  | .diverge => cases hret.1

/-! ## Whole files -/

theorem film_fills_over (n : Nat) (bs : List Act) : ∀ (m : Nat) (d : Decoder C),
    film (List.replicate m (.fill n) ++ bs) d false = film bs d false := by
  intro m
  induction m with
  | zero => intro d; rfl
  | succ m ih => intro d; simp only [List.replicate_succ, List.cons_append, film, act]; exact ih d

theorem watch_fills_over (c : ColorOutput) (lim : MemoryLimit) (n : Nat) (bs : List Act) (v : View) (raw : List Seen)
    (outs : List Spec.Pixels) : ∀ m : Nat,
    Spec.watch c lim (List.replicate m (.fill n) ++ bs) v none raw outs = Spec.watch c lim bs v none raw outs := by
  intro m
  induction m with
  | zero => rfl
  | succ m ih => simp only [List.replicate_succ, List.cons_append, Spec.watch]; exact ih

theorem fills_of_film (c : ColorOutput) (lim : MemoryLimit) (n : Nat) (bs : List Act) (v : View) (raw : List Seen)
    (outs : List Spec.Pixels) : ∀ (m : Nat) (d : Decoder C) (px : List UInt8), d.conv.colorOutput = c → px.length < m * (n + 1) →
    film (List.replicate m (.fill n) ++ bs) d true = Spec.watch c lim (List.replicate m (.fill n) ++ bs) v (some px) raw outs →
    ∃ d', fillLines ((n + 1) * Spec.channels c) m d = (d', .ok false) ∧ film bs d' false = Spec.watch c lim bs v none raw outs := by
  intro m
  induction m with
  | zero => intro d px _ h; omega
  | succ m ih =>
    intro d px hc hl hx
    simp only [List.replicate_succ, List.cons_append, film, act, if_true, hc, Spec.watch] at hx
    simp only [fillLines]
    have hconv : (d.fillBuffer (List.replicate ((n + 1) * Spec.channels c) 0)).1.conv = d.conv := rfl
    generalize d.fillBuffer (List.replicate ((n + 1) * Spec.channels c) 0) = y at *
    obtain ⟨d', b, r⟩ := y
    simp only at hconv
    by_cases hle : n + 1 ≤ px.length
    · rw [if_pos hle] at hx
      match r with
      | .ok true =>
        simp only [List.cons_append, List.nil_append, List.cons.injEq] at hx
        refine ih d' (px.drop (n + 1)) (by rw [hconv]; exact hc) ?_ hx.2
        rw [List.length_drop]
        rw [Nat.succ_mul] at hl
        omega
      | .ok false => simp at hx
      | .err e => simp at hx
      | .panic => simp at hx
      | .diverge => simp at hx
    · rw [if_neg hle] at hx
      match r with
      | .ok true => simp at hx
      | .ok false =>
        simp only [List.cons_append, List.nil_append, List.cons.injEq] at hx
        refine ⟨d', rfl, ?_⟩
        have := hx.2
        rwa [film_fills_over, watch_fills_over] at this
      | .err e => simp at hx
      | .panic => simp at hx
      | .diverge => simp at hx

/-- The calls that pass over the frames that cannot be read. -/
def chosen (c : ColorOutput) (lim : MemoryLimit) : List Seen → List Spec.Pixels → List Act
  | .frame (some f) v :: raw, px :: outs =>
    (match Spec.deliver c lim v.globalPalette f px with
      | .ok _ => [.read]
      | .error (.io .outOfMemory) => [.info]
      | .error _ => .info :: if f.interlaced then List.replicate f.height.toNat (.fill (f.width.toNat - 1))
          else List.replicate 1 (.fill (f.width.toNat * f.height.toNat - 1))) ++ chosen c lim raw outs
  | .frame none _ :: raw, outs => .read :: chosen c lim raw outs
  | [], _ => []
  | _, _ => [.read]

theorem seeks_lines (n m : Nat) : Spec.seeks (List.replicate m (.fill n)) = 0 := by
  induction m with
  | zero => rfl
  | succ m ih => simp [List.replicate_succ, Spec.seeks, ih]

theorem seeks_chosen (c : ColorOutput) (lim : MemoryLimit) : ∀ (raw : List Seen) (outs : List Spec.Pixels),
    Spec.seeks (chosen c lim raw outs) ≤ raw.length := by
  intro raw
  induction raw with
  | nil => intro outs; simp [chosen, Spec.seeks]
  | cons x raw ih =>
    intro outs
    unfold chosen
    split
    · rename_i f v raw' px outs' heq
      cases heq
      rw [seeks_append]
      have := ih outs'
      have hone : ∀ l : List Act, Spec.seeks l ≤ 1 → Spec.seeks l + Spec.seeks (chosen c lim raw outs') ≤ (Seen.frame (some f) v :: raw).length := by
        intro l hl; simp only [List.length_cons]; omega
      apply hone
      split
      · simp [Spec.seeks]
      · simp [Spec.seeks]
      · split <;> simp [Spec.seeks, seeks_lines]
    · rename_i heq
      cases heq
      simp only [Spec.seeks, List.length_cons]
      exact Nat.succ_le_succ (ih _)
    · rename_i heq; cases heq
    · simp [Spec.seeks]

theorem salvage_chosen (hS : C.Safe) {o : DecodeOptions} {r : Reader} (hk : o.skipFrameDecoding = false) :
    ∀ (raw : List Seen) (outs : List Spec.Pixels) (n : Nat) (d : Decoder C) (live : Bool) (v : View) (lv : Option (List UInt8)),
    Reach o r d → (∀ f ∈ Spec.rawFrames raw, 0 < f.width.toNat * f.height.toNat) → (∀ px ∈ outs, px.2 ≠ .invalid) →
    (∀ e, .failed e ∈ raw → e ≠ .io .outOfMemory ∧ e ≠ .format .imageTruncated ∧ e ≠ .format .oddSizedBuffer) →
    raw.length ≤ n → (raw.length = n ∨ ∃ e, .failed e ∈ raw) →
    film (chosen o.colorOutput o.memoryLimit raw outs) d live =
      Spec.watch o.colorOutput o.memoryLimit (chosen o.colorOutput o.memoryLimit raw outs) v lv raw outs →
    salvage n d = Spec.salvaged o.colorOutput o.memoryLimit raw outs := by
  intro raw
  induction raw with
  | nil =>
    intro outs n d live v lv _ _ _ _ _ hn _
    rcases hn with hn | ⟨e, he⟩
    · subst hn; rfl
    · cases he
  | cons x raw ih =>
    intro outs n d live v lv hr harea hval hfail hle hn hx
    obtain ⟨n, rfl⟩ : ∃ n', n = n' + 1 := ⟨n - 1, by simp only [List.length_cons] at hle; omega⟩
    have hle' : raw.length ≤ n := by simp only [List.length_cons] at hle; omega
    have hfail' : ∀ e, .failed e ∈ raw → e ≠ .io .outOfMemory ∧ e ≠ .format .imageTruncated ∧ e ≠ .format .oddSizedBuffer :=
      fun e he => hfail e (List.mem_cons_of_mem _ he)
    have hopr := Reach.op hr .readNextFrame
    have hopi := Reach.op hr .nextFrameInfo
    simp only [perform] at hopr hopi
    -- calls that fail or find nothing
    have hread : ∀ (as : List Act) (ys : List Got), film (.read :: as) d live = ys →
        (∃ d' f, d.readNextFrame = (d', .ok f) ∧ ys = .seen (.frame f d'.view) :: film as d' false) ∨
        (∃ d' e, d.readNextFrame = (d', .err e) ∧ ys = [.seen (.failed e)]) ∨ ys = [.seen .crashed] := by
      intro as ys h
      simp only [film, act] at h
      generalize d.readNextFrame = y at *
      obtain ⟨d', out⟩ := y
      cases out with
      | ok f => exact .inl ⟨d', f, rfl, h.symm⟩
      | err e => exact .inr (.inl ⟨d', e, rfl, h.symm⟩)
      | panic => exact .inr (.inr h.symm)
      | diverge => exact .inr (.inr h.symm)
    cases x with
    | frame f0 v0 =>
      have hn' : raw.length = n ∨ ∃ e, .failed e ∈ raw := by
        rcases hn with hn | ⟨e, he⟩
        · simp only [List.length_cons] at hn; exact .inl (by omega)
        · rcases List.mem_cons.1 he with he | he
          · cases he
          · exact .inr ⟨e, he⟩
      cases f0 with
      | none =>
        simp only [chosen, Spec.watch, Spec.salvaged] at hx ⊢
        rcases hread _ _ hx with ⟨d', f, h1, h2⟩ | ⟨d', e, h1, h2⟩ | h2
        · simp only [List.cons.injEq, Got.seen.injEq, Seen.frame.injEq] at h2
          obtain ⟨⟨rfl, _⟩, h2⟩ := h2
          rw [h1] at hopr
          have hs : salvage (n + 1) d = .ok none :: salvage n d' := by simp only [salvage, h1]
          rw [hs, ih outs n d' false _ _ (hopr rfl) harea hval hfail' hle' hn' h2.symm]
        · simp at h2
        · simp at h2
      | some f =>
        cases outs with
        | nil =>
          simp only [chosen, Spec.watch] at hx
          rcases hread _ _ hx with ⟨d', f, h1, h2⟩ | ⟨d', e, h1, h2⟩ | h2 <;> simp at h2
        | cons px outs =>
          have hpx : px.2 ≠ .invalid := hval px List.mem_cons_self
          have hval' : ∀ px ∈ outs, px.2 ≠ .invalid := fun px h => hval px (List.mem_cons_of_mem _ h)
          have ha : 0 < f.width.toNat * f.height.toNat := harea f (by simp [Spec.rawFrames])
          have harea' : ∀ f ∈ Spec.rawFrames raw, 0 < f.width.toNat * f.height.toNat :=
            fun f h => harea f (by simp [Spec.rawFrames, h])
          have hw0 : 0 < f.width.toNat := Nat.pos_of_mul_pos_right ha
          simp only [chosen, Spec.salvaged] at hx ⊢
          cases hd : Spec.deliver o.colorOutput o.memoryLimit v0.globalPalette f px with
          | ok g =>
            rw [hd] at hx
            simp only [List.cons_append, List.nil_append, Spec.watch, hd] at hx
            rcases hread _ _ hx with ⟨d', f, h1, h2⟩ | ⟨d', e, h1, h2⟩ | h2
            · simp only [List.cons.injEq, Got.seen.injEq, Seen.frame.injEq] at h2
              obtain ⟨⟨rfl, _⟩, h2⟩ := h2
              rw [h1] at hopr
              have hs : salvage (n + 1) d = .ok (some g) :: salvage n d' := by simp only [salvage, h1]
              rw [hs, ih outs n d' false _ _ (hopr rfl) harea' hval' hfail' hle' hn' h2.symm]
            · simp at h2
            · simp at h2
          | error e =>
            rw [hd] at hx
            -- next_frame_info
            have hinfo : ∀ (as : List Act), film (.info :: as) d live =
                Spec.watch o.colorOutput o.memoryLimit (.info :: as) v lv (.frame (some f) v0 :: raw) (px :: outs) →
                ∃ d1, d.nextFrameInfo = (d1, .ok true) ∧ Reach o r d1 ∧ d1.view = { v0 with currentFrame := Spec.bare f } ∧
                  film as d1 true = Spec.watch o.colorOutput o.memoryLimit as { v0 with currentFrame := Spec.bare f } (some px.1) raw outs := by
              intro as h
              simp only [film, act, Spec.watch] at h
              generalize d.nextFrameInfo = y at *
              obtain ⟨d1, out⟩ := y
              cases out with
              | ok found =>
                simp only [List.cons_append, List.nil_append, List.cons.injEq, Got.seen.injEq, Seen.info.injEq] at h
                obtain ⟨⟨rfl, h1⟩, h2⟩ := h
                exact ⟨d1, rfl, hopi rfl, h1, h2⟩
              | err e => simp at h
              | panic => simp at h
              | diverge => simp at h
            unfold Spec.deliver at hd
            split at hd
            · -- too large
              rename_i hb
              cases hd
              simp only [List.cons_append, List.nil_append] at hx
              obtain ⟨d1, h1, h2, h3, h4⟩ := hinfo _ hx
              obtain ⟨m, hm, hl, hlt⟩ := (Spec.bufferSize_none _ _ _ _).1 hb
              have hcf : d1.currentFrame = Spec.bare f := congrArg View.currentFrame h3
              have ho := ((oversized_is_skipped hS hr hk).1).2 ⟨by rw [h1], m, hm, hl, by
                rw [h1]; unfold Spec.Big; rw [hcf]; exact hlt⟩
              have hst := (oversized_is_skipped hS hr hk).2 ho
              rw [h1] at hst
              have heq : d.readNextFrame = (d1, .err (.io .outOfMemory)) := by
                generalize d.readNextFrame = y at *
                obtain ⟨y1, y2⟩ := y
                simp only at hst ho
                rw [hst, ho]
              have hs : salvage (n + 1) d = .error (.io .outOfMemory) :: salvage n d1 := by simp only [salvage, heq]
              rw [hs, ih outs n d1 true _ _ h2 harea' hval' hfail' hle' hn' h4]
            · rename_i hb
              rw [if_neg hpx] at hd
              split at hd
              · rename_i hlt
                cases hd
                simp only [List.cons_append] at hx
                obtain ⟨d1, h1, h2, h3, h4⟩ := hinfo _ hx
                have hcf : d1.currentFrame = Spec.bare f := congrArg View.currentFrame h3
                have hcol : d1.conv.colorOutput = o.colorOutput := (reach_sober hS h2).2.1
                have hfit : ∀ n hn, o.memoryLimit = .bytes n hn →
                    f.width.toNat * f.height.toNat * Spec.channels o.colorOutput ≤ n := by
                  intro m hm hl
                  have hnone := mt (Spec.bufferSize_none o.colorOutput f.width f.height o.memoryLimit).2 (by rw [hb]; simp)
                  exact Nat.le_of_not_lt fun hh => hnone ⟨m, hm, hl, hh⟩
                have key : ∃ d', (if d1.currentFrame.interlaced then
                      fillLines (f.width.toNat * Spec.channels o.colorOutput) f.height.toNat d1
                      else fillLines (f.width.toNat * f.height.toNat * Spec.channels o.colorOutput) 1 d1) = (d', .ok false) ∧
                    film (chosen o.colorOutput o.memoryLimit raw outs) d' false =
                      Spec.watch o.colorOutput o.memoryLimit (chosen o.colorOutput o.memoryLimit raw outs)
                        { v0 with currentFrame := Spec.bare f } none raw outs := by
                  have hil : d1.currentFrame.interlaced = f.interlaced := by rw [hcf]; rfl
                  rw [hil]
                  by_cases hi : f.interlaced = true
                  · rw [if_pos hi] at h4 ⊢
                    have e1 : f.width.toNat - 1 + 1 = f.width.toNat := by omega
                    have := fills_of_film _ _ _ _ _ _ _ _ d1 px.1 hcol (by rw [e1, Nat.mul_comm]; exact hlt) h4
                    rw [e1] at this
                    exact this
                  · rw [if_neg hi] at h4 ⊢
                    have e1 : f.width.toNat * f.height.toNat - 1 + 1 = f.width.toNat * f.height.toNat := by omega
                    have := fills_of_film _ _ _ _ _ _ _ _ d1 px.1 hcol (by rw [e1, Nat.one_mul]; exact hlt) h4
                    rw [e1] at this
                    exact this
                obtain ⟨d', h5, h6⟩ := key
                have heq : d.readNextFrame = (d', .err (.format .imageTruncated)) := by
                  rcases read_is_fill hS hr hk h1 (by rw [hcf]; rfl) (by rw [hcf]; rfl) hfit h5 with ⟨h, _⟩ | ⟨_, h⟩ | ⟨e, h, _⟩
                  · cases h
                  · exact h
                  · cases h
                rw [heq] at hopr
                have hs : salvage (n + 1) d = .error (.format .imageTruncated) :: salvage n d' := by simp only [salvage, heq]
                rw [hs, ih outs n d' false _ _ (hopr rfl) harea' hval' hfail' hle' hn' h6]
              · cases hd
    | failed e =>
      simp only [chosen, Spec.watch, Spec.salvaged] at hx ⊢
      obtain ⟨e1, e2, e3⟩ := hfail e List.mem_cons_self
      rcases hread _ _ hx with ⟨d', f, h1, h2⟩ | ⟨d', e', h1, h2⟩ | h2
      · simp at h2
      · simp only [List.cons.injEq, Got.seen.injEq, Seen.failed.injEq, and_true] at h2
        subst h2
        unfold salvage
        rw [h1]
        split
        · rename_i heq; cases heq
        · rename_i heq; cases heq; exact absurd rfl e1
        · rename_i heq; cases heq; exact absurd rfl e2
        · rename_i heq; cases heq; exact absurd rfl e3
        · rename_i heq; cases heq; rfl
        · rename_i hne; exact absurd rfl (hne _ _)
      · simp at h2
    | crashed =>
      simp only [chosen, Spec.watch] at hx
      rcases hread _ _ hx with ⟨d', f, h1, h2⟩ | ⟨d', e, h1, h2⟩ | h2 <;> simp at h2
    | opened v1 =>
      simp only [chosen, Spec.watch] at hx
      rcases hread _ _ hx with ⟨d', f, h1, h2⟩ | ⟨d', e, h1, h2⟩ | h2 <;> simp at h2
    | info b v1 =>
      simp only [chosen, Spec.watch] at hx
      rcases hread _ _ hx with ⟨d', f, h1, h2⟩ | ⟨d', e, h1, h2⟩ | h2 <;> simp at h2

/-- The errors of a decoder that does not decode image data. -/
theorem session_raw (hS : C.Safe) {o : DecodeOptions} {r : Reader} (hk : o.skipFrameDecoding = true) : ∀ (k : Nat) (d : Decoder C),
    Reach o r d →
    (∀ e, .failed e ∈ session (List.replicate k .read) d →
      e ≠ .io .outOfMemory ∧ e ≠ .format .imageTruncated ∧ e ≠ .format .oddSizedBuffer) ∧
    (session (List.replicate k .read) d).length ≤ k ∧
    ((session (List.replicate k .read) d).length = k ∨ ∃ e, .failed e ∈ session (List.replicate k .read) d) := by
  intro k
  induction k with
  | zero => intro d _; exact ⟨by simp [session], by simp [session], .inl rfl⟩
  | succ k ih =>
    intro d h
    have hop := Reach.op h .readNextFrame
    have he := fun e => (call_errors hS h e).2.1
    have hret := (perform_inv hS d (reach_inv hS h).1 .readNextFrame).2.1
    simp only [perform] at hop hret
    simp only [List.replicate_succ, session, see]
    generalize d.readNextFrame = x at *
    obtain ⟨d', out⟩ := x
    cases out with
    | ok f =>
      obtain ⟨h1, h2, h3⟩ := ih d' (hop rfl)
      simp only [List.length_cons]
      refine ⟨fun e he => ?_, by omega, ?_⟩
      · rcases List.mem_cons.1 he with he | he
        · cases he
        · exact h1 e he
      · rcases h3 with h3 | ⟨e, h3⟩
        · exact .inl (by omega)
        · exact .inr ⟨e, List.mem_cons_of_mem _ h3⟩
    | err e =>
      refine ⟨fun e' he' => ?_, by simp, .inr ⟨e, List.mem_singleton.2 rfl⟩⟩
      have := List.mem_singleton.1 he'
      cases this
      have hm := (he e rfl).1
      refine ⟨?_, ?_, ?_⟩
      · rintro rfl; simp only [Spec.MayRead, hk] at hm; cases hm.1
      · rintro rfl; simp only [Spec.MayRead, hk] at hm; cases hm
      · rintro rfl; simp only [Spec.MayRead, hk] at hm; cases hm.1
    | panic => cases hret
    | diverge => cases hret

/-- **C85** for whole files: a program that goes on after `OutOfMemory` and `ImageTruncated` gets of each frame what its own data
give: the failures of frames do not affect other frames. `raw` are the raw frames of the file, as a decoder with
`skip_frame_decoding` gives them, with the error that ends them if there is one; `outs` is what their data expand to. -/
theorem bad_frames_are_passed (K : C.Contract) (o : DecodeOptions) (hs : o.skipFrameDecoding = false)
    (hce : o.checkForEndCode = false) {r : Reader} (hr : r.Reliable) (k : Nat) (hsane : Spec.Sane K o r k)
    (hval : ∀ f ∈ Spec.rawFrames (rawFilm C o r k), Spec.Valid K f) {d : Decoder C} (hd : readInfo C o r = (d, .ok ())) :
    ∃ v raw outs, rawFilm C o r k = .opened v :: raw ∧ Spec.ExpandAll K (Spec.rawFrames raw) outs ∧
      salvage k d = Spec.salvaged o.colorOutput o.memoryLimit raw outs := by
  obtain ⟨outs, hex⟩ := Spec.expand_all K _ (rawFilm_buffer K.safe o r k) hsane.regular
  have hfilm : ∀ acts, Spec.seeks acts ≤ k → filmFrom C o r acts = screening o acts (rawFilm C o r k) outs := fun acts h1 =>
    follows_nil (filmFrom_watch K o hs hce hr hr (more := []) (by simp) acts k h1 outs
      (fun e he => ⟨fun h => hsane.whole (h ▸ he), fun h => hsane.small (h ▸ he)⟩) hex
      (.inl (Spec.expand_all_valid K _ _ hex hval)))
  have hopen : ∀ acts, filmFrom C o r acts = .seen (.opened d.view) :: film acts d false := by
    intro acts; unfold filmFrom; rw [hd]
  have hraw : ∃ v raw, rawFilm C o r k = .opened v :: raw := by
    have h0 := hfilm [] (by simp [Spec.seeks])
    rw [hopen] at h0
    unfold screening at h0
    split at h0
    · rename_i v raw heq; exact ⟨v, raw, heq⟩
    · rename_i hne
      cases hrf : rawFilm C o r k with
      | nil => rw [hrf] at h0; cases h0
      | cons x raw =>
        rw [hrf] at h0
        simp only [List.map_cons, List.cons.injEq, Got.seen.injEq] at h0
        exact absurd (by rw [hrf, ← h0.1]) (hne d.view raw)
  obtain ⟨v, raw, hrf⟩ := hraw
  refine ⟨v, raw, outs, hrf, by rw [hrf] at hex; exact hex, ?_⟩
  have hlen : (∀ e, .failed e ∈ raw → e ≠ .io .outOfMemory ∧ e ≠ .format .imageTruncated ∧ e ≠ .format .oddSizedBuffer) ∧
      raw.length ≤ k ∧ (raw.length = k ∨ ∃ e, .failed e ∈ raw) := by
    unfold rawFilm sessionFrom at hrf
    have hrd := Reach.opened (C := C) (o := { o with skipFrameDecoding := true }) (r := r)
    generalize hx : readInfo C { o with skipFrameDecoding := true } r = x at *
    obtain ⟨d0, out⟩ := x
    cases out with
    | ok u =>
      simp only [List.cons.injEq] at hrf
      rw [← hrf.2]
      exact session_raw K.safe rfl k d0 (hrd rfl)
    | err e => simp at hrf
    | panic => simp at hrf
    | diverge => simp at hrf
  have hreach : Reach o r d := by
    have := Reach.opened (C := C) (o := o) (r := r)
    rw [hd] at this
    exact this rfl
  refine salvage_chosen K.safe hs raw outs k d false v none hreach (fun f hf => (hsane.regular f (by rw [hrf]; exact hf)).1)
    (Spec.expand_all_valid K _ _ hex hval) hlen.1 hlen.2.1 hlen.2.2 ?_
  have h1 := hfilm (chosen o.colorOutput o.memoryLimit raw outs) (Nat.le_trans (seeks_chosen _ _ _ _) hlen.2.1)
  rw [hopen, hrf] at h1
  simp only [screening, List.cons.injEq] at h1
  exact h1.2

end Decoder

end Gif
