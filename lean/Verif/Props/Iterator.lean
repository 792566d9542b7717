import Verif.Props.Safety
/-!
# C38, for all files: what the iterator over frames gives
-/

namespace Gif

variable {C : Codec}

namespace Converter

variable {τ : Type}

/-- A buffer without bytes is never filled. -/
theorem fillBuffer_nil (c : Converter) (f : Frame) (cb : Callback τ) (t : τ) : (c.fillBuffer f cb t []).2.2 ≠ .ok true := by
  unfold fillBuffer fillLoop
  split
  · split
    · split
      · simp
      · rename_i bytes _ hb
        split
        · simp
        · rename_i h2; simp only [List.length_nil, Nat.not_lt, Nat.le_zero_eq] at h2; exact absurd h2 hb
    all_goals simp
  · simp [Outcome.fmtErr]

theorem nextRow_first (len : Nat) (h : 0 < len) : (InterlaceIter.nextRow { len := len, next := 0, pass := 0 }).2 = some 0 := by
  unfold InterlaceIter.nextRow
  rw [if_neg (by simp only; omega)]
  simp only [InterlaceIter.stride, List.getElem?_cons_zero]
  have : InterlaceIter.skipPasses len 5 (0 + 8) 0 ≠ none := by
    simp only [InterlaceIter.skipPasses, InterlaceIter.start]
    by_cases h1 : 0 + 8 ≥ len
    · rw [if_pos h1]
      simp only [List.getElem?_cons_zero]
      by_cases h2 : 4 ≥ len
      · rw [if_pos h2]
        simp only [Nat.zero_add, List.getElem?_cons_succ, List.getElem?_cons_zero]
        by_cases h3 : 2 ≥ len
        · rw [if_pos h3]
          simp only [Nat.reduceAdd, List.getElem?_cons_succ]
          by_cases h4 : 1 ≥ len
          · rw [if_pos h4]
            simp
            omega
          · rw [if_neg h4]; simp
        · rw [if_neg h3]; simp
      · rw [if_neg h2]; simp
    · rw [if_neg h1]; simp
  cases hs : InterlaceIter.skipPasses len 5 (0 + 8) 0 with
  | none => exact absurd hs this
  | some x => rfl

/-- Only an interlaced frame without rows can be read into a buffer without bytes. -/
theorem readIntoBuffer_nil (c : Converter) (f : Frame) (cb : Callback τ) (t : τ) :
    (c.readIntoBuffer f cb t []).2.2 = .ok () ↔ f.interlaced = true ∧ f.height = 0 := by
  unfold readIntoBuffer
  by_cases hi : f.interlaced = true
  · rw [if_pos hi]
    unfold readRows
    by_cases hh : f.height.toNat = 0
    · have h0 : f.height = 0 := UInt16.toNat_inj.1 (by simpa using hh)
      simp [InterlaceIter.nextRow, hi, h0]
    · have h1 := nextRow_first f.height.toNat (by omega)
      have h0 : f.height ≠ 0 := by intro h; rw [h] at hh; exact hh rfl
      generalize InterlaceIter.nextRow { len := f.height.toNat, next := 0, pass := 0 } = x at h1
      obtain ⟨it, row⟩ := x
      simp only at h1
      subst h1
      simp only [Nat.zero_mul, List.drop_nil, List.take_nil]
      have h2 := fillBuffer_nil c f cb t
      constructor
      · intro h
        exfalso
        split at h
        · generalize c.fillBuffer f cb t [] = y at h h2
          obtain ⟨t', line, r⟩ := y
          cases r with
          | ok b => cases b with
            | true => exact h2 rfl
            | false => cases h
          | _ => cases h
        · cases h
      · intro h; exact absurd h.2 h0
  · rw [if_neg hi]
    simp only [List.take_nil, List.drop_nil, List.append_nil]
    have h2 := fillBuffer_nil c f cb t
    constructor
    · intro h
      exfalso
      split at h
      · generalize c.fillBuffer f cb t [] = y at h h2
        obtain ⟨t', line, r⟩ := y
        cases r with
        | ok b => cases b with
          | true => exact h2 rfl
          | false => cases h
        | _ => cases h
      · cases h
    · intro h; exact absurd h.1 hi

/-- `read_frame` gives a frame without bytes exactly if the frame is interlaced and has no rows. -/
theorem readFrame_nil (c : Converter) (f : Frame) {cb : Callback τ} {P : τ → Prop} (hg : cb.Good P) (t : τ) (hP : P t) :
    ((c.readFrame f cb t).2.2 = .ok () ∧ (c.readFrame f cb t).2.1.buffer = []) ↔ f.interlaced = true ∧ f.height = 0 := by
  obtain ⟨_, _, g3⟩ := readFrame_good c f hg t hP
  have hlen := fun vec => (readIntoBuffer_good c { f with buffer := [], ownedCap := none } hg t vec hP).2.2
  have hnil := readIntoBuffer_nil c { f with buffer := [], ownedCap := none } cb t
  simp only at hnil
  rw [← hnil]
  constructor
  · rintro ⟨h1, h2⟩
    obtain ⟨k1, _, _⟩ := g3 h1
    have h0 : c.bufferSize f = 0 := by rw [← k1, h2]; rfl
    unfold readFrame at h1
    rcases checkBufferSize_cases c f with ⟨q1, _⟩ | ⟨q1, _⟩
    · rw [q1, h0] at h1
      have hv : frameBuffer f 0 = [] := List.length_eq_zero_iff.1 (frameBuffer_length f 0)
      simp only [hv] at h1
      generalize c.readIntoBuffer { f with buffer := [], ownedCap := none } cb t [] = x at h1 ⊢
      obtain ⟨t', v, r⟩ := x
      cases r with
      | ok u => rfl
      | _ => cases h1
    · rw [q1] at h1; cases h1
  · intro h1
    have hh := (hnil.1 h1).2
    have h0 : c.bufferSize f = 0 := by unfold bufferSize; rw [hh]; rfl
    have hv : frameBuffer f 0 = [] := List.length_eq_zero_iff.1 (frameBuffer_length f 0)
    have hl := hlen []
    unfold readFrame
    rcases checkBufferSize_cases c f with ⟨q1, _⟩ | ⟨_, q2⟩
    · rw [q1, h0]
      simp only [hv]
      generalize c.readIntoBuffer { f with buffer := [], ownedCap := none } cb t [] = x at h1 hl ⊢
      obtain ⟨t', v, r⟩ := x
      simp only at h1
      subst h1
      exact ⟨rfl, List.length_eq_zero_iff.1 hl⟩
    · rw [h0] at q2
      unfold MemoryLimit.sizeOk at q2
      split at q2 <;> simp at q2

end Converter

namespace DecoderIter

/-- What the iterator makes of a result of `read_next_frame`: a frame without bytes becomes `None`. -/
def shown : Option (Except DecodingError Frame) → Option (Except DecodingError Frame)
  | some (.ok f) => if f.buffer = [] then none else some (.ok f)
  | x => x

/-- **C38** For every file, all options, all calls before and every reader: the iterator yields what `read_next_frame` returns, up
to and including the first error or end, then `None` for ever; only that a frame without bytes is yielded as `None`. -/
theorem iterator_exact (hS : C.Safe) {o : DecodeOptions} {r : Reader} {d : Decoder C} (h : Decoder.Reach o r d) (n : Nat) :
    items n (new d) = (expected n d).map shown := by
  have key : ∀ (n : Nat) (it : DecoderIter C) (d : Decoder C), it.ended = false → Same it.inner d → d.Inv →
      it.inner.Inv → items n it = (expected n d).map shown := by
    intro n
    induction n with
    | zero => intros; rfl
    | succ n ih =>
      intro it d he hsame hi hi'
      obtain ⟨s1, s2⟩ := readNextFrame_same it.inner d hsame
      obtain ⟨g1, g2, g3, g4, g5, g6, g7⟩ := Decoder.readNextFrame_spec hS d hi
      obtain ⟨q1, q2, q3, q4, q5, q6, q7⟩ := Decoder.readNextFrame_spec hS it.inner hi'
      rw [items, expected]
      unfold next
      rw [if_neg (by simp [he])]
      generalize hx : it.inner.readNextFrame = x at *
      generalize hy : d.readNextFrame = y at *
      obtain ⟨d1, r1⟩ := x
      obtain ⟨d2, r2⟩ := y
      simp only at *
      subst s1
      cases r1 with
      | ok f =>
        cases f with
        | none => simp only; rw [items_ended _ _ rfl]; simp [shown]
        | some f =>
          simp only
          obtain ⟨a1, a2, a3, a4, a5, a6⟩ := q6 f rfl
          by_cases hb : f.buffer = []
          · have ht : d1.takeCurrentFrame = (d1, none) := by
              unfold Decoder.takeCurrentFrame
              rw [if_pos (by simp [a1, hb])]
            rw [ht]
            simp only [List.map_cons, shown, if_pos hb]
            rw [ih { inner := d1, ended := it.ended } d2 he s2 g1 q1]
          · have ht : d1.takeCurrentFrame = ({ d1 with currentFrame := d1.currentFrame.afterTake }, some d1.currentFrame.take) := by
              unfold Decoder.takeCurrentFrame
              rw [if_neg (by simpa [a1] using hb)]
            rw [ht]
            simp only [Frame.take, a1, List.map_cons, shown, if_neg hb]
            rw [ih { inner := { d1 with currentFrame := f.afterTake }, ended := it.ended } d2 he s2 g1 ⟨q1.rd, q1.limit⟩]
      | err e => simp only; rw [items_ended _ _ rfl]; simp [shown]
      | panic => cases g2
      | diverge => cases g2
  have hi := (Decoder.reach_inv hS h).1
  exact key n (new d) d rfl ⟨rfl, rfl⟩ hi hi

end DecoderIter

namespace Decoder

/-- **C38** Frames without bytes are the interlaced frames without rows, when pixels are decoded: `read_next_frame` returns one
exactly if `next_frame_info` finds such a frame. -/
theorem frame_without_bytes (hS : C.Safe) {o : DecodeOptions} {r : Reader} {d : Decoder C} (h : Reach o r d) :
    (∃ f, d.readNextFrame.2 = .ok (some f) ∧ f.buffer = []) ↔
      d.nextFrameInfo.2 = .ok true ∧ d.nextFrameInfo.1.dataType = .pixels ∧ d.nextFrameInfo.1.currentFrame.interlaced = true ∧
        d.nextFrameInfo.1.currentFrame.height = 0 := by
  have hi := (Decoder.reach_inv hS h).1
  obtain ⟨_, _, _, _, _, q6, _⟩ := Decoder.readNextFrame_spec hS d hi
  obtain ⟨h1, _, h3, h4, _, _, _, _⟩ := frameRun_spec hS (nextFrameInfo_run hS d hi.rd) hi.rd
  have hlim : d.nextFrameInfo.1.rd.sd.memoryLimit = d.nextFrameInfo.1.conv.memoryLimit := by
    rw [opts_limit h3, h4]; exact hi.limit
  unfold readNextFrame at *
  generalize d.nextFrameInfo = x at *
  obtain ⟨d1, out⟩ := x
  simp only at *
  cases out with
  | ok b =>
    cases b with
    | false => simp
    | true =>
      simp only at *
      cases hdt : d1.dataType with
      | lzw m =>
        simp only [hdt] at *
        constructor
        · rintro ⟨f, hf, hb⟩
          obtain ⟨data, hd⟩ := (q6 f hf).2.2.2.2.2 m rfl
          rw [hb] at hd
          cases hd
        · rintro ⟨_, h, _⟩
          cases h
      | pixels =>
        have hr := Converter.readFrame_nil d1.conv d1.currentFrame
          (decodeNextBytes_good' hS d1.conv.memoryLimit) d1.rd ⟨h1, hlim⟩
        simp only [true_and]
        rw [← hr]
        generalize d1.conv.readFrame d1.currentFrame RD.decodeNextBytes d1.rd = y
        obtain ⟨rd, f, res⟩ := y
        cases res with
        | ok u =>
          simp only [true_and]
          exact ⟨fun ⟨g, hg, hb⟩ => by cases hg; exact hb, fun hb => ⟨f, rfl, hb⟩⟩
        | _ => simp
  | err e => simp
  | panic => simp
  | diverge => simp

set_option maxRecDepth 100000 in
/-- The first frame of this file is such a frame, the second is not: both sides of `frame_without_bytes` hold of the first call
and fail for the second. -/
example :
    (match DecoderIter.emptyFirstDecoder.readNextFrame.2 with
      | .ok (some f) => f.buffer.isEmpty
      | _ => false) = true ∧
    DecoderIter.emptyFirstDecoder.nextFrameInfo.1.currentFrame.interlaced = true ∧
    DecoderIter.emptyFirstDecoder.nextFrameInfo.1.currentFrame.height = 0 ∧
    DecoderIter.emptyFirstDecoder.readNextFrame.1.nextFrameInfo.1.currentFrame.height = 1 ∧
    (match DecoderIter.emptyFirstDecoder.readNextFrame.1.readNextFrame.2 with
      | .ok (some f) => f.buffer.isEmpty
      | _ => true) = false := by
  decide +kernel

end Decoder

end Gif
