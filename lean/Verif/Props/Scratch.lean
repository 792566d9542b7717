import Verif.Model.Scratch
import Verif.Lemmas.Room
import Verif.Lemmas.Fill
import Verif.Props.Safety
/-!
# C73: what the converter decoded before does not show
-/

namespace Gif

variable {τ : Type}

/-- `ccb` does on slices what `cb` says: it writes the bytes and leaves the rest of the slice alone. If it fails, the slice may
contain anything. -/
def Spec.Writes (cb : Callback τ) (ccb : SliceCallback τ) : Prop := ∀ t slice,
  (ccb t slice).1 = (cb t slice.length).1 ∧ (ccb t slice).2.1.length = slice.length ∧
  match (cb t slice.length).2 with
  | .ok bytes => (ccb t slice).2 = ((bytes ++ slice.drop bytes.length).take slice.length, .ok bytes.length)
  | .err e => (ccb t slice).2.2 = .err e
  | .panic => (ccb t slice).2.2 = .panic
  | .diverge => (ccb t slice).2.2 = .diverge

namespace Converter

open Spec

theorem grown_length (sc : List UInt8) (k : Nat) : (grown sc k).length = max sc.length k := by
  unfold grown
  split
  · simp; omega
  · omega

/-- What two outcomes of a call have in common: `a` without scratch buffer, `b` with. -/
def Alike (c : Converter) (sc : List UInt8) (k : Nat) {α : Type} (a : τ × List UInt8 × Outcome α)
    (b : τ × List UInt8 × List UInt8 × Outcome α) : Prop :=
  b.1 = a.1 ∧ b.2.2.2 = a.2.2 ∧ b.2.2.1.length = a.2.1.length ∧ b.2.1.length ≤ max sc.length k ∧
  (c.colorOutput = .rgba ∨ (∃ x, a.2.2 = .ok x) → b.2.2.1 = a.2.1)

theorem fillLoop_alike {cb : Callback τ} {ccb : SliceCallback τ} (h : Writes cb ccb) (c : Converter) (f : Frame) :
    ∀ (fuel : Nat) (t : τ) (sc buf : List UInt8),
      Alike c sc (buf.length / 4) (c.fillLoop f cb fuel t buf) (c.fillLoopS f ccb fuel t sc buf) := by
  intro fuel
  induction fuel with
  | zero => exact fun t sc buf => ⟨rfl, rfl, rfl, Nat.le_max_left .., fun _ => rfl⟩
  | succ fuel ih =>
    intro t sc buf
    unfold fillLoop fillLoopS
    cases hc : c.colorOutput with
    | indexed =>
      simp only
      obtain ⟨h1, h2, h3⟩ := h t buf
      generalize cb t buf.length = x at *
      generalize ccb t buf = y at *
      obtain ⟨t1, out⟩ := x
      obtain ⟨t2, buf', out'⟩ := y
      simp only at h1 h2 h3 ⊢
      subst h1
      cases out with
      | err e => subst h3; exact ⟨rfl, rfl, h2, Nat.le_max_left .., fun hx => by simp [hc] at hx⟩
      | panic => subst h3; exact ⟨rfl, rfl, h2, Nat.le_max_left .., fun hx => by simp [hc] at hx⟩
      | diverge => subst h3; exact ⟨rfl, rfl, h2, Nat.le_max_left .., fun hx => by simp [hc] at hx⟩
      | ok bytes =>
        simp only [Prod.mk.injEq] at h3
        obtain ⟨rfl, rfl⟩ := h3
        simp only
        by_cases h0 : bytes.length = 0
        · have : bytes = [] := List.length_eq_zero_iff.mp h0
          subst this
          simp only [List.length_nil, if_true]
          exact ⟨rfl, rfl, h2, Nat.le_max_left .., fun _ => by simp⟩
        · rw [if_neg h0, if_neg h0, h2]
          by_cases hb : bytes.length > buf.length
          · rw [if_pos hb, if_pos hb]
            exact ⟨rfl, rfl, h2, Nat.le_max_left .., fun hx => by simp [hc] at hx⟩
          · rw [if_neg hb, if_neg hb]
            have e1 : (bytes ++ buf.drop bytes.length).take buf.length = bytes ++ buf.drop bytes.length := by
              apply List.take_of_length_le
              simp; omega
            rw [e1]
            simp only [List.drop_left, List.take_left]
            by_cases hr : (buf.drop bytes.length).isEmpty = true
            · rw [if_pos hr, if_pos hr]
              rw [List.isEmpty_iff.mp hr, List.append_nil]
              exact ⟨rfl, rfl, rfl, Nat.le_max_left .., fun _ => rfl⟩
            · rw [if_neg hr, if_neg hr]
              obtain ⟨i1, i2, i3, i4, i5⟩ := ih t2 sc (buf.drop bytes.length)
              refine ⟨i1, i2, by simp [i3], Nat.le_trans i4 ?_, fun hx => ?_⟩
              · simp only [List.length_drop]
                have : (buf.length - bytes.length) / 4 ≤ buf.length / 4 := Nat.div_le_div_right (by omega)
                omega
              · simp only
                rw [i5 hx]
    | rgba =>
      simp only
      by_cases hk : buf.length / 4 = 0
      · rw [if_pos hk, if_pos hk]
        exact ⟨rfl, rfl, rfl, Nat.le_max_left .., fun _ => rfl⟩
      · rw [if_neg hk, if_neg hk]
        have hg := grown_length sc (buf.length / 4)
        generalize grown sc (buf.length / 4) = sc1 at *
        have ht : (sc1.take (buf.length / 4)).length = buf.length / 4 := by simp; omega
        obtain ⟨h1, h2, h3⟩ := h t (sc1.take (buf.length / 4))
        rw [ht] at h1 h2 h3
        generalize cb t (buf.length / 4) = x at *
        generalize ccb t (sc1.take (buf.length / 4)) = y at *
        obtain ⟨t1, out⟩ := x
        obtain ⟨t2, o, out'⟩ := y
        simp only at h1 h2 h3 ⊢
        subst h1
        have hlen : (o ++ sc1.drop (buf.length / 4)).length ≤ max sc.length (buf.length / 4) := by
          simp only [List.length_append, List.length_drop, h2]; omega
        cases out with
        | err e => subst h3; exact ⟨rfl, rfl, rfl, hlen, fun _ => rfl⟩
        | panic => subst h3; exact ⟨rfl, rfl, rfl, hlen, fun _ => rfl⟩
        | diverge => subst h3; exact ⟨rfl, rfl, rfl, hlen, fun _ => rfl⟩
        | ok bytes =>
          simp only [Prod.mk.injEq] at h3
          obtain ⟨rfl, rfl⟩ := h3
          simp only
          by_cases h0 : bytes.length = 0
          · rw [if_pos h0, if_pos h0]
            exact ⟨rfl, rfl, rfl, hlen, fun _ => rfl⟩
          · rw [if_neg h0, if_neg h0]
            by_cases hb : bytes.length * 4 > buf.length
            · rw [if_pos hb, if_pos hb]
              exact ⟨rfl, rfl, rfl, hlen, fun _ => rfl⟩
            · rw [if_neg hb, if_neg hb]
              have e1 : (((bytes ++ (sc1.take (buf.length / 4)).drop bytes.length).take (buf.length / 4)) ++ sc1.drop (buf.length / 4)).take
                  bytes.length = bytes := by
                rw [List.take_append_of_le_length (by simp; omega), List.take_take, Nat.min_eq_left (by omega), List.take_left]
              rw [e1]
              by_cases hr : (buf.drop (bytes.length * 4)).isEmpty = true
              · rw [if_pos hr, if_pos hr]
                exact ⟨rfl, rfl, rfl, hlen, fun _ => rfl⟩
              · rw [if_neg hr, if_neg hr]
                obtain ⟨i1, i2, i3, i4, i5⟩ := ih t2 _ (buf.drop (bytes.length * 4))
                refine ⟨i1, i2, by simp [i3], Nat.le_trans i4 ?_, fun hx => ?_⟩
                · simp only [List.length_drop] at i4 ⊢
                  have : (buf.length - bytes.length * 4) / 4 ≤ buf.length / 4 := Nat.div_le_div_right (by omega)
                  omega
                · simp only
                  rw [i5 (.inl hc)]

theorem fillBuffer_alike {cb : Callback τ} {ccb : SliceCallback τ} (h : Writes cb ccb) (c : Converter) (f : Frame) (t : τ)
    (sc buf : List UInt8) : Alike c sc (buf.length / 4) (c.fillBuffer f cb t buf) (c.fillBufferS f ccb t sc buf) :=
  fillLoop_alike h c f _ t sc buf

theorem readRows_alike {cb : Callback τ} {ccb : SliceCallback τ} (h : Writes cb ccb) (c : Converter) (f : Frame) :
    ∀ (fuel : Nat) (it : InterlaceIter) (t : τ) (sc buf : List UInt8),
      Alike c sc (buf.length / 4) (c.readRows f cb fuel it t buf) (c.readRowsS f ccb fuel it t sc buf) := by
  intro fuel
  induction fuel with
  | zero => exact fun it t sc buf => ⟨rfl, rfl, rfl, Nat.le_max_left .., fun _ => rfl⟩
  | succ fuel ih =>
    intro it t sc buf
    unfold readRows readRowsS
    match it.nextRow with
    | (it1, none) => exact ⟨rfl, rfl, rfl, Nat.le_max_left .., fun _ => rfl⟩
    | (it1, some row) =>
      simp only
      by_cases hb : row * c.lineLength f ≤ buf.length ∧ c.lineLength f ≤ (buf.drop (row * c.lineLength f)).length
      · rw [if_pos hb, if_pos hb]
        obtain ⟨h1, h2, h3, h4, h5⟩ := fillBuffer_alike h c f t sc ((buf.drop (row * c.lineLength f)).take (c.lineLength f))
        have hl := fillBuffer_length c f cb t ((buf.drop (row * c.lineLength f)).take (c.lineLength f))
        have hk : ((buf.drop (row * c.lineLength f)).take (c.lineLength f)).length ≤ buf.length := by simp; omega
        have hk' := Nat.div_le_div_right (c := 4) hk
        generalize c.fillBuffer f cb t ((buf.drop (row * c.lineLength f)).take (c.lineLength f)) = x at *
        generalize c.fillBufferS f ccb t sc ((buf.drop (row * c.lineLength f)).take (c.lineLength f)) = y at *
        obtain ⟨t1, line, out⟩ := x
        obtain ⟨t2, sc2, line', out'⟩ := y
        simp only at h1 h2 h3 h4 h5 hl
        subst h1 h2
        have h4' : sc2.length ≤ max sc.length (buf.length / 4) := by omega
        have hll : ∀ l : List UInt8, l.length = line.length → (buf.take (row * c.lineLength f) ++ l ++ buf.drop (row * c.lineLength f + c.lineLength f)).length = buf.length := by
          intro l hl'
          simp only [List.length_append, List.length_take, List.length_drop, hl', hl] at *
          omega
        have hbad : ∀ o : Outcome Unit, (¬ ∃ x, o = .ok x) → (c.colorOutput = .rgba → line' = line) →
            Alike c sc (buf.length / 4) (t2, buf.take (row * c.lineLength f) ++ line ++ buf.drop (row * c.lineLength f + c.lineLength f), o)
              (t2, sc2, buf.take (row * c.lineLength f) ++ line' ++ buf.drop (row * c.lineLength f + c.lineLength f), o) := by
          intro o ho he
          refine ⟨rfl, rfl, ?_, h4', fun hx => ?_⟩
          · simp only
            rw [hll _ h3, hll _ rfl]
          · rcases hx with hx | hx
            · simp only; rw [he hx]
            · exact absurd hx ho
        cases out' with
        | ok v =>
          have e := h5 (.inr ⟨v, rfl⟩)
          subst e
          cases v with
          | true =>
            simp only
            obtain ⟨i1, i2, i3, i4, i5⟩ := ih it1 t2 sc2 (buf.take (row * c.lineLength f) ++ line' ++ buf.drop (row * c.lineLength f + c.lineLength f))
            rw [hll _ rfl] at i4
            exact ⟨i1, i2, i3, by omega, i5⟩
          | false => exact hbad _ (by simp [Outcome.fmtErr]) (fun _ => rfl)
        | err e => exact hbad _ (by simp) (fun hx => h5 (.inl hx))
        | panic => exact hbad _ (by simp) (fun hx => h5 (.inl hx))
        | diverge => exact hbad _ (by simp) (fun hx => h5 (.inl hx))
      · rw [if_neg hb, if_neg hb]
        exact ⟨rfl, rfl, rfl, Nat.le_max_left .., fun _ => rfl⟩

theorem readIntoBuffer_alike {cb : Callback τ} {ccb : SliceCallback τ} (h : Writes cb ccb) (c : Converter) (f : Frame) (t : τ)
    (sc buf : List UInt8) : Alike c sc (buf.length / 4) (c.readIntoBuffer f cb t buf) (c.readIntoBufferS f ccb t sc buf) := by
  unfold readIntoBuffer readIntoBufferS
  by_cases hi : f.interlaced = true
  · rw [if_pos hi, if_pos hi]
    exact readRows_alike h c f _ _ t sc buf
  · rw [if_neg hi, if_neg hi]
    simp only
    by_cases hb : c.bufferSize f ≤ buf.length
    · rw [if_pos hb, if_pos hb]
      obtain ⟨h1, h2, h3, h4, h5⟩ := fillBuffer_alike h c f t sc (buf.take (c.bufferSize f))
      have hk : (buf.take (c.bufferSize f)).length ≤ buf.length := by simp; omega
      have hk' := Nat.div_le_div_right (c := 4) hk
      generalize c.fillBuffer f cb t (buf.take (c.bufferSize f)) = x at *
      generalize c.fillBufferS f ccb t sc (buf.take (c.bufferSize f)) = y at *
      obtain ⟨t1, line, out⟩ := x
      obtain ⟨t2, sc2, line', out'⟩ := y
      simp only at h1 h2 h3 h4 h5
      subst h1 h2
      have h4' : sc2.length ≤ max sc.length (buf.length / 4) := by omega
      cases out' with
      | ok v =>
        have e := h5 (.inr ⟨v, rfl⟩)
        subst e
        cases v <;> exact ⟨rfl, rfl, rfl, h4', fun _ => rfl⟩
      | err e => exact ⟨rfl, rfl, by simp [h3], h4', fun hx => by simp only; rw [h5 (by simpa using hx)]⟩
      | panic => exact ⟨rfl, rfl, by simp [h3], h4', fun hx => by simp only; rw [h5 (by simpa using hx)]⟩
      | diverge => exact ⟨rfl, rfl, by simp [h3], h4', fun hx => by simp only; rw [h5 (by simpa using hx)]⟩
    · rw [if_neg hb, if_neg hb]
      exact ⟨rfl, rfl, rfl, Nat.le_max_left .., fun _ => rfl⟩

theorem readFrame_alike {cb : Callback τ} {ccb : SliceCallback τ} (h : Writes cb ccb) (c : Converter) (f : Frame) (t : τ)
    (sc : List UInt8) :
    (c.readFrameS f ccb t sc).1 = (c.readFrame f cb t).1 ∧ (c.readFrameS f ccb t sc).2.2 = (c.readFrame f cb t).2 ∧
    (c.readFrameS f ccb t sc).2.1.length ≤ max sc.length (match c.checkBufferSize f with | .ok n => n / 4 | _ => 0) := by
  unfold readFrame readFrameS
  match c.checkBufferSize f with
  | .ok n =>
    simp only
    obtain ⟨h1, h2, h3, h4, h5⟩ := readIntoBuffer_alike h c { f with buffer := [], ownedCap := none } t sc (frameBuffer f n)
    rw [frameBuffer_length] at h4
    generalize c.readIntoBuffer { f with buffer := [], ownedCap := none } cb t (frameBuffer f n) = x at *
    generalize c.readIntoBufferS { f with buffer := [], ownedCap := none } ccb t sc (frameBuffer f n) = y at *
    obtain ⟨t1, line, out⟩ := x
    obtain ⟨t2, sc2, line', out'⟩ := y
    simp only at h1 h2 h3 h4 h5
    subst h1 h2
    cases out' with
    | ok v =>
      have e := h5 (.inr ⟨v, rfl⟩)
      subst e
      exact ⟨rfl, rfl, h4⟩
    | err e => exact ⟨rfl, rfl, h4⟩
    | panic => exact ⟨rfl, rfl, h4⟩
    | diverge => exact ⟨rfl, rfl, h4⟩
  | .err e => exact ⟨rfl, rfl, Nat.le_max_left ..⟩
  | .panic => exact ⟨rfl, rfl, Nat.le_max_left ..⟩
  | .diverge => exact ⟨rfl, rfl, Nat.le_max_left ..⟩

end Converter

namespace Decoder

open Spec

variable {C : Codec}

/-- C73: frames do not depend on what the scratch buffer of the converter contains, and errors and the state of the decoder
neither. -/
theorem frames_ignore_scratch {cb : SliceCallback (RD C)} (h : Writes RD.decodeNextBytes cb) (d : Decoder C) (sc : List UInt8) :
    (d.readNextFrameS cb sc).1 = d.readNextFrame.1 ∧ (d.readNextFrameS cb sc).2.2 = d.readNextFrame.2 := by
  unfold readNextFrame readNextFrameS
  match d.nextFrameInfo with
  | (d1, .ok true) =>
    simp only
    cases d1.dataType with
    | pixels =>
      simp only
      obtain ⟨h1, h2, h3⟩ := Converter.readFrame_alike h d1.conv d1.currentFrame d1.rd sc
      generalize d1.conv.readFrame d1.currentFrame RD.decodeNextBytes d1.rd = x at *
      generalize d1.conv.readFrameS d1.currentFrame cb d1.rd sc = y at *
      obtain ⟨t1, f1, out⟩ := x
      obtain ⟨t2, sc2, f2, out'⟩ := y
      simp only [Prod.mk.injEq] at h1 h2
      obtain ⟨rfl, rfl⟩ := h2
      subst h1
      cases out' <;> exact ⟨rfl, rfl⟩
    | lzw m =>
      simp only
      generalize copyLzw m d1.rd = y
      obtain ⟨rd, vec, out⟩ := y
      cases out <;> exact ⟨rfl, rfl⟩
  | (d1, .ok false) => exact ⟨rfl, rfl⟩
  | (d1, .err e) => exact ⟨rfl, rfl⟩
  | (d1, .panic) => exact ⟨rfl, rfl⟩
  | (d1, .diverge) => exact ⟨rfl, rfl⟩

/-- C73: the same for `read_into_buffer`. The buffer of the caller may contain something else only after an error of a decoder of
palette indices. -/
theorem into_ignores_scratch {cb : SliceCallback (RD C)} (h : Writes RD.decodeNextBytes cb) (d : Decoder C) (sc buf : List UInt8) :
    (d.readIntoBufferS cb sc buf).1 = (d.readIntoBuffer buf).1 ∧ (d.readIntoBufferS cb sc buf).2.2.2 = (d.readIntoBuffer buf).2.2 ∧
    (d.readIntoBufferS cb sc buf).2.2.1.length = buf.length ∧
    (d.conv.colorOutput = .rgba ∨ (d.readIntoBuffer buf).2.2 = .ok () → (d.readIntoBufferS cb sc buf).2.2.1 = (d.readIntoBuffer buf).2.1) := by
  obtain ⟨h1, h2, h3, h4, h5⟩ := Converter.readIntoBuffer_alike h d.conv d.currentFrame d.rd sc buf
  have hl := (d.conv.readIntoBuffer_kept d.currentFrame RD.decodeNextBytes d.rd buf).1.1
  unfold readIntoBuffer readIntoBufferS
  simp only
  refine ⟨by rw [h1], h2, h3.trans hl, fun hx => h5 (hx.imp_right fun e => ⟨_, e⟩)⟩

/-- C73: the same for `fill_buffer`. -/
theorem fill_ignores_scratch {cb : SliceCallback (RD C)} (h : Writes RD.decodeNextBytes cb) (d : Decoder C) (sc buf : List UInt8) :
    (d.fillBufferS cb sc buf).1 = (d.fillBuffer buf).1 ∧ (d.fillBufferS cb sc buf).2.2.2 = (d.fillBuffer buf).2.2 ∧
    (d.fillBufferS cb sc buf).2.2.1.length = buf.length ∧
    (d.conv.colorOutput = .rgba ∨ (∃ x, (d.fillBuffer buf).2.2 = .ok x) → (d.fillBufferS cb sc buf).2.2.1 = (d.fillBuffer buf).2.1) := by
  obtain ⟨h1, h2, h3, h4, h5⟩ := Converter.fillBuffer_alike h d.conv d.currentFrame d.rd sc buf
  have hl := d.conv.fillBuffer_length d.currentFrame RD.decodeNextBytes d.rd buf
  unfold fillBuffer fillBufferS
  simp only
  exact ⟨by rw [h1], h2, h3.trans hl, h5⟩

/-- `perform` with the scratch buffer. -/
def performS (cb : SliceCallback (RD C)) (d : Decoder C) (sc : List UInt8) : Op → Decoder C × List UInt8 × Outcome Unit
  | .nextFrameInfo => match d.nextFrameInfo with
    | (d, .ok _) => (d, sc, .ok ())
    | (d, .err e) => (d, sc, .err e)
    | (d, .panic) => (d, sc, .panic)
    | (d, .diverge) => (d, sc, .diverge)
  | .readNextFrame => match d.readNextFrameS cb sc with
    | (d, sc, .ok _) => (d, sc, .ok ())
    | (d, sc, .err e) => (d, sc, .err e)
    | (d, sc, .panic) => (d, sc, .panic)
    | (d, sc, .diverge) => (d, sc, .diverge)
  | .readIntoBuffer buf => match d.readIntoBufferS cb sc buf with
    | (d, sc, _, r) => (d, sc, r)
  | .fillBuffer buf => match d.fillBufferS cb sc buf with
    | (d, sc, _, .ok _) => (d, sc, .ok ())
    | (d, sc, _, .err e) => (d, sc, .err e)
    | (d, sc, _, .panic) => (d, sc, .panic)
    | (d, sc, _, .diverge) => (d, sc, .diverge)

/-- The length of the buffer that a call is given. -/
def Op.room : Op → Nat
  | .readIntoBuffer buf => buf.length
  | .fillBuffer buf => buf.length
  | _ => 0

/-- The decoders a program can hold, with their scratch buffers, if it uses no buffers longer than `b`. -/
inductive ReachS (cb : SliceCallback (RD C)) (o : DecodeOptions) (r : Reader) (b : Nat) : Decoder C → List UInt8 → Prop
  | opened (h : (readInfo C o r).2 = .ok ()) : ReachS cb o r b (readInfo C o r).1 []
  | op {d : Decoder C} {sc : List UInt8} (h : ReachS cb o r b d sc) (op : Op) (hb : op.room ≤ b)
      (hr : (d.performS cb sc op).2.2.returns = true) : ReachS cb o r b (d.performS cb sc op).1 (d.performS cb sc op).2.1

theorem performS_same {cb : SliceCallback (RD C)} (h : Writes RD.decodeNextBytes cb) (d : Decoder C) (sc : List UInt8) (op : Op) :
    (d.performS cb sc op).1 = (d.perform op).1 ∧ (d.performS cb sc op).2.2 = (d.perform op).2 := by
  cases op with
  | nextFrameInfo =>
    unfold perform performS
    generalize d.nextFrameInfo = x
    obtain ⟨d1, out⟩ := x
    cases out <;> exact ⟨rfl, rfl⟩
  | readNextFrame =>
    obtain ⟨h1, h2⟩ := frames_ignore_scratch h d sc
    unfold perform performS
    simp only
    generalize d.readNextFrame = x at *
    generalize d.readNextFrameS cb sc = y at *
    obtain ⟨d1, out⟩ := x
    obtain ⟨d2, sc2, out2⟩ := y
    simp only at h1 h2
    subst h1 h2
    cases out2 <;> exact ⟨rfl, rfl⟩
  | readIntoBuffer buf =>
    obtain ⟨h1, h2, _⟩ := into_ignores_scratch h d sc buf
    exact ⟨h1, h2⟩
  | fillBuffer buf =>
    obtain ⟨h1, h2, _⟩ := fill_ignores_scratch h d sc buf
    unfold perform performS
    simp only
    generalize d.fillBuffer buf = x at *
    generalize d.fillBufferS cb sc buf = y at *
    obtain ⟨d1, buf1, out⟩ := x
    obtain ⟨d2, sc2, buf2, out2⟩ := y
    simp only at h1 h2
    subst h1 h2
    cases out2 <;> exact ⟨rfl, rfl⟩

/-- C73: the scratch buffer does not change what decoders a program can hold. -/
theorem reach_of_scratch {cb : SliceCallback (RD C)} (hw : Writes RD.decodeNextBytes cb) {o : DecodeOptions} {r : Reader} {b : Nat}
    {d : Decoder C} {sc : List UInt8} (h : ReachS cb o r b d sc) : Reach o r d := by
  induction h with
  | opened h => exact .opened h
  | @op d sc h op hb hr ih =>
    obtain ⟨h1, h2⟩ := performS_same hw d sc op
    rw [h1]
    rw [h2] at hr
    exact .op ih op hr

theorem performS_length (hS : C.Safe) {cb : SliceCallback (RD C)} (hw : Writes RD.decodeNextBytes cb) {d : Decoder C} (hi : d.Inv)
    {n : Nat} {hn : 0 < n} (hl : d.conv.memoryLimit = .bytes n hn) (sc : List UInt8) (op : Op) :
    (d.performS cb sc op).2.1.length ≤ max sc.length (max n op.room / 4) := by
  cases op with
  | nextFrameInfo =>
    unfold performS
    simp only
    split <;> exact Nat.le_max_left ..
  | readIntoBuffer buf =>
    obtain ⟨_, _, _, h4, _⟩ := Converter.readIntoBuffer_alike hw d.conv d.currentFrame d.rd sc buf
    have : buf.length / 4 ≤ max n buf.length / 4 := Nat.div_le_div_right (by omega)
    exact Nat.le_trans h4 (show max sc.length (buf.length / 4) ≤ max sc.length (max n buf.length / 4) by omega)
  | fillBuffer buf =>
    obtain ⟨_, _, _, h4, _⟩ := Converter.fillBuffer_alike hw d.conv d.currentFrame d.rd sc buf
    have : buf.length / 4 ≤ max n buf.length / 4 := Nat.div_le_div_right (by omega)
    have h5 : (d.fillBufferS cb sc buf).2.1.length ≤ max sc.length (max n buf.length / 4) := 
      Nat.le_trans h4 (show max sc.length (buf.length / 4) ≤ max sc.length (max n buf.length / 4) by omega)
    unfold performS
    simp only [Op.room]
    split <;> (rename_i he; rw [he] at h5; exact h5)
  | readNextFrame =>
    have h5 : (d.readNextFrameS cb sc).2.1.length ≤ max sc.length (n / 4) := by
      have hc := (frameRun_spec hS (nextFrameInfo_run hS d hi.rd) hi.rd).2.2.2.1
      unfold readNextFrameS
      generalize d.nextFrameInfo = x at *
      obtain ⟨d1, out⟩ := x
      simp only at hc
      rw [← hc] at hl
      cases out with
      | err e => exact Nat.le_max_left ..
      | panic => exact Nat.le_max_left ..
      | diverge => exact Nat.le_max_left ..
      | ok found =>
        cases found with
        | false => exact Nat.le_max_left ..
        | true =>
          simp only
          cases d1.dataType with
          | pixels =>
            simp only
            obtain ⟨_, _, h3⟩ := Converter.readFrame_alike hw d1.conv d1.currentFrame d1.rd sc
            have hk : (match d1.conv.checkBufferSize d1.currentFrame with | .ok n => n / 4 | _ => 0) ≤ n / 4 := by
              unfold Converter.checkBufferSize MemoryLimit.bufferSize MemoryLimit.bufferSizeOn
              rw [hl]
              simp only
              generalize (d1.currentFrame.width.toNat * d1.currentFrame.height.toNat *
                match d1.conv.colorOutput with | .indexed => 1 | .rgba => 4) = q
              by_cases h1 : q ≤ 2 ^ 64 - 1
              · rw [if_pos h1]
                by_cases h2 : q > n
                · rw [if_pos h2]; exact Nat.zero_le _
                · rw [if_neg h2]
                  simp only
                  by_cases h3 : q = d1.conv.bufferSize d1.currentFrame
                  · rw [if_pos h3]; exact Nat.div_le_div_right (by omega)
                  · rw [if_neg h3]; exact Nat.zero_le _
              · rw [if_neg h1]; exact Nat.zero_le _
            generalize (match d1.conv.checkBufferSize d1.currentFrame with | .ok n => n / 4 | _ => 0) = q at *
            generalize d1.conv.readFrameS d1.currentFrame cb d1.rd sc = y at *
            obtain ⟨t2, sc2, f2, out'⟩ := y
            simp only at h3
            have h6 : sc2.length ≤ max sc.length (n / 4) := by omega
            cases out' <;> exact h6
          | lzw m =>
            simp only
            generalize copyLzw m d1.rd = y
            obtain ⟨rd, vec, out⟩ := y
            cases out <;> exact Nat.le_max_left ..
    have h6 : (d.readNextFrameS cb sc).2.1.length ≤ max sc.length (max n (Op.room .readNextFrame) / 4) := by
      have : n / 4 ≤ max n (Op.room .readNextFrame) / 4 := Nat.div_le_div_right (by omega)
      omega
    unfold performS
    simp only
    split <;> (rename_i he; rw [he] at h6; exact h6)

/-- C71: the scratch buffer is not longer than a quarter of the memory limit, or of the longest buffer of the caller. -/
theorem scratch_bounded (hS : C.Safe) {cb : SliceCallback (RD C)} (hw : Writes RD.decodeNextBytes cb) {o : DecodeOptions} {r : Reader}
    {n : Nat} {hn : 0 < n} (hl : o.memoryLimit = .bytes n hn) {b : Nat} {d : Decoder C} {sc : List UInt8} (h : ReachS cb o r b d sc) :
    sc.length ≤ max n b / 4 := by
  induction h with
  | opened h => simp
  | @op d sc h op hb hr ih =>
    obtain ⟨hi, hc, _⟩ := reach_inv hS (reach_of_scratch hw h)
    have hm : d.conv.memoryLimit = .bytes n hn := by rw [hc, (readInfo_conv hS o r).1, hl]
    have h1 := performS_length hS hw hi hm sc op
    have : max n op.room / 4 ≤ max n b / 4 := Nat.div_le_div_right (by omega)
    omega

end Decoder

namespace FrameDecoder

open Spec

variable {C : Codec}

/-- C73 for `decode_lzw_encoded_frame_into_buffer`. -/
theorem into_ignores_scratch {cb : SliceCallback (LzwReader C × List UInt8)} (h : Writes pull cb) (d : FrameDecoder C) (sc : List UInt8)
    (f : Frame) (buf : List UInt8) :
    (d.decodeIntoBufferS cb sc f buf).1 = (d.decodeIntoBuffer f buf).1 ∧
    (d.decodeIntoBufferS cb sc f buf).2.2.2 = (d.decodeIntoBuffer f buf).2.2 ∧
    (d.conv.colorOutput = .rgba ∨ (d.decodeIntoBuffer f buf).2.2 = .ok () →
      (d.decodeIntoBufferS cb sc f buf).2.2.1 = (d.decodeIntoBuffer f buf).2.1) := by
  unfold decodeIntoBuffer decodeIntoBufferS
  simp only
  generalize f.buffer = fb
  cases fb with
  | nil =>
    simp only
    match d.lzw.reset 2 with
    | (lzw, .ok ()) =>
      obtain ⟨h1, h2, _, _, h5⟩ := Converter.readIntoBuffer_alike h d.conv f (lzw, []) sc buf
      exact ⟨congrArg (fun p : LzwReader C × List UInt8 => ({ d with lzw := p.1 } : FrameDecoder C)) h1, h2, fun hx => h5 (hx.imp_right fun e => ⟨_, e⟩)⟩
    | (lzw, .err e) => exact ⟨rfl, rfl, fun _ => rfl⟩
    | (lzw, .panic) => exact ⟨rfl, rfl, fun _ => rfl⟩
    | (lzw, .diverge) => exact ⟨rfl, rfl, fun _ => rfl⟩
  | cons m data =>
    simp only
    match d.lzw.reset m with
    | (lzw, .ok ()) =>
      obtain ⟨h1, h2, _, _, h5⟩ := Converter.readIntoBuffer_alike h d.conv f (lzw, data) sc buf
      exact ⟨congrArg (fun p : LzwReader C × List UInt8 => ({ d with lzw := p.1 } : FrameDecoder C)) h1, h2, fun hx => h5 (hx.imp_right fun e => ⟨_, e⟩)⟩
    | (lzw, .err e) => exact ⟨rfl, rfl, fun _ => rfl⟩
    | (lzw, .panic) => exact ⟨rfl, rfl, fun _ => rfl⟩
    | (lzw, .diverge) => exact ⟨rfl, rfl, fun _ => rfl⟩

/-- C73 for `FrameDecoder`: the frames it makes do not depend on what the scratch buffer contains. -/
theorem frames_ignore_scratch {cb : SliceCallback (LzwReader C × List UInt8)} (h : Writes pull cb) (d : FrameDecoder C) (sc : List UInt8)
    (f : Frame) : (d.decodeFrameS cb sc f).1 = (d.decodeFrame f).1 ∧ (d.decodeFrameS cb sc f).2.2 = (d.decodeFrame f).2 := by
  unfold decodeFrame decodeFrameS
  match d.conv.checkBufferSize f with
  | .ok n =>
    simp only
    obtain ⟨h1, h2, h3⟩ := into_ignores_scratch h d sc f (List.replicate n 0)
    generalize d.decodeIntoBuffer f (List.replicate n 0) = x at *
    generalize d.decodeIntoBufferS cb sc f (List.replicate n 0) = y at *
    obtain ⟨d1, vec, out⟩ := x
    obtain ⟨d2, sc2, vec2, out2⟩ := y
    simp only at h1 h2 h3
    subst h1 h2
    cases out2 with
    | ok u =>
      have := h3 (.inr rfl)
      subst this
      exact ⟨rfl, rfl⟩
    | err e => exact ⟨rfl, rfl⟩
    | panic => exact ⟨rfl, rfl⟩
    | diverge => exact ⟨rfl, rfl⟩
  | .err e => exact ⟨rfl, rfl⟩
  | .panic => exact ⟨rfl, rfl⟩
  | .diverge => exact ⟨rfl, rfl⟩

end FrameDecoder

/-- A callback on slices that leaves `junk` behind when it fails. -/
def Spec.writer (junk : List UInt8) (cb : Callback τ) : SliceCallback τ := fun t slice =>
  match cb t slice.length with
  | (t, .ok bytes) => (t, (bytes ++ slice.drop bytes.length).take slice.length, .ok bytes.length)
  | (t, .err e) => (t, (junk ++ slice.drop junk.length).take slice.length, .err e)
  | (t, .panic) => (t, slice, .panic)
  | (t, .diverge) => (t, slice, .diverge)

/-- `Writes` is satisfiable, for every callback and with any bytes left behind. -/
theorem Spec.writes_writer (junk : List UInt8) (cb : Callback τ) : Spec.Writes cb (Spec.writer junk cb) := by
  intro t slice
  unfold Spec.writer
  generalize cb t slice.length = x
  obtain ⟨t1, out⟩ := x
  cases out with
  | ok bytes => exact ⟨rfl, by simp; omega, rfl⟩
  | err e => exact ⟨rfl, by simp; omega, rfl⟩
  | panic => exact ⟨rfl, rfl, rfl⟩
  | diverge => exact ⟨rfl, rfl, rfl⟩

end Gif
