import Verif.Lemmas.Work
import Verif.Lemmas.DecRun
/-!
The work of a call is paid with the bytes it reads and the room it offers.
-/

namespace Gif

variable {C : Codec}

/-- What a failure may cost. -/
def fee (S : Nat) {α : Type} : Outcome α → Nat
  | .err e => if e.own then S else 0
  | _ => 0

/-- A data callback that keeps `I` and whose work, counted by `P`, is paid with the bytes it delivers. -/
structure Callback.Paid {τ : Type} (cb : Callback τ) (I : τ → Prop) (P : τ → Nat) (S : Nat) : Prop where
  good : cb.Good I
  ok : ∀ t cap bytes, I t → (cb t cap).2 = .ok bytes → P (cb t cap).1 ≤ P t + bytes.length
  err : ∀ t cap e, I t → (cb t cap).2 = .err e → P (cb t cap).1 ≤ P t + if e.own then S else 0

namespace Converter

variable {σ τ : Type}

theorem fillLoop_paid (c : Converter) (f : Frame) {cb : Callback τ} {I : τ → Prop} {P : τ → Nat} {S : Nat}
    (hg : cb.Paid I P S) : ∀ (fuel : Nat) (t : τ) (buf : List UInt8), I t → buf.length < fuel →
      P (c.fillLoop f cb fuel t buf).1 ≤ P t + buf.length / c.chan + fee S (c.fillLoop f cb fuel t buf).2.2 := by
  intro fuel
  induction fuel with
  | zero => intro t buf _ h; omega
  | succ fuel ih =>
    intro t buf hI hf
    rw [fillLoop]
    split
    · rename_i hc
      have hch : c.chan = 1 := by simp [chan, hc]
      rw [hch, Nat.div_one]
      obtain ⟨g1, g2, g3⟩ := hg.good t buf.length hI
      match hcb : cb t buf.length with
      | (t', .ok bytes) =>
        have h1 := hg.ok t buf.length bytes hI (by rw [hcb])
        rw [hcb] at g1 g2 g3 h1
        have hlen := g3 bytes rfl
        simp only at h1 ⊢
        split
        · simp only [fee]; omega
        · rw [if_neg (by omega)]
          split
          · simp only [fee]; omega
          · have i1 := ih t' (buf.drop bytes.length) g1 (by rw [List.length_drop]; omega)
            rw [hch, Nat.div_one, List.length_drop] at i1
            generalize c.fillLoop f cb fuel t' (buf.drop bytes.length) = x at *
            obtain ⟨t2, rest, out⟩ := x
            simp only at i1 ⊢
            omega
      | (t', .err e) =>
        have h1 := hg.err t buf.length e hI (by rw [hcb])
        rw [hcb] at h1
        simp only [fee] at h1 ⊢
        omega
      | (t', .panic) => rw [hcb] at g2; cases g2
      | (t', .diverge) => rw [hcb] at g2; cases g2
    · rename_i hc
      have hch : c.chan = 4 := by simp [chan, hc]
      rw [hch]
      split
      · simp only [fee]; omega
      · obtain ⟨g1, g2, g3⟩ := hg.good t (buf.length / 4) hI
        match hcb : cb t (buf.length / 4) with
        | (t', .ok bytes) =>
          have h1 := hg.ok t (buf.length / 4) bytes hI (by rw [hcb])
          rw [hcb] at g1 g2 g3 h1
          have hlen := g3 bytes rfl
          simp only at h1 ⊢
          split
          · simp only [fee]; omega
          · rw [if_neg (by omega)]
            split
            · simp only [fee]; omega
            · have i1 := ih t' (buf.drop (bytes.length * 4)) g1 (by rw [List.length_drop]; omega)
              rw [hch, List.length_drop] at i1
              generalize c.fillLoop f cb fuel t' (buf.drop (bytes.length * 4)) = x at *
              obtain ⟨t2, rest, out⟩ := x
              simp only at i1 ⊢
              omega
        | (t', .err e) =>
          have h1 := hg.err t (buf.length / 4) e hI (by rw [hcb])
          rw [hcb] at h1
          simp only [fee] at h1 ⊢
          omega
        | (t', .panic) => rw [hcb] at g2; cases g2
        | (t', .diverge) => rw [hcb] at g2; cases g2

theorem fillBuffer_paid (c : Converter) (f : Frame) {cb : Callback τ} {I : τ → Prop} {P : τ → Nat} {S : Nat}
    (hg : cb.Paid I P S) (t : τ) (buf : List UInt8) (hI : I t) :
    P (c.fillBuffer f cb t buf).1 ≤ P t + buf.length / c.chan + fee S (c.fillBuffer f cb t buf).2.2 :=
  fillLoop_paid c f hg _ t buf hI (by omega)

theorem lineLength_div (c : Converter) (f : Frame) : c.lineLength f / c.chan = f.width.toNat := by
  unfold lineLength chan
  cases c.colorOutput <;> simp only <;> omega

theorem readRows_paid (c : Converter) (f : Frame) {cb : Callback τ} {I : τ → Prop} {P : τ → Nat} {S : Nat}
    (hg : cb.Paid I P S) (h : Nat) :
    ∀ (fuel next pass : Nat) (t : τ) (buf : List UInt8), I t → (h = 0 ∨ next < h ∧ pass ≤ 4) →
      (InterlaceIter.remaining h next pass).length < fuel →
      P (c.readRows f cb fuel ⟨h, next, pass⟩ t buf).1 ≤
        P t + f.width.toNat * (InterlaceIter.remaining h next pass).length +
          fee S (c.readRows f cb fuel ⟨h, next, pass⟩ t buf).2.2 := by
  intro fuel
  induction fuel with
  | zero => intro next pass t buf _ _ h; omega
  | succ fuel ih =>
    intro next pass t buf hI hn hf
    rw [readRows]
    rcases hn with rfl | ⟨hn, hp⟩
    · have hr : InterlaceIter.nextRow ⟨0, next, pass⟩ = (⟨0, next, pass⟩, none) := by simp [InterlaceIter.nextRow]
      rw [hr]
      simp only [fee]; omega
    · rcases Nat.lt_or_ge pass 4 with hp4 | hp4
      · obtain ⟨next', pass', h1, h2, h3, h4⟩ := InterlaceIter.nextRow_spec h next pass hn hp4
        rw [h1]
        simp only
        rw [h2, List.length_cons] at hf ⊢
        rw [Nat.mul_add, Nat.mul_one]
        split
        · rename_i hc
          obtain ⟨g1, g2, g3⟩ := fillBuffer_good c f hg.good t ((buf.drop (next * c.lineLength f)).take (c.lineLength f)) hI
          have g4 := fillBuffer_paid c f hg t ((buf.drop (next * c.lineLength f)).take (c.lineLength f)) hI
          have hl : ((buf.drop (next * c.lineLength f)).take (c.lineLength f)).length = c.lineLength f := by
            rw [List.length_take]; omega
          rw [hl, lineLength_div] at g4
          match hcb : c.fillBuffer f cb t ((buf.drop (next * c.lineLength f)).take (c.lineLength f)) with
          | (t', line, .ok true) =>
            rw [hcb] at g1 g2 g3 g4
            have i1 := ih next' pass' t' (buf.take (next * c.lineLength f) ++ line ++
              buf.drop (next * c.lineLength f + c.lineLength f)) g1 (.inr ⟨h3, h4⟩) (by omega)
            simp only [fee] at g4 ⊢
            simp only [fee] at i1
            omega
          | (t', line, .ok false) => rw [hcb] at g4; simp only [fee] at g4 ⊢; omega
          | (t', line, .err e) => rw [hcb] at g4; simp only [fee] at g4 ⊢; omega
          | (t', line, .panic) => rw [hcb] at g2; cases g2
          | (t', line, .diverge) => rw [hcb] at g2; cases g2
        · simp only [fee]; omega
      · have : pass = 4 := by omega
        subst this
        rw [InterlaceIter.nextRow_end]
        simp only [fee]; omega

theorem readIntoBuffer_paid (c : Converter) (f : Frame) {cb : Callback τ} {I : τ → Prop} {P : τ → Nat} {S : Nat}
    (hg : cb.Paid I P S) (t : τ) (buf : List UInt8) (hI : I t) :
    P (c.readIntoBuffer f cb t buf).1 ≤
      P t + f.width.toNat * f.height.toNat + fee S (c.readIntoBuffer f cb t buf).2.2 := by
  rw [readIntoBuffer]
  split
  · have := readRows_paid c f hg f.height.toNat (f.height.toNat + 1) 0 0 t buf hI (by
        rcases Nat.eq_zero_or_pos f.height.toNat with h | h
        · exact .inl h
        · exact .inr ⟨h, by decide⟩)
      (by rw [InterlaceIter.remaining_zero, Spec.interlaceOrder_length]; omega)
    rw [InterlaceIter.remaining_zero, Spec.interlaceOrder_length] at this
    exact this
  · simp only
    split
    · rename_i hsz
      obtain ⟨g1, g2, g3⟩ := fillBuffer_good c f hg.good t (buf.take (c.bufferSize f)) hI
      have g4 := fillBuffer_paid c f hg t (buf.take (c.bufferSize f)) hI
      have hl : (buf.take (c.bufferSize f)).length / c.chan = f.width.toNat * f.height.toNat := by
        rw [List.length_take, Nat.min_eq_left hsz, bufferSize_eq]
        first
        | exact Nat.mul_div_cancel_left _ c.chan_pos
        | exact Nat.mul_div_cancel _ c.chan_pos
      rw [hl] at g4
      match hcb : c.fillBuffer f cb t (buf.take (c.bufferSize f)) with
      | (t', pix, .ok true) => rw [hcb] at g4; simp only [fee] at g4 ⊢; omega
      | (t', pix, .ok false) => rw [hcb] at g4; simp only [fee] at g4 ⊢; omega
      | (t', pix, .err e) => rw [hcb] at g4; simp only [fee] at g4 ⊢; omega
      | (t', pix, .panic) => rw [hcb] at g2; cases g2
      | (t', pix, .diverge) => rw [hcb] at g2; cases g2
    · simp only [fee]; omega

theorem readFrame_paid (c : Converter) (f : Frame) {cb : Callback τ} {I : τ → Prop} {P : τ → Nat} {S : Nat}
    (hg : cb.Paid I P S) (t : τ) (hI : I t) :
    P (c.readFrame f cb t).1 ≤ P t + f.width.toNat * f.height.toNat + fee S (c.readFrame f cb t).2.2 := by
  unfold readFrame
  rcases checkBufferSize_cases c f with ⟨h1, h2⟩ | ⟨h1, h2⟩
  · rw [h1]
    simp only
    have g4 := readIntoBuffer_paid c { f with buffer := [], ownedCap := none } hg t
      (frameBuffer f (c.bufferSize f)) hI
    match hr : c.readIntoBuffer { f with buffer := [], ownedCap := none } cb t (frameBuffer f (c.bufferSize f)) with
    | (t', vec, .ok ()) => rw [hr] at g4; exact g4
    | (t', vec, .err e) => rw [hr] at g4; exact g4
    | (t', vec, .panic) => rw [hr] at g4; exact g4
    | (t', vec, .diverge) => rw [hr] at g4; exact g4
  · rw [h1]
    simp only [fee]; omega

/-! ## The counter changes nothing -/

/-- Forgetting part of the state of the source. -/
def _root_.Gif.Callback.Over (cb : Callback τ) (cb' : Callback σ) (g : σ → τ) : Prop :=
  ∀ t cap, cb (g t) cap = (g (cb' t cap).1, (cb' t cap).2)

theorem fillLoop_over (c : Converter) (f : Frame) {cb : Callback τ} {cb' : Callback σ} {g : σ → τ} (h : cb.Over cb' g) :
    ∀ (fuel : Nat) (t : σ) (buf : List UInt8), c.fillLoop f cb fuel (g t) buf =
      (g (c.fillLoop f cb' fuel t buf).1, (c.fillLoop f cb' fuel t buf).2) := by
  intro fuel
  induction fuel with
  | zero => intro t buf; rfl
  | succ fuel ih =>
    intro t buf
    rw [fillLoop, fillLoop]
    cases c.colorOutput with
    | indexed =>
      simp only
      rw [h t buf.length]
      generalize cb' t buf.length = x
      obtain ⟨t', out⟩ := x
      cases out with
      | ok bytes =>
        simp only
        split
        · rfl
        · split
          · rfl
          · split
            · rfl
            · rw [ih t' _]
      | _ => rfl
    | rgba =>
      simp only
      split
      · rfl
      · rw [h t (buf.length / 4)]
        generalize cb' t (buf.length / 4) = x
        obtain ⟨t', out⟩ := x
        cases out with
        | ok bytes =>
          simp only
          split
          · rfl
          · split
            · rfl
            · split
              · rfl
              · rw [ih t' _]
        | _ => rfl

theorem fillBuffer_over (c : Converter) (f : Frame) {cb : Callback τ} {cb' : Callback σ} {g : σ → τ} (h : cb.Over cb' g)
    (t : σ) (buf : List UInt8) : c.fillBuffer f cb (g t) buf =
      (g (c.fillBuffer f cb' t buf).1, (c.fillBuffer f cb' t buf).2) := fillLoop_over c f h _ t buf

theorem readRows_over (c : Converter) (f : Frame) {cb : Callback τ} {cb' : Callback σ} {g : σ → τ} (h : cb.Over cb' g) :
    ∀ (fuel : Nat) (it : InterlaceIter) (t : σ) (buf : List UInt8), c.readRows f cb fuel it (g t) buf =
      (g (c.readRows f cb' fuel it t buf).1, (c.readRows f cb' fuel it t buf).2) := by
  intro fuel
  induction fuel with
  | zero => intro it t buf; rfl
  | succ fuel ih =>
    intro it t buf
    rw [readRows, readRows]
    generalize it.nextRow = x
    obtain ⟨it', row⟩ := x
    cases row with
    | none => rfl
    | some row =>
      simp only
      split
      · rw [fillBuffer_over c f h]
        generalize c.fillBuffer f cb' t _ = x
        obtain ⟨t', line, out⟩ := x
        cases out with
        | ok b =>
          cases b with
          | true => exact ih _ _ _
          | false => rfl
        | _ => rfl
      · rfl

theorem readIntoBuffer_over (c : Converter) (f : Frame) {cb : Callback τ} {cb' : Callback σ} {g : σ → τ}
    (h : cb.Over cb' g) (t : σ) (buf : List UInt8) : c.readIntoBuffer f cb (g t) buf =
      (g (c.readIntoBuffer f cb' t buf).1, (c.readIntoBuffer f cb' t buf).2) := by
  rw [readIntoBuffer, readIntoBuffer]
  split
  · exact readRows_over c f h _ _ _ _
  · simp only
    split
    · rw [fillBuffer_over c f h]
      generalize c.fillBuffer f cb' t _ = x
      obtain ⟨t', pix, out⟩ := x
      cases out with
      | ok b => cases b <;> rfl
      | _ => rfl
    · rfl

theorem readFrame_over (c : Converter) (f : Frame) {cb : Callback τ} {cb' : Callback σ} {g : σ → τ} (h : cb.Over cb' g)
    (t : σ) : c.readFrame f cb (g t) = (g (c.readFrame f cb' t).1, (c.readFrame f cb' t).2) := by
  rw [readFrame, readFrame]
  generalize c.checkBufferSize f = x
  cases x with
  | ok n =>
    simp only
    rw [readIntoBuffer_over c _ h]
    generalize c.readIntoBuffer _ cb' t _ = x
    obtain ⟨t', vec, out⟩ := x
    cases out <;> rfl
  | _ => rfl

end Converter

namespace RD

theorem countedBytes_over : (decodeNextBytes (C := C)).Over countedBytes Prod.fst := fun _ _ => rfl

/-- One call of `decode_next`: steps against bytes. -/
theorem decodeNext_work (hS : C.Safe) (o : OutSpec) (d : RD C) (hi : Inv d) (N : Nat) (hN : d.reader.bytes.length ≤ N) :
    (∀ d', d.decodeNext o = (d', .ok none) → pullWork o d + meas d' ≤ meas d) ∧
    (∀ d' ev, d.decodeNext o = (d', .ok (some ev)) →
      pullWork o d + meas d' ≤ meas d + SD.made ev + 1 ∧
      (o ≠ .slice 0 ∨ (∀ l, ev ≠ .lzwDataCopied l) → pullWork o d + meas d' ≤ meas d + SD.made ev)) ∧
    (∀ d' e, d.decodeNext o = (d', .err e) → pullWork o d + meas d' ≤ meas d + if e.own then 4 * N + 4 else 0) := by
  obtain ⟨h1, h2, h3⟩ := decodeNextLoop_work hS o (d.reader.src.length + 3) d hi
  refine ⟨h1, h2, fun d' e h => ?_⟩
  obtain ⟨j1, j2⟩ := h3 d' e h
  have hsuf := (pull_suffix hS (decodeNext_pull' hS hi h) hi).length_le
  have hr := SD.rank_le d'.sd
  unfold pullWork
  have hm : meas d' = 4 * d'.reader.bytes.length + d'.sd.rank := rfl
  cases he : e.own with
  | true => rw [if_pos rfl]; omega
  | false =>
    have := j2 he
    rw [if_neg (by simp)]; omega

/-- Without a slice there is no room for pixels. -/
theorem decodeNext_made (hS : C.Safe) {o : OutSpec} (ho : ∀ c, o ≠ .slice c) {d d' : RD C} {ev : Decoded} (hi : Inv d)
    (h : d.decodeNext o = (d', .ok (some ev))) : SD.made ev = 0 := by
  obtain ⟨s1, b, bs, n, _, _, _, htr, _⟩ := pull_last hS (decodeNext_pull' hS hi h) hi rfl
  cases ev with
  | bytesDecoded bytes =>
    have := (SD.tr_bytes hS htr).2
    cases o with
    | slice c => exact absurd rfl (ho c)
    | vec l => simpa [SD.OutSpec.cap, SD.made] using this
    | none => simpa [SD.OutSpec.cap, SD.made] using this
  | _ => rfl

/-- `decode_next_bytes` is paid with bytes and pixels. -/
theorem countedBytes_paid (hS : C.Safe) (N : Nat) : (countedBytes (C := C)).Paid
    (fun t => Inv t.1 ∧ t.1.reader.bytes.length ≤ N) (fun t => t.2 + meas t.1) (4 * N + 4) where
  good := fun t cap hI => by
    obtain ⟨g1, g2, g3⟩ := decodeNextBytes_good hS t.1 cap hI.1
    refine ⟨⟨g1, ?_⟩, g2, g3⟩
    have hp := pull_suffix hS (decodeNext_pull hS (.slice cap) t.1 hI.1) hI.1
    have : (decodeNextBytes t.1 cap).1 = (t.1.decodeNext (.slice cap)).1 := by
      unfold decodeNextBytes
      generalize t.1.decodeNext (.slice cap) = x
      obtain ⟨d, out⟩ := x
      cases out with
      | ok ev => cases ev with
        | none => rfl
        | some ev => cases ev <;> rfl
      | _ => rfl
    show (decodeNextBytes t.1 cap).1.reader.bytes.length ≤ N
    rw [this]
    exact Nat.le_trans hp.length_le hI.2
  ok := fun t cap bytes hI h => by
    obtain ⟨k1, k2, k3⟩ := decodeNext_work hS (.slice cap) t.1 hI.1 N hI.2
    show t.2 + pullWork (.slice cap) t.1 + meas (decodeNextBytes t.1 cap).1 ≤ _
    change (decodeNextBytes t.1 cap).2 = _ at h
    unfold decodeNextBytes at h ⊢
    generalize t.1.decodeNext (.slice cap) = x at *
    obtain ⟨d, out⟩ := x
    cases out with
    | ok ev =>
      cases ev with
      | none => cases h
      | some ev =>
        obtain ⟨_, j⟩ := k2 d ev rfl
        cases ev with
        | bytesDecoded b => cases h; have := j (.inr fun l hl => by cases hl); simp only [SD.made] at this ⊢; omega
        | dataEnd => cases h; have := j (.inr fun l hl => by cases hl); simp only [SD.made] at this ⊢; omega
        | _ => cases h
    | _ => cases h
  err := fun t cap e hI h => by
    have hb := (pull_suffix hS (decodeNext_pull hS (.slice cap) t.1 hI.1) hI.1).length_le
    obtain ⟨k1, k2, k3⟩ := decodeNext_work hS (.slice cap) t.1 hI.1 N hI.2
    show t.2 + pullWork (.slice cap) t.1 + meas (decodeNextBytes t.1 cap).1 ≤ _
    change (decodeNextBytes t.1 cap).2 = _ at h
    unfold decodeNextBytes at h ⊢
    generalize t.1.decodeNext (.slice cap) = x at *
    obtain ⟨d, out⟩ := x
    have hr := SD.rank_le d.sd
    have hm : meas d = 4 * d.reader.bytes.length + d.sd.rank := rfl
    have hN := hI.2
    cases out with
    | ok ev =>
      cases ev with
      | none => cases h; have := k1 d rfl; simp only; omega
      | some ev =>
        obtain ⟨j, _⟩ := k2 d ev rfl
        cases ev with
        | bytesDecoded b => cases h
        | dataEnd => cases h
        | _ => cases h; simp only [SD.made, DecodingError.own, if_true] at j ⊢; omega
    | err e' => cases h; have := k3 d e rfl; simp only; omega
    | _ => cases h

end RD

end Gif
