import Verif.Spec.ExpandWork
import Verif.Lemmas.WorkSum
import Verif.Props.Safety
/-!
The calls of the LZW decoder that a `FrameDecoder` makes are paid with the bytes it takes and the pixels it delivers; only the
last call may be for free.
-/

namespace Gif

variable {C : Codec}

/-- Not the whole buffer filled. -/
class Short (α : Type) where
  short : α → Nat

instance : Short Bool where
  short b := if b then 0 else 1

instance : Short Unit where
  short _ := 0

/-- What the last call may cost. -/
def toll {α : Type} [Short α] : Outcome α → Nat
  | .ok a => Short.short a
  | _ => 1

/-- A data callback that keeps `I` and whose work, counted by `P`, is paid with the bytes it delivers, unless it delivers none. -/
structure Callback.Toll {τ : Type} (cb : Callback τ) (I : τ → Prop) (P : τ → Nat) : Prop where
  good : cb.Good I
  ok : ∀ t cap bytes, I t → (cb t cap).2 = .ok bytes → P (cb t cap).1 ≤ P t + bytes.length + 1 ∧
    (0 < bytes.length → P (cb t cap).1 ≤ P t + bytes.length)
  err : ∀ t cap e, I t → (cb t cap).2 = .err e → P (cb t cap).1 ≤ P t + 1

namespace Converter

variable {τ : Type}

theorem fillLoop_toll (c : Converter) (f : Frame) {cb : Callback τ} {I : τ → Prop} {P : τ → Nat}
    (hg : cb.Toll I P) : ∀ (fuel : Nat) (t : τ) (buf : List UInt8), I t → buf.length < fuel →
      P (c.fillLoop f cb fuel t buf).1 ≤ P t + buf.length / c.chan + toll (c.fillLoop f cb fuel t buf).2.2 := by
  intro fuel
  induction fuel with
  | zero => intro t buf _ h; omega
  | succ fuel ih =>
    intro t buf hI hf
    rw [fillLoop]
    split
    · rename_i hc
      have hch : c.chan = 1 := by simp [chan, hc]
      rw [hch, Nat.div_one]
      obtain ⟨g1, g2, g3⟩ := hg.good t buf.length hI
      match hcb : cb t buf.length with
      | (t', .ok bytes) =>
        have h1 := hg.ok t buf.length bytes hI (by rw [hcb])
        rw [hcb] at g1 g2 g3 h1
        have hlen := g3 bytes rfl
        simp only at h1 ⊢
        split
        · simp only [toll, Short.short, if_true, Bool.false_eq_true, if_false]; omega
        · rw [if_neg (by omega)]
          split
          · simp only [toll, Short.short, if_true, Bool.false_eq_true, if_false]; omega
          · have i1 := ih t' (buf.drop bytes.length) g1 (by rw [List.length_drop]; omega)
            rw [hch, Nat.div_one, List.length_drop] at i1
            generalize c.fillLoop f cb fuel t' (buf.drop bytes.length) = x at *
            obtain ⟨t2, rest, out⟩ := x
            simp only at i1 ⊢
            omega
      | (t', .err e) =>
        have h1 := hg.err t buf.length e hI (by rw [hcb])
        rw [hcb] at h1
        simp only [toll, Short.short, if_true, Bool.false_eq_true, if_false] at h1 ⊢
        omega
      | (t', .panic) => rw [hcb] at g2; cases g2
      | (t', .diverge) => rw [hcb] at g2; cases g2
    · rename_i hc
      have hch : c.chan = 4 := by simp [chan, hc]
      rw [hch]
      split
      · simp only [toll, Short.short, if_true, Bool.false_eq_true, if_false]; omega
      · obtain ⟨g1, g2, g3⟩ := hg.good t (buf.length / 4) hI
        match hcb : cb t (buf.length / 4) with
        | (t', .ok bytes) =>
          have h1 := hg.ok t (buf.length / 4) bytes hI (by rw [hcb])
          rw [hcb] at g1 g2 g3 h1
          have hlen := g3 bytes rfl
          simp only at h1 ⊢
          split
          · simp only [toll, Short.short, if_true, Bool.false_eq_true, if_false]; omega
          · rw [if_neg (by omega)]
            split
            · simp only [toll, Short.short, if_true, Bool.false_eq_true, if_false]; omega
            · have i1 := ih t' (buf.drop (bytes.length * 4)) g1 (by rw [List.length_drop]; omega)
              rw [hch, List.length_drop] at i1
              generalize c.fillLoop f cb fuel t' (buf.drop (bytes.length * 4)) = x at *
              obtain ⟨t2, rest, out⟩ := x
              simp only at i1 ⊢
              omega
        | (t', .err e) =>
          have h1 := hg.err t (buf.length / 4) e hI (by rw [hcb])
          rw [hcb] at h1
          simp only [toll, Short.short, if_true, Bool.false_eq_true, if_false] at h1 ⊢
          omega
        | (t', .panic) => rw [hcb] at g2; cases g2
        | (t', .diverge) => rw [hcb] at g2; cases g2

theorem fillBuffer_toll (c : Converter) (f : Frame) {cb : Callback τ} {I : τ → Prop} {P : τ → Nat}
    (hg : cb.Toll I P) (t : τ) (buf : List UInt8) (hI : I t) :
    P (c.fillBuffer f cb t buf).1 ≤ P t + buf.length / c.chan + toll (c.fillBuffer f cb t buf).2.2 :=
  fillLoop_toll c f hg _ t buf hI (by omega)

theorem readRows_toll (c : Converter) (f : Frame) {cb : Callback τ} {I : τ → Prop} {P : τ → Nat}
    (hg : cb.Toll I P) (h : Nat) :
    ∀ (fuel next pass : Nat) (t : τ) (buf : List UInt8), I t → (h = 0 ∨ next < h ∧ pass ≤ 4) →
      (InterlaceIter.remaining h next pass).length < fuel →
      P (c.readRows f cb fuel ⟨h, next, pass⟩ t buf).1 ≤
        P t + f.width.toNat * (InterlaceIter.remaining h next pass).length +
          toll (c.readRows f cb fuel ⟨h, next, pass⟩ t buf).2.2 := by
  intro fuel
  induction fuel with
  | zero => intro next pass t buf _ _ h; omega
  | succ fuel ih =>
    intro next pass t buf hI hn hf
    rw [readRows]
    rcases hn with rfl | ⟨hn, hp⟩
    · have hr : InterlaceIter.nextRow ⟨0, next, pass⟩ = (⟨0, next, pass⟩, none) := by simp [InterlaceIter.nextRow]
      rw [hr]
      simp only [toll, Short.short, if_true, Bool.false_eq_true, if_false]; omega
    · rcases Nat.lt_or_ge pass 4 with hp4 | hp4
      · obtain ⟨next', pass', h1, h2, h3, h4⟩ := InterlaceIter.nextRow_spec h next pass hn hp4
        rw [h1]
        simp only
        rw [h2, List.length_cons] at hf ⊢
        rw [Nat.mul_add, Nat.mul_one]
        split
        · rename_i hc
          obtain ⟨g1, g2, g3⟩ := fillBuffer_good c f hg.good t ((buf.drop (next * c.lineLength f)).take (c.lineLength f)) hI
          have g4 := fillBuffer_toll c f hg t ((buf.drop (next * c.lineLength f)).take (c.lineLength f)) hI
          have hl : ((buf.drop (next * c.lineLength f)).take (c.lineLength f)).length = c.lineLength f := by
            rw [List.length_take]; omega
          rw [hl, lineLength_div] at g4
          match hcb : c.fillBuffer f cb t ((buf.drop (next * c.lineLength f)).take (c.lineLength f)) with
          | (t', line, .ok true) =>
            rw [hcb] at g1 g2 g3 g4
            have i1 := ih next' pass' t' (buf.take (next * c.lineLength f) ++ line ++
              buf.drop (next * c.lineLength f + c.lineLength f)) g1 (.inr ⟨h3, h4⟩) (by omega)
            simp only [toll, Short.short, if_true, Bool.false_eq_true, if_false] at g4 ⊢
            simp only [toll, Short.short, if_true, Bool.false_eq_true, if_false] at i1
            omega
          | (t', line, .ok false) => rw [hcb] at g4; simp only [toll, Short.short, if_true, Bool.false_eq_true, if_false] at g4 ⊢; omega
          | (t', line, .err e) => rw [hcb] at g4; simp only [toll, Short.short, if_true, Bool.false_eq_true, if_false] at g4 ⊢; omega
          | (t', line, .panic) => rw [hcb] at g2; cases g2
          | (t', line, .diverge) => rw [hcb] at g2; cases g2
        · simp only [toll, Short.short, if_true, Bool.false_eq_true, if_false]; omega
      · have : pass = 4 := by omega
        subst this
        rw [InterlaceIter.nextRow_end]
        simp only [toll, Short.short, if_true, Bool.false_eq_true, if_false]; omega

theorem readIntoBuffer_toll (c : Converter) (f : Frame) {cb : Callback τ} {I : τ → Prop} {P : τ → Nat}
    (hg : cb.Toll I P) (t : τ) (buf : List UInt8) (hI : I t) :
    P (c.readIntoBuffer f cb t buf).1 ≤
      P t + f.width.toNat * f.height.toNat + toll (c.readIntoBuffer f cb t buf).2.2 := by
  rw [readIntoBuffer]
  split
  · have := readRows_toll c f hg f.height.toNat (f.height.toNat + 1) 0 0 t buf hI (by
        rcases Nat.eq_zero_or_pos f.height.toNat with h | h
        · exact .inl h
        · exact .inr ⟨h, by decide⟩)
      (by rw [InterlaceIter.remaining_zero, Spec.interlaceOrder_length]; omega)
    rw [InterlaceIter.remaining_zero, Spec.interlaceOrder_length] at this
    exact this
  · simp only
    split
    · rename_i hsz
      obtain ⟨g1, g2, g3⟩ := fillBuffer_good c f hg.good t (buf.take (c.bufferSize f)) hI
      have g4 := fillBuffer_toll c f hg t (buf.take (c.bufferSize f)) hI
      have hl : (buf.take (c.bufferSize f)).length / c.chan = f.width.toNat * f.height.toNat := by
        rw [List.length_take, Nat.min_eq_left hsz, bufferSize_eq]
        first
        | exact Nat.mul_div_cancel_left _ c.chan_pos
        | exact Nat.mul_div_cancel _ c.chan_pos
      rw [hl] at g4
      match hcb : c.fillBuffer f cb t (buf.take (c.bufferSize f)) with
      | (t', pix, .ok true) => rw [hcb] at g4; simp only [toll, Short.short, if_true, Bool.false_eq_true, if_false] at g4 ⊢; omega
      | (t', pix, .ok false) => rw [hcb] at g4; simp only [toll, Short.short, if_true, Bool.false_eq_true, if_false] at g4 ⊢; omega
      | (t', pix, .err e) => rw [hcb] at g4; simp only [toll, Short.short, if_true, Bool.false_eq_true, if_false] at g4 ⊢; omega
      | (t', pix, .panic) => rw [hcb] at g2; cases g2
      | (t', pix, .diverge) => rw [hcb] at g2; cases g2
    · simp only [toll, Short.short, if_true, Bool.false_eq_true, if_false]; omega


end Converter

end Gif
