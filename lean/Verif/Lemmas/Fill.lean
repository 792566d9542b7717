import Verif.Model.Converter
import Verif.Spec.Source
import Verif.Lemmas.Interlace
/-!
`fill_buffer` and `read_into_buffer` over an arbitrary pixel source.
-/

namespace Gif.Converter

open Spec

variable {τ : Type}

/-- Bytes per pixel of the output. -/
def chan (c : Converter) : Nat := match c.colorOutput with
  | .indexed => 1
  | .rgba => 4

theorem chan_pos (c : Converter) : 0 < c.chan := by unfold chan; split <;> decide

/-- Output bytes for a list of indices. -/
def convert (c : Converter) (f : Frame) (idx old : List UInt8) : List UInt8 :=
  match c.colorOutput with
  | .indexed => idx
  | .rgba => expandPixels (c.effectivePalette f) f.transparent idx old

theorem expandPixel_length (p : List UInt8) (tr : Option UInt8) (i r g b a : UInt8) :
    (expandPixel p tr i r g b a).length = 4 := by
  unfold expandPixel
  split <;> rfl

theorem expandPixels_append (p : List UInt8) (tr : Option UInt8) : ∀ (i j x y : List UInt8),
    x.length = 4 * i.length → expandPixels p tr (i ++ j) (x ++ y) = expandPixels p tr i x ++ expandPixels p tr j y := by
  intro i
  induction i with
  | nil =>
    intro j x y hx
    have : x = [] := List.eq_nil_of_length_eq_zero (by simpa using hx)
    subst this
    simp [expandPixels]
  | cons i is ih =>
    intro j x y hx
    match x, hx with
    | r :: g :: b :: a :: xs, hx =>
      simp only [List.cons_append, expandPixels, List.append_assoc]
      rw [ih j xs y (by simp at hx ⊢; omega)]
    | [], hx => simp at hx
    | [_], hx => simp at hx; omega
    | [_, _], hx => simp at hx; omega
    | [_, _, _], hx => simp at hx; omega

theorem expandPixels_length (p : List UInt8) (tr : Option UInt8) : ∀ (i x : List UInt8),
    (expandPixels p tr i x).length = x.length := by
  intro i
  induction i with
  | nil => intro x; simp [expandPixels]
  | cons i is ih =>
    intro x
    match x with
    | r :: g :: b :: a :: xs => simp [expandPixels, expandPixel_length, ih]; omega
    | [] => rfl
    | [_] => rfl
    | [_, _] => rfl
    | [_, _, _] => rfl

theorem expandPixel_eq (p : List UInt8) (tr : Option UInt8) (i r g b a : UInt8) :
    expandPixel p tr i r g b a = rgbaPixel p tr i [r, g, b, a] := by
  unfold expandPixel rgbaPixel
  by_cases h : 3 * i.toNat + 3 ≤ p.length
  · rw [if_pos h]
    have e : (p.drop (3 * i.toNat)).take 3 =
        [p.getD (3 * i.toNat) 0, p.getD (3 * i.toNat + 1) 0, p.getD (3 * i.toNat + 2) 0] := by
      apply List.ext_getElem
      · simp; omega
      · intro k h1 h2
        simp only [List.length_cons, List.length_nil] at h2
        match k, h2 with
        | 0, _ => simp [List.getElem?_eq_getElem (show 3 * i.toNat < p.length by omega)]
        | 1, _ => simp [List.getElem?_eq_getElem (show 3 * i.toNat + 1 < p.length by omega)]
        | 2, _ => simp [List.getElem?_eq_getElem (show 3 * i.toNat + 2 < p.length by omega)]
    rw [e]
    cases tr with
    | none => simp
    | some t => simp
  · rw [if_neg h]
    split
    · rename_i heq
      have := congrArg List.length heq
      simp at this; omega
    · rfl

theorem expandPixels_eq (p : List UInt8) (tr : Option UInt8) : ∀ (i x : List UInt8), x.length = 4 * i.length →
    expandPixels p tr i x = rgbaPixels p tr i x := by
  intro i
  induction i with
  | nil =>
    intro x hx
    have : x = [] := List.eq_nil_of_length_eq_zero (by simpa using hx)
    subst this
    rfl
  | cons i is ih =>
    intro x hx
    match x, hx with
    | r :: g :: b :: a :: xs, hx =>
      rw [expandPixels, ih xs (by simp at hx ⊢; omega), expandPixel_eq]
      unfold rgbaPixels
      rw [List.length_cons, List.range_succ_eq_map, List.flatMap_cons, List.flatMap_map]
      congr 1
    | [], hx => simp at hx
    | [_], hx => simp at hx; omega
    | [_, _], hx => simp at hx; omega
    | [_, _, _], hx => simp at hx; omega

theorem convert_append (c : Converter) (f : Frame) (i j x y : List UInt8) (h : x.length = c.chan * i.length) :
    c.convert f (i ++ j) (x ++ y) = c.convert f i x ++ c.convert f j y := by
  unfold convert chan at *
  cases hc : c.colorOutput <;> simp only [hc] at h ⊢
  · exact expandPixels_append _ _ i j x y h

theorem convert_length (c : Converter) (f : Frame) (i x : List UInt8) (h : x.length = c.chan * i.length) :
    (c.convert f i x).length = x.length := by
  unfold convert chan at *
  cases hc : c.colorOutput <;> simp only [hc] at h ⊢
  · exact expandPixels_length _ _ i x
  · omega

/-- The effect of one turn of the loop of `fill_buffer`. -/
theorem fillLoop_step (c : Converter) (f : Frame) (cb : Callback τ) (fuel : Nat) (t t' : τ) (buf piece : List UInt8)
    (n : Nat) (hb : buf.length = c.chan * n) (hn : 0 < n) (hcb : cb t n = (t', .ok piece)) (hp : piece ≠ [])
    (hl : piece.length ≤ n) :
    c.fillLoop f cb (fuel + 1) t buf =
      if piece.length = n then (t', c.convert f piece buf, .ok true)
      else
        let r := c.fillLoop f cb fuel t' (buf.drop (c.chan * piece.length))
        (r.1, c.convert f piece (buf.take (c.chan * piece.length)) ++ r.2.1, r.2.2) := by
  have hp0 : 0 < piece.length := List.length_pos_iff.2 hp
  conv => lhs; unfold fillLoop
  unfold convert
  cases hc : c.colorOutput
  · have hch : c.chan = 4 := by simp [chan, hc]
    rw [hch] at hb ⊢
    simp only
    rw [if_neg (by omega), show buf.length / 4 = n by omega, hcb]
    simp only
    rw [if_neg (by omega), if_neg (by omega)]
    by_cases he : piece.length = n
    · rw [if_pos he, if_pos (by simp; omega), List.take_of_length_le (by omega)]
    · rw [if_neg he, if_neg (by simp; omega), Nat.mul_comm]
  · have hch : c.chan = 1 := by simp [chan, hc]
    rw [hch] at hb ⊢
    simp only
    rw [show buf.length = n by omega, hcb]
    simp only
    rw [if_neg (by omega), if_neg (by omega)]
    by_cases he : piece.length = n
    · rw [if_pos he, if_pos (by simp; omega)]
    · rw [if_neg he, if_neg (by simp; omega)]
      simp only [Nat.one_mul]

/-- With at least as many indices as pixels, `fill_buffer` fills the buffer. -/
theorem fillLoop_full (c : Converter) (f : Frame) (cb : Callback τ) (R : τ → List UInt8 → Prop) (hs : Serves cb R) :
    ∀ (fuel : Nat) (t : τ) (l buf : List UInt8) (n : Nat), R t l → buf.length = c.chan * n → 0 < n → n ≤ l.length →
      n ≤ fuel →
      ∃ t', c.fillLoop f cb fuel t buf = (t', c.convert f (l.take n) buf, .ok true) ∧ R t' (l.drop n) := by
  intro fuel
  induction fuel with
  | zero => intro t l buf n _ _ _ _ _; omega
  | succ fuel ih =>
    intro t l buf n hR hb hn hl hf
    obtain ⟨t', piece, l', hcb, hp, hpl, he, hR'⟩ := hs t l n hR (by intro h; simp [h] at hl; omega) hn
    have hp0 : 0 < piece.length := List.length_pos_iff.2 hp
    rw [fillLoop_step c f cb fuel t t' buf piece n hb hn hcb hp hpl]
    by_cases hn' : piece.length = n
    · rw [if_pos hn']
      refine ⟨t', ?_, ?_⟩
      · rw [he, ← hn', List.take_left]
      · rw [he, ← hn', List.drop_left]
        exact hR'
    · rw [if_neg hn']
      have hlen : l.length = piece.length + l'.length := by rw [he, List.length_append]
      have hmul : c.chan * n = c.chan * piece.length + c.chan * (n - piece.length) := by
        rw [← Nat.mul_add]; congr 1; omega
      obtain ⟨t'', e'', hR''⟩ := ih t' l' (buf.drop (c.chan * piece.length)) (n - piece.length) hR'
        (by rw [List.length_drop, hb, hmul]; omega) (by omega) (by omega) (by omega)
      refine ⟨t'', ?_, ?_⟩
      · simp only [e'']
        rw [← convert_append c f]
        · rw [List.take_append_drop, he, List.take_append, List.take_of_length_le (l := piece) (by omega)]
        · rw [List.length_take, hb, hmul]; omega
      · rw [he, List.drop_append, List.drop_of_length_le (by omega)]
        simpa using hR''

theorem fillBuffer_full (c : Converter) (f : Frame) (cb : Callback τ) (R : τ → List UInt8 → Prop) (hs : Serves cb R)
    (t : τ) (l buf : List UInt8) (n : Nat) (hR : R t l) (hb : buf.length = c.chan * n) (hn : 0 < n) (hl : n ≤ l.length) :
    ∃ t', c.fillBuffer f cb t buf = (t', c.convert f (l.take n) buf, .ok true) ∧ R t' (l.drop n) := by
  refine fillLoop_full c f cb R hs _ t l buf n hR hb hn hl ?_
  have := c.chan_pos
  have : n ≤ c.chan * n := Nat.le_mul_of_pos_left n this
  omega

/-- With fewer indices than pixels, `fill_buffer` stores them all and reports the end. -/
theorem fillLoop_short (c : Converter) (f : Frame) (cb : Callback τ) (R : τ → List UInt8 → Prop) (hs : Serves cb R)
    (he : Ends cb R) :
    ∀ (fuel : Nat) (t : τ) (l buf : List UInt8) (n : Nat), R t l → buf.length = c.chan * n → l.length < n →
      l.length < fuel →
      ∃ t', c.fillLoop f cb fuel t buf =
        (t', c.convert f l (buf.take (c.chan * l.length)) ++ buf.drop (c.chan * l.length), .ok false) := by
  intro fuel
  induction fuel with
  | zero => intro t l buf n _ _ _ _; omega
  | succ fuel ih =>
    intro t l buf n hR hb hl hf
    by_cases hnil : l = []
    · subst hnil
      obtain ⟨t', hcb⟩ := he t n hR (by omega)
      refine ⟨t', ?_⟩
      have h0 : c.convert f [] [] = [] := by unfold convert; split <;> rfl
      simp only [List.length_nil, Nat.mul_zero, List.take_zero, List.drop_zero, h0, List.nil_append]
      unfold fillLoop
      have := hl
      simp only [List.length_nil] at this
      cases hc : c.colorOutput
      · have hch : c.chan = 4 := by simp [chan, hc]
        rw [hch] at hb
        simp only
        rw [if_neg (by omega), show buf.length / 4 = n by omega, hcb]
        simp
      · have hch : c.chan = 1 := by simp [chan, hc]
        rw [hch] at hb
        simp only
        rw [show buf.length = n by omega, hcb]
        simp
    · obtain ⟨t', piece, l', hcb, hp, hpl, he', hR'⟩ := hs t l n hR hnil (by omega)
      have hp0 : 0 < piece.length := List.length_pos_iff.2 hp
      have hlen : l.length = piece.length + l'.length := by rw [he', List.length_append]
      rw [fillLoop_step c f cb fuel t t' buf piece n hb (by omega) hcb hp hpl, if_neg (by omega)]
      have hmul : c.chan * n = c.chan * piece.length + c.chan * (n - piece.length) := by
        rw [← Nat.mul_add]; congr 1; omega
      obtain ⟨t'', e''⟩ := ih t' l' (buf.drop (c.chan * piece.length)) (n - piece.length) hR'
        (by rw [List.length_drop, hb, hmul]; omega) (by omega) (by omega)
      refine ⟨t'', ?_⟩
      simp only [e'']
      have hle : c.chan * l.length ≤ buf.length := by rw [hb]; exact Nat.mul_le_mul_left _ (by omega)
      have hm2 : c.chan * l.length = c.chan * piece.length + c.chan * l'.length := by rw [hlen, Nat.mul_add]
      rw [← List.append_assoc, ← convert_append c f]
      · rw [he', List.drop_drop, ← he', hm2, List.take_add]
      · rw [List.length_take]; omega

theorem lineLength_eq (c : Converter) (f : Frame) : c.lineLength f = c.chan * f.width.toNat := by
  unfold lineLength chan
  cases c.colorOutput
  · exact Nat.mul_comm _ _
  · exact (Nat.one_mul _).symm

theorem bufferSize_eq (c : Converter) (f : Frame) : c.bufferSize f = c.chan * (f.width.toNat * f.height.toNat) := by
  rw [bufferSize, lineLength_eq, Nat.mul_assoc]

/-! ## Rows -/

/-- The buffer after one line was replaced. -/
def setRow (w : Nat) (buf : List UInt8) (row : Nat) (line : List UInt8) : List UInt8 :=
  buf.take (row * w) ++ line ++ buf.drop (row * w + w)

theorem setRow_length {w : Nat} {buf line : List UInt8} {row : Nat} (h : row * w + w ≤ buf.length)
    (hl : line.length = w) : (setRow w buf row line).length = buf.length := by
  simp only [setRow, List.length_append, List.length_take, List.length_drop]
  omega

theorem rowOf_setRow_same {w : Nat} {buf line : List UInt8} {row : Nat} (h : row * w + w ≤ buf.length)
    (hl : line.length = w) : rowOf w (setRow w buf row line) row = line := by
  unfold rowOf setRow
  rw [List.append_assoc, List.drop_append, List.drop_of_length_le (by rw [List.length_take]; omega), List.length_take,
    show row * w - min (row * w) buf.length = 0 by omega]
  simp only [List.drop_zero, List.nil_append]
  rw [List.take_append, List.take_of_length_le (by omega), show w - line.length = 0 by omega]
  simp

theorem rowOf_setRow_other {w : Nat} {buf line : List UInt8} {row r : Nat} (h : row * w + w ≤ buf.length)
    (hl : line.length = w) (hne : r ≠ row) : rowOf w (setRow w buf row line) r = rowOf w buf r := by
  unfold rowOf setRow
  rcases Nat.lt_or_gt_of_ne hne with hlt | hgt
  · have hm : r * w + w ≤ row * w := by rw [← Nat.succ_mul]; exact Nat.mul_le_mul_right w hlt
    rw [List.append_assoc, List.drop_append_of_le_length (by rw [List.length_take]; omega),
      List.take_append_of_le_length (by rw [List.length_drop, List.length_take]; omega), List.drop_take, List.take_take,
      show min w (row * w - r * w) = w by omega]
  · have hm : row * w + w ≤ r * w := by rw [← Nat.succ_mul]; exact Nat.mul_le_mul_right w hgt
    rw [List.append_assoc, List.drop_append, List.drop_of_length_le (by rw [List.length_take]; omega), List.length_take,
      List.nil_append, List.drop_append, List.drop_of_length_le (by omega), List.nil_append, List.drop_drop]
    congr 2
    omega

theorem drop_setRow {w h : Nat} {buf line : List UInt8} {row : Nat} (hrow : row < h) (hb : row * w + w ≤ buf.length)
    (hl : line.length = w) : (setRow w buf row line).drop (h * w) = buf.drop (h * w) := by
  unfold setRow
  have hm : row * w + w ≤ h * w := by rw [← Nat.succ_mul]; exact Nat.mul_le_mul_right w hrow
  rw [List.append_assoc, List.drop_append, List.drop_of_length_le (by rw [List.length_take]; omega), List.length_take,
    List.nil_append, List.drop_append, List.drop_of_length_le (by omega), List.nil_append, List.drop_drop]
  congr 1
  omega

/-- The loop over the rows of an interlaced image, from any iterator state with the rows `L` left. -/
theorem readRows_full (c : Converter) (f : Frame) (cb : Callback τ) (R : τ → List UInt8 → Prop) (hs : Serves cb R)
    (w h : Nat) (hw : f.width.toNat = w) (hw0 : 0 < w) :
    ∀ (fuel next pass : Nat) (t : τ) (l buf : List UInt8), next < h → pass ≤ 4 → R t l →
      (InterlaceIter.remaining h next pass).length < fuel →
      (InterlaceIter.remaining h next pass).Nodup → (∀ r ∈ InterlaceIter.remaining h next pass, r < h) →
      h * (c.chan * w) ≤ buf.length → w * (InterlaceIter.remaining h next pass).length ≤ l.length →
      ∃ t' buf', c.readRows f cb fuel ⟨h, next, pass⟩ t buf = (t', buf', .ok ()) ∧
        R t' (l.drop (w * (InterlaceIter.remaining h next pass).length)) ∧ buf'.length = buf.length ∧
        (∀ k r, (InterlaceIter.remaining h next pass)[k]? = some r →
          rowOf (c.chan * w) buf' r = c.convert f (rowOf w l k) (rowOf (c.chan * w) buf r)) ∧
        (∀ r, r ∉ InterlaceIter.remaining h next pass → rowOf (c.chan * w) buf' r = rowOf (c.chan * w) buf r) ∧
        buf'.drop (h * (c.chan * w)) = buf.drop (h * (c.chan * w)) := by
  intro fuel
  induction fuel with
  | zero => intro next pass t l buf _ _ _ hf; omega
  | succ fuel ih =>
    intro next pass t l buf hn hp hR hf hnd hlt hb hl
    have hW : c.lineLength f = c.chan * w := by rw [lineLength_eq, hw]
    by_cases hp4 : pass = 4
    · subst hp4
      refine ⟨t, buf, ?_, ?_, rfl, ?_, ?_, rfl⟩
      · rw [readRows, InterlaceIter.nextRow_end]
      · simpa [InterlaceIter.remaining] using hR
      · intro k r hk; simp [InterlaceIter.remaining] at hk
      · intro r _; rfl
    · obtain ⟨next', pass', he, hrem, hn', hp'⟩ := InterlaceIter.nextRow_spec h next pass hn (by omega)
      rw [hrem] at hf hnd hlt hl ⊢
      simp only [List.length_cons] at hf hl ⊢
      have hnd' := List.nodup_cons.1 hnd
      have hrow : next * (c.chan * w) + c.chan * w ≤ buf.length := by
        have : next * (c.chan * w) + c.chan * w ≤ h * (c.chan * w) := by
          rw [← Nat.succ_mul]; exact Nat.mul_le_mul_right _ hn
        omega
      have hwl : w ≤ l.length := by
        have : w * 1 ≤ w * ((InterlaceIter.remaining h next' pass').length + 1) := Nat.mul_le_mul_left w (by omega)
        omega
      have hlinelen : (rowOf (c.chan * w) buf next).length = c.chan * w := by
        simp only [rowOf, List.length_take, List.length_drop]; omega
      obtain ⟨t', e', hR'⟩ := fillBuffer_full c f cb R hs t l (rowOf (c.chan * w) buf next) w hR hlinelen hw0 hwl
      have hconv : (c.convert f (l.take w) (rowOf (c.chan * w) buf next)).length = c.chan * w := by
        rw [convert_length, hlinelen]
        rw [hlinelen, List.length_take]; congr 1; omega
      have hmul : w * ((InterlaceIter.remaining h next' pass').length + 1) =
          w + w * (InterlaceIter.remaining h next' pass').length := by rw [Nat.mul_add]; omega
      obtain ⟨t'', buf'', e'', hR'', hlen'', hrows, hother, htail⟩ := ih next' pass' t' (l.drop w)
        (setRow (c.chan * w) buf next (c.convert f (l.take w) (rowOf (c.chan * w) buf next))) hn' hp' hR' (by omega)
        hnd'.2 (fun r hr => hlt r (List.mem_cons_of_mem _ hr))
        (by rw [setRow_length hrow hconv]; exact hb) (by rw [List.length_drop]; omega)
      refine ⟨t'', buf'', ?_, ?_, ?_, ?_, ?_, ?_⟩
      · rw [readRows, he]
        simp only [hW]
        rw [if_pos ⟨by omega, by rw [List.length_drop]; omega⟩]
        have : (buf.drop (next * (c.chan * w))).take (c.chan * w) = rowOf (c.chan * w) buf next := rfl
        rw [this, e']
        exact e''
      · rw [List.drop_drop] at hR''
        rw [hmul]; exact hR''
      · rw [hlen'', setRow_length hrow hconv]
      · intro k r hk
        cases k with
        | zero =>
          simp only [List.getElem?_cons_zero, Option.some.injEq] at hk
          subst hk
          rw [hother _ hnd'.1, rowOf_setRow_same hrow hconv]
          simp [rowOf]
        | succ k =>
          simp only [List.getElem?_cons_succ] at hk
          have hmem : r ∈ InterlaceIter.remaining h next' pass' := List.mem_of_getElem? hk
          have hne : r ≠ next := fun hx => hnd'.1 (hx ▸ hmem)
          rw [hrows k r hk, rowOf_setRow_other hrow hconv hne]
          congr 1
          unfold rowOf
          rw [List.drop_drop]
          congr 2
          rw [Nat.add_mul]; omega
      · intro r hr
        rw [List.mem_cons, not_or] at hr
        rw [hother r hr.2, rowOf_setRow_other hrow hconv hr.1]
      · rw [htail, drop_setRow hn hrow hconv]

/-- `read_into_buffer` of an interlaced frame. -/
theorem readIntoBuffer_interlaced (c : Converter) (f : Frame) (cb : Callback τ) (R : τ → List UInt8 → Prop)
    (hs : Serves cb R) (t : τ) (l buf : List UInt8) (hi : f.interlaced = true) (hR : R t l) (hw : 0 < f.width.toNat)
    (hb : c.bufferSize f ≤ buf.length) (hl : f.width.toNat * f.height.toNat ≤ l.length) :
    ∃ t' buf', c.readIntoBuffer f cb t buf = (t', buf', .ok ()) ∧ R t' (l.drop (f.width.toNat * f.height.toNat)) ∧
      buf'.length = buf.length ∧
      (∀ k r, (interlaceOrder f.height.toNat)[k]? = some r →
        rowOf (c.lineLength f) buf' r = c.convert f (rowOf f.width.toNat l k) (rowOf (c.lineLength f) buf r)) ∧
      buf'.drop (c.bufferSize f) = buf.drop (c.bufferSize f) := by
  rw [readIntoBuffer, if_pos hi]
  by_cases hh : f.height.toNat = 0
  · refine ⟨t, buf, ?_, ?_, rfl, ?_, rfl⟩
    · rw [hh, readRows]; simp [InterlaceIter.nextRow]
    · rw [hh]; simpa using hR
    · intro k r hk; rw [hh] at hk; simp [interlaceOrder] at hk
  · have hrem := InterlaceIter.remaining_zero f.height.toNat
    have hlen := interlaceOrder_length f.height.toNat
    have hsz : c.bufferSize f = f.height.toNat * (c.chan * f.width.toNat) := by
      rw [bufferSize_eq, Nat.mul_comm f.height.toNat, Nat.mul_assoc]
    obtain ⟨t', buf', e, hR', hl', hrows, -, htail⟩ := readRows_full c f cb R hs _ f.height.toNat rfl hw
      (f.height.toNat + 1) 0 0 t l buf (by omega) (by omega) hR (by rw [hrem, hlen]; omega)
      (by rw [hrem]; exact interlaceOrder_nodup _) (by rw [hrem]; exact fun r hr => interlaceOrder_lt hr)
      (by rw [← hsz]; exact hb) (by rw [hrem, hlen]; exact hl)
    rw [hrem, hlen] at hR'
    rw [hrem] at hrows
    rw [← hsz] at htail
    refine ⟨t', buf', e, hR', hl', ?_, htail⟩
    rw [lineLength_eq]
    exact hrows

/-- `read_into_buffer` of a frame that is not interlaced. -/
theorem readIntoBuffer_plain (c : Converter) (f : Frame) (cb : Callback τ) (R : τ → List UInt8 → Prop)
    (hs : Serves cb R) (t : τ) (l buf : List UInt8) (hi : f.interlaced = false) (hR : R t l)
    (hw : 0 < f.width.toNat) (hh : 0 < f.height.toNat)
    (hb : c.bufferSize f ≤ buf.length) (hl : f.width.toNat * f.height.toNat ≤ l.length) :
    ∃ t', c.readIntoBuffer f cb t buf =
        (t', c.convert f (l.take (f.width.toNat * f.height.toNat)) (buf.take (c.bufferSize f)) ++
          buf.drop (c.bufferSize f), .ok ()) ∧
      R t' (l.drop (f.width.toNat * f.height.toNat)) := by
  rw [readIntoBuffer, if_neg (by simp [hi])]
  simp only
  rw [if_pos hb]
  obtain ⟨t', e, hR'⟩ := fillBuffer_full c f cb R hs t l (buf.take (c.bufferSize f)) (f.width.toNat * f.height.toNat) hR
    (by rw [List.length_take, ← bufferSize_eq]; omega) (Nat.mul_pos hw hh) hl
  exact ⟨t', by rw [e], hR'⟩

end Gif.Converter
