import Verif.Lemmas.Fill
import Verif.Spec.Picture
/-!
Pixel sources that may fail, and the picture `read_into_buffer` makes of a source.
-/

namespace Gif.Converter

open Spec

variable {τ : Type}

/-- A source that delivers a stream in pieces (`F t l`: `l` is still to come), then says so (`G`), and at any time may fail
with an error of `E`. -/
def Src (cb : Callback τ) (F : τ → List UInt8 → Prop) (G : τ → Prop) (E : DecodingError → Prop) : Prop :=
  ∀ t l cap, F t l → 0 < cap →
    (∃ t' p l', cb t cap = (t', .ok p) ∧ p ≠ [] ∧ p.length ≤ cap ∧ l = p ++ l' ∧ F t' l') ∨
    (∃ t', cb t cap = (t', .ok []) ∧ l = [] ∧ G t') ∨
    (∃ t' e, cb t cap = (t', .err e) ∧ E e)

theorem fillLoop_other (c : Converter) (f : Frame) (cb : Callback τ) (fuel : Nat) (t t' : τ) (buf : List UInt8) (n : Nat)
    (hb : buf.length = c.chan * n) (hn : 0 < n) :
    (cb t n = (t', .ok []) → c.fillLoop f cb (fuel + 1) t buf = (t', buf, .ok false)) ∧
    (∀ e, cb t n = (t', .err e) → c.fillLoop f cb (fuel + 1) t buf = (t', buf, .err e)) := by
  unfold fillLoop
  cases hc : c.colorOutput
  · have hch : c.chan = 4 := by simp [chan, hc]
    rw [hch] at hb
    simp only
    rw [if_neg (by omega), show buf.length / 4 = n by omega]
    exact ⟨fun h => by rw [h]; simp, fun e h => by rw [h]⟩
  · have hch : c.chan = 1 := by simp [chan, hc]
    rw [hch] at hb
    simp only
    rw [show buf.length = n by omega]
    exact ⟨fun h => by rw [h]; simp, fun e h => by rw [h]⟩

theorem fillLoop_src (c : Converter) (f : Frame) {cb : Callback τ} {F : τ → List UInt8 → Prop} {G : τ → Prop}
    {E : DecodingError → Prop} (hs : Src cb F G E) :
    ∀ (fuel : Nat) (t : τ) (l buf : List UInt8) (n : Nat), F t l → buf.length = c.chan * n → 0 < n → n < fuel →
      (n ≤ l.length ∧ ∃ t', c.fillLoop f cb fuel t buf = (t', c.convert f (l.take n) buf, .ok true) ∧ F t' (l.drop n)) ∨
      (l.length < n ∧ ∃ t', c.fillLoop f cb fuel t buf =
        (t', c.convert f l (buf.take (c.chan * l.length)) ++ buf.drop (c.chan * l.length), .ok false) ∧ G t') ∨
      (∃ t' b e, c.fillLoop f cb fuel t buf = (t', b, .err e) ∧ E e ∧ b.length = buf.length) := by
  intro fuel
  induction fuel with
  | zero => intro t l buf n _ _ _ _; omega
  | succ fuel ih =>
    intro t l buf n hF hb hn hf
    rcases hs t l n hF hn with ⟨t', piece, l', hcb, hp, hpl, he, hF'⟩ | ⟨t', hcb, rfl, hG⟩ | ⟨t', e, hcb, hE⟩
    · have hp0 : 0 < piece.length := List.length_pos_iff.2 hp
      rw [fillLoop_step c f cb fuel t t' buf piece n hb hn hcb hp hpl]
      have hlen : l.length = piece.length + l'.length := by rw [he, List.length_append]
      by_cases hn' : piece.length = n
      · rw [if_pos hn']
        left
        refine ⟨by omega, t', ?_, ?_⟩
        · rw [he, ← hn', List.take_left]
        · rw [he, ← hn', List.drop_left]
          exact hF'
      · rw [if_neg hn']
        have hmul : c.chan * n = c.chan * piece.length + c.chan * (n - piece.length) := by
          rw [← Nat.mul_add]; congr 1; omega
        have hcl : (c.convert f piece (buf.take (c.chan * piece.length))).length = c.chan * piece.length := by
          rw [convert_length] <;> rw [List.length_take] <;> omega
        rcases ih t' l' (buf.drop (c.chan * piece.length)) (n - piece.length) hF'
          (by rw [List.length_drop, hb, hmul]; omega) (by omega) (by omega) with
          ⟨h1, t'', e'', hF''⟩ | ⟨h1, t'', e'', hG⟩ | ⟨t'', b, e, e'', hE, hbl⟩
        · left
          refine ⟨by omega, t'', ?_, ?_⟩
          · simp only [e'']
            rw [← convert_append c f]
            · rw [List.take_append_drop, he, List.take_append, List.take_of_length_le (l := piece) (by omega)]
            · rw [List.length_take, hb, hmul]; omega
          · rw [he, List.drop_append, List.drop_of_length_le (by omega)]
            simpa using hF''
        · right; left
          refine ⟨by omega, t'', ?_, hG⟩
          simp only [e'']
          have hle : c.chan * l.length ≤ buf.length := by rw [hb]; exact Nat.mul_le_mul_left _ (by omega)
          have hm2 : c.chan * l.length = c.chan * piece.length + c.chan * l'.length := by rw [hlen, Nat.mul_add]
          rw [← List.append_assoc, ← convert_append c f]
          · rw [he, List.drop_drop, ← he, hm2, List.take_add]
          · rw [List.length_take]; omega
        · right; right
          refine ⟨t'', _, e, by simp only [e'']; rfl, hE, ?_⟩
          rw [List.length_append, hbl, hcl, List.length_drop]
          omega
    · right; left
      refine ⟨hn, t', ?_, hG⟩
      rw [(fillLoop_other c f cb fuel t t' buf n hb hn).1 hcb]
      have h0 : c.convert f [] [] = [] := by unfold convert; split <;> rfl
      simp [h0]
    · right; right
      exact ⟨t', buf, e, (fillLoop_other c f cb fuel t t' buf n hb hn).2 e hcb, hE, rfl⟩

theorem fillBuffer_src (c : Converter) (f : Frame) {cb : Callback τ} {F : τ → List UInt8 → Prop} {G : τ → Prop}
    {E : DecodingError → Prop} (hs : Src cb F G E) (t : τ) (l buf : List UInt8) (n : Nat) (hF : F t l)
    (hb : buf.length = c.chan * n) (hn : 0 < n) :
    (n ≤ l.length ∧ ∃ t', c.fillBuffer f cb t buf = (t', c.convert f (l.take n) buf, .ok true) ∧ F t' (l.drop n)) ∨
    (l.length < n ∧ ∃ t', c.fillBuffer f cb t buf =
      (t', c.convert f l (buf.take (c.chan * l.length)) ++ buf.drop (c.chan * l.length), .ok false) ∧ G t') ∨
    (∃ t' b e, c.fillBuffer f cb t buf = (t', b, .err e) ∧ E e ∧ b.length = buf.length) := by
  refine fillLoop_src c f hs _ t l buf n hF hb hn ?_
  have := c.chan_pos
  have : n ≤ c.chan * n := Nat.le_mul_of_pos_left n this
  omega

/-- The rows of an interlaced image from a source that may fail. -/
theorem readRows_src (c : Converter) (f : Frame) {cb : Callback τ} {F : τ → List UInt8 → Prop} {G : τ → Prop}
    {E : DecodingError → Prop} (hs : Src cb F G E)
    (w h : Nat) (hw : f.width.toNat = w) (hw0 : 0 < w) :
    ∀ (fuel next pass : Nat) (t : τ) (l buf : List UInt8), next < h → pass ≤ 4 → F t l →
      (InterlaceIter.remaining h next pass).length < fuel →
      (InterlaceIter.remaining h next pass).Nodup → (∀ r ∈ InterlaceIter.remaining h next pass, r < h) →
      h * (c.chan * w) ≤ buf.length →
      (w * (InterlaceIter.remaining h next pass).length ≤ l.length ∧
        ∃ t' buf', c.readRows f cb fuel ⟨h, next, pass⟩ t buf = (t', buf', .ok ()) ∧
        F t' (l.drop (w * (InterlaceIter.remaining h next pass).length)) ∧ buf'.length = buf.length ∧
        (∀ k r, (InterlaceIter.remaining h next pass)[k]? = some r →
          rowOf (c.chan * w) buf' r = c.convert f (rowOf w l k) (rowOf (c.chan * w) buf r)) ∧
        (∀ r, r ∉ InterlaceIter.remaining h next pass → rowOf (c.chan * w) buf' r = rowOf (c.chan * w) buf r) ∧
        buf'.drop (h * (c.chan * w)) = buf.drop (h * (c.chan * w))) ∨
      (l.length < w * (InterlaceIter.remaining h next pass).length ∧ ∃ t' buf',
        c.readRows f cb fuel ⟨h, next, pass⟩ t buf = (t', buf', .fmtErr .imageTruncated) ∧ G t') ∨
      (∃ t' buf' e, c.readRows f cb fuel ⟨h, next, pass⟩ t buf = (t', buf', .err e) ∧ E e) := by
  intro fuel
  induction fuel with
  | zero => intro next pass t l buf _ _ _ hf; omega
  | succ fuel ih =>
    intro next pass t l buf hn hp hR hf hnd hlt hb
    have hW : c.lineLength f = c.chan * w := by rw [lineLength_eq, hw]
    by_cases hp4 : pass = 4
    · subst hp4
      left
      refine ⟨by simp [InterlaceIter.remaining], t, buf, ?_, ?_, rfl, ?_, ?_, rfl⟩
      · rw [readRows, InterlaceIter.nextRow_end]
      · simpa [InterlaceIter.remaining] using hR
      · intro k r hk; simp [InterlaceIter.remaining] at hk
      · intro r _; rfl
    · obtain ⟨next', pass', he, hrem, hn', hp'⟩ := InterlaceIter.nextRow_spec h next pass hn (by omega)
      rw [hrem] at hf hnd hlt ⊢
      simp only [List.length_cons] at hf ⊢
      have hnd' := List.nodup_cons.1 hnd
      have hrow : next * (c.chan * w) + c.chan * w ≤ buf.length := by
        have : next * (c.chan * w) + c.chan * w ≤ h * (c.chan * w) := by
          rw [← Nat.succ_mul]; exact Nat.mul_le_mul_right _ hn
        omega
      have hmul : w * ((InterlaceIter.remaining h next' pass').length + 1) =
          w + w * (InterlaceIter.remaining h next' pass').length := by rw [Nat.mul_add]; omega
      have hlinelen : (rowOf (c.chan * w) buf next).length = c.chan * w := by
        simp only [rowOf, List.length_take, List.length_drop]; omega
      have hunf : c.readRows f cb (fuel + 1) ⟨h, next, pass⟩ t buf =
          match c.fillBuffer f cb t (rowOf (c.chan * w) buf next) with
          | (t, line, .ok true) => readRows c f cb fuel ⟨h, next', pass'⟩ t (setRow (c.chan * w) buf next line)
          | (t, line, .ok false) => (t, setRow (c.chan * w) buf next line, .fmtErr .imageTruncated)
          | (t, line, .err e) => (t, setRow (c.chan * w) buf next line, .err e)
          | (t, line, .panic) => (t, setRow (c.chan * w) buf next line, .panic)
          | (t, line, .diverge) => (t, setRow (c.chan * w) buf next line, .diverge) := by
        rw [readRows, he]
        simp only [hW]
        rw [if_pos ⟨by omega, by rw [List.length_drop]; omega⟩]
        rfl
      rcases fillBuffer_src c f hs t l (rowOf (c.chan * w) buf next) w hR hlinelen hw0 with
        ⟨hwl, t', e', hR'⟩ | ⟨hwl, t', e', hG⟩ | ⟨t', b, e, e', hE, hbl⟩
      · have hconv : (c.convert f (l.take w) (rowOf (c.chan * w) buf next)).length = c.chan * w := by
          rw [convert_length, hlinelen]
          rw [hlinelen, List.length_take]; congr 1; omega
        rw [e'] at hunf
        simp only at hunf
        rw [hunf]
        rcases ih next' pass' t' (l.drop w)
          (setRow (c.chan * w) buf next (c.convert f (l.take w) (rowOf (c.chan * w) buf next))) hn' hp' hR' (by omega)
          hnd'.2 (fun r hr => hlt r (List.mem_cons_of_mem _ hr))
          (by rw [setRow_length hrow hconv]; exact hb) with
          ⟨h1, t'', buf'', e'', hR'', hlen'', hrows, hother, htail⟩ | ⟨h1, t'', buf'', e''⟩ | h1
        · left
          rw [List.length_drop] at h1
          refine ⟨by omega, t'', buf'', e'', ?_, ?_, ?_, ?_, ?_⟩
          · rw [List.drop_drop] at hR''
            rw [hmul]; exact hR''
          · rw [hlen'', setRow_length hrow hconv]
          · intro k r hk
            cases k with
            | zero =>
              simp only [List.getElem?_cons_zero, Option.some.injEq] at hk
              subst hk
              rw [hother _ hnd'.1, rowOf_setRow_same hrow hconv]
              simp [rowOf]
            | succ k =>
              simp only [List.getElem?_cons_succ] at hk
              have hmem : r ∈ InterlaceIter.remaining h next' pass' := List.mem_of_getElem? hk
              have hne : r ≠ next := fun hx => hnd'.1 (hx ▸ hmem)
              rw [hrows k r hk, rowOf_setRow_other hrow hconv hne]
              congr 1
              unfold rowOf
              rw [List.drop_drop]
              congr 2
              rw [Nat.add_mul]; omega
          · intro r hr
            rw [List.mem_cons, not_or] at hr
            rw [hother r hr.2, rowOf_setRow_other hrow hconv hr.1]
          · rw [htail, drop_setRow hn hrow hconv]
        · right; left
          rw [List.length_drop] at h1
          exact ⟨by omega, t'', buf'', e''⟩
        · exact .inr (.inr h1)
      · right; left
        rw [e'] at hunf
        simp only at hunf
        exact ⟨by omega, _, _, hunf, hG⟩
      · right; right
        rw [e'] at hunf
        simp only at hunf
        exact ⟨_, _, _, hunf, hE⟩

theorem convert_eq (c : Converter) (f : Frame) (idx : List UInt8) :
    c.convert f idx (List.replicate (c.chan * idx.length) 0) =
      colours c.colorOutput (paletteOf c.globalPalette f) f.transparent idx := by
  unfold convert colours chan
  cases c.colorOutput with
  | indexed => rfl
  | rgba =>
    simp only
    rw [expandPixels_eq _ _ _ _ (by simp)]
    unfold paletteOf effectivePalette
    cases f.palette <;> rfl

theorem replicate_take {n m : Nat} (x : UInt8) (h : n ≤ m) : (List.replicate m x).take n = List.replicate n x := by
  rw [List.take_replicate, Nat.min_eq_left h]

theorem rows_flatten (L : Nat) : ∀ (h : Nat) (b : List UInt8), b.length = h * L →
    (List.range h).flatMap (rowOf L b) = b := by
  intro h
  induction h with
  | zero => intro b hb; simp at hb; simp [hb]
  | succ h ih =>
    intro b hb
    rw [List.range_succ, List.flatMap_append]
    have hm : (h + 1) * L = h * L + L := Nat.succ_mul h L
    have h1 : (List.range h).flatMap (rowOf L b) = (List.range h).flatMap (rowOf L (b.take (h * L))) := by
      rw [List.flatMap_def, List.flatMap_def]
      congr 1
      apply List.map_congr_left
      intro r hr
      have hr : r < h := List.mem_range.1 hr
      have hm : r * L + L ≤ h * L := by rw [← Nat.succ_mul]; exact Nat.mul_le_mul_right L hr
      unfold rowOf
      rw [List.drop_take, List.take_take]
      congr 1
      omega
    rw [h1, ih _ (by rw [List.length_take]; omega)]
    simp only [List.flatMap_cons, List.flatMap_nil, List.append_nil, rowOf]
    rw [List.take_of_length_le (l := b.drop (h * L)) (by rw [List.length_drop]; omega), List.take_append_drop]

theorem convert_flatMap (c : Converter) (f : Frame) (w : Nat) (row : Nat → List UInt8) :
    ∀ (rs : List Nat), (∀ r ∈ rs, (row r).length = w) →
    c.convert f (rs.flatMap row) (List.replicate (c.chan * (w * rs.length)) 0) =
      rs.flatMap fun r => c.convert f (row r) (List.replicate (c.chan * w) 0) := by
  intro rs
  induction rs with
  | nil =>
    intro _
    have h0 : c.convert f [] [] = [] := by unfold convert; split <;> rfl
    simpa using h0
  | cons r rs ih =>
    intro h
    simp only [List.flatMap_cons, List.length_cons]
    rw [← ih fun r hr => h r (List.mem_cons_of_mem _ hr), ← convert_append]
    · rw [List.replicate_append_replicate]
      congr 2
      rw [← Nat.mul_add, Nat.mul_succ, Nat.add_comm]
    · rw [List.length_replicate, h r List.mem_cons_self]

theorem rowOf_length {w h k : Nat} {l : List UInt8} (hk : k < h) (hl : w * h ≤ l.length) : (rowOf w l k).length = w := by
  have : k * w + w ≤ w * h := by rw [← Nat.succ_mul, Nat.mul_comm w]; exact Nat.mul_le_mul_right w hk
  simp only [rowOf, List.length_take, List.length_drop]
  omega

theorem deinterlace_length {w h : Nat} {l : List UInt8} (hl : w * h ≤ l.length) : (deinterlace w h l).length = w * h := by
  unfold deinterlace
  rw [List.length_flatMap]
  have : (List.range h).map (fun r => (rowOf w l ((interlaceOrder h).idxOf r)).length) = (List.range h).map fun _ => w := by
    apply List.map_congr_left
    intro r hr
    apply rowOf_length _ hl
    have : r ∈ interlaceOrder h := (interlaceOrder_perm h).mem_iff.2 hr
    have := List.idxOf_lt_length_of_mem this
    rwa [interlaceOrder_length] at this
  rw [this, List.map_const', List.length_range, List.sum_replicate_nat, Nat.mul_comm]

theorem pixelOrder_length {f : Frame} {l : List UInt8} (hl : f.width.toNat * f.height.toNat ≤ l.length) :
    (pixelOrder f l).length = f.width.toNat * f.height.toNat := by
  unfold pixelOrder
  split
  · exact deinterlace_length hl
  · rw [List.length_take]; omega

/-- `read_into_buffer` on a zeroed buffer of the right size, from a source that may fail. -/
theorem readIntoBuffer_src (c : Converter) (f : Frame) {cb : Callback τ} {F : τ → List UInt8 → Prop} {G : τ → Prop}
    {E : DecodingError → Prop} (hs : Src cb F G E) (t : τ) (l : List UInt8) (hF : F t l)
    (hw : 0 < f.width.toNat) (hh : 0 < f.height.toNat) :
    (f.width.toNat * f.height.toNat ≤ l.length ∧
      ∃ t', c.readIntoBuffer f cb t (List.replicate (c.bufferSize f) 0) =
        (t', picture c.colorOutput c.globalPalette f l, .ok ()) ∧ F t' (l.drop (f.width.toNat * f.height.toNat))) ∨
    (l.length < f.width.toNat * f.height.toNat ∧ ∃ t' b,
      c.readIntoBuffer f cb t (List.replicate (c.bufferSize f) 0) = (t', b, .fmtErr .imageTruncated) ∧ G t') ∨
    (∃ t' b e, c.readIntoBuffer f cb t (List.replicate (c.bufferSize f) 0) = (t', b, .err e) ∧ E e) := by
  have hsz : c.bufferSize f = f.height.toNat * (c.chan * f.width.toNat) := by
    rw [bufferSize_eq, Nat.mul_comm f.height.toNat, Nat.mul_assoc]
  unfold picture
  by_cases hi : f.interlaced = true
  · have hrem := InterlaceIter.remaining_zero f.height.toNat
    have hlen := interlaceOrder_length f.height.toNat
    rw [readIntoBuffer, if_pos hi]
    rcases readRows_src c f hs _ f.height.toNat rfl hw
      (f.height.toNat + 1) 0 0 t l (List.replicate (c.bufferSize f) 0) (by omega) (by omega) hF (by rw [hrem, hlen]; omega)
      (by rw [hrem]; exact interlaceOrder_nodup _) (by rw [hrem]; exact fun r hr => interlaceOrder_lt hr)
      (by rw [← hsz]; simp) with
      ⟨h1, t', buf', e, hR', hl', hrows, -, -⟩ | ⟨h1, t', buf', e⟩ | h1
    · left
      rw [hrem, hlen] at hR' h1
      rw [hrem] at hrows
      refine ⟨h1, t', ?_, hR'⟩
      rw [e]
      congr 2
      rw [← convert_eq, pixelOrder_length h1]
      unfold pixelOrder
      rw [if_pos hi]
      rw [List.length_replicate, hsz] at hl'
      rw [← rows_flatten _ _ _ hl']
      unfold deinterlace
      have hidx : ∀ r ∈ List.range f.height.toNat, (interlaceOrder f.height.toNat).idxOf r < f.height.toNat ∧
          (interlaceOrder f.height.toNat)[(interlaceOrder f.height.toNat).idxOf r]? = some r := by
        intro r hr
        have hm : r ∈ interlaceOrder f.height.toNat := (interlaceOrder_perm _).mem_iff.2 hr
        have h2 := List.idxOf_lt_length_of_mem hm
        refine ⟨by rwa [hlen] at h2, ?_⟩
        rw [List.getElem?_eq_getElem h2, List.getElem_idxOf]
      have hcf := convert_flatMap c f f.width.toNat (fun r => rowOf f.width.toNat l ((interlaceOrder f.height.toNat).idxOf r))
        (List.range f.height.toNat) (fun r hr => rowOf_length (hidx r hr).1 h1)
      rw [List.length_range] at hcf
      rw [hcf, List.flatMap_def, List.flatMap_def]
      congr 1
      apply List.map_congr_left
      intro r hr
      rw [hrows _ r (hidx r hr).2]
      congr 1
      have hr : r < f.height.toNat := List.mem_range.1 hr
      have hm : r * (c.chan * f.width.toNat) + c.chan * f.width.toNat ≤ c.bufferSize f := by
        rw [hsz, ← Nat.succ_mul]; exact Nat.mul_le_mul_right _ hr
      unfold rowOf
      rw [List.drop_replicate, replicate_take _ (by omega)]
    · right; left
      rw [hrem, hlen] at h1
      exact ⟨h1, t', buf', e⟩
    · exact .inr (.inr h1)
  · rw [readIntoBuffer, if_neg hi]
    simp only
    rw [if_pos (by simp)]
    have htake : (List.replicate (c.bufferSize f) (0 : UInt8)).take (c.bufferSize f) = List.replicate (c.bufferSize f) 0 :=
      List.take_of_length_le (by simp)
    have hdrop : (List.replicate (c.bufferSize f) (0 : UInt8)).drop (c.bufferSize f) = [] := by simp
    rw [htake, hdrop]
    rcases fillBuffer_src c f hs t l (List.replicate (c.bufferSize f) 0) (f.width.toNat * f.height.toNat) hF
      (by rw [List.length_replicate, ← bufferSize_eq]) (Nat.mul_pos hw hh) with
      ⟨h1, t', e', hR'⟩ | ⟨h1, t', e', hG⟩ | ⟨t', b, e, e', hE, hbl⟩
    · left
      refine ⟨h1, t', ?_, hR'⟩
      rw [e', ← convert_eq, pixelOrder_length h1]
      unfold pixelOrder
      rw [if_neg hi, ← bufferSize_eq]
      simp
    · right; left
      exact ⟨h1, t', _, by rw [e'], hG⟩
    · right; right
      exact ⟨t', _, e, by rw [e'], hE⟩

end Gif.Converter
