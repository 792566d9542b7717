import Verif.Lemmas.FillSrc
/-!
What `fill_buffer` and `read_into_buffer` make of what the callback delivered, for every callback.
-/

namespace Gif.Spec

variable {τ : Type} {cb : Callback τ}

theorem Fetched.trans {t1 t2 t3 : τ} {l l' : List UInt8} (h : Fetched cb t1 l t2) (h' : Fetched cb t2 l' t3) :
    Fetched cb t1 (l ++ l') t3 := by
  induction h with
  | none => exact h'
  | more h1 _ ih => rw [List.append_assoc]; exact .more h1 (ih h')

theorem Fetched.one {t t' : τ} {cap : Nat} {piece : List UInt8} (h : cb t cap = (t', .ok piece)) : Fetched cb t piece t' := by
  have := Fetched.more h (.none t')
  rwa [List.append_nil] at this

end Gif.Spec

namespace Gif.Converter

open Spec

variable {τ : Type}

/-- What `fill_buffer` did. -/
def FillRes (c : Converter) (f : Frame) (cb : Callback τ) (t : τ) (buf : List UInt8) (x : τ × List UInt8 × Outcome Bool) : Prop :=
  match x with
  | (t', buf', .ok true) => ∃ px, px ≠ [] ∧ Fetched cb t px t' ∧ buf.length = c.chan * px.length ∧ buf' = c.convert f px buf
  | (t', buf', .ok false) => ∃ px, Fetched cb t px t' ∧ c.chan * px.length ≤ buf.length ∧
      buf' = c.convert f px (buf.take (c.chan * px.length)) ++ buf.drop (c.chan * px.length)
  | _ => True

theorem fillLoop_fetch (c : Converter) (f : Frame) (cb : Callback τ) : ∀ (fuel : Nat) (t : τ) (buf : List UInt8),
    FillRes c f cb t buf (c.fillLoop f cb fuel t buf) := by
  intro fuel
  induction fuel with
  | zero => intro t buf; trivial
  | succ fuel ih =>
    intro t buf
    have h0 : c.convert f [] [] = [] := by unfold convert; split <;> rfl
    have key : ∀ (cap : Nat) (t' : τ) (bytes : List UInt8), cb t cap = (t', .ok bytes) → bytes ≠ [] → c.chan * bytes.length ≤ buf.length →
        FillRes c f cb t buf
          (if (buf.drop (c.chan * bytes.length)).isEmpty then (t', c.convert f bytes (buf.take (c.chan * bytes.length)), .ok true)
            else
              let r := c.fillLoop f cb fuel t' (buf.drop (c.chan * bytes.length))
              (r.1, c.convert f bytes (buf.take (c.chan * bytes.length)) ++ r.2.1, r.2.2)) := by
      intro cap t' bytes hcb hne hle
      split
      · rename_i he
        have : buf.length = c.chan * bytes.length := by
          simp only [List.isEmpty_iff] at he
          have := congrArg List.length he
          simp only [List.length_drop, List.length_nil] at this
          omega
        exact ⟨bytes, hne, .one hcb, this, by rw [List.take_of_length_le (by omega)]⟩
      · have hx := ih t' (buf.drop (c.chan * bytes.length))
        generalize c.fillLoop f cb fuel t' (buf.drop (c.chan * bytes.length)) = x at hx
        have htl : (buf.take (c.chan * bytes.length)).length = c.chan * bytes.length := by rw [List.length_take]; omega
        match x, hx with
        | (t'', buf'', .ok true), ⟨px, g0, g1, g2, g3⟩ =>
          refine ⟨bytes ++ px, by simp [hne], .more hcb g1, ?_, ?_⟩
          · rw [List.length_drop] at g2
            rw [List.length_append, Nat.mul_add]; omega
          · simp only [g3]
            rw [← convert_append _ _ _ _ _ _ htl, List.take_append_drop]
        | (t'', buf'', .ok false), ⟨px, g1, g2, g3⟩ =>
          rw [List.length_drop] at g2
          refine ⟨bytes ++ px, .more hcb g1, ?_, ?_⟩
          · rw [List.length_append, Nat.mul_add]; omega
          · simp only [g3]
            rw [← List.append_assoc, ← convert_append _ _ _ _ _ _ htl, List.length_append, Nat.mul_add, List.take_add,
              List.drop_drop]
        | (_, _, .err _), _ => trivial
        | (_, _, .panic), _ => trivial
        | (_, _, .diverge), _ => trivial
    unfold fillLoop
    cases hc : c.colorOutput
    · have hch : c.chan = 4 := by simp [chan, hc]
      simp only
      split
      · trivial
      · split
        · rename_i t' bytes hcb
          split
          · rename_i hz
            have : bytes = [] := List.eq_nil_of_length_eq_zero hz
            subst this
            exact ⟨[], .one hcb, by simp, by simp [h0]⟩
          · rename_i hz
            split
            · trivial
            · rename_i hle
              have := key _ _ _ hcb (fun h => hz (by simp [h])) (by rw [hch]; omega)
              rw [hch, Nat.mul_comm] at this
              simpa only [convert, hc] using this
        · trivial
        · trivial
        · trivial
    · have hch : c.chan = 1 := by simp [chan, hc]
      simp only
      split
      · rename_i t' bytes hcb
        split
        · rename_i hz
          have : bytes = [] := List.eq_nil_of_length_eq_zero hz
          subst this
          exact ⟨[], .one hcb, by simp, by simp [h0]⟩
        · rename_i hz
          split
          · trivial
          · rename_i hle
            have := key _ _ _ hcb (fun h => hz (by simp [h])) (by rw [hch]; omega)
            rw [hch, Nat.one_mul] at this
            simpa only [convert, hc] using this
      · trivial
      · trivial
      · trivial

theorem fillBuffer_fetch (c : Converter) (f : Frame) (cb : Callback τ) (t : τ) (buf : List UInt8) :
    FillRes c f cb t buf (c.fillBuffer f cb t buf) := fillLoop_fetch c f cb _ t buf

/-- The rows of an interlaced image, from any callback. -/
theorem readRows_fetch (c : Converter) (f : Frame) (cb : Callback τ) (w h : Nat) (hw : f.width.toNat = w) :
    ∀ (fuel next pass : Nat) (t : τ) (buf : List UInt8), next < h → pass ≤ 4 →
      (InterlaceIter.remaining h next pass).Nodup → (∀ r ∈ InterlaceIter.remaining h next pass, r < h) →
      h * (c.chan * w) ≤ buf.length → ∀ t' buf', c.readRows f cb fuel ⟨h, next, pass⟩ t buf = (t', buf', .ok ()) →
      ∃ px, Fetched cb t px t' ∧ px.length = w * (InterlaceIter.remaining h next pass).length ∧ buf'.length = buf.length ∧
        (∀ k r, (InterlaceIter.remaining h next pass)[k]? = some r →
          rowOf (c.chan * w) buf' r = c.convert f (rowOf w px k) (rowOf (c.chan * w) buf r)) ∧
        (∀ r, r ∉ InterlaceIter.remaining h next pass → rowOf (c.chan * w) buf' r = rowOf (c.chan * w) buf r) := by
  intro fuel
  induction fuel with
  | zero => intro next pass t buf _ _ _ _ _ t' buf' h; cases h
  | succ fuel ih =>
    intro next pass t buf hn hp hnd hlt hb t2 buf2 hrun
    have hW : c.lineLength f = c.chan * w := by rw [lineLength_eq, hw]
    by_cases hp4 : pass = 4
    · subst hp4
      rw [readRows, InterlaceIter.nextRow_end] at hrun
      cases hrun
      refine ⟨[], .none _, by simp [InterlaceIter.remaining], rfl, ?_, fun r _ => rfl⟩
      intro k r hk; simp [InterlaceIter.remaining] at hk
    · obtain ⟨next', pass', he, hrem, hn', hp'⟩ := InterlaceIter.nextRow_spec h next pass hn (by omega)
      rw [hrem] at hnd hlt ⊢
      simp only [List.length_cons]
      have hnd' := List.nodup_cons.1 hnd
      have hrow : next * (c.chan * w) + c.chan * w ≤ buf.length := by
        have : next * (c.chan * w) + c.chan * w ≤ h * (c.chan * w) := by
          rw [← Nat.succ_mul]; exact Nat.mul_le_mul_right _ hn
        omega
      have hmul : w * ((InterlaceIter.remaining h next' pass').length + 1) =
          w + w * (InterlaceIter.remaining h next' pass').length := by rw [Nat.mul_add]; omega
      have hlinelen : (rowOf (c.chan * w) buf next).length = c.chan * w := by
        simp only [rowOf, List.length_take, List.length_drop]; omega
      have hunf : c.readRows f cb (fuel + 1) ⟨h, next, pass⟩ t buf =
          match c.fillBuffer f cb t (rowOf (c.chan * w) buf next) with
          | (t, line, .ok true) => readRows c f cb fuel ⟨h, next', pass'⟩ t (setRow (c.chan * w) buf next line)
          | (t, line, .ok false) => (t, setRow (c.chan * w) buf next line, .fmtErr .imageTruncated)
          | (t, line, .err e) => (t, setRow (c.chan * w) buf next line, .err e)
          | (t, line, .panic) => (t, setRow (c.chan * w) buf next line, .panic)
          | (t, line, .diverge) => (t, setRow (c.chan * w) buf next line, .diverge) := by
        rw [readRows, he]
        simp only [hW]
        rw [if_pos ⟨by omega, by rw [List.length_drop]; omega⟩]
        rfl
      rw [hunf] at hrun
      have hfill := fillBuffer_fetch c f cb t (rowOf (c.chan * w) buf next)
      split at hrun
      · rename_i t1 line hx
        rw [hx] at hfill
        obtain ⟨p, g0, g1, g2, g3⟩ := hfill
        have hpw : p.length = w := by
          rw [hlinelen] at g2
          exact (Nat.eq_of_mul_eq_mul_left c.chan_pos g2).symm
        have hconv : line.length = c.chan * w := by
          rw [g3, convert_length _ _ _ _ g2, hlinelen]
        obtain ⟨px, k1, k2, k3, k4, k5⟩ := ih next' pass' t1 (setRow (c.chan * w) buf next line) hn' hp' hnd'.2
          (fun r hr => hlt r (List.mem_cons_of_mem _ hr)) (by rw [setRow_length hrow hconv]; exact hb) _ _ hrun
        refine ⟨p ++ px, g1.trans k1, ?_, ?_, ?_, ?_⟩
        · rw [List.length_append, hmul, hpw, k2]
        · rw [k3, setRow_length hrow hconv]
        · intro k r hk
          cases k with
          | zero =>
            simp only [List.getElem?_cons_zero, Option.some.injEq] at hk
            subst hk
            rw [k5 _ hnd'.1, rowOf_setRow_same hrow hconv, g3]
            congr 1
            simp only [rowOf, Nat.zero_mul, List.drop_zero]
            rw [List.take_append_of_le_length (by omega), List.take_of_length_le (by omega)]
          | succ k =>
            simp only [List.getElem?_cons_succ] at hk
            have hmem : r ∈ InterlaceIter.remaining h next' pass' := List.mem_of_getElem? hk
            have hne : r ≠ next := fun hx => hnd'.1 (hx ▸ hmem)
            rw [k4 k r hk, rowOf_setRow_other hrow hconv hne]
            congr 1
            unfold rowOf
            have hd : List.drop ((k + 1) * w) p = [] := List.drop_of_length_le (by rw [hpw, Nat.add_mul]; omega)
            rw [List.drop_append, hd, List.nil_append]
            congr 2
            rw [hpw, Nat.add_mul]; omega
        · intro r hr
          rw [List.mem_cons, not_or] at hr
          rw [k5 r hr.2, rowOf_setRow_other hrow hconv hr.1]
      all_goals cases hrun

/-- The picture `read_into_buffer` makes, on a zeroed buffer of the right size, of what the callback delivers. -/
theorem readIntoBuffer_fetch (c : Converter) (f : Frame) (cb : Callback τ) {t t' : τ} {buf' : List UInt8}
    (hrun : c.readIntoBuffer f cb t (List.replicate (c.bufferSize f) 0) = (t', buf', .ok ())) :
    ∃ px, Fetched cb t px t' ∧ px.length = f.width.toNat * f.height.toNat ∧
      buf' = picture c.colorOutput c.globalPalette f px := by
  have hsz : c.bufferSize f = f.height.toNat * (c.chan * f.width.toNat) := by
    rw [bufferSize_eq, Nat.mul_comm f.height.toNat, Nat.mul_assoc]
  unfold picture
  by_cases hi : f.interlaced = true
  · have hrem := InterlaceIter.remaining_zero f.height.toNat
    have hlen := interlaceOrder_length f.height.toNat
    rw [readIntoBuffer, if_pos hi] at hrun
    by_cases hh : f.height.toNat = 0
    · rw [hh, readRows] at hrun
      simp only [InterlaceIter.nextRow, if_true] at hrun
      cases hrun
      refine ⟨[], .none _, by simp [hh], ?_⟩
      rw [hsz, hh, Nat.zero_mul]
      simp only [pixelOrder, hi, if_true, deinterlace, hh, List.range_zero, List.flatMap_nil, List.replicate_zero]
      cases c.colorOutput <;> rfl
    · obtain ⟨px, k1, k2, k3, k4, -⟩ := readRows_fetch c f cb _ f.height.toNat rfl (f.height.toNat + 1) 0 0 t
        (List.replicate (c.bufferSize f) 0) (by omega) (by omega) (by rw [hrem]; exact interlaceOrder_nodup _)
        (by rw [hrem]; exact fun r hr => interlaceOrder_lt hr) (by rw [← hsz]; simp) _ _ hrun
      rw [hrem, hlen] at k2
      rw [hrem] at k4
      refine ⟨px, k1, k2, ?_⟩
      have h1 : f.width.toNat * f.height.toNat ≤ px.length := by omega
      rw [← convert_eq, pixelOrder_length h1]
      unfold pixelOrder
      rw [if_pos hi]
      rw [List.length_replicate, hsz] at k3
      rw [← rows_flatten _ _ _ k3]
      unfold deinterlace
      have hidx : ∀ r ∈ List.range f.height.toNat, (interlaceOrder f.height.toNat).idxOf r < f.height.toNat ∧
          (interlaceOrder f.height.toNat)[(interlaceOrder f.height.toNat).idxOf r]? = some r := by
        intro r hr
        have hm : r ∈ interlaceOrder f.height.toNat := (interlaceOrder_perm _).mem_iff.2 hr
        have h2 := List.idxOf_lt_length_of_mem hm
        refine ⟨by rwa [hlen] at h2, ?_⟩
        rw [List.getElem?_eq_getElem h2, List.getElem_idxOf]
      have hcf := convert_flatMap c f f.width.toNat (fun r => rowOf f.width.toNat px ((interlaceOrder f.height.toNat).idxOf r))
        (List.range f.height.toNat) (fun r hr => rowOf_length (hidx r hr).1 h1)
      rw [List.length_range] at hcf
      rw [hcf, List.flatMap_def, List.flatMap_def]
      congr 1
      apply List.map_congr_left
      intro r hr
      rw [k4 _ r (hidx r hr).2]
      congr 1
      have hr : r < f.height.toNat := List.mem_range.1 hr
      have hm : r * (c.chan * f.width.toNat) + c.chan * f.width.toNat ≤ c.bufferSize f := by
        rw [hsz, ← Nat.succ_mul]; exact Nat.mul_le_mul_right _ hr
      unfold rowOf
      rw [List.drop_replicate, replicate_take _ (by omega)]
  · rw [readIntoBuffer, if_neg hi] at hrun
    simp only at hrun
    rw [if_pos (by simp)] at hrun
    have htake : (List.replicate (c.bufferSize f) (0 : UInt8)).take (c.bufferSize f) = List.replicate (c.bufferSize f) 0 :=
      List.take_of_length_le (by simp)
    have hdrop : (List.replicate (c.bufferSize f) (0 : UInt8)).drop (c.bufferSize f) = [] := by simp
    rw [htake, hdrop] at hrun
    have hfill := fillBuffer_fetch c f cb t (List.replicate (c.bufferSize f) 0)
    split at hrun
    · rename_i t1 pix hx
      rw [hx] at hfill
      cases hrun
      obtain ⟨px, g0, g1, g2, g3⟩ := hfill
      rw [List.length_replicate, bufferSize_eq] at g2
      have hpl := (Nat.eq_of_mul_eq_mul_left c.chan_pos g2).symm
      refine ⟨px, g1, hpl, ?_⟩
      rw [List.append_nil, g3, ← convert_eq, pixelOrder_length (by omega)]
      unfold pixelOrder
      rw [if_neg hi, ← bufferSize_eq, ← hpl, List.take_length]
    all_goals cases hrun

end Gif.Converter
