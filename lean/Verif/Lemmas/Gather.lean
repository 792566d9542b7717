import Verif.Lemmas.Fetch
/-!
The calls of the callback do not depend on the colour mode: `fill_buffer` and `read_into_buffer` collect palette indices, and
then convert them.
-/

namespace Gif.Converter

open Spec

variable {τ : Type}

/-- Collects `n` palette indices. -/
def gather (cb : Callback τ) : Nat → Nat → τ → τ × List UInt8 × Outcome Bool
  | 0, _, t => (t, [], .diverge)
  | fuel + 1, n, t =>
    match cb t n with
    | (t, .ok p) =>
      if p.length = 0 then (t, [], .ok false)
      else if p.length > n then (t, [], .panic)
      else if n = p.length then (t, p, .ok true)
      else ((gather cb fuel (n - p.length) t).1, p ++ (gather cb fuel (n - p.length) t).2.1,
        (gather cb fuel (n - p.length) t).2.2)
    | (t, .err e) => (t, [], .err e)
    | (t, .panic) => (t, [], .panic)
    | (t, .diverge) => (t, [], .diverge)

theorem gather_fuel (cb : Callback τ) : ∀ (fuel fuel' n : Nat) (t : τ), n < fuel → n < fuel' →
    gather cb fuel n t = gather cb fuel' n t := by
  intro fuel
  induction fuel with
  | zero => intro fuel' n t h; omega
  | succ fuel ih =>
    intro fuel' n t h h'
    obtain ⟨fuel', rfl⟩ : ∃ k, fuel' = k + 1 := ⟨fuel' - 1, by omega⟩
    unfold gather
    split
    · split
      · rfl
      · split
        · rfl
        · split
          · rfl
          · rw [ih fuel' _ _ (by omega) (by omega)]
    all_goals rfl

theorem gather_spec (cb : Callback τ) : ∀ (fuel n : Nat) (t : τ), (gather cb fuel n t).2.1.length ≤ n ∧
    ((gather cb fuel n t).2.2 = .ok true → (gather cb fuel n t).2.1.length = n ∧ 0 < n) := by
  intro fuel
  induction fuel with
  | zero => intro n t; exact ⟨Nat.zero_le _, by simp [gather]⟩
  | succ fuel ih =>
    intro n t
    unfold gather
    split
    · split
      · simp
      · split
        · simp
        · split
          · simp; omega
          · rename_i p _ _ _ _
            simp only [List.length_append]
            obtain ⟨h1, h2⟩ := ih (n - p.length) (by assumption)
            refine ⟨by omega, fun h => ?_⟩
            have := h2 h
            omega
    all_goals simp

theorem gather_zero (cb : Callback τ) (fuel : Nat) (t : τ) : (gather cb fuel 0 t).2.2 ≠ .ok true := by
  intro h
  have := ((gather_spec cb fuel 0 t).2 h).2
  omega

/-- `fill_buffer` collects indices and converts them. -/
theorem fillLoop_gather (c : Converter) (f : Frame) (cb : Callback τ) : ∀ (fuel n : Nat) (t : τ) (buf : List UInt8),
    buf.length = c.chan * n → 0 < n → n < fuel →
    c.fillLoop f cb fuel t buf = ((gather cb fuel n t).1,
      c.convert f (gather cb fuel n t).2.1 (buf.take (c.chan * (gather cb fuel n t).2.1.length)) ++
        buf.drop (c.chan * (gather cb fuel n t).2.1.length), (gather cb fuel n t).2.2) := by
  intro fuel
  induction fuel with
  | zero => intro n t buf _ _ h; omega
  | succ fuel ih =>
    intro n t buf hb hn hf
    have h0 : c.convert f [] [] = [] := by unfold convert; split <;> rfl
    have hrest : ∀ (p : List UInt8) (t' : τ), cb t n = (t', .ok p) → p ≠ [] → p.length ≤ n →
        c.fillLoop f cb (fuel + 1) t buf = ((gather cb (fuel + 1) n t).1,
      c.convert f (gather cb (fuel + 1) n t).2.1 (buf.take (c.chan * (gather cb (fuel + 1) n t).2.1.length)) ++
        buf.drop (c.chan * (gather cb (fuel + 1) n t).2.1.length), (gather cb (fuel + 1) n t).2.2) := by
      intro p t' hcb hp hpl
      have hp0 : 0 < p.length := List.length_pos_iff.2 hp
      have hg : gather cb (fuel + 1) n t = if n = p.length then (t', p, .ok true)
          else ((gather cb fuel (n - p.length) t').1, p ++ (gather cb fuel (n - p.length) t').2.1,
            (gather cb fuel (n - p.length) t').2.2) := by
        rw [gather, hcb]
        simp only
        rw [if_neg (by omega), if_neg (by omega)]
      rw [fillLoop_step c f cb fuel t t' buf p n hb hn hcb hp hpl, hg]
      by_cases hn' : p.length = n
      · rw [if_pos hn', if_pos hn'.symm]
        simp only
        rw [hn', ← hb, List.take_length, List.drop_length, List.append_nil]
      · rw [if_neg hn', if_neg (fun h => hn' h.symm)]
        have hmul : c.chan * n = c.chan * p.length + c.chan * (n - p.length) := by
          rw [← Nat.mul_add]; congr 1; omega
        have hbl : (buf.drop (c.chan * p.length)).length = c.chan * (n - p.length) := by
          rw [List.length_drop, hb, hmul]; omega
        simp only [ih (n - p.length) t' _ hbl (by omega) (by omega)]
        have htl : (buf.take (c.chan * p.length)).length = c.chan * p.length := by rw [List.length_take]; omega
        rw [← List.append_assoc, ← convert_append c f _ _ _ _ htl, List.length_append, Nat.mul_add, List.take_add,
          List.drop_drop]
    match hcb : cb t n with
    | (t', .ok p) =>
      by_cases hp : p = []
      · subst hp
        rw [(fillLoop_other c f cb fuel t t' buf n hb hn).1 hcb, gather, hcb]
        simp [h0]
      · by_cases hpl : p.length ≤ n
        · exact hrest p t' hcb hp hpl
        · have hp0 : 0 < p.length := List.length_pos_iff.2 hp
          rw [gather, hcb]
          simp only
          rw [if_neg (by omega), if_pos (by omega)]
          unfold fillLoop
          cases hc : c.colorOutput
          · have hch : c.chan = 4 := by simp [chan, hc]
            rw [hch] at hb
            simp only
            rw [if_neg (by omega), show buf.length / 4 = n by omega, hcb]
            simp only
            rw [if_neg (by omega), if_pos (by omega)]
            simp [h0]
          · have hch : c.chan = 1 := by simp [chan, hc]
            rw [hch] at hb
            simp only
            rw [show buf.length = n by omega, hcb]
            simp only
            rw [if_neg (by omega), if_pos (by omega)]
            simp [h0]
    | (t', .err e) =>
      rw [(fillLoop_other c f cb fuel t t' buf n hb hn).2 e hcb, gather, hcb]
      simp [h0]
    | (t', .panic) =>
      rw [gather, hcb]
      unfold fillLoop
      cases hc : c.colorOutput
      · have hch : c.chan = 4 := by simp [chan, hc]
        rw [hch] at hb
        simp only
        rw [if_neg (by omega), show buf.length / 4 = n by omega, hcb]
        simp [h0]
      · have hch : c.chan = 1 := by simp [chan, hc]
        rw [hch] at hb
        simp only
        rw [show buf.length = n by omega, hcb]
        simp [h0]
    | (t', .diverge) =>
      rw [gather, hcb]
      unfold fillLoop
      cases hc : c.colorOutput
      · have hch : c.chan = 4 := by simp [chan, hc]
        rw [hch] at hb
        simp only
        rw [if_neg (by omega), show buf.length / 4 = n by omega, hcb]
        simp [h0]
      · have hch : c.chan = 1 := by simp [chan, hc]
        rw [hch] at hb
        simp only
        rw [show buf.length = n by omega, hcb]
        simp [h0]

theorem fillBuffer_gather (c : Converter) (f : Frame) (cb : Callback τ) (n : Nat) (t : τ) (buf : List UInt8)
    (hb : buf.length = c.chan * n) (hn : 0 < n) :
    c.fillBuffer f cb t buf = ((gather cb (n + 1) n t).1,
      c.convert f (gather cb (n + 1) n t).2.1 (buf.take (c.chan * (gather cb (n + 1) n t).2.1.length)) ++
        buf.drop (c.chan * (gather cb (n + 1) n t).2.1.length), (gather cb (n + 1) n t).2.2) := by
  have := c.chan_pos
  have hle : n ≤ c.chan * n := Nat.le_mul_of_pos_left n this
  unfold fillBuffer
  rw [fillLoop_gather c f cb _ n t buf hb hn (by omega), gather_fuel cb (buf.length + 1) (n + 1) n t (by omega) (by omega)]

/-- Collects the rows of an interlaced image. -/
def gatherRows (cb : Callback τ) (w : Nat) : Nat → InterlaceIter → τ → τ × List UInt8 × Outcome Unit
  | 0, _, t => (t, [], .diverge)
  | fuel + 1, it, t =>
    match it.nextRow with
    | (_, none) => (t, [], .ok ())
    | (it, some _) =>
      match gather cb (w + 1) w t with
      | (t, p, .ok true) => ((gatherRows cb w fuel it t).1, p ++ (gatherRows cb w fuel it t).2.1, (gatherRows cb w fuel it t).2.2)
      | (t, p, .ok false) => (t, p, .fmtErr .imageTruncated)
      | (t, p, .err e) => (t, p, .err e)
      | (t, p, .panic) => (t, p, .panic)
      | (t, p, .diverge) => (t, p, .diverge)

theorem readRows_gather (c : Converter) (f : Frame) (cb : Callback τ) (w h : Nat) (hw : f.width.toNat = w) (hw0 : 0 < w) :
    ∀ (fuel next pass : Nat) (t : τ) (buf : List UInt8), next < h → pass ≤ 4 →
      (InterlaceIter.remaining h next pass).Nodup → (∀ r ∈ InterlaceIter.remaining h next pass, r < h) →
      h * (c.chan * w) ≤ buf.length →
      ∃ buf', c.readRows f cb fuel ⟨h, next, pass⟩ t buf =
          ((gatherRows cb w fuel ⟨h, next, pass⟩ t).1, buf', (gatherRows cb w fuel ⟨h, next, pass⟩ t).2.2) ∧
        buf'.length = buf.length ∧
        ((gatherRows cb w fuel ⟨h, next, pass⟩ t).2.2 = .ok () →
          (gatherRows cb w fuel ⟨h, next, pass⟩ t).2.1.length = w * (InterlaceIter.remaining h next pass).length ∧
          (∀ k r, (InterlaceIter.remaining h next pass)[k]? = some r →
            rowOf (c.chan * w) buf' r =
              c.convert f (rowOf w (gatherRows cb w fuel ⟨h, next, pass⟩ t).2.1 k) (rowOf (c.chan * w) buf r)) ∧
          (∀ r, r ∉ InterlaceIter.remaining h next pass → rowOf (c.chan * w) buf' r = rowOf (c.chan * w) buf r)) := by
  intro fuel
  induction fuel with
  | zero => intro next pass t buf _ _ _ _ _; exact ⟨buf, rfl, rfl, by simp [gatherRows]⟩
  | succ fuel ih =>
    intro next pass t buf hn hp hnd hlt hb
    have hW : c.lineLength f = c.chan * w := by rw [lineLength_eq, hw]
    by_cases hp4 : pass = 4
    · subst hp4
      rw [readRows, gatherRows, InterlaceIter.nextRow_end]
      refine ⟨buf, rfl, rfl, fun _ => ⟨by simp [InterlaceIter.remaining], ?_, fun r _ => rfl⟩⟩
      intro k r hk; simp [InterlaceIter.remaining] at hk
    · obtain ⟨next', pass', he, hrem, hn', hp'⟩ := InterlaceIter.nextRow_spec h next pass hn (by omega)
      rw [hrem] at hnd hlt ⊢
      simp only [List.length_cons]
      have hnd' := List.nodup_cons.1 hnd
      have hrow : next * (c.chan * w) + c.chan * w ≤ buf.length := by
        have : next * (c.chan * w) + c.chan * w ≤ h * (c.chan * w) := by
          rw [← Nat.succ_mul]; exact Nat.mul_le_mul_right _ hn
        omega
      have hmul : w * ((InterlaceIter.remaining h next' pass').length + 1) =
          w + w * (InterlaceIter.remaining h next' pass').length := by rw [Nat.mul_add]; omega
      have hlinelen : (rowOf (c.chan * w) buf next).length = c.chan * w := by
        simp only [rowOf, List.length_take, List.length_drop]; omega
      have hunf : c.readRows f cb (fuel + 1) ⟨h, next, pass⟩ t buf =
          match c.fillBuffer f cb t (rowOf (c.chan * w) buf next) with
          | (t, line, .ok true) => readRows c f cb fuel ⟨h, next', pass'⟩ t (setRow (c.chan * w) buf next line)
          | (t, line, .ok false) => (t, setRow (c.chan * w) buf next line, .fmtErr .imageTruncated)
          | (t, line, .err e) => (t, setRow (c.chan * w) buf next line, .err e)
          | (t, line, .panic) => (t, setRow (c.chan * w) buf next line, .panic)
          | (t, line, .diverge) => (t, setRow (c.chan * w) buf next line, .diverge) := by
        rw [readRows, he]
        simp only [hW]
        rw [if_pos ⟨by omega, by rw [List.length_drop]; omega⟩]
        rfl
      have hfill := fillBuffer_gather c f cb w t (rowOf (c.chan * w) buf next) hlinelen hw0
      obtain ⟨gl, gt⟩ := gather_spec cb (w + 1) w t
      rw [hunf, gatherRows, he, hfill]
      generalize gather cb (w + 1) w t = g at gl gt
      obtain ⟨t1, p, r⟩ := g
      simp only at gl gt ⊢
      have hple : c.chan * p.length ≤ c.chan * w := Nat.mul_le_mul_left _ gl
      have hconv : (c.convert f p (List.take (c.chan * p.length) (rowOf (c.chan * w) buf next)) ++
          List.drop (c.chan * p.length) (rowOf (c.chan * w) buf next)).length = c.chan * w := by
        rw [List.length_append, convert_length, List.length_take, List.length_drop, hlinelen]
        · omega
        · rw [List.length_take, hlinelen]; omega
      match r with
      | .ok true =>
        have hpw := (gt rfl).1
        simp only
        obtain ⟨buf', k1, k2, k3⟩ := ih next' pass' t1 (setRow (c.chan * w) buf next
          (c.convert f p (List.take (c.chan * p.length) (rowOf (c.chan * w) buf next)) ++
          List.drop (c.chan * p.length) (rowOf (c.chan * w) buf next))) hn' hp' hnd'.2
          (fun r hr => hlt r (List.mem_cons_of_mem _ hr)) (by rw [setRow_length hrow hconv]; exact hb)
        refine ⟨buf', k1, by rw [k2, setRow_length hrow hconv], fun hok => ?_⟩
        obtain ⟨k3, k4, k5⟩ := k3 hok
        refine ⟨by rw [List.length_append, k3, hmul, hpw], ?_, ?_⟩
        · intro k r hk
          cases k with
          | zero =>
            simp only [List.getElem?_cons_zero, Option.some.injEq] at hk
            subst hk
            rw [k5 _ hnd'.1, rowOf_setRow_same hrow hconv, hpw, List.take_of_length_le (by omega),
              List.drop_of_length_le (by omega), List.append_nil]
            congr 1
            simp only [rowOf, Nat.zero_mul, List.drop_zero]
            rw [List.take_append_of_le_length (by omega), List.take_of_length_le (by omega)]
          | succ k =>
            simp only [List.getElem?_cons_succ] at hk
            have hmem : r ∈ InterlaceIter.remaining h next' pass' := List.mem_of_getElem? hk
            have hne : r ≠ next := fun hx => hnd'.1 (hx ▸ hmem)
            rw [k4 k r hk, rowOf_setRow_other hrow hconv hne]
            congr 1
            unfold rowOf
            have hd : List.drop ((k + 1) * w) p = [] := List.drop_of_length_le (by rw [hpw, Nat.add_mul]; omega)
            rw [List.drop_append, hd, List.nil_append]
            congr 2
            rw [hpw, Nat.add_mul]; omega
        · intro r hr
          rw [List.mem_cons, not_or] at hr
          rw [k5 r hr.2, rowOf_setRow_other hrow hconv hr.1]
      | .ok false => exact ⟨_, rfl, setRow_length hrow hconv, by simp⟩
      | .err e => exact ⟨_, rfl, setRow_length hrow hconv, by simp⟩
      | .panic => exact ⟨_, rfl, setRow_length hrow hconv, by simp⟩
      | .diverge => exact ⟨_, rfl, setRow_length hrow hconv, by simp⟩

/-- Collects the palette indices of an image, in the order of transmission. -/
def gatherImage (f : Frame) (cb : Callback τ) (t : τ) : τ × List UInt8 × Outcome Unit :=
  if f.interlaced then
    gatherRows cb f.width.toNat (f.height.toNat + 1) { len := f.height.toNat, next := 0, pass := 0 } t
  else
    match gather cb (f.width.toNat * f.height.toNat + 1) (f.width.toNat * f.height.toNat) t with
    | (t, p, .ok true) => (t, p, .ok ())
    | (t, p, .ok false) => (t, p, .fmtErr .imageTruncated)
    | (t, p, .err e) => (t, p, .err e)
    | (t, p, .panic) => (t, p, .panic)
    | (t, p, .diverge) => (t, p, .diverge)

/-- `read_into_buffer`, on a zeroed buffer of the right size, collects indices and makes a picture of them. -/
theorem readIntoBuffer_gather (c : Converter) (f : Frame) (cb : Callback τ) (t : τ) (hpos : 0 < f.width.toNat * f.height.toNat) :
    ∃ buf', c.readIntoBuffer f cb t (List.replicate (c.bufferSize f) 0) = ((gatherImage f cb t).1, buf', (gatherImage f cb t).2.2) ∧
      buf'.length = c.bufferSize f ∧
      ((gatherImage f cb t).2.2 = .ok () → (gatherImage f cb t).2.1.length = f.width.toNat * f.height.toNat ∧
        buf' = picture c.colorOutput c.globalPalette f (gatherImage f cb t).2.1) := by
  have hsz : c.bufferSize f = f.height.toNat * (c.chan * f.width.toNat) := by
    rw [bufferSize_eq, Nat.mul_comm f.height.toNat, Nat.mul_assoc]
  have hw0 : 0 < f.width.toNat := Nat.pos_of_mul_pos_right hpos
  have hh0 : 0 < f.height.toNat := Nat.pos_of_mul_pos_left hpos
  unfold picture gatherImage
  by_cases hi : f.interlaced = true
  · have hrem := InterlaceIter.remaining_zero f.height.toNat
    have hlen := interlaceOrder_length f.height.toNat
    rw [readIntoBuffer, if_pos hi, if_pos hi]
    obtain ⟨buf', k1, k3, k4⟩ := readRows_gather c f cb _ f.height.toNat rfl hw0 (f.height.toNat + 1) 0 0 t
      (List.replicate (c.bufferSize f) 0) (by omega) (by omega) (by rw [hrem]; exact interlaceOrder_nodup _)
      (by rw [hrem]; exact fun r hr => interlaceOrder_lt hr) (by rw [← hsz]; simp)
    refine ⟨buf', k1, by rw [k3]; simp, fun hok => ?_⟩
    obtain ⟨k2, k4, -⟩ := k4 hok
    generalize (gatherRows cb f.width.toNat (f.height.toNat + 1) ⟨f.height.toNat, 0, 0⟩ t).2.1 = px at k2 k4 ⊢
    rw [hrem, hlen] at k2
    rw [hrem] at k4
    refine ⟨k2, ?_⟩
    have h1 : f.width.toNat * f.height.toNat ≤ px.length := by omega
    rw [← convert_eq, pixelOrder_length h1]
    unfold pixelOrder
    rw [if_pos hi]
    rw [List.length_replicate, hsz] at k3
    rw [← rows_flatten _ _ _ k3]
    unfold deinterlace
    have hidx : ∀ r ∈ List.range f.height.toNat, (interlaceOrder f.height.toNat).idxOf r < f.height.toNat ∧
        (interlaceOrder f.height.toNat)[(interlaceOrder f.height.toNat).idxOf r]? = some r := by
      intro r hr
      have hm : r ∈ interlaceOrder f.height.toNat := (interlaceOrder_perm _).mem_iff.2 hr
      have h2 := List.idxOf_lt_length_of_mem hm
      refine ⟨by rwa [hlen] at h2, ?_⟩
      rw [List.getElem?_eq_getElem h2, List.getElem_idxOf]
    have hcf := convert_flatMap c f f.width.toNat (fun r => rowOf f.width.toNat px ((interlaceOrder f.height.toNat).idxOf r))
      (List.range f.height.toNat) (fun r hr => rowOf_length (hidx r hr).1 h1)
    rw [List.length_range] at hcf
    rw [hcf, List.flatMap_def, List.flatMap_def]
    congr 1
    apply List.map_congr_left
    intro r hr
    rw [k4 _ r (hidx r hr).2]
    congr 1
    have hr : r < f.height.toNat := List.mem_range.1 hr
    have hm : r * (c.chan * f.width.toNat) + c.chan * f.width.toNat ≤ c.bufferSize f := by
      rw [hsz, ← Nat.succ_mul]; exact Nat.mul_le_mul_right _ hr
    unfold rowOf
    rw [List.drop_replicate, replicate_take _ (by omega)]
  · rw [readIntoBuffer, if_neg hi, if_neg hi]
    simp only
    rw [if_pos (by simp)]
    have htake : (List.replicate (c.bufferSize f) (0 : UInt8)).take (c.bufferSize f) = List.replicate (c.bufferSize f) 0 :=
      List.take_of_length_le (by simp)
    have hdrop : (List.replicate (c.bufferSize f) (0 : UInt8)).drop (c.bufferSize f) = [] := by simp
    rw [htake, hdrop]
    have hbs := bufferSize_eq c f
    rw [fillBuffer_gather c f cb (f.width.toNat * f.height.toNat) t _ (by rw [List.length_replicate, hbs]) hpos]
    obtain ⟨gl, gt⟩ := gather_spec cb (f.width.toNat * f.height.toNat + 1) (f.width.toNat * f.height.toNat) t
    generalize gather cb (f.width.toNat * f.height.toNat + 1) (f.width.toNat * f.height.toNat) t = g at gl gt
    obtain ⟨t1, p, r⟩ := g
    simp only at gl gt ⊢
    have hple : c.chan * p.length ≤ c.chan * (f.width.toNat * f.height.toNat) := Nat.mul_le_mul_left _ gl
    have hconv : (c.convert f p (List.take (c.chan * p.length) (List.replicate (c.bufferSize f) 0)) ++
        List.drop (c.chan * p.length) (List.replicate (c.bufferSize f) 0) ++ []).length = c.bufferSize f := by
      rw [List.append_nil, List.length_append, convert_length, List.length_take, List.length_drop, List.length_replicate]
      · omega
      · rw [List.length_take, List.length_replicate]; omega
    match r with
    | .ok true =>
      refine ⟨_, rfl, hconv, fun _ => ?_⟩
      have hpl := (gt rfl).1
      simp only
      refine ⟨hpl, ?_⟩
      rw [List.append_nil, ← convert_eq, pixelOrder_length (by omega)]
      unfold pixelOrder
      rw [if_neg hi, ← bufferSize_eq, hpl, ← bufferSize_eq, ← hpl, List.take_length,
        List.take_of_length_le (by simp), List.drop_of_length_le (by simp), List.append_nil]
    | .ok false => exact ⟨_, rfl, hconv, by simp⟩
    | .err e => exact ⟨_, rfl, hconv, by simp⟩
    | .panic => exact ⟨_, rfl, hconv, by simp⟩
    | .diverge => exact ⟨_, rfl, hconv, by simp⟩

end Gif.Converter
