import Verif.Lemmas.Twin
/-!
What `fill_buffer` and `read_into_buffer` do to the buffer they are given, whatever the source does.
-/

namespace Gif.Converter

open Spec

variable {τ : Type}

theorem convert_nil (c : Converter) (f : Frame) : c.convert f [] [] = [] := by unfold convert; split <;> rfl

/-- The calls of the source made by `fill_buffer` depend on the length of the buffer only. -/
theorem fillLoop_room (c : Converter) (f : Frame) (cb : Callback τ) : ∀ (fuel : Nat) (t : τ) (n : Nat),
    ∃ (t' : τ) (px : List UInt8) (r : Outcome Bool), c.chan * px.length ≤ n ∧ (r = .ok true → c.chan * px.length = n ∧ px ≠ []) ∧
      ∀ buf : List UInt8, buf.length = n → c.fillLoop f cb fuel t buf =
        (t', c.convert f px (buf.take (c.chan * px.length)) ++ buf.drop (c.chan * px.length), r) := by
  intro fuel
  induction fuel with
  | zero =>
    intro t n
    refine ⟨t, [], .diverge, by simp, by simp, fun buf _ => ?_⟩
    simp [fillLoop, convert_nil]
  | succ fuel ih =>
    intro t n
    cases hc : c.colorOutput with
    | indexed =>
      have hch : c.chan = 1 := by simp [chan, hc]
      have hcv : ∀ px old, c.convert f px old = px := by intro px old; simp [convert, hc]
      simp only [hch, Nat.one_mul, hcv] at ih ⊢
      match hcb : cb t n with
      | (t1, .ok bytes) =>
        by_cases h1 : bytes.length = 0
        · refine ⟨t1, [], .ok false, by simp, by simp, fun buf hb => ?_⟩
          simp [fillLoop, hc, hb, hcb, h1]
        by_cases h2 : bytes.length > n
        · refine ⟨t1, [], .panic, by simp, by simp, fun buf hb => ?_⟩
          simp [fillLoop, hc, hb, hcb, h1, h2]
        by_cases h3 : bytes.length = n
        · refine ⟨t1, bytes, .ok true, by omega, fun _ => ⟨h3, fun h => h1 (by rw [h]; rfl)⟩, fun buf hb => ?_⟩
          have : buf.drop bytes.length = [] := List.drop_of_length_le (by omega)
          simp only [fillLoop, hc, hb, hcb]
          rw [if_neg h1, if_neg (by omega), if_pos (by rw [this]; rfl), this, List.append_nil]
        · obtain ⟨t2, px, r, i1, i2, i3⟩ := ih t1 (n - bytes.length)
          refine ⟨t2, bytes ++ px, r, by rw [List.length_append]; omega, fun h => ?_, fun buf hb => ?_⟩
          · have := (i2 h).1
            exact ⟨by rw [List.length_append]; omega, fun h => h1 (by rw [(List.append_eq_nil_iff.1 h).1]; rfl)⟩
          · have hne : ¬ (buf.drop bytes.length).isEmpty = true := by
              rw [List.isEmpty_iff, ← List.length_eq_zero_iff, List.length_drop]; omega
            have hi := i3 (buf.drop bytes.length) (by rw [List.length_drop, hb])
            simp only [fillLoop, hc, hb, hcb]
            rw [if_neg h1, if_neg (by omega), if_neg hne, hi]
            simp only
            rw [List.append_assoc, List.drop_drop, List.length_append]
      | (t1, .err e) =>
        refine ⟨t1, [], .err e, by simp, by simp, fun buf hb => ?_⟩
        simp [fillLoop, hc, hb, hcb]
      | (t1, .panic) =>
        refine ⟨t1, [], .panic, by simp, by simp, fun buf hb => ?_⟩
        simp [fillLoop, hc, hb, hcb]
      | (t1, .diverge) =>
        refine ⟨t1, [], .diverge, by simp, by simp, fun buf hb => ?_⟩
        simp [fillLoop, hc, hb, hcb]
    | rgba =>
      have hch : c.chan = 4 := by simp [chan, hc]
      have h0 := c.convert_nil f
      by_cases hn : n / 4 = 0
      · refine ⟨t, [], .fmtErr .oddSizedBuffer, by simp, by simp, fun buf hb => ?_⟩
        simp [fillLoop, hc, hb, hn, h0]
      match hcb : cb t (n / 4) with
      | (t1, .ok bytes) =>
        by_cases h1 : bytes.length = 0
        · refine ⟨t1, [], .ok false, by simp, by simp, fun buf hb => ?_⟩
          simp [fillLoop, hc, hb, hcb, h1, hn, h0]
        by_cases h2 : bytes.length * 4 > n
        · refine ⟨t1, [], .panic, by simp, by simp, fun buf hb => ?_⟩
          simp [fillLoop, hc, hb, hcb, h1, h2, hn, h0]
        have hcv : ∀ old, c.convert f bytes old = expandPixels (c.effectivePalette f) f.transparent bytes old := by
          intro old; simp [convert, hc]
        by_cases h3 : bytes.length * 4 = n
        · refine ⟨t1, bytes, .ok true, by rw [hch]; omega, fun _ => ⟨by rw [hch]; omega, fun h => h1 (by rw [h]; rfl)⟩, fun buf hb => ?_⟩
          have : buf.drop (bytes.length * 4) = [] := List.drop_of_length_le (by omega)
          simp only [fillLoop, hc, hb, hcb]
          rw [if_neg hn, if_neg h1, if_neg (by omega), if_pos (by rw [this]; rfl), hch, Nat.mul_comm 4, this, List.append_nil, hcv]
        · obtain ⟨t2, px, r, i1, i2, i3⟩ := ih t1 (n - bytes.length * 4)
          rw [hch] at i1 i2
          refine ⟨t2, bytes ++ px, r, by rw [List.length_append, hch]; omega, fun h => ?_, fun buf hb => ?_⟩
          · have := (i2 h).1
            exact ⟨by rw [List.length_append, hch]; omega, fun h => h1 (by rw [(List.append_eq_nil_iff.1 h).1]; rfl)⟩
          · have hne : ¬ (buf.drop (bytes.length * 4)).isEmpty = true := by
              rw [List.isEmpty_iff, ← List.length_eq_zero_iff, List.length_drop]; omega
            have hi := i3 (buf.drop (bytes.length * 4)) (by rw [List.length_drop, hb])
            simp only [fillLoop, hc, hb, hcb]
            rw [if_neg hn, if_neg h1, if_neg (by omega), if_neg hne, hi]
            simp only [hch]
            have hl : (buf.take (bytes.length * 4)).length = c.chan * bytes.length := by rw [List.length_take, hch]; omega
            have hm : 4 * (bytes ++ px).length = bytes.length * 4 + 4 * px.length := by rw [List.length_append]; omega
            rw [← hcv, hm, ← List.append_assoc, ← convert_append c f _ _ _ _ hl, ← List.take_add, List.drop_drop]
      | (t1, .err e) =>
        refine ⟨t1, [], .err e, by simp, by simp, fun buf hb => ?_⟩
        simp [fillLoop, hc, hb, hcb, hn, h0]
      | (t1, .panic) =>
        refine ⟨t1, [], .panic, by simp, by simp, fun buf hb => ?_⟩
        simp [fillLoop, hc, hb, hcb, hn, h0]
      | (t1, .diverge) =>
        refine ⟨t1, [], .diverge, by simp, by simp, fun buf hb => ?_⟩
        simp [fillLoop, hc, hb, hcb, hn, h0]

theorem fillBuffer_room (c : Converter) (f : Frame) (cb : Callback τ) (t : τ) (n : Nat) :
    ∃ (t' : τ) (px : List UInt8) (r : Outcome Bool), c.chan * px.length ≤ n ∧ (r = .ok true → c.chan * px.length = n ∧ px ≠ []) ∧
      ∀ buf : List UInt8, buf.length = n → c.fillBuffer f cb t buf =
        (t', c.convert f px (buf.take (c.chan * px.length)) ++ buf.drop (c.chan * px.length), r) := by
  obtain ⟨t', px, r, h1, h2, h3⟩ := fillLoop_room c f cb (n + 1) t n
  refine ⟨t', px, r, h1, h2, fun buf hb => ?_⟩
  rw [fillBuffer, hb]
  exact h3 buf hb

theorem fillBuffer_length (c : Converter) (f : Frame) (cb : Callback τ) (t : τ) (buf : List UInt8) :
    (c.fillBuffer f cb t buf).2.1.length = buf.length := by
  obtain ⟨t', px, r, h1, h2, h3⟩ := fillBuffer_room c f cb t buf.length
  rw [h3 buf rfl]
  simp only [List.length_append]
  have hl : (buf.take (c.chan * px.length)).length = c.chan * px.length := by rw [List.length_take]; omega
  rw [convert_length c f _ _ hl, hl, List.length_drop]
  omega

/-- The result of `read_into_buffer` when `fill_buffer` has returned. -/
def whole : Outcome Bool → Outcome Unit
  | .ok true => .ok ()
  | .ok false => .fmtErr .imageTruncated
  | .err e => .err e
  | .panic => .panic
  | .diverge => .diverge

/-- `fill_buffer` on an empty buffer. -/
theorem fillBuffer_nothing (c : Converter) (f : Frame) (cb : Callback τ) (t : τ) :
    ∃ t' r, c.fillBuffer f cb t [] = (t', [], r) ∧ r ≠ .ok true := by
  obtain ⟨t', px, r, g1, g2, g3⟩ := fillBuffer_room c f cb t 0
  have := c.chan_pos
  have hpx : px = [] := by
    apply List.eq_nil_of_length_eq_zero
    rcases Nat.eq_zero_or_pos px.length with h | h
    · exact h
    · have := Nat.mul_pos this h
      omega
  subst hpx
  refine ⟨t', r, ?_, fun h => (g2 h).2 rfl⟩
  rw [g3 [] rfl]
  simp [convert_nil]

/-- The lengths of the buffers agree, and so does what is behind the image. -/
def Kept (size : Nat) (buf buf' : List UInt8) : Prop := buf'.length = buf.length ∧ buf'.drop size = buf.drop size

/-- `read_into_buffer` on interlaced images: nothing is written behind the rows, and `Ok` means that there was room for each row. -/
theorem readRows_kept (c : Converter) (f : Frame) (cb : Callback τ) (h : Nat) : ∀ (fuel next pass : Nat) (t : τ) (buf : List UInt8),
    next < h → pass ≤ 4 → (∀ r ∈ InterlaceIter.remaining h next pass, r < h) →
    Kept (h * c.lineLength f) buf (c.readRows f cb fuel ⟨h, next, pass⟩ t buf).2.1 ∧
    ((c.readRows f cb fuel ⟨h, next, pass⟩ t buf).2.2 = .ok () →
      ∀ r ∈ InterlaceIter.remaining h next pass, r * c.lineLength f + c.lineLength f ≤ buf.length) := by
  intro fuel
  induction fuel with
  | zero => intro next pass t buf _ _ _; exact ⟨⟨rfl, rfl⟩, by simp [readRows]⟩
  | succ fuel ih =>
    intro next pass t buf hn hp hlt
    by_cases hp4 : pass = 4
    · subst hp4
      rw [readRows, InterlaceIter.nextRow_end]
      exact ⟨⟨rfl, rfl⟩, fun _ r hr => by simp [InterlaceIter.remaining] at hr⟩
    · obtain ⟨next', pass', he, hrem, hn', hp'⟩ := InterlaceIter.nextRow_spec h next pass hn (by omega)
      rw [hrem] at hlt ⊢
      rw [readRows, he]
      simp only
      by_cases hc : next * c.lineLength f ≤ buf.length ∧ c.lineLength f ≤ (buf.drop (next * c.lineLength f)).length
      · rw [if_pos hc]
        have hrow : next * c.lineLength f + c.lineLength f ≤ buf.length := by
          have := hc.2
          rw [List.length_drop] at this
          omega
        have hl := fillBuffer_length c f cb t ((buf.drop (next * c.lineLength f)).take (c.lineLength f))
        rw [List.length_take, Nat.min_eq_left hc.2] at hl
        match hx : c.fillBuffer f cb t ((buf.drop (next * c.lineLength f)).take (c.lineLength f)) with
        | (t1, line, r) =>
          rw [hx] at hl
          simp only at hl
          have hk : Kept (h * c.lineLength f) buf (buf.take (next * c.lineLength f) ++ line ++
              buf.drop (next * c.lineLength f + c.lineLength f)) :=
            ⟨setRow_length hrow hl, drop_setRow (hlt next List.mem_cons_self) hrow hl⟩
          match r with
          | .ok true =>
            simp only
            obtain ⟨i1, i2⟩ := ih next' pass' t1 (buf.take (next * c.lineLength f) ++ line ++
              buf.drop (next * c.lineLength f + c.lineLength f)) hn' hp' (fun r hr => hlt r (List.mem_cons_of_mem _ hr))
            refine ⟨⟨i1.1.trans hk.1, i1.2.trans hk.2⟩, fun hok r hr => ?_⟩
            rcases List.mem_cons.1 hr with rfl | hr
            · exact hrow
            · have := i2 hok r hr
              rw [hk.1] at this
              exact this
          | .ok false => exact ⟨hk, by simp⟩
          | .err e => exact ⟨hk, by simp⟩
          | .panic => exact ⟨hk, by simp⟩
          | .diverge => exact ⟨hk, by simp⟩
      · rw [if_neg hc]
        exact ⟨⟨rfl, rfl⟩, by simp⟩

theorem bufferSize_rows (c : Converter) (f : Frame) : c.bufferSize f = f.height.toNat * c.lineLength f := by
  rw [bufferSize_eq, lineLength_eq, Nat.mul_comm f.height.toNat, Nat.mul_assoc]

/-- `read_into_buffer` writes nothing behind the image, and needs room for all of it. -/
theorem readIntoBuffer_kept (c : Converter) (f : Frame) (cb : Callback τ) (t : τ) (buf : List UInt8) :
    Kept (c.bufferSize f) buf (c.readIntoBuffer f cb t buf).2.1 ∧
    ((c.readIntoBuffer f cb t buf).2.2 = .ok () → c.bufferSize f ≤ buf.length) := by
  unfold readIntoBuffer
  by_cases hi : f.interlaced = true
  · rw [if_pos hi]
    by_cases h0 : f.height.toNat = 0
    · have : c.bufferSize f = 0 := by rw [bufferSize_rows, h0, Nat.zero_mul]
      rw [h0, readRows, this]
      exact ⟨⟨rfl, rfl⟩, fun _ => Nat.zero_le _⟩
    · rw [bufferSize_rows]
      have hrem := InterlaceIter.remaining_zero f.height.toNat
      obtain ⟨g1, g2⟩ := readRows_kept c f cb f.height.toNat (f.height.toNat + 1) 0 0 t buf (by omega) (by omega)
        (by rw [hrem]; exact fun r hr => interlaceOrder_lt hr)
      refine ⟨g1, fun hok => ?_⟩
      have hm : f.height.toNat - 1 ∈ InterlaceIter.remaining f.height.toNat 0 0 := by
        rw [hrem]
        exact (interlaceOrder_perm _).mem_iff.2 (List.mem_range.2 (by omega))
      have := g2 hok _ hm
      rw [← Nat.succ_mul] at this
      rwa [show (f.height.toNat - 1).succ = f.height.toNat by omega] at this
  · rw [if_neg hi]
    simp only
    by_cases hs : c.bufferSize f ≤ buf.length
    · rw [if_pos hs]
      have hl := fillBuffer_length c f cb t (buf.take (c.bufferSize f))
      rw [List.length_take, Nat.min_eq_left hs] at hl
      match hx : c.fillBuffer f cb t (buf.take (c.bufferSize f)) with
      | (t1, pix, r) =>
        rw [hx] at hl
        simp only at hl
        have hk : Kept (c.bufferSize f) buf (pix ++ buf.drop (c.bufferSize f)) := by
          constructor
          · rw [List.length_append, hl, List.length_drop]; omega
          · rw [List.drop_append, List.drop_of_length_le (by omega), hl]; simp
        match r with
        | .ok true => exact ⟨hk, fun _ => hs⟩
        | .ok false => exact ⟨hk, fun _ => hs⟩
        | .err e => exact ⟨hk, fun _ => hs⟩
        | .panic => exact ⟨hk, fun _ => hs⟩
        | .diverge => exact ⟨hk, fun _ => hs⟩
    · rw [if_neg hs]
      exact ⟨⟨rfl, rfl⟩, by simp⟩

theorem convert_rows (c : Converter) (f : Frame) (w : Nat) (row old : Nat → List UInt8) : ∀ (rs : List Nat),
    (∀ r ∈ rs, (row r).length = w ∧ (old r).length = c.chan * w) →
    c.convert f (rs.flatMap row) (rs.flatMap old) = rs.flatMap fun r => c.convert f (row r) (old r) := by
  intro rs
  induction rs with
  | nil => intro _; exact c.convert_nil f
  | cons r rs ih =>
    intro h
    obtain ⟨h1, h2⟩ := h r List.mem_cons_self
    simp only [List.flatMap_cons]
    rw [← ih fun r hr => h r (List.mem_cons_of_mem _ hr), ← convert_append _ _ _ _ _ _ (by rw [h1, h2])]

theorem rowOf_take {L h r : Nat} (b : List UInt8) (hr : r < h) : rowOf L (b.take (h * L)) r = rowOf L b r := by
  have hm : r * L + L ≤ h * L := by rw [← Nat.succ_mul]; exact Nat.mul_le_mul_right L hr
  unfold rowOf
  rw [List.drop_take, List.take_take]
  congr 1
  omega

/-- `read_into_buffer` on a buffer with room for the image: the calls of the source do not depend on the buffer, and the picture
is painted over the old contents. -/
theorem readIntoBuffer_paint (c : Converter) (f : Frame) (cb : Callback τ) (t : τ) :
    ∃ (t' : τ) (px : List UInt8) (r : Outcome Unit), (r = .ok () → px.length = f.width.toNat * f.height.toNat) ∧
      ∀ buf : List UInt8, c.bufferSize f ≤ buf.length → ∃ buf', c.readIntoBuffer f cb t buf = (t', buf', r) ∧
        (r = .ok () → buf' = c.convert f (pixelOrder f px) (buf.take (c.bufferSize f)) ++ buf.drop (c.bufferSize f)) := by
  by_cases hi : f.interlaced = true
  · have hsz := bufferSize_rows c f
    have hL := lineLength_eq c f
    by_cases h0 : f.height.toNat = 0
    · refine ⟨t, [], .ok (), fun _ => by simp [h0], fun buf _ => ⟨buf, ?_, fun _ => ?_⟩⟩
      · rw [readIntoBuffer, if_pos hi, h0, readRows]; rfl
      · rw [hsz, h0, Nat.zero_mul]
        simp [pixelOrder, hi, deinterlace, h0, convert_nil]
    by_cases hw0 : f.width.toNat = 0
    · have hl0 : c.lineLength f = 0 := by rw [hL, hw0, Nat.mul_zero]
      obtain ⟨t', r, g1, g2⟩ := fillBuffer_nothing c f cb t
      obtain ⟨next', pass', he, -⟩ := InterlaceIter.nextRow_spec f.height.toNat 0 0 (by omega) (by omega)
      have key : ∀ buf : List UInt8, c.readIntoBuffer f cb t buf = (t', buf, whole r) := by
        intro buf
        rw [readIntoBuffer, if_pos hi, readRows, he]
        simp only [hl0]
        rw [if_pos ⟨by omega, Nat.zero_le _⟩]
        simp only [List.take_zero]
        rw [g1]
        match r, g2 with
        | .ok true, g2 => exact absurd rfl g2
        | .ok false, _ => simp [whole]
        | .err e, _ => simp [whole]
        | .panic, _ => simp [whole]
        | .diverge, _ => simp [whole]
      have hno : whole r ≠ .ok () := by
        match r, g2 with
        | .ok true, g2 => exact absurd rfl g2
        | .ok false, _ => simp [whole]
        | .err e, _ => simp [whole]
        | .panic, _ => simp [whole]
        | .diverge, _ => simp [whole]
      exact ⟨t', [], whole r, fun h => absurd h hno, fun buf _ => ⟨buf, key buf, fun h => absurd h hno⟩⟩
    have hrem := InterlaceIter.remaining_zero f.height.toNat
    have hlen := interlaceOrder_length f.height.toNat
    have hrows := fun buf hb => readRows_gather c f cb _ f.height.toNat rfl (by omega) (f.height.toNat + 1) 0 0 t buf (by omega) (by omega)
      (by rw [hrem]; exact interlaceOrder_nodup _) (by rw [hrem]; exact fun r hr => interlaceOrder_lt hr) hb
    rw [← hL, ← hsz, hrem, hlen] at hrows
    generalize gatherRows cb f.width.toNat (f.height.toNat + 1) ⟨f.height.toNat, 0, 0⟩ t = g at hrows
    refine ⟨g.1, g.2.1, g.2.2, fun h => ?_, fun buf hb => ?_⟩
    · obtain ⟨_, _, _, k⟩ := hrows (List.replicate (c.bufferSize f) 0) (by simp)
      exact (k h).1
    · obtain ⟨buf', k1, k2, k3⟩ := hrows buf hb
      have hk := (readIntoBuffer_kept c f cb t buf).1
      rw [readIntoBuffer, if_pos hi, k1] at hk ⊢
      refine ⟨buf', rfl, fun hok => ?_⟩
      obtain ⟨k3, k4, -⟩ := k3 hok
      have hk2 : buf'.drop (c.bufferSize f) = buf.drop (c.bufferSize f) := hk.2
      rw [← hk2]
      conv => lhs; rw [← List.take_append_drop (c.bufferSize f) buf']
      congr 1
      have h1 : f.width.toNat * f.height.toNat ≤ g.2.1.length := by omega
      have hidx : ∀ r ∈ List.range f.height.toNat, (interlaceOrder f.height.toNat).idxOf r < f.height.toNat ∧
          (interlaceOrder f.height.toNat)[(interlaceOrder f.height.toNat).idxOf r]? = some r := by
        intro r hr
        have hm : r ∈ interlaceOrder f.height.toNat := (interlaceOrder_perm _).mem_iff.2 hr
        have h2 := List.idxOf_lt_length_of_mem hm
        refine ⟨by rwa [hlen] at h2, ?_⟩
        rw [List.getElem?_eq_getElem h2, List.getElem_idxOf]
      unfold pixelOrder
      rw [if_pos hi, hsz]
      have e1 := rows_flatten (c.lineLength f) f.height.toNat (buf'.take (f.height.toNat * c.lineLength f))
        (by rw [List.length_take, k2]; omega)
      have e2 := rows_flatten (c.lineLength f) f.height.toNat (buf.take (f.height.toNat * c.lineLength f))
        (by rw [List.length_take]; omega)
      rw [← e1, ← e2]
      unfold deinterlace
      rw [convert_rows c f f.width.toNat, List.flatMap_def, List.flatMap_def]
      · congr 1
        apply List.map_congr_left
        intro r hr
        rw [rowOf_take _ (List.mem_range.1 hr), rowOf_take _ (List.mem_range.1 hr), k4 _ r (hidx r hr).2]
      · intro r hr
        refine ⟨rowOf_length (hidx r hr).1 h1, ?_⟩
        rw [rowOf_take _ (List.mem_range.1 hr), ← hL]
        exact rowOf_length (List.mem_range.1 hr) (by rw [Nat.mul_comm]; omega)
  · have hbs := bufferSize_eq c f
    obtain ⟨t', px, r, g1, g2, g3⟩ := fillBuffer_room c f cb t (c.bufferSize f)
    have key : ∀ buf : List UInt8, c.bufferSize f ≤ buf.length → c.readIntoBuffer f cb t buf =
        (t', c.convert f px ((buf.take (c.bufferSize f)).take (c.chan * px.length)) ++
          (buf.take (c.bufferSize f)).drop (c.chan * px.length) ++ buf.drop (c.bufferSize f), whole r) := by
      intro buf hb
      rw [readIntoBuffer, if_neg hi]
      simp only
      rw [if_pos hb, g3 (buf.take (c.bufferSize f)) (by rw [List.length_take]; omega)]
      match r with
      | .ok true => rfl
      | .ok false => rfl
      | .err e => rfl
      | .panic => rfl
      | .diverge => rfl
    have hok : whole r = .ok () → c.chan * px.length = c.bufferSize f ∧ px.length = f.width.toNat * f.height.toNat := by
      intro h
      have hr : r = .ok true := by
        match r, h with
        | .ok true, _ => rfl
        | .ok false, h => cases h
        | .err e, h => cases h
        | .panic, h => cases h
        | .diverge, h => cases h
      have g2 := (g2 hr).1
      refine ⟨g2, ?_⟩
      rw [hbs] at g2
      exact Nat.eq_of_mul_eq_mul_left c.chan_pos g2
    refine ⟨t', px, whole r, fun h => (hok h).2, fun buf hb => ⟨_, key buf hb, fun h => ?_⟩⟩
    obtain ⟨h1, h2⟩ := hok h
    rw [h1, List.take_take, Nat.min_self, List.drop_of_length_le (by rw [List.length_take]; omega), List.append_nil]
    unfold pixelOrder
    rw [if_neg hi, ← h2, List.take_length]

end Gif.Converter
