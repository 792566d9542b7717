import Verif.Model.Platform
import Verif.Lemmas.Fill
/-!
# C50: buffer arithmetic on 32-bit and 64-bit platforms
-/

namespace Gif.Props

open Converter

theorem skipPasses_le (len : Nat) : ∀ fuel next pass n p, InterlaceIter.skipPasses len fuel next pass = some (n, p) →
    n = next ∨ n ≤ 4 := by
  intro fuel
  induction fuel with
  | zero => intro _ _ _ _ h; simp [InterlaceIter.skipPasses] at h
  | succ fuel ih =>
    intro next pass n p h
    unfold InterlaceIter.skipPasses at h
    split at h
    · split at h
      · cases h
      · rename_i m hm
        have hm4 : m ≤ 4 := by
          unfold InterlaceIter.start at hm
          match pass, hm with
          | 0, hm => simp at hm; omega
          | 1, hm => simp at hm; omega
          | 2, hm => simp at hm; omega
          | 3, hm => simp at hm; omega
          | p + 4, hm => simp at hm
        rcases ih _ _ _ _ h with h | h
        · right; omega
        · right; exact h
    · cases h; left; rfl

theorem nextRow_le {it it' : InterlaceIter} {r : Nat} (h : it.nextRow = (it', some r)) :
    r = it.next ∧ it'.next ≤ it.next + 8 := by
  unfold InterlaceIter.nextRow at h
  split at h
  · cases h
  · split at h
    · cases h
    · rename_i k hk
      split at h
      · cases h
      · rename_i n p hs
        cases h
        refine ⟨rfl, ?_⟩
        have hk8 : k ≤ 8 := by
          unfold InterlaceIter.stride at hk
          match it.pass, hk with
          | 0, hk => simp at hk; omega
          | 1, hk => simp at hk; omega
          | 2, hk => simp at hk; omega
          | 3, hk => simp at hk; omega
          | p + 4, hk => simp at hk
        rcases skipPasses_le _ _ _ _ _ _ hs with h | h
        · simp only [h]; omega
        · simp only; omega

theorem lineLength_le (c : Converter) (f : Frame) : c.lineLength f ≤ 262140 := by
  have := f.width.toNat_lt
  unfold Converter.lineLength
  split <;> omega

theorem fillLoop_length {τ : Type} (c : Converter) (f : Frame) (cb : Callback τ) :
    ∀ (fuel : Nat) (t : τ) (buf : List UInt8), (c.fillLoop f cb fuel t buf).2.1.length = buf.length := by
  intro fuel
  induction fuel with
  | zero => intro t buf; rfl
  | succ fuel ih =>
    intro t buf
    unfold fillLoop
    split
    · split
      · split
        · rfl
        · split
          · rfl
          · simp only
            split
            · rename_i h1 h2
              simp at h2 ⊢; omega
            · simp only [List.length_append, ih, List.length_drop]; omega
      · rfl
      · rfl
      · rfl
    · split
      · rfl
      · split
        · split
          · rfl
          · split
            · rfl
            · simp only
              split
              · rename_i h1 h2
                rw [expandPixels_length, List.length_take]
                simp at h2; omega
              · simp only [List.length_append, ih, List.length_drop, expandPixels_length, List.length_take]; omega
        · rfl
        · rfl
        · rfl

theorem readRowsOn_eq {τ : Type} (usizeMax : Nat) (c : Converter) (f : Frame) (cb : Callback τ) :
    ∀ (fuel : Nat) (it : InterlaceIter) (t : τ) (buf : List UInt8),
      it.next * c.lineLength f ≤ buf.length + 7 * c.lineLength f → buf.length + 7 * c.lineLength f ≤ usizeMax →
      c.readRowsOn usizeMax f cb fuel it t buf = c.readRows f cb fuel it t buf := by
  intro fuel
  induction fuel with
  | zero => intro it t buf _ _; rfl
  | succ fuel ih =>
    intro it t buf hn hm
    unfold readRowsOn readRows
    match he : it.nextRow with
    | (it', none) => rfl
    | (it', some row) =>
      obtain ⟨hr, hn'⟩ := nextRow_le he
      subst hr
      simp only
      rw [if_neg (by omega)]
      split
      · rename_i hc
        have hlen := fillLoop_length c f cb (((buf.drop (it.next * c.lineLength f)).take (c.lineLength f)).length + 1) t
          ((buf.drop (it.next * c.lineLength f)).take (c.lineLength f))
        change (c.fillBuffer f cb t _).2.1.length = _ at hlen
        rw [List.length_take, List.length_drop] at hlen
        rw [List.length_drop] at hc
        match hf : c.fillBuffer f cb t ((buf.drop (it.next * c.lineLength f)).take (c.lineLength f)) with
        | (t', line, .ok true) =>
          rw [hf] at hlen
          simp only at hlen ⊢
          have hbl : (buf.take (it.next * c.lineLength f) ++ line ++
              buf.drop (it.next * c.lineLength f + c.lineLength f)).length = buf.length := by
            simp only [List.length_append, List.length_take, List.length_drop]; omega
          apply ih
          · rw [hbl]
            calc it'.next * c.lineLength f ≤ (it.next + 8) * c.lineLength f := Nat.mul_le_mul_right _ hn'
              _ = it.next * c.lineLength f + 8 * c.lineLength f := Nat.add_mul ..
              _ ≤ _ := by omega
          · rw [hbl]; exact hm
        | (t', line, .ok false) => rfl
        | (t', line, .err e) => rfl
        | (t', line, .panic) => rfl
        | (t', line, .diverge) => rfl
      · rfl

/-- **C50** (rows): on a platform with 32-bit or wider `usize`, for every buffer an allocation can have (at most
`isize::MAX` bytes), `read_into_buffer` with checked machine arithmetic does exactly what it does with unbounded
arithmetic: no multiplication overflows, and an unrepresentable size is reported as too small a buffer. -/
theorem C50_read_into_buffer_no_overflow {τ : Type} (usizeMax : Nat) (h32 : 2 ^ 32 - 1 ≤ usizeMax) (c : Converter)
    (f : Frame) (cb : Callback τ) (t : τ) (buf : List UInt8) (hb : buf.length ≤ usizeMax / 2) :
    c.readIntoBufferOn usizeMax f cb t buf = c.readIntoBuffer f cb t buf := by
  have hw := f.width.toNat_lt
  have hll : c.lineLengthOn usizeMax f = .ok (c.lineLength f) := by
    unfold lineLengthOn lineLength
    cases c.colorOutput
    · simp only; rw [if_pos (by omega)]
    · rfl
  unfold readIntoBufferOn readIntoBuffer bufferSizeOn
  rw [hll]
  simp only
  split
  · apply readRowsOn_eq
    · simp
    · have := lineLength_le c f; omega
  · have hbs : c.lineLength f * f.height.toNat = c.bufferSize f := rfl
    rw [hbs]
    by_cases hs : c.bufferSize f ≤ usizeMax
    · rw [if_pos hs]
      rfl
    · rw [if_neg hs, if_neg (by omega)]

/-- **C50** (sizes): on every platform, if `check_buffer_size` accepts a frame, the accepted size is
`width * height * channels`, is representable and within the memory limit, and agrees with `buffer_size`; it rejects a
frame exactly when the size is not representable or above the limit; it never panics. -/
theorem C50_check_buffer_size (usizeMax : Nat) (h32 : 2 ^ 32 - 1 ≤ usizeMax) (c : Converter) (f : Frame) :
    let size := f.width.toNat * f.height.toNat * (match c.colorOutput with
      | .indexed => 1
      | .rgba => 4)
    let fits := size ≤ usizeMax ∧ (∀ limit h, c.memoryLimit = .bytes limit h → size ≤ limit)
    (fits → c.checkBufferSizeOn usizeMax f = .ok size ∧ c.decoderBufferSizeOn usizeMax f = .ok size) ∧
    (¬ fits → c.checkBufferSizeOn usizeMax f = .ioErr .outOfMemory) := by
  have hw := f.width.toNat_lt
  intro size fits
  have hll : c.lineLengthOn usizeMax f = .ok (c.lineLength f) := by
    unfold lineLengthOn lineLength
    cases c.colorOutput
    · simp only; rw [if_pos (by omega)]
    · rfl
  have hsz : c.lineLength f * f.height.toNat = size := by
    unfold size lineLength
    cases c.colorOutput
    · simp only; rw [Nat.mul_right_comm]
    · simp
  have hdec : size ≤ usizeMax → c.decoderBufferSizeOn usizeMax f = .ok size := by
    intro hle
    unfold decoderBufferSizeOn Converter.bufferSizeOn
    rw [hll]
    simp only [hsz]
    rw [if_pos hle]
  have hbs : c.memoryLimit.bufferSizeOn usizeMax c.colorOutput f.width f.height =
      if size ≤ usizeMax then (match c.memoryLimit with
        | .unlimited => some size
        | .bytes limit _ => if size > limit then none else some size) else none := by
    unfold MemoryLimit.bufferSizeOn size
    cases c.colorOutput <;> cases c.memoryLimit <;> rfl
  unfold checkBufferSizeOn
  rw [hbs]
  constructor
  · intro hf
    have hx := hdec hf.1
    rw [if_pos hf.1, hx]
    cases hm : c.memoryLimit with
    | unlimited => simp
    | bytes limit h =>
      have := hf.2 limit h hm
      simp only
      rw [if_neg (by omega)]
      simp
  · intro hf
    by_cases hle : size ≤ usizeMax
    · rw [if_pos hle]
      cases hm : c.memoryLimit with
      | unlimited =>
        refine absurd ⟨hle, ?_⟩ hf
        intro limit h he
        rw [hm] at he
        cases he
      | bytes limit h =>
        have : size > limit := by
          refine Classical.not_not.1 fun hn => hf ⟨hle, ?_⟩
          intro limit' h' he
          rw [hm] at he
          cases he
          omega
        simp only
        rw [if_pos this]
    · rw [if_neg hle]

/-- **C50** (64 bits): `buffer_size` and `line_length` are exact for every frame. -/
theorem C50_sizes_64 (c : Converter) (f : Frame) :
    c.decoderBufferSizeOn (2 ^ 64 - 1) f = .ok (f.width.toNat * f.height.toNat * (match c.colorOutput with
      | .indexed => 1
      | .rgba => 4)) ∧
    c.lineLengthOn (2 ^ 64 - 1) f = .ok (f.width.toNat * (match c.colorOutput with
      | .indexed => 1
      | .rgba => 4)) := by
  have hw := f.width.toNat_lt
  have hh := f.height.toNat_lt
  have hm : f.width.toNat * f.height.toNat ≤ 65535 * 65535 := Nat.mul_le_mul (by omega) (by omega)
  unfold decoderBufferSizeOn Converter.bufferSizeOn lineLengthOn
  cases c.colorOutput
  · simp only
    rw [if_pos (by omega)]
    simp only
    rw [Nat.mul_right_comm, if_pos (by omega)]
    exact ⟨rfl, trivial⟩
  · simp only
    rw [if_pos (by omega)]
    simp

/-- **C50** fails for `Decoder::buffer_size` on a 32-bit platform: after `next_frame_info` returned a frame of
32768 x 32768 pixels it panics in RGBA mode (`unwrap` of the overflowed product). -/
theorem C50_buffer_size_panics_on_32_bit :
    (Converter.new .rgba .unlimited).decoderBufferSizeOn (2 ^ 32 - 1)
      { Frame.default with width := 32768, height := 32768 } = .panic := by decide

/-- What holds on 32 bits: `buffer_size` is exact, unless the size does not fit. -/
theorem C50_sizes_32_partial (c : Converter) (f : Frame)
    (hfit : f.width.toNat * f.height.toNat * (match c.colorOutput with
      | .indexed => 1
      | .rgba => 4) ≤ 2 ^ 32 - 1) :
    c.decoderBufferSizeOn (2 ^ 32 - 1) f = .ok (f.width.toNat * f.height.toNat * (match c.colorOutput with
      | .indexed => 1
      | .rgba => 4)) ∧
    c.lineLengthOn (2 ^ 32 - 1) f = .ok (f.width.toNat * (match c.colorOutput with
      | .indexed => 1
      | .rgba => 4)) := by
  have hw := f.width.toNat_lt
  unfold decoderBufferSizeOn Converter.bufferSizeOn lineLengthOn
  cases hc : c.colorOutput <;> simp only [hc] at hfit ⊢
  · rw [if_pos (by omega)]
    simp only
    rw [Nat.mul_right_comm, if_pos hfit]
    exact ⟨rfl, trivial⟩
  · rw [Nat.mul_one] at hfit
    rw [if_pos (by omega)]
    simp

/-- A frame of the largest size, interlaced: the buffer is far too small, the offset of row 8192 would overflow, yet the
hypotheses of `C50_read_into_buffer_no_overflow` are met. -/
example : (List.replicate 16 (0 : UInt8)).length ≤ (2 ^ 32 - 1) / 2 := by decide
example : 2 ^ 32 - 1 ≤ 2 ^ 32 - 1 ∧ 2 ^ 32 - 1 ≤ 2 ^ 64 - 1 := by decide
/-- A large frame that fits 32 bits. -/
example : ({ Frame.default with width := 65535, height := 16384 } : Frame).width.toNat *
    ({ Frame.default with width := 65535, height := 16384 } : Frame).height.toNat * 4 ≤ 2 ^ 32 - 1 := by decide

end Gif.Props
