import Verif.Lemmas.Fill
/-!
# C16, C17, C18: interlacing and palette expansion, for every pixel source

The theorems about `read_next_frame` itself, where the source is the decoder, build on these.
-/

namespace Gif.Props

open Spec

/-- A pixel source that hands out the list `t` at most `k` indices at a time. -/
def listSource (k : Nat) : Callback (List UInt8) := fun t cap => (t.drop (min k cap), .ok (t.take (min k cap)))

theorem listSource_serves (k : Nat) (hk : 0 < k) : Serves (listSource k) (fun t l => t = l) := by
  intro t l cap h hne hc
  subst h
  refine ⟨_, t.take (min k cap), t.drop (min k cap), rfl, ?_, ?_, (List.take_append_drop _ _).symm, rfl⟩
  · have : 0 < t.length := List.length_pos_iff.2 hne
    rw [← List.length_pos_iff, List.length_take]; omega
  · rw [List.length_take]; omega

theorem listSource_ends (k : Nat) : Ends (listSource k) (fun t l => t = l) := by
  intro t cap h _
  subst h
  exact ⟨[], by simp [listSource]⟩

/-- **C16.** The rows the decoder visits for an interlaced image of height `h` are those of the four GIF groups in order;
asked once more, the iterator stops; and every row below `h` occurs exactly once. -/
theorem C16_interlace_rows (h : UInt16) :
    (∀ n, InterlaceIter.rows n ⟨h.toNat, 0, 0⟩ = (interlaceOrder h.toNat).take n) ∧
    (interlaceOrder h.toNat).Perm (List.range h.toNat) := by
  refine ⟨fun n => ?_, interlaceOrder_perm _⟩
  by_cases h0 : h.toNat = 0
  · rw [h0]; cases n <;> simp [InterlaceIter.rows, InterlaceIter.nextRow, interlaceOrder]
  · rw [InterlaceIter.rows_eq_remaining _ _ _ _ (by omega) (by omega), InterlaceIter.remaining_zero]

example : InterlaceIter.rows 100 ⟨11, 0, 0⟩ = [0, 8, 4, 2, 6, 10, 1, 3, 5, 7, 9] := by decide
example : interlaceOrder 11 = [0, 8, 4, 2, 6, 10, 1, 3, 5, 7, 9] := by decide

/-- The loop of the iterator ends with a row below the height: its `debug_assert!(self.pass < 4)` does not fail, and the index
is never out of bounds. -/
theorem interlace_assert {len next pass k : Nat} (hlen : 0 < len) (hk : InterlaceIter.stride pass = some k) :
    ∃ n p, InterlaceIter.skipPasses len 5 (next + k) pass = some (n, p) ∧ n < len ∧ p ≤ 4 := by
  have hp : pass < 4 := by
    unfold InterlaceIter.stride at hk
    exact (List.getElem?_eq_some_iff.mp hk).1
  have key : ∀ fuel n p, p ≤ 4 → (p = 4 → n < len) → 4 < p + fuel →
      ∃ n' p', InterlaceIter.skipPasses len fuel n p = some (n', p') ∧ n' < len ∧ p' ≤ 4 := by
    intro fuel
    induction fuel with
    | zero => intro n p h1 _ h3; omega
    | succ fuel ih =>
      intro n p h1 h2 h3
      unfold InterlaceIter.skipPasses
      by_cases hn : n ≥ len
      · rw [if_pos hn]
        match p, h1, h2, h3 with
        | 0, _, _, h3 => exact ih 4 1 (by omega) (by omega) (by omega)
        | 1, _, _, h3 => exact ih 2 2 (by omega) (by omega) (by omega)
        | 2, _, _, h3 => exact ih 1 3 (by omega) (by omega) (by omega)
        | 3, _, _, h3 => exact ih 0 4 (by omega) (by omega) (by omega)
        | 4, _, h2, _ => have := h2 rfl; omega
      · rw [if_neg hn]
        exact ⟨n, p, rfl, by omega, h1⟩
  exact key 5 _ _ (by omega) (by omega) (by omega)

example : InterlaceIter.skipPasses 1 5 (0 + 8) 0 = some (0, 4) := by decide

/-- **C17**, indexed output: row `interlaceOrder[k]` of the buffer is the `k`-th decoded line; the rest of the buffer
stays as it was and exactly `width * height` pixels are taken from the source. -/
theorem C17_deinterlace_indexed {τ : Type} (c : Converter) (f : Frame) (cb : Callback τ) (R : τ → List UInt8 → Prop)
    (hs : Serves cb R) (t : τ) (pixels buf : List UInt8) (hc : c.colorOutput = .indexed) (hi : f.interlaced = true)
    (hR : R t pixels) (hw : 0 < f.width.toNat) (hb : f.width.toNat * f.height.toNat ≤ buf.length)
    (hl : f.width.toNat * f.height.toNat ≤ pixels.length) :
    ∃ t' buf', c.readIntoBuffer f cb t buf = (t', buf', .ok ()) ∧
      R t' (pixels.drop (f.width.toNat * f.height.toNat)) ∧ buf'.length = buf.length ∧
      (∀ k r, (interlaceOrder f.height.toNat)[k]? = some r →
        rowOf f.width.toNat buf' r = rowOf f.width.toNat pixels k) ∧
      buf'.drop (f.width.toNat * f.height.toNat) = buf.drop (f.width.toNat * f.height.toNat) := by
  have hll : c.lineLength f = f.width.toNat := by simp [Converter.lineLength, hc]
  have hbs : c.bufferSize f = f.width.toNat * f.height.toNat := by rw [Converter.bufferSize, hll]
  obtain ⟨t', buf', e, hR', h1, h2, h3⟩ := Converter.readIntoBuffer_interlaced c f cb R hs t pixels buf hi hR hw
    (by rw [hbs]; exact hb) hl
  refine ⟨t', buf', e, hR', h1, ?_, by rw [hbs] at h3; exact h3⟩
  intro k r hk
  have := h2 k r hk
  rw [hll] at this
  simpa [Converter.convert, hc] using this

/-- **C17**, RGBA output: row `interlaceOrder[k]` is the palette lookup of the `k`-th decoded line. -/
theorem C17_deinterlace_rgba {τ : Type} (c : Converter) (f : Frame) (cb : Callback τ) (R : τ → List UInt8 → Prop)
    (hs : Serves cb R) (t : τ) (pixels buf : List UInt8) (hc : c.colorOutput = .rgba) (hi : f.interlaced = true)
    (hR : R t pixels) (hw : 0 < f.width.toNat) (hb : 4 * f.width.toNat * f.height.toNat ≤ buf.length)
    (hl : f.width.toNat * f.height.toNat ≤ pixels.length) :
    ∃ t' buf', c.readIntoBuffer f cb t buf = (t', buf', .ok ()) ∧
      R t' (pixels.drop (f.width.toNat * f.height.toNat)) ∧ buf'.length = buf.length ∧
      (∀ k r, (interlaceOrder f.height.toNat)[k]? = some r →
        rowOf (4 * f.width.toNat) buf' r = rgbaPixels ((f.palette.or c.globalPalette).getD []) f.transparent
          (rowOf f.width.toNat pixels k) (rowOf (4 * f.width.toNat) buf r)) ∧
      buf'.drop (4 * f.width.toNat * f.height.toNat) = buf.drop (4 * f.width.toNat * f.height.toNat) := by
  have hll : c.lineLength f = 4 * f.width.toNat := by simp [Converter.lineLength, hc, Nat.mul_comm]
  have hbs : c.bufferSize f = 4 * f.width.toNat * f.height.toNat := by rw [Converter.bufferSize, hll]
  obtain ⟨t', buf', e, hR', h1, h2, h3⟩ := Converter.readIntoBuffer_interlaced c f cb R hs t pixels buf hi hR hw
    (by rw [hbs]; exact hb) hl
  refine ⟨t', buf', e, hR', h1, ?_, by rw [hbs] at h3; exact h3⟩
  intro k r hk
  have := h2 k r hk
  rw [hll] at this
  rw [this, Converter.convert, hc]
  have hp : c.effectivePalette f = (f.palette.or c.globalPalette).getD [] := by
    unfold Converter.effectivePalette; cases f.palette <;> rfl
  simp only [hp]
  apply Converter.expandPixels_eq
  have hkl : k < f.height.toNat := by
    have := (List.getElem?_eq_some_iff.1 hk).1
    rwa [interlaceOrder_length] at this
  have hrl : r < f.height.toNat := interlaceOrder_lt (List.mem_of_getElem? hk)
  have e1 : k * f.width.toNat + f.width.toNat ≤ f.width.toNat * f.height.toNat := by
    rw [← Nat.succ_mul, Nat.mul_comm]; exact Nat.mul_le_mul_left _ hkl
  have e2 : r * (4 * f.width.toNat) + 4 * f.width.toNat ≤ 4 * f.width.toNat * f.height.toNat := by
    rw [← Nat.succ_mul, Nat.mul_comm]; exact Nat.mul_le_mul_left _ hrl
  simp only [rowOf, List.length_take, List.length_drop]
  omega

/-- **C17**, not interlaced: the lines are in file order. -/
theorem C17_plain_indexed {τ : Type} (c : Converter) (f : Frame) (cb : Callback τ) (R : τ → List UInt8 → Prop)
    (hs : Serves cb R) (t : τ) (pixels buf : List UInt8) (hc : c.colorOutput = .indexed) (hi : f.interlaced = false)
    (hR : R t pixels) (hw : 0 < f.width.toNat) (hh : 0 < f.height.toNat)
    (hb : f.width.toNat * f.height.toNat ≤ buf.length) (hl : f.width.toNat * f.height.toNat ≤ pixels.length) :
    ∃ t', c.readIntoBuffer f cb t buf =
        (t', pixels.take (f.width.toNat * f.height.toNat) ++ buf.drop (f.width.toNat * f.height.toNat), .ok ()) ∧
      R t' (pixels.drop (f.width.toNat * f.height.toNat)) := by
  have hbs : c.bufferSize f = f.width.toNat * f.height.toNat := by simp [Converter.bufferSize, Converter.lineLength, hc]
  have := Converter.readIntoBuffer_plain c f cb R hs t pixels buf hi hR hw hh (by rw [hbs]; exact hb) hl
  simpa [Converter.convert, hc, hbs] using this

/-- **C18**: in RGBA mode `read_into_buffer` writes the palette lookup of what it writes in indexed mode from the same
source: for each pixel the three bytes of its colour in the local palette if there is one, otherwise in the global one,
and alpha 0 for the transparent index and 255 otherwise; pixels outside the palette keep the bytes of the buffer. -/
theorem C18_rgba_is_lookup {τ : Type} (c : Converter) (f : Frame) (cb : Callback τ) (R : τ → List UInt8 → Prop)
    (hs : Serves cb R) (t : τ) (pixels buf : List UInt8) (hc : c.colorOutput = .rgba) (hi : f.interlaced = false)
    (hR : R t pixels) (hw : 0 < f.width.toNat) (hh : 0 < f.height.toNat)
    (hb : buf.length = 4 * (f.width.toNat * f.height.toNat)) (hl : f.width.toNat * f.height.toNat ≤ pixels.length) :
    ∃ t', c.readIntoBuffer f cb t buf =
        (t', rgbaPixels ((f.palette.or c.globalPalette).getD []) f.transparent
          (pixels.take (f.width.toNat * f.height.toNat)) buf, .ok ()) ∧
      R t' (pixels.drop (f.width.toNat * f.height.toNat)) := by
  have hbs : c.bufferSize f = buf.length := by
    rw [Converter.bufferSize_eq, hb]; simp [Converter.chan, hc]
  obtain ⟨t', e, hR'⟩ := Converter.readIntoBuffer_plain c f cb R hs t pixels buf hi hR hw hh (by omega) hl
  refine ⟨t', ?_, hR'⟩
  have hp : c.effectivePalette f = (f.palette.or c.globalPalette).getD [] := by
    unfold Converter.effectivePalette; cases f.palette <;> rfl
  rw [e, hbs]
  simp only [Converter.convert, hc, hp, List.take_length, List.drop_length, List.append_nil]
  rw [Converter.expandPixels_eq]
  rw [List.length_take, hb]; omega

/-- A 2x3 frame; the source hands out its pixels two at a time, the fifth index is outside the palette. -/
def exFrame (interlaced : Bool) : Frame :=
  { Frame.default with width := 2, height := 3, interlaced := interlaced, transparent := some 1
                       palette := some [10, 11, 12, 20, 21, 22] }

example : Serves (listSource 2) (fun t l => t = l) := listSource_serves 2 (by decide)
example : (Converter.readIntoBuffer (Converter.new .indexed .unlimited) (exFrame true) (listSource 2)
    [0, 1, 1, 0, 2, 1, 9] [7, 7, 7, 7, 7, 7, 7]).2 = ([0, 1, 2, 1, 1, 0, 7], .ok ()) := by decide
example : (Converter.readIntoBuffer (Converter.new .rgba .unlimited) (exFrame false) (listSource 2)
    [0, 1, 1, 0, 2, 1, 9] (List.replicate 24 0)).2 =
    ([10, 11, 12, 255, 20, 21, 22, 0, 20, 21, 22, 0, 10, 11, 12, 255, 0, 0, 0, 0, 20, 21, 22, 0], .ok ()) := by decide

end Gif.Props
