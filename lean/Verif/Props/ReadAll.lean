import Verif.Model.Examples
import Verif.Props.Cost
import Verif.Props.ExplodeCases
/-!
# C72: programs that read all frames: the fuzz target, the tests against stalling, `examples/check.rs`
-/

namespace Gif.Examples

variable {C : Codec}

theorem decodeAll_eq {d : Decoder C} {fs : List Frame} {x : Outcome Unit} (hl : Decoder.Looped d fs x) :
    ∀ fuel, fs.length < fuel → decodeAll fuel d = x := by
  induction hl with
  | done hx | err hx | panic hx | diverge hx =>
    intro fuel hf
    obtain ⟨fuel, rfl⟩ : ∃ k, fuel = k + 1 := ⟨fuel - 1, by omega⟩
    rw [decodeAll, hx]
  | frame hx _ ih =>
    intro fuel hf
    obtain ⟨fuel, rfl⟩ : ∃ k, fuel = k + 1 := ⟨fuel - 1, by omega⟩
    rw [decodeAll, hx]
    exact ih fuel (by simp only [List.length_cons] at hf; omega)

/-- C72: `try_decode` of the fuzz target and of the tests returns `Ok` or `Err`, for all data, options and safe codecs: there is
no panic and no endless loop for the fuzzer to find. -/
theorem try_decode_returns (hS : C.Safe) (o : DecodeOptions) (r : Reader) : (tryDecode C o r).returns = true := by
  have hret := (Decoder.inv_readInfo hS o r).2
  unfold tryDecode
  match ho : Decoder.readInfo C o r with
  | (d, .ok ()) =>
    obtain ⟨fs, x, h1, h2, h3⟩ := Decoder.read_loop_ends hS ho
    simp only
    rw [decodeAll_eq h1 _ (by
      cases fs with
      | nil => simp
      | cons f fs => have := h3 (by simp); simp only [List.length_cons] at *; omega)]
    exact h2
  | (d, .err e) => rfl
  | (d, .panic) => rw [ho] at hret; cases hret
  | (d, .diverge) => rw [ho] at hret; cases hret

/-- C72: it returns `Ok` exactly if the file can be opened and all its frames can be read, up to the end. -/
theorem try_decode_ok (hS : C.Safe) (o : DecodeOptions) (r : Reader) :
    tryDecode C o r = .ok () ↔ ∃ d fs, Decoder.readInfo C o r = (d, .ok ()) ∧ Decoder.Looped d fs (.ok ()) := by
  unfold tryDecode
  match ho : Decoder.readInfo C o r with
  | (d, .ok ()) =>
    obtain ⟨fs, x, h1, h2, h3⟩ := Decoder.read_loop_ends hS ho
    simp only
    rw [decodeAll_eq h1 _ (by
      cases fs with
      | nil => simp
      | cons f fs => have := h3 (by simp); simp only [List.length_cons] at *; omega)]
    constructor
    · rintro rfl
      exact ⟨d, fs, rfl, h1⟩
    · rintro ⟨d', fs', h, hl⟩
      cases h
      exact (Decoder.looped_det h1 hl).2
  | (d, .err e) => simp
  | (d, .panic) => simp
  | (d, .diverge) => simp

/-- What is printed at the end. -/
def lastLine : Outcome Unit → List Line
  | .err e => [.error e]
  | _ => []

theorem checkLoop_eq {d : Decoder C} {fs : List Frame} {x : Outcome Unit} (hl : Decoder.Looped d fs x) (hx : x.returns = true) :
    ∀ fuel, fs.length < fuel → checkLoop fuel d = (fs.map Line.of ++ lastLine x, .success) := by
  induction hl with
  | done hx' | err hx' =>
    intro fuel hf
    obtain ⟨fuel, rfl⟩ : ∃ k, fuel = k + 1 := ⟨fuel - 1, by omega⟩
    rw [checkLoop, hx']
    rfl
  | panic hx' | diverge hx' => cases hx
  | frame hx' _ ih =>
    intro fuel hf
    obtain ⟨fuel, rfl⟩ : ∃ k, fuel = k + 1 := ⟨fuel - 1, by omega⟩
    rw [checkLoop, hx']
    simp only
    rw [ih hx fuel (by simp only [List.length_cons] at hf; omega)]
    rfl

/-- C72: `examples/check.rs` panics exactly if the file cannot be opened; otherwise it ends, having printed a line for each
frame that `read_next_frame` gives, and the error with which the frames end, if they do. -/
theorem check_prints (hS : C.Safe) (r : Reader) :
    (∃ d e, Decoder.readInfo C { DecodeOptions.new with allowUnknownBlocks := true } r = (d, .err e) ∧ check C r = ([], .panic)) ∨
    ∃ d fs x, Decoder.readInfo C { DecodeOptions.new with allowUnknownBlocks := true } r = (d, .ok ()) ∧ Decoder.Looped d fs x ∧
      ((x = .ok () ∧ check C r = (fs.map (fun f => .frame f.delay f.width f.height f.left f.top f.dispose f.needsUserInput), .success)) ∨
        ∃ e, x = .err e ∧
          check C r = (fs.map (fun f => .frame f.delay f.width f.height f.left f.top f.dispose f.needsUserInput) ++ [.error e], .success)) := by
  have hret := (Decoder.inv_readInfo hS { DecodeOptions.new with allowUnknownBlocks := true } r).2
  unfold check
  match ho : Decoder.readInfo C { DecodeOptions.new with allowUnknownBlocks := true } r with
  | (d, .ok ()) =>
    obtain ⟨fs, x, h1, h2, h3⟩ := Decoder.read_loop_ends hS ho
    have hc := checkLoop_eq h1 h2 (r.bytes.length + 1) (by
      cases fs with
      | nil => simp
      | cons f fs => have := h3 (by simp); simp only [List.length_cons] at *; omega)
    refine .inr ⟨d, fs, x, rfl, h1, ?_⟩
    simp only
    rw [hc]
    cases x with
    | ok u => exact .inl ⟨rfl, by simp only [lastLine, List.append_nil]; rfl⟩
    | err e => exact .inr ⟨e, rfl, rfl⟩
    | panic => cases h2
    | diverge => cases h2
  | (d, .err e) => exact .inl ⟨d, e, rfl, rfl⟩
  | (d, .panic) => rw [ho] at hret; cases hret
  | (d, .diverge) => rw [ho] at hret; cases hret

/-- A case of `try_decode_ok`. -/
example : tryDecode Ref.lzw explodeOptions Decoder.animation = .ok () :=
  (try_decode_ok Ref.lzw_safe _ _).mpr ⟨_, _, pair_snd animation_opens, animation_loop⟩

set_option maxRecDepth 100000 in
/-- A case of `check_prints`. -/
example : (check Ref.lzw Decoder.animation).1 = [.of first, .of second] := by
  have h : (Decoder.readInfo Ref.lzw { DecodeOptions.new with allowUnknownBlocks := true } Decoder.animation).2 = .ok () := by decide +kernel
  unfold check
  rw [pair_snd h]
  simp only
  have hl : Decoder.Looped (Decoder.readInfo Ref.lzw { DecodeOptions.new with allowUnknownBlocks := true } Decoder.animation).1
      [first, second] (.ok ()) := by
    refine .frame (pair_snd (b := Outcome.ok (some first)) ?_) (.frame (pair_snd (b := Outcome.ok (some second)) ?_) (.done (pair_snd (b := Outcome.ok none) ?_)))
    all_goals decide +kernel
  rw [checkLoop_eq hl rfl _ (by decide +kernel)]
  rfl

set_option maxRecDepth 100000 in
/-- The other case of `check_prints`: something that is no GIF. -/
example : check Ref.lzw (readerOn [1, 2, 3, 4, 5, 6, 7]) = ([], .panic) := by decide +kernel

end Gif.Examples
