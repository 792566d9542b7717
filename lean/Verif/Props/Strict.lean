import Verif.Props.GivenCases
/-!
# C57: strict options only reject
-/

namespace Gif

namespace Spec

/-- The errors by which a decoder with the options `strict` can reject what one with the options `lax` does not reject. -/
def RejectedBy (strict lax : DecodeOptions) (e : DecodingError) : Prop :=
  strict.memoryLimit ≠ lax.memoryLimit ∧ (e = .format .memoryLimit ∨ e = .io .outOfMemory) ∨
  strict.checkForEndCode = true ∧ lax.checkForEndCode = false ∧ e = .io .noEndCode ∨
  strict.checkFrameConsistency = true ∧ lax.checkFrameConsistency = false ∧ e = .format .frameOutOfBounds ∨
  strict.allowUnknownBlocks = false ∧ lax.allowUnknownBlocks = true ∧ e = .format .unknownBlock

end Spec

namespace Decoder

/-- **C57** for every reader, also one that fails: stricter options change nothing but that the session ends early, with an error
of one of the options that differ. -/
theorem strict_options_only_reject (C : Codec) (strict lax : DecodeOptions) (hc : strict.colorOutput = lax.colorOutput)
    (hs : strict.skipFrameDecoding = lax.skipFrameDecoding)
    (hm : ∀ n, strict.memoryLimit.sizeOk n = true → lax.memoryLimit.sizeOk n = true)
    (he : lax.checkForEndCode = true → strict.checkForEndCode = true)
    (hf : lax.checkFrameConsistency = true → strict.checkFrameConsistency = true)
    (hu : strict.allowUnknownBlocks = true → lax.allowUnknownBlocks = true) (r : Reader) (acts : List Act) :
    filmFrom C strict r acts = filmFrom C lax r acts ∨
    ∃ k e, Spec.RejectedBy strict lax e ∧ k < (filmFrom C lax r acts).length ∧
      filmFrom C strict r acts = (filmFrom C lax r acts).take k ++ [.seen (.failed e)] := by
  have h := filmFrom_relax (C := C) strict (m := lax.policy) ⟨hm, he, hf, hu⟩ r acts
  have e : strict.relax lax.policy = lax := by
    obtain ⟨a, b, c, d, e, f⟩ := strict
    obtain ⟨a', b', c', d', e', f'⟩ := lax
    simp only at hc hs
    subst hc hs
    rfl
  rw [e] at h
  rcases h with h | ⟨k, e, h1, h2, h3⟩
  · exact .inl h
  · refine .inr ⟨k, e, ?_, h2, h3⟩
    unfold Refusal at h1
    unfold Spec.RejectedBy
    split at h1
    · exact .inl ⟨h1, .inl rfl⟩
    · exact .inl ⟨h1, .inr rfl⟩
    · exact .inr (.inl ⟨h1.1, h1.2, rfl⟩)
    · exact .inr (.inr (.inl ⟨h1.1, h1.2, rfl⟩))
    · exact .inr (.inr (.inr ⟨h1.1, h1.2, rfl⟩))
    · exact h1.elim

/-- A file with an image without an end code, an image outside of the screen, a block of an unknown kind, and another image. -/
def oddities : Reader :=
  { buf := [], src := [.data [0x47, 0x49, 0x46, 0x38, 0x39, 0x61, 1, 0, 1, 0, 0x80, 1, 0, 10, 20, 30, 40, 50, 60,
      0x2C, 0, 0, 0, 0, 1, 0, 1, 0, 0, 2, 1, 0x0C, 0,
      0x2C, 5, 0, 0, 0, 1, 0, 1, 0, 0, 2, 2, 0x4C, 1, 0],
    .data [0x01, 2, 7, 8, 0, 0x2C, 0, 0, 0, 0, 1, 0, 1, 0, 0, 2, 2, 0x4C, 1, 0, 0x3B]] }

/-- The options that reject the least. -/
def laxest : DecodeOptions := { DecodeOptions.new with memoryLimit := .unlimited, allowUnknownBlocks := true }

set_option maxRecDepth 100000 in
/-- The four options of `strict_options_only_reject` make a difference: each of them ends a session at another place. -/
example : (filmFrom Ref.lzw laxest oddities [.read, .read, .read, .read]).length = 5 ∧
    filmFrom Ref.lzw { laxest with memoryLimit := .bytes 1 (by decide) } oddities [.read, .read, .read, .read] =
      (filmFrom Ref.lzw laxest oddities [.read, .read, .read, .read]).take 3 ++ [.seen (.failed (.format .memoryLimit))] ∧
    filmFrom Ref.lzw { laxest with checkForEndCode := true } oddities [.read, .read, .read, .read] =
      (filmFrom Ref.lzw laxest oddities [.read, .read, .read, .read]).take 2 ++ [.seen (.failed (.io .noEndCode))] ∧
    filmFrom Ref.lzw { laxest with checkFrameConsistency := true } oddities [.read, .read, .read, .read] =
      (filmFrom Ref.lzw laxest oddities [.read, .read, .read, .read]).take 2 ++ [.seen (.failed (.format .frameOutOfBounds))] ∧
    filmFrom Ref.lzw { laxest with allowUnknownBlocks := false } oddities [.read, .read, .read, .read] =
      (filmFrom Ref.lzw laxest oddities [.read, .read, .read, .read]).take 3 ++ [.seen (.failed (.format .unknownBlock))] := by
  decide +kernel

/-- C45: the option `check_lzw_end_code` changes nothing but that a session ends early with the error of a missing end code. -/
theorem check_end_code_only_rejects (C : Codec) (o : DecodeOptions) (r : Reader) (acts : List Act) :
    filmFrom C { o with checkForEndCode := true } r acts = filmFrom C { o with checkForEndCode := false } r acts ∨
    ∃ k, k < (filmFrom C { o with checkForEndCode := false } r acts).length ∧
      filmFrom C { o with checkForEndCode := true } r acts =
        (filmFrom C { o with checkForEndCode := false } r acts).take k ++ [.seen (.failed (.io .noEndCode))] := by
  rcases strict_options_only_reject C { o with checkForEndCode := true } { o with checkForEndCode := false } rfl rfl
    (fun _ h => h) (fun h => by cases h) id id r acts with h | ⟨k, e, h1, h2, h3⟩
  · exact .inl h
  · refine .inr ⟨k, h2, ?_⟩
    rcases h1 with h1 | h1 | h1 | h1
    · exact absurd rfl h1.1
    · rw [h3, h1.2.2]
    · have := h1.1; have h4 := h1.2.1; simp only at this h4; rw [this] at h4; cases h4
    · have := h1.1; have h4 := h1.2.1; simp only at this h4; rw [this] at h4; cases h4

set_option maxRecDepth 100000 in
/-- Both cases of `check_end_code_only_rejects` occur. -/
example : filmFrom Ref.lzw { laxest with checkForEndCode := true } oddities [.read] =
      filmFrom Ref.lzw { laxest with checkForEndCode := false } oddities [.read] ∧
    filmFrom Ref.lzw { laxest with checkForEndCode := true } oddities [.read, .info] ≠
      filmFrom Ref.lzw { laxest with checkForEndCode := false } oddities [.read, .info] := by
  decide +kernel

end Decoder

end Gif
