import Verif.Props.Grammar
import Verif.Ref.Lawful
/-!
Cases of the theorems of `Grammar.lean`: a file that meets the hypotheses, and the legal files that do not.
-/

namespace Gif

open Spec (File Image Blk)

/-- A comment, a repetition extension, a control extension, an interlaced image with three sub-blocks, and an image with
colours of its own. -/
def sample : File where
  v89 := true
  width := 3
  height := 2
  misc := 1
  size := 0
  table := some [0, 0, 0, 255, 255, 255]
  background := 1
  aspect := 0
  blocks := [
    .ext 0xFE [[104, 105]],
    .ext 0xFF [[0x4E, 0x45, 0x54, 0x53, 0x43, 0x41, 0x50, 0x45, 0x32, 0x2E, 0x30], [1, 7, 0]],
    .control ⟨9, 10, 1⟩,
    .image { left := 0, top := 0, width := 3, height := 2, interlaced := true, misc := 0, size := 0, table := none, minCode := 2,
             subs := [[68], [98], [80]] },
    .image { left := 1, top := 0, width := 2, height := 1, interlaced := false, misc := 0, size := 0,
             table := some [1, 2, 3, 4, 5, 6], minCode := 2, subs := [[76, 10]] }]

/-- The file, and what follows it in the stream. -/
def sampleReader : Reader := { buf := [], src := [.data sample.render, .data [1, 2, 3]] }

theorem sampleReader_reliable : sampleReader.Reliable := by
  intro ev h
  simp only [sampleReader, List.mem_cons, List.not_mem_nil, or_false] at h
  rcases h with rfl | rfl
  · exact ⟨_, rfl, by decide +kernel⟩
  · exact ⟨_, rfl, by decide⟩

set_option maxRecDepth 100000 in
theorem sample_readable : sample.Readable .new := ⟨by decide +kernel, by decide +kernel, by decide +kernel, by decide +kernel⟩

set_option maxRecDepth 100000 in
theorem sample_shows : sample.ShowAll Ref.lzwContract .new sample.frames [[0, 1, 1, 0, 1, 0], [1, 1]] := by
  refine ⟨⟨by decide +kernel, by decide +kernel, ⟨6, by decide +kernel⟩, by decide +kernel, .ended, by decide, ?_⟩,
    ⟨by decide +kernel, by decide +kernel, ⟨2, by decide +kernel⟩, by decide +kernel, .ended, by decide, ?_⟩, trivial⟩
  · have := Ref.lzwContract.roundtrip (m := 2) (data := [0, 1, 1, 0, 1, 0]) (by decide) (by decide) (by decide)
    exact (show Ref.lzw.encode 2 [0, 1, 1, 0, 1, 0] = [[68], [98], [80]].flatten by decide +kernel) ▸ this
  · have := Ref.lzwContract.roundtrip (m := 2) (data := [1, 1]) (by decide) (by decide) (by decide)
    exact (show Ref.lzw.encode 2 [1, 1] = [[76, 10]].flatten by decide +kernel) ▸ this

set_option maxRecDepth 100000 in
/-- A case of `grammar_frames_partial`, and what it says. -/
example : Decoder.sessionFrom Ref.lzw .new sampleReader (List.replicate 4 .read) =
    sample.screenplay (sample.pictures .indexed [[0, 1, 1, 0, 1, 0], [1, 1]]) 2 :=
  Decoder.grammar_frames_partial Ref.lzwContract rfl rfl sample_readable sample_shows sampleReader_reliable
    (junk := [1, 2, 3]) (by decide +kernel) 2

set_option maxRecDepth 100000 in
example : (sample.pictures .indexed [[0, 1, 1, 0, 1, 0], [1, 1]]).map (fun f => (f.buffer, f.delay, f.dispose, f.left, f.palette)) =
    [([0, 1, 1, 0, 1, 0], 10, .background, 0, none), ([1, 1], 0, .keep, 1, some [1, 2, 3, 4, 5, 6])] ∧
    sample.loops = .finite 7 := by decide +kernel

set_option maxRecDepth 100000 in
/-- A case of `end_leaves_rest_partial`. -/
example : (Decoder.afterReads 3 (Decoder.readInfo Ref.lzw .new sampleReader).1).rd.reader.bytes = [1, 2, 3] :=
  (Decoder.end_leaves_rest_partial Ref.lzwContract rfl rfl sample_readable sample_shows sampleReader_reliable
    (junk := [1, 2, 3]) (by decide +kernel)).2

set_option maxRecDepth 100000 in
/-- A case of `grammar_raw_frames` and of `end_leaves_rest_raw_partial`. -/
example : Decoder.rawFilm Ref.lzw .new sampleReader 3 = sample.screenplay (sample.frames.map Spec.rawFrame) 1 ∧
    (Decoder.afterReads 3 (Decoder.readInfo Ref.lzw { DecodeOptions.new with skipFrameDecoding := true } sampleReader).1).rd.reader.bytes =
      [1, 2, 3] :=
  ⟨Decoder.grammar_raw_frames Ref.lzwContract.safe sample_readable (by decide +kernel) sampleReader_reliable
    (junk := [1, 2, 3]) (by decide +kernel) 1,
   (Decoder.end_leaves_rest_raw_partial Ref.lzwContract.safe (o := { DecodeOptions.new with skipFrameDecoding := true }) rfl (sample_readable.congr rfl rfl)
    (by decide +kernel) sampleReader_reliable (junk := [1, 2, 3]) (by decide +kernel)).2⟩

set_option maxRecDepth 100000 in
/-- A case of `grammar_reel` with an error: the second image is too wide for the screen. -/
example : (sample.reel { DecodeOptions.new with checkFrameConsistency := true } 3 Frame.default sample.frames).length = 3 ∧
    ({ sample with width := 2 }.reel { DecodeOptions.new with checkFrameConsistency := true } 3 Frame.default sample.frames) =
      [.failed (.format .frameOutOfBounds)] := by decide +kernel

/-! ## C04: legal files that are not read -/

/-- One image of two pixels, after other blocks. -/
def withBlocks (bs : List Blk) : File := { sample with blocks := bs }

/-- The reader of a file. -/
def readerOf (g : File) : Reader := { buf := [], src := [.data g.render] }

theorem readerOf_reliable (g : File) : (readerOf g).Reliable := by
  intro ev h
  simp only [readerOf, List.mem_cons, List.not_mem_nil, or_false] at h
  subst h
  exact ⟨_, rfl, by simp [File.render]⟩

theorem readerOf_bytes (g : File) : (readerOf g).bytes = g.render := by
  simp [readerOf, Reader.bytes]

/-- The image of the files that follow. -/
def dot : Image :=
  { left := 0, top := 0, width := 1, height := 1, interlaced := false, misc := 0, size := 0, table := none, minCode := 2,
    subs := [[0x4C, 1]] }

/-- A dot whose data take more memory than its pixels. -/
def bigDot : Image := { dot with minCode := 8, subs := [[0, 3], [4, 4]] }

/-- A memory limit of three bytes. -/
def poor : DecodeOptions := { DecodeOptions.new with memoryLimit := .bytes 3 (by decide) }

set_option maxRecDepth 100000 in
/-- A case of `grammar_frames_partial`: data beyond the memory limit do no harm to the pixels. They cannot be read with
`skip_frame_decoding`. -/
theorem big_data : Decoder.sessionFrom Ref.lzw poor (readerOf (withBlocks [.image bigDot])) (List.replicate 2 .read) =
      (withBlocks [.image bigDot]).screenplay ((withBlocks [.image bigDot]).pictures .indexed [[1]]) 1 ∧
    poor.memoryLimit.sizeOk bigDot.data.length = false ∧
    (Decoder.rawFilm Ref.lzw poor (readerOf (withBlocks [.image bigDot])) 2).getLast? = some (.failed (.format .memoryLimit)) := by
  refine ⟨?_, by decide +kernel, by decide +kernel⟩
  refine Decoder.grammar_frames_partial Ref.lzwContract (o := poor) (g := withBlocks [.image bigDot]) rfl rfl
    ⟨by decide +kernel, by decide +kernel, by decide +kernel, by decide +kernel⟩ (pxs := [[1]]) ?_ (readerOf_reliable _) (junk := [])
    (by rw [readerOf_bytes, List.append_nil]) 1
  refine ⟨⟨by decide +kernel, by decide +kernel, ⟨1, by decide +kernel⟩, by decide +kernel, .ended, by decide, ?_⟩, trivial⟩
  have := Ref.lzwContract.roundtrip (m := 8) (data := [1]) (by decide) (by decide) (by decide)
  exact (show Ref.lzw.encode 8 [1] = [[0, 3], [4, 4]].flatten by decide +kernel) ▸ this

set_option maxRecDepth 100000 in
/-- C04 fails for extensions without data: `0x21 0xFE 0x00` takes the next byte for the length of a sub-block. -/
theorem grammar_fails_empty_extension : ¬ ∀ (g : File) (r : Reader), g.Legal → g.blocks ≠ [] → (∀ b ∈ g.blocks, b.Fits .new) →
    (∀ x ∈ g.frames, g.verdict .new x.2 = none) → r.Reliable → r.bytes = g.render →
    Decoder.rawFilm Ref.lzw .new r (g.frames.length + 1) = g.screenplay (g.frames.map Spec.rawFrame) 1 := fun h =>
  absurd (h (withBlocks [.ext 0xFE [], .image dot]) _ (by decide +kernel) (by decide +kernel) (by decide +kernel)
    (by decide +kernel) (readerOf_reliable _) (readerOf_bytes _)) (by decide +kernel)

set_option maxRecDepth 100000 in
/-- C04 fails for images without data sub-blocks. -/
theorem grammar_fails_empty_image : ¬ ∀ (g : File) (r : Reader), g.Ok → g.blocks ≠ [] →
    (∀ x ∈ g.frames, g.verdict .new x.2 = none) → r.Reliable → r.bytes = g.render →
    Decoder.rawFilm Ref.lzw .new r (g.frames.length + 1) = g.screenplay (g.frames.map Spec.rawFrame) 1 := fun h =>
  absurd (h (withBlocks [.image { dot with subs := [] }, .image dot]) _ (by decide +kernel) (by decide +kernel)
    (by decide +kernel) (readerOf_reliable _) (readerOf_bytes _)) (by decide +kernel)

set_option maxRecDepth 100000 in
/-- C04 fails for a file that has nothing between its header and its trailer. -/
theorem grammar_fails_no_blocks : ¬ ∀ (g : File) (r : Reader), g.Ok → (∀ b ∈ g.blocks, b.Fits .new) →
    (∀ x ∈ g.frames, g.verdict .new x.2 = none) → r.Reliable → r.bytes = g.render →
    Decoder.rawFilm Ref.lzw .new r (g.frames.length + 1) = g.screenplay (g.frames.map Spec.rawFrame) 1 := fun h =>
  absurd (h (withBlocks []) _ (by decide +kernel) (by decide +kernel) (by decide +kernel) (readerOf_reliable _)
    (readerOf_bytes _)) (by decide +kernel)

/-! ## C39, C43 -/

/-- A comment without data, and a comment that ends, for the decoder, in its middle. -/
def hidden : File :=
  withBlocks [.image dot, .ext 0xFE [], .ext 0xFE [List.replicate 31 7 ++ [0, 0x3B, 9, 9]], .image dot]

set_option maxRecDepth 100000 in
/-- C39 fails for files with an extension without data: the decoder may take a byte inside of a block for the trailer. -/
theorem end_leaves_rest_fails : ¬ ∀ (g : File) (r : Reader), g.Legal → g.frames ≠ [] → r.Reliable → r.bytes = g.render →
    ∀ n, (Decoder.afterReads n (Decoder.readInfo Ref.lzw .new r).1).readNextFrame.2 = .ok none →
    (Decoder.afterReads (n + 1) (Decoder.readInfo Ref.lzw .new r).1).rd.reader.bytes = [] := fun h =>
  absurd (h hidden _ (by decide +kernel) (by decide +kernel) (readerOf_reliable _) (readerOf_bytes _) 1 (by decide +kernel))
    (by decide +kernel)

/-- A control extension after a comment without data. -/
def swallowed : File :=
  withBlocks [.ext 0xFE [], .control ⟨0, 10, 0⟩, .ext 0xFE [List.replicate 23 7 ++ [0, 0x21, 0xFE, 1, 65]], .image dot]

set_option maxRecDepth 100000 in
/-- C43 fails for files with an extension without data: what a control extension says may get lost. -/
theorem metadata_local_fails : ¬ ∀ (g : File) (r : Reader), g.Legal → r.Reliable → r.bytes = g.render →
    ∀ mid i post, g.blocks = mid ++ .image i :: post → Spec.images mid = [] →
    ∀ f, (Decoder.readInfo Ref.lzw .new r).1.readNextFrame.2 = .ok (some f) → f.delay = (Spec.lastGraphic mid).delay := by
  intro h
  have := h swallowed _ (by decide +kernel) (readerOf_reliable _) (readerOf_bytes _) (swallowed.blocks.take 3) dot []
    (by decide +kernel) (by decide +kernel)
    { Frame.default with width := 1, height := 1, buffer := [1], ownedCap := some 1 } (by decide +kernel)
  exact absurd this (by decide +kernel)

set_option maxRecDepth 100000 in
/-- A case of `metadata_local_partial`: the first image of `sample` and what is before it. -/
example : ∃ f v px, (Decoder.sessionFrom Ref.lzw .new sampleReader (List.replicate sample.frames.length .read))[1]? =
      some (.frame (some f) v) ∧ [[(0 : UInt8), 1, 1, 0, 1, 0], [1, 1]][0]? = some px ∧ f.delay = 10 ∧ f.dispose = .background := by
  obtain ⟨f, v, px, h1, h2, h3⟩ := Decoder.metadata_local_partial Ref.lzwContract (o := .new) rfl rfl sample_readable sample_shows
    sampleReader_reliable (junk := [1, 2, 3]) (by decide +kernel) (pre := []) (mid := sample.blocks.take 3)
    (i := { left := 0, top := 0, width := 3, height := 2, interlaced := true, misc := 0, size := 0, table := none, minCode := 2,
            subs := [[68], [98], [80]] }) (post := sample.blocks.drop 4) (by decide +kernel) (.inl rfl) (by decide +kernel)
  exact ⟨f, v, px, h1, h2, by rw [h3]; exact (by decide +kernel : (Spec.lastGraphic (sample.blocks.take 3)).delay = 10),
    by rw [h3]; exact (by decide +kernel : Spec.disposalOf (Spec.lastGraphic (sample.blocks.take 3)).disposal = .background)⟩

set_option maxRecDepth 100000 in
/-- The second one, in raw mode. -/
example : ∃ v f, (Decoder.rawFilm Ref.lzw .new sampleReader sample.frames.length)[2]? = some (.frame (some f) v) ∧
    f.delay = 0 ∧ f.buffer = [2, 76, 10] := by
  obtain ⟨v, h⟩ := Decoder.metadata_local_raw_partial Ref.lzwContract.safe (o := .new) sample_readable (by decide +kernel)
    sampleReader_reliable (junk := [1, 2, 3]) (by decide +kernel) (pre := sample.blocks.take 4) (mid := [])
    (i := { left := 1, top := 0, width := 2, height := 1, interlaced := false, misc := 0, size := 0,
            table := some [1, 2, 3, 4, 5, 6], minCode := 2, subs := [[76, 10]] }) (post := []) (by decide +kernel)
    (.inr ⟨sample.blocks.take 3, _, rfl⟩) (by decide +kernel)
  exact ⟨v, _, h, by decide +kernel, by decide +kernel⟩

/-! ## C15 -/

/-- `sample` on a screen of two columns. -/
def narrow : File := { sample with width := 2 }

/-- Options with `check_frame_consistency`. -/
def strict : DecodeOptions := { DecodeOptions.new with checkFrameConsistency := true }

theorem narrow_readable : narrow.Readable strict := ⟨by decide +kernel, by decide +kernel, by decide +kernel, by decide +kernel⟩

/-- Cases of `frame_consistency`: an image that is rejected, and one after a decoded image that is not. -/
example : (Decoder.readInfo Ref.lzw strict (readerOf narrow)).1.nextFrameInfo.2 = .fmtErr .frameOutOfBounds :=
  (Decoder.frame_consistency Ref.lzwContract rfl rfl narrow_readable (xs := []) rfl (pxs := []) trivial (readerOf_reliable _)
    (junk := []) (by rw [readerOf_bytes, List.append_nil])).mpr ⟨rfl, by decide +kernel⟩

theorem sample_readable_strict : sample.Readable strict := ⟨by decide +kernel, by decide +kernel, by decide +kernel, by decide +kernel⟩

theorem sample_shows_strict : sample.ShowAll Ref.lzwContract strict (sample.frames.take 1) [[0, 1, 1, 0, 1, 0]] := by
  obtain ⟨⟨h1, h2, h3, h4, h5⟩, _⟩ := sample_shows
  exact ⟨⟨by decide +kernel, h2, h3, h4, h5⟩, trivial⟩

example : (Decoder.afterReads 1 (Decoder.readInfo Ref.lzw strict (readerOf sample)).1).nextFrameInfo.2 ≠
    .fmtErr .frameOutOfBounds := fun h =>
  absurd ((Decoder.frame_consistency Ref.lzwContract rfl rfl sample_readable_strict (xs := sample.frames.take 1) rfl
    sample_shows_strict (readerOf_reliable _) (junk := []) (by rw [readerOf_bytes, List.append_nil])).mp h).2
    (by decide +kernel)

/-- A case of `frame_consistency_raw`. -/
example : (Decoder.readInfo Ref.lzw { strict with skipFrameDecoding := true } (readerOf narrow)).1.nextFrameInfo.2 =
    .fmtErr .frameOutOfBounds :=
  (Decoder.frame_consistency_raw Ref.lzwContract.safe (o := { strict with skipFrameDecoding := true }) rfl
    (narrow_readable.congr rfl rfl)
    (xs := []) rfl (by intro x h; cases h) (readerOf_reliable _) (junk := []) (by rw [readerOf_bytes, List.append_nil])).mpr
    ⟨rfl, by decide +kernel⟩

end Gif
