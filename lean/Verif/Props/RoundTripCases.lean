import Verif.Props.RoundTripApi
import Verif.Props.Pipeline
import Verif.Props.Rewrite
import Verif.Props.GrammarCases
/-!
Cases of the theorems about files of the encoder, and files that do not come back as they were written.
-/

namespace Gif

open Spec

deriving instance DecidableEq for EncOp

instance : (op : EncOp) → Decidable op.Sane
  | .frame f => inferInstanceAs (Decidable ((f.width > 0 ∧ f.height > 0) ∨ f.buffer = []))
  | .setRepeat _ => isTrue trivial
  | .extension _ => isTrue trivial
  | .rawExtension _ _ => isTrue trivial
  | .preEncoded _ => isTrue trivial

instance (o : DecodeOptions) : (op : EncOp) → Decidable (Plain o op)
  | .frame _ => inferInstanceAs (Decidable (_ = _))
  | .setRepeat _ => inferInstanceAs (Decidable (_ = _))
  | .extension (.repetitions _) => inferInstanceAs (Decidable (_ = _))
  | .extension (.control _ _ _) => inferInstanceAs (Decidable (_ = _))
  | .rawExtension _ _ => inferInstanceAs (Decidable (_ ∧ _ ∧ _))
  | .preEncoded _ => inferInstanceAs (Decidable (_ = _))

/-- A reader of the given bytes, in one piece. -/
def readerOn (bytes : List UInt8) : Reader := { buf := [], src := [.data bytes] }

theorem readerOn_reliable {bytes : List UInt8} (h : bytes ≠ []) : (readerOn bytes).Reliable := by
  intro ev hev
  simp only [readerOn, List.mem_cons, List.not_mem_nil, or_false] at hev
  exact ⟨_, hev, h⟩

def demoPalette : List UInt8 := [0, 0, 0, 255, 255, 255, 1, 2, 3]

def demoFrame : Frame := { Frame.default with width := 2, height := 2, buffer := [0, 1, 2, 0, 7], delay := 5, transparent := some 1 }

def demoFrame2 : Frame := { demoFrame with palette := some [9, 9, 9], top := 1, dispose := .previous, needsUserInput := true }

/-- A loop count, a frame, a frame with too few pixels, a comment, a frame with colours of its own. -/
def demoOps : List EncOp :=
  [.setRepeat .infinite, .frame demoFrame, .frame { demoFrame with buffer := [1] }, .rawExtension 0xFE [[1, 2]], .frame demoFrame2]

def demoFile : List UInt8 :=
  [71, 73, 70, 56, 57, 97, 4, 0, 4, 0, 145, 0, 0, 0, 0, 0, 255, 255, 255, 1, 2, 3, 0, 0, 0, 33, 255, 11, 78, 69,
   84, 83, 67, 65, 80, 69, 50, 46, 48, 3, 1, 0, 0, 0, 33, 249, 4, 5, 5, 0, 1, 0, 44, 0, 0, 0, 0, 2, 0, 2, 0, 0, 3, 4, 8,
   33, 112, 9, 0, 33, 254, 2, 1, 2, 0, 33, 249, 4, 15, 5, 0, 1, 0, 44, 0, 0, 1, 0, 2, 0, 2, 0, 128, 9, 9, 9, 0, 0, 0, 3,
   4, 8, 33, 112, 9, 0, 59]

def demoResults : List (EOut Unit) := [.ok (), .ok (), .err (.io .invalidInput), .ok (), .ok ()]

set_option maxRecDepth 100000 in
theorem demo_encode : encodeFile Ref.lzw true 4 4 demoPalette demoOps = (some demoFile, demoResults) := by decide +kernel

theorem demo_written : written demoOps demoResults = [.frame demoFrame, .frame demoFrame2] := by decide +kernel

theorem demo_plain : ∀ op ∈ demoOps, Plain .new op := by decide +kernel

theorem demo_sane : ∀ op ∈ demoOps, op.Sane := by decide +kernel

set_option maxRecDepth 100000 in
theorem demo_admissible : ∀ op ∈ written demoOps demoResults, Admissible Ref.lzw .new 4 4 op := by
  rw [demo_written]
  intro op hop
  simp only [List.mem_cons, List.not_mem_nil, or_false] at hop
  rcases hop with rfl | rfl
  · exact ⟨by decide +kernel, fun g h => by cases h⟩
  · exact ⟨by decide +kernel, fun g h => by cases h⟩

set_option maxRecDepth 100000 in
theorem demo_held : ∀ op ∈ written demoOps demoResults, Held Ref.lzw .new op := by
  rw [demo_written]
  unfold Held
  decide +kernel

set_option maxRecDepth 100000 in
theorem demo_changed : (encodeFile Ref.lzw true 4 4 demoPalette []).1 ≠ some demoFile := by decide +kernel

theorem demo_contents : Contents Ref.lzwContract .new (written demoOps demoResults) [demoFrame.buffer, demoFrame2.buffer] := by
  rw [demo_written]
  exact ⟨⟨by decide, ⟨4, by decide +kernel⟩, rfl⟩, ⟨by decide, ⟨4, by decide +kernel⟩, rfl⟩, trivial⟩

/-- A case of `roundtrip_pixels`: the rejected frame leaves no trace (C27). -/
example : Decoder.sessionFrom Ref.lzw .new (readerOn demoFile) (List.replicate 3 .read) =
    projection 4 4 demoPalette .infinite [trimmed demoFrame, trimmed demoFrame2] 1 := by
  have := roundtrip_pixels Ref.lzwContract (o := .new) rfl rfl true (by decide +kernel) demo_sane demo_plain demo_encode demo_admissible
    demo_changed demo_contents (r := readerOn demoFile) (readerOn_reliable (by decide)) (junk := []) (by decide +kernel) 1
  rw [demo_written] at this
  exact this

/-- A case of `roundtrip_raw`. -/
example : ∃ fs, Decoder.rawFilm Ref.lzw .new (readerOn demoFile) 3 = projection 4 4 demoPalette .infinite fs 1 ∧
    fs.map (·.buffer) = [[3, 8, 33, 112, 9], [3, 8, 33, 112, 9]] := by
  have := roundtrip_raw Ref.lzwContract (o := .new) true (by decide +kernel) demo_sane demo_plain demo_encode demo_admissible demo_held
    demo_changed (r := readerOn demoFile) (readerOn_reliable (by decide)) (junk := []) (by decide +kernel) 1
  rw [demo_written] at this
  exact ⟨_, this, by decide +kernel⟩

set_option maxRecDepth 100000 in
/-- A case of `encode_decode_partial`. -/
example : ∃ file, encodeFile Ref.lzw true 4 4 demoPalette [.frame demoFrame, .frame demoFrame2] = (some file, [.ok (), .ok ()]) ∧
    ∀ (junk : List UInt8) (r : Reader) (k : Nat), r.Reliable → r.bytes = file ++ junk →
      Decoder.sessionFrom Ref.lzw .new r (List.replicate (2 + k) .read) =
        projection 4 4 demoPalette (.finite 0) [trimmed demoFrame, trimmed demoFrame2] k :=
  encode_decode_partial Ref.lzwContract (o := .new) rfl rfl rfl true (by decide +kernel) (fs := [demoFrame, demoFrame2]) (by simp)
    (by
      intro f hf
      simp only [List.mem_cons, List.not_mem_nil, or_false] at hf
      rcases hf with rfl | rfl
      · exact ⟨by decide, by decide, (by decide : 3 ≤ demoPalette.length)⟩
      · exact ⟨by decide, by decide, (by decide : ([9, 9, 9] : List UInt8).length / 3 ≤ 256)⟩)
    (by decide +kernel) (by decide +kernel) (by
      intro f hf
      simp only [List.mem_cons, List.not_mem_nil, or_false] at hf
      rcases hf with rfl | rfl
      · exact ⟨by decide +kernel, 4, by decide +kernel⟩
      · exact ⟨by decide +kernel, 4, by decide +kernel⟩)

set_option maxRecDepth 100000 in
/-- C05 does not hold for interlaced frames: the encoder does not reorder the rows, the decoder does. -/
theorem encode_decode_fails : ∃ (f : Frame) (file : List UInt8) (f' : Frame) (v v' : View),
    Drawable demoPalette f ∧ Allowed Ref.lzw .new 4 4 f ∧
    encodeFile Ref.lzw true 4 4 demoPalette [.frame f] = (some file, [.ok ()]) ∧
    Decoder.sessionFrom Ref.lzw .new (readerOn file) [.read] = [.opened v, .frame (some f') v'] ∧
    f.buffer = [0, 1, 2, 3] ∧ f'.buffer = [0, 2, 1, 3] := by
  refine ⟨{ demoFrame with interlaced := true, width := 1, height := 4, buffer := [0, 1, 2, 3] },
    [71, 73, 70, 56, 57, 97, 4, 0, 4, 0, 145, 0, 0, 0, 0, 0, 255, 255, 255, 1, 2, 3, 0, 0, 0, 33, 249, 4, 5, 5, 0, 1,
     0, 44, 0, 0, 0, 0, 1, 0, 4, 0, 64, 2, 3, 68, 52, 5, 0, 59],
    { demoFrame with width := 1, height := 4, buffer := [0, 2, 1, 3], ownedCap := some 4 },
    screen 4 4 demoPalette (.finite 0) Frame.default,
    screen 4 4 demoPalette (.finite 0) { demoFrame with width := 1, height := 4, buffer := [0, 2, 1, 3], ownedCap := some 4 },
    ⟨by decide, by decide, (by decide : 3 ≤ demoPalette.length)⟩, ⟨by decide +kernel, 4, by decide +kernel⟩, by decide +kernel,
    by decide +kernel, rfl, rfl⟩

/-- A case of `repeat_survives_partial`. -/
example : (Decoder.readInfo Ref.lzw .new (readerOn demoFile)).2 = .ok () ∧
    (Decoder.readInfo Ref.lzw .new (readerOn demoFile)).1.view.repetition = .infinite :=
  repeat_survives_partial Ref.lzwContract (o := .new) true (pal := demoPalette) (by decide +kernel) (a := [])
    (b := [.frame demoFrame]) (c := demoOps.drop 2) (rep := .infinite) (w := 4) (h := 4) demo_sane demo_plain (by decide +kernel)
    (by decide +kernel) (.inr (by decide +kernel)) (.inl (by decide)) demo_encode demo_admissible demo_changed
    (readerOn_reliable (by decide)) (junk := []) (by decide +kernel)

set_option maxRecDepth 100000 in
/-- C06 does not hold for `Repeat::Finite(0)` after another loop count: nothing is written, so the other one stays. -/
theorem repeat_survives_fails : ∃ file,
    encodeFile Ref.lzw true 4 4 demoPalette [.setRepeat .infinite, .setRepeat (.finite 0), .frame demoFrame] =
      (some file, [.ok (), .ok (), .ok ()]) ∧
    (Decoder.readInfo Ref.lzw .new (readerOn file)).2 = .ok () ∧
    (Decoder.readInfo Ref.lzw .new (readerOn file)).1.view.repetition = .infinite := by
  refine ⟨[71, 73, 70, 56, 57, 97, 4, 0, 4, 0, 145, 0, 0, 0, 0, 0, 255, 255, 255, 1, 2, 3, 0, 0, 0, 33, 255, 11, 78, 69,
    84, 83, 67, 65, 80, 69, 50, 46, 48, 3, 1, 0, 0, 0, 33, 249, 4, 5, 5, 0, 1, 0, 44, 0, 0, 0, 0, 2, 0, 2, 0, 0, 3, 4, 8,
    33, 112, 9, 0, 59], by decide +kernel, by decide +kernel, by decide +kernel⟩

/-- Cases of `global_palette_survives` and `local_palette_survives`. -/
example : (∃ k, (Decoder.readInfo Ref.lzw .new (readerOn demoFile)).1.view.globalPalette =
      some (demoPalette ++ List.replicate (3 * (2 ^ k - 3)) 0)) ∧
    ∃ f' v, (Decoder.sessionFrom Ref.lzw .new (readerOn demoFile) (List.replicate 2 .read))[2]? = some (.frame (some f') v) ∧
      ∃ k, f'.palette = some ([9, 9, 9] ++ List.replicate (3 * (2 ^ k - 1)) 0) := by
  obtain ⟨_, k, _, _, _, h⟩ := global_palette_survives Ref.lzwContract (o := .new) true (pal := demoPalette) (n := 3)
    (by decide) (by decide) demo_sane demo_plain demo_encode demo_admissible demo_changed (r := readerOn demoFile)
    (readerOn_reliable (by decide)) (junk := []) (by decide +kernel)
  refine ⟨⟨k, h⟩, ?_⟩
  obtain ⟨f', v, h1, k, _, _, _, h2⟩ := local_palette_survives Ref.lzwContract (o := .new) rfl rfl true (pal := demoPalette)
    (by decide +kernel) demo_sane demo_plain demo_encode demo_admissible demo_contents (r := readerOn demoFile)
    (readerOn_reliable (by decide)) (junk := []) (by decide +kernel) (i := 1) (n := 1) (f := demoFrame2) (p := [9, 9, 9])
    (.inl (by decide +kernel)) rfl (by decide) (by decide)
  exact ⟨f', v, h1, k, h2⟩

/-- A case of `palette_rejected`. -/
example : (Encoder.new true { written := [], plan := [] } 1 1 (List.replicate 771 0)).2 = .err (.format .tooManyColors) :=
  (palette_rejected Ref.lzw true { written := [], plan := [] } (by intro p hp; simp at hp) 1 1 (List.replicate 771 0)
    (by rw [List.length_replicate]; decide)).1

/-- A case of `control_fields`. -/
example : ∃ f' v, (Decoder.sessionFrom Ref.lzw .new (readerOn demoFile) (List.replicate 2 .read))[2]? = some (.frame (some f') v) ∧
    f'.delay = 5 ∧ f'.dispose = .previous ∧ f'.transparent = some 1 ∧ f'.needsUserInput = true := by
  obtain ⟨f', v, h1, h2, h3, h4, h5, _⟩ := control_fields Ref.lzwContract (o := .new) rfl rfl true (pal := demoPalette)
    (by decide +kernel) demo_sane demo_plain demo_encode demo_admissible demo_contents (r := readerOn demoFile)
    (readerOn_reliable (by decide)) (junk := []) (by decide +kernel) (i := 1) (f := demoFrame2) (.inl (by decide +kernel))
  exact ⟨f', v, h1, h2, h3, h4, h5⟩

set_option maxRecDepth 100000 in
/-- A case of `control_read`: the reserved disposal method 6. -/
example : ∃ f v, (Decoder.rawFilm Ref.lzw .new (readerOf (withBlocks [.control ⟨0x18, 3, 9⟩, .ext 0xFE [[1]], .image dot]))
      (withBlocks [.control ⟨0x18, 3, 9⟩, .ext 0xFE [[1]], .image dot]).frames.length)[1]? = some (.frame (some f) v) ∧
    f.delay = 3 ∧ f.dispose = .any ∧ f.needsUserInput = false ∧ f.transparent = none :=
  control_read Ref.lzwContract.safe (o := .new) (g := withBlocks [.control ⟨0x18, 3, 9⟩, .ext 0xFE [[1]], .image dot])
    ⟨by decide +kernel, by decide +kernel, by decide +kernel, by decide +kernel⟩ (by decide +kernel) (readerOf_reliable _) (junk := [])
    (by rw [readerOf_bytes]; simp) (pre := []) (exts := [(0xFE, [[1]])]) (i := dot) (post := []) (c := ⟨0x18, 3, 9⟩) rfl (.inl rfl)

def loopFile : List UInt8 :=
  [71, 73, 70, 56, 57, 97, 4, 0, 4, 0, 145, 0, 0, 0, 0, 0, 255, 255, 255, 1, 2, 3, 0, 0, 0, 33, 255, 11, 78, 69,
   84, 83, 67, 65, 80, 69, 50, 46, 48, 3, 1, 3, 0, 0, 59]

set_option maxRecDepth 100000 in
/-- A case of `no_frames_partial`. -/
example : ∃ file, encodeFile Ref.lzw true 4 4 demoPalette [.setRepeat (.finite 3)] = (some file, [.ok ()]) ∧
    Decoder.sessionFrom Ref.lzw .new (readerOn file) [.read] =
      [.opened (screen 4 4 demoPalette (.finite 3) Frame.default), .frame none (screen 4 4 demoPalette (.finite 3) Frame.default)] := by
  refine ⟨loopFile, by decide +kernel, ?_⟩
  exact no_frames_partial Ref.lzwContract (o := .new) rfl rfl true (pal := demoPalette) (by decide +kernel)
    (ops := [.setRepeat (.finite 3)]) (by decide +kernel) (by decide +kernel) (w := 4) (h := 4) (file := loopFile) (rs := [.ok ()]) (by decide +kernel)
    (by decide +kernel) (by decide +kernel) (readerOn_reliable (by decide)) (junk := []) (by decide +kernel) 1

set_option maxRecDepth 100000 in
/-- C47 does not hold for a file without any block: the decoder reports the end of the file as unexpected. -/
theorem no_frames_fails : ∃ file, encodeFile Ref.lzw true 4 4 demoPalette [] = (some file, []) ∧
    (Decoder.readInfo Ref.lzw .new (readerOn file)).2 = .ioErr .unexpectedEof := by
  exact ⟨[71, 73, 70, 56, 57, 97, 4, 0, 4, 0, 145, 0, 0, 0, 0, 0, 255, 255, 255, 1, 2, 3, 0, 0, 0, 59], by decide +kernel, by decide +kernel⟩

/-! ## C48 -/

def emptyFrame : Frame := { Frame.default with width := 3, height := 0, buffer := [] }

def emptyFile : List UInt8 :=
  [71, 73, 70, 56, 57, 97, 4, 0, 4, 0, 145, 0, 0, 0, 0, 0, 255, 255, 255, 1, 2, 3, 0, 0, 0, 33, 249, 4, 4, 0, 0, 0,
   0, 44, 0, 0, 0, 0, 3, 0, 0, 0, 0, 2, 1, 44, 0, 59]

set_option maxRecDepth 100000 in
/-- C48 does not hold: `write_frame` accepts a frame without pixels; the decoder rejects it as truncated, or in RGBA mode because
of its buffer. -/
theorem empty_frame_fails : encodeFile Ref.lzw true 4 4 demoPalette [.frame emptyFrame] = (some emptyFile, [.ok ()]) ∧
    Decoder.sessionFrom Ref.lzw .new (readerOn emptyFile) [.read] =
      [.opened (screen 4 4 demoPalette (.finite 0) Frame.default), .failed (.format .imageTruncated)] ∧
    Decoder.sessionFrom Ref.lzw { DecodeOptions.new with colorOutput := .rgba } (readerOn emptyFile) [.read] =
      [.opened (screen 4 4 demoPalette (.finite 0) Frame.default), .failed (.format .oddSizedBuffer)] := by
  exact ⟨by decide +kernel, by decide +kernel, by decide +kernel⟩

set_option maxRecDepth 100000 in
/-- With `skip_frame_decoding` it comes back (a case of `roundtrip_raw`). -/
example : Decoder.rawFilm Ref.lzw .new (readerOn emptyFile) 2 =
    projection 4 4 demoPalette (.finite 0) [{ emptyFrame with buffer := [2, 44], ownedCap := some 2 }] 1 :=
  roundtrip_raw Ref.lzwContract (o := .new) true (pal := demoPalette) (by decide +kernel) (ops := [.frame emptyFrame]) (by decide +kernel)
    (by decide +kernel) (w := 4) (h := 4) (file := emptyFile) (rs := [.ok ()]) (by decide +kernel) (by
      intro op hop
      have : op ∈ [EncOp.frame emptyFrame] := hop
      rcases List.mem_singleton.mp this with rfl
      exact ⟨by decide +kernel, fun g h => by cases h⟩)
    (by
      intro op hop
      have : op ∈ [EncOp.frame emptyFrame] := hop
      rcases List.mem_singleton.mp this with rfl
      exact (by decide +kernel : DecodeOptions.new.memoryLimit.sizeOk (compressed Ref.lzw (.frame emptyFrame)).buffer.length = true))
    (by decide +kernel) (readerOn_reliable (by decide)) (junk := []) (by decide +kernel) 1

/-! ## C33 -/

def demoQuant : NeuQuant := { indexOf := fun _ _ _ => 0, colorMapRgb := fun _ _ => [] }

/-- Two pixels. -/
def demoPixels : List Rgba := [⟨10, 20, 30, 255⟩, ⟨1, 2, 3, 255⟩]

set_option maxRecDepth 100000 in
/-- A case of `true_colour_pipeline`. -/
example : ∃ f file, Frame.fromRgb demoQuant 1 2 [10, 20, 30, 1, 2, 3] = .ok f ∧
    encodeFile Ref.lzw true 4 4 [] [.frame f] = (some file, [.ok ()]) ∧
    ∀ (r : Reader), r.Reliable → r.bytes = file → ∃ f' v v',
      Decoder.sessionFrom Ref.lzw { DecodeOptions.new with colorOutput := .rgba } r [.read] = [.opened v, .frame (some f') v'] ∧
      f'.buffer = [10, 20, 30, 255, 1, 2, 3, 255] := by
  obtain ⟨f, h1, h2⟩ := true_colour_pipeline Ref.lzwContract (o := { DecodeOptions.new with colorOutput := .rgba }) rfl rfl rfl
    (by decide +kernel) true 4 4 (pal := []) (by decide) demoQuant 1 2 demoPixels demoPixels 1 (by decide) (by decide) (by decide)
    (by decide) (by decide) (by decide)
  have hf : f = { Frame.default with width := 1, height := 2, palette := some [1, 2, 3, 10, 20, 30], buffer := [1, 0], ownedCap := some 2 } := by
    have e : Frame.fromRgbSpeed demoQuant 1 2 (demoPixels.flatMap Rgba.rgb) 1 = .ok { Frame.default with
      width := 1, height := 2, palette := some [1, 2, 3, 10, 20, 30], buffer := [1, 0], ownedCap := some 2 } := by decide +kernel
    rw [e] at h1
    injection h1 with h1
    exact h1.symm
  obtain ⟨file, h3, h4⟩ := h2 (by subst hf; exact ⟨by decide +kernel, 8, by decide +kernel⟩)
  refine ⟨f, file, h1, h3, ?_⟩
  intro r hr hb
  obtain ⟨f', v, v', k1, _, _, _, _, k2⟩ := h4 [] r 0 hr (by simpa using hb)
  exact ⟨f', v, v', k1, k2⟩

/-! ## C24 -/

set_option maxRecDepth 100000 in
/-- A case of `rewrite_partial`. -/
example : ∃ v rest fs, Decoder.rawFilm Ref.lzw .new sampleReader 2 = .opened v :: rest ∧ Spec.rawFrames rest = fs ∧ fs.length = 2 ∧
    ∃ file v', encodeFile Ref.lzw true v.width v.height (v.globalPalette.getD []) (.setRepeat v.repetition :: fs.map .preEncoded) =
        (some file, List.replicate 3 (.ok ())) ∧ v'.repetition = v.repetition ∧
      ∀ (junk' : List UInt8) (r' : Reader) (k : Nat), r'.Reliable → r'.bytes = file ++ junk' →
        Decoder.rawFilm Ref.lzw .new r' (fs.length + k) =
          .opened v' :: fs.map (fun f => .frame (some f) { v' with currentFrame := f }) ++
            List.replicate k (.frame none { v' with currentFrame := fs.getLast?.getD Frame.default }) := by
  obtain ⟨v, rest, fs, h1, h2, h3, file, v', h4, h5, h6, h7, h8, h9⟩ := rewrite_partial Ref.lzwContract (o := .new) (g := sample)
    sample_readable (by decide +kernel) (by decide +kernel) (by decide +kernel) (by decide +kernel) (by decide +kernel) true
    sampleReader_reliable (junk := [1, 2, 3]) (by decide +kernel)
  have hl : fs.length = 2 := h3
  exact ⟨v, rest, fs, h1, h2, hl, file, v', by rw [hl] at h4; exact h4, h7, h9⟩

/-- A case of `rewrite_pixels_partial`. -/
example := rewrite_pixels_partial Ref.lzwContract (o := .new) (g := sample) rfl rfl sample_readable sample_shows (by decide +kernel) (by decide +kernel)
    (by decide +kernel) (by decide +kernel) (by decide +kernel) true sampleReader_reliable (junk := [1, 2, 3]) (by decide +kernel)

/-- A one-pixel image with code size 1. -/
def lowCode : Image := { dot with minCode := 1, subs := [[0x12, 0x01]] }

set_option maxRecDepth 100000 in
/-- C24 does not hold for a code size of 1: the decoder reads the frame, the encoder does not take it. -/
theorem rewrite_fails : (withBlocks [.image lowCode]).Legal ∧ ∃ v f v',
    Decoder.rawFilm Ref.lzw .new (readerOf (withBlocks [.image lowCode])) 1 = [.opened v, .frame (some f) v'] ∧
    (encodeFile Ref.lzw true v.width v.height (v.globalPalette.getD []) [.preEncoded f]).2 =
      [.err (.format .invalidMinCodeSize)] := by
  refine ⟨by decide +kernel, (withBlocks [.image lowCode]).view Frame.default, rawFrame (.default, lowCode),
    (withBlocks [.image lowCode]).view (rawFrame (.default, lowCode)), by decide +kernel, by decide +kernel⟩

end Gif
