import Verif.Props.RoundTripCases
import Verif.Props.AccessCases
import Verif.Props.EncoderFile
import Verif.Props.OutOfMemory
import Verif.Props.Size
import Verif.Props.ReencodeFrames
import Verif.Props.Parallel
import Verif.Props.Frames
import Verif.Props.Images
import Verif.Props.Mask
import Verif.Props.NoBlocks
import Verif.Props.Build
/-!
# The theorems about encoders and frames, applied

One application of each theorem to particular objects: all of its hypotheses hold together, in a case that is not trivial.
-/

namespace Gif.Applied

open Spec

theorem working_nil (bs : List UInt8) : Sink.Working ⟨bs, []⟩ := by intro p hp; cases hp

instance : (op : EncOp) → Decidable op.Enough
  | .frame f => inferInstanceAs (Decidable (f.width.toNat * f.height.toNat ≤ f.buffer.length))
  | .setRepeat _ => isTrue trivial
  | .extension _ => isTrue trivial
  | .rawExtension _ _ => isTrue trivial
  | .preEncoded _ => isTrue trivial

/-- An encoder whose scratch buffer is not empty. -/
def exEncoderUsed : Encoder := { exEncoder true [] with buffer := [1, 2, 3] }

/-- Calls with enough pixels. -/
def exOps : List EncOp := [.setRepeat (.finite 3), .frame exFrame, .rawExtension 0xFE [[1, 2]], .preEncoded { exFrame with buffer := [2, 9] }]

/-! ## C20, C21, C25, C26 -/

example := C20_C25_write_frame idCodec (exEncoder true []) ⟨[7], []⟩ exFrame rfl (working_nil _) (by decide) (by decide)
example := C21_op idCodec (exEncoder true []) exEncoderUsed (.frame exFrame) ⟨rfl, rfl, rfl, rfl⟩ (by decide) (by decide) (by decide)
example := C21_pre_encoding idCodec (exEncoder true [none, some (3, 5)]) exFrame (by decide) (by decide) (by decide)
example := C21_session idCodec exOps (exEncoder true []) exEncoderUsed ⟨rfl, rfl, rfl, rfl⟩ (by decide) (by decide) (by decide)
example := C25_pre_encoded (exEncoder true []) ⟨[7], []⟩ { exFrame with buffer := [2, 9, 9] } rfl (working_nil _) (by decide)
example := C25_raw_extension (exEncoder true []) ⟨[7], []⟩ 0xFE [[1, 2], [], [3]] rfl (working_nil _)
example := C26_rejected_partial idCodec (exEncoder true []) ⟨[7], []⟩ { exFrame with height := 2 } false (.io .invalidInput) rfl
  (working_nil _) (by decide) (by decide)
example := C26_rejected_partial idCodec (exEncoder true []) ⟨[7], []⟩ { exFrame with buffer := [12] } true
  (.format .invalidMinCodeSize) rfl (working_nil _) (by decide) (by decide)
example := C26_rejected_partial idCodec (exEncoder false []) ⟨[7], []⟩ { exFrame with palette := none } false
  (.format .missingColorPalette) rfl (working_nil _) (by decide) (by decide)

/-! ## C28, C29, C30, C46 -/

example := C28_call idCodec (exEncoder true [none, none, none, some (3, 5)]) ⟨[7], [none, none, none, some (3, 5)]⟩ (.frame exFrame) rfl
example := C28_into_inner true (exEncoder true [some (0, 9)]) ⟨[7], [some (0, 9)]⟩ 9 rfl (by decide)
example := C28_new_partial ⟨[], [some (3, 5)]⟩ 1 1 [0, 0, 0] (by decide) _ _ rfl
example := C28_session idCodec exOps (exEncoder true [none, none, none, some (3, 5)]) ⟨[7], [none, none, none, some (3, 5)]⟩ rfl
  (by decide)
example := C29_drop true (exEncoder true []) ⟨[7], []⟩ rfl (working_nil _)
example := C29_into_inner true (exEncoder true []) ⟨[7], []⟩ rfl (working_nil _)
example := C30_negation true ⟨[7], []⟩ (working_nil _) 1 1 (List.replicate 771 0) (by rw [List.length_replicate]; decide)
example := C30_new_partial ⟨[7], [some (0, 1)]⟩ 1 1 (List.replicate 771 0) (by rw [List.length_replicate]; decide)
example := C46_encoder idCodec true ⟨[], []⟩ 2 1 exOps (by decide) { exFrame with palette := none } rfl (by decide) (by decide)

/-! ## C31, C32: images -/

/-- Three pixels, two of them transparent. -/
def exPixels : List Rgba := [⟨1, 1, 1, 0⟩, ⟨2, 2, 2, 7⟩, ⟨1, 1, 1, 0⟩]

def exOpaque : List Rgba := [⟨1, 1, 1, 255⟩, ⟨2, 2, 2, 255⟩, ⟨1, 1, 1, 255⟩]

example (nq : NeuQuant) := C31_from_rgb nq 3 1 exOpaque exOpaque 10 rfl (by decide) (by decide) (by decide) (by decide)
example (nq : NeuQuant) := C31_from_rgba nq 3 1 exPixels (exPixels.map Rgba.reduce) 10 rfl (by decide) (by decide) (by decide)
example (nq : NeuQuant) := C32_any nq 3 1 exPixels 10 rfl (by decide)
example (nq : NeuQuant) := C32_exact nq 3 1 exPixels (exPixels.map Rgba.reduce) 10 rfl (by decide) (by decide) (by decide)
example (nq : NeuQuant) := C32_mask_partial nq 3 1 exPixels (exPixels.map Rgba.reduce) 10 rfl (by decide) (by decide) (by decide)
  (by decide)

/-! ## Files of the encoder -/

set_option maxRecDepth 100000 in
/-- The theorems about the file of `demoOps`. -/
example := And.intro
  (control_fields_raw Ref.lzwContract true (o := .new) (i := 1) (f := demoFrame2) (by decide) demo_sane demo_plain demo_encode
    demo_admissible demo_held (junk := [1, 2]) (readerOn_reliable (bytes := demoFile ++ [1, 2]) (by decide)) rfl
    (.inl (by rw [demo_written]; rfl)))
  (roundtrip_open Ref.lzwContract true (o := .new) (by decide) demo_sane demo_plain demo_encode
    demo_admissible demo_changed (junk := [1, 2]) (readerOn_reliable (bytes := demoFile ++ [1, 2]) (by decide)) rfl)

example := encoder_writes_gif (C := Ref.lzw) true 4 4 demoPalette demoOps _ _ demo_encode
  (by intro r hr; simp only [demoResults, List.mem_cons, List.not_mem_nil, or_false] at hr
      rcases hr with rfl | rfl | rfl | rfl | rfl
      · exact .inl rfl
      · exact .inl rfl
      · exact .inr (.inl rfl)
      · exact .inl rfl
      · exact .inl rfl)
  (by intro op hop; simp only [demoOps, List.mem_cons, List.not_mem_nil, or_false] at hop
      rcases hop with rfl | rfl | rfl | rfl | rfl
      · trivial
      · trivial
      · trivial
      · exact .inr (.inl rfl)
      · trivial)
example := frames_accepted (C := Ref.lzw) true 4 4 demoPalette demoOps _ _ demo_encode (by decide)
example := file_pieces (C := Ref.lzw) true demoOps demo_sane
example := file_size (C := Ref.lzw) true 4 4 (pal := demoPalette) (by decide) demo_sane
example := no_calls_exact Ref.lzw_safe .new true (w := 4) (h := 4) (pal := demoPalette) (by decide)

/-! ## Panics, memory, releases -/

example := drop_panics false (exEncoder true [some (0, 1000)]) (by decide)
example := encoder_panics_partial idCodec (exEncoder true []) (.frame { exFrame with height := 0 }) (by decide)
example := oom_only_frames true idCodec (exEncoder true []) (.preEncoded { exFrame with buffer := [2, 9] }) (by intro f hf; cases hf)
  (by decide)
example := oom_only_frames true idCodec (exEncoder true []) (.frame { exFrame with height := 2 })
  (by intro f hf; injection hf with hf; subst hf; exact .inl (by decide)) (by decide)
example := out_of_memory true idCodec (exEncoder true []) ⟨[7], []⟩ rfl (working_nil _) exFrame (by decide) (fun _ => by decide)
  (fun p hp => by injection hp with hp; subst hp; decide) (fun hp => by cases hp)
example := release_accepts (C := idCodec) true 4 4 demoPalette (by decide) (exOps ++ [.frame flatFrame])
example := release_agrees idCodec (exEncoder true []) (.frame exFrame) (by intro f hf; injection hf with hf; subst hf; decide)
example := release_no_panic true idCodec (exEncoder true []) (.frame flatFrame) (by decide)
example := release_session idCodec (exOps ++ [.frame flatFrame]) (exEncoder true []) exEncoderUsed ⟨rfl, rfl, rfl, rfl⟩ (by decide)
example := release_zero_area idCodec (exEncoder true []) flatFrame (by decide) (by decide)

/-! ## Frames of images, palettes -/

theorem plainQuant : NeuQuant.Lawful ⟨fun _ _ _ => 1, fun _ _ => [1, 2, 3, 4, 5, 6]⟩ := by
  intro speed pixels
  exact ⟨show 6 % 3 = 0 by decide, show 6 ≤ 768 by decide, fun _ => show 3 * 1 + 3 ≤ 6 by decide⟩

example := from_rgb_sound _ plainQuant 3 1 (exOpaque.flatMap Rgba.rgb) 10 _ rfl
example := sound_frame_written idCodec (exEncoder true []) ⟨[7], []⟩ rfl (working_nil _) exFrame
  ⟨by decide, [1, 2, 3, 4, 5, 6], rfl, by decide, by decide, by decide, fun t ht => by cases ht⟩
example := padded_shape (t := demoPalette) (n := 3) rfl (by decide)

/-! ## The writer, lent out -/

theorem newOk : Encoder.new true ⟨[7], []⟩ 4 4 demoPalette = ((Encoder.new true ⟨[7], []⟩ 4 4 demoPalette).1, .ok ()) := rfl

example := access_never_panics (C := idCodec) newOk [.look, .call (.frame exFrame)] _ (List.mem_cons_self ..)
example := get_ref_shows (C := idCodec) newOk (exOps.map .call ++ [.look])
example := taking_any_writer (C := idCodec) newOk exOps
example := past_trailer (C := idCodec) true 4 4 (pal := demoPalette) (by decide) (ops := exOps) (by decide)
  (after := [.call (.frame exFrame), .raw [1]]) (by intro op hop; simp only [List.mem_cons, List.not_mem_nil, or_false] at hop
                                                    rcases hop with h | h
                                                    · injection h with h; subst h; decide
                                                    · cases h)

/-! ## Threads -/

/-- Frames 1, 2, 3 arrive as 3, 1, 2. -/
example := Parallel.C51_parallel_order (fun (l : List Nat) x => (l ++ [x], true)) [] [10, 20, 30] [(2, 30), (0, 10), (1, 20)] (by decide)

end Gif.Applied
