import Verif.Props.GrammarCases
import Verif.Props.StreamCases
import Verif.Props.CostCases
import Verif.Props.ScratchCases
import Verif.Props.FrameDecoderCases
import Verif.Props.RoundTripCases
import Verif.Props.NoBlocks
import Verif.Props.Tint
import Verif.Props.Strict
import Verif.Props.Setters
import Verif.Props.Safety
import Verif.Props.Errors
import Verif.Props.ErrorCases
import Verif.Props.EndCode
import Verif.Props.Descent
import Verif.Props.Transcode
import Verif.Props.Refuse
import Verif.Props.ZeroArea
import Verif.Props.Given
import Verif.Props.Work
import Verif.Props.ReadAll
import Verif.Props.ExpandWork
import Verif.Props.OwnFiles
/-!
# The theorems about decoders, applied

One application of each theorem to particular objects: all of its hypotheses hold together, in a case that is not trivial.
-/

namespace Gif.Applied

open Spec Decoder

set_option maxRecDepth 100000

theorem sample_reached : Reach sampleOptions Decoder.sampleReader Decoder.sample := .opened (by decide +kernel)

/-! ## Calls on a decoder: `Decoder.sample` reads two frames, with a limit of two bytes, from a reader with an error -/

example := no_panic Ref.lzw_safe sampleOptions Decoder.sampleReader
example := calls_terminate Ref.lzw_safe sampleOptions Decoder.sampleReader
example := bg_color_valid Ref.lzw_safe sample_reached (p := [10, 20, 30, 40, 50, 60]) (by decide +kernel) (c := 1) (by decide +kernel)
example := call_errors Ref.lzw_safe sample_reached
example := frame_has_palette Ref.lzw_safe sample_reached
example := frames_sound Ref.lzw_safe sample_reached
example := frame_without_bytes Ref.lzw_safe sample_reached
example := open_errors Ref.lzw_safe sampleOptions (readerOn [71, 73, 70, 56, 56, 97, 1]) (.format .malformedHeader) (by decide +kernel)
example := open_work_is_linear Ref.lzw_safe sampleOptions Decoder.sampleReader
example := work_is_linear Ref.lzw_safe sampleOptions Decoder.sampleReader (by decide +kernel) [.nextFrameInfo, .readNextFrame, .readNextFrame]
example := only_gifs_open Ref.lzwContract .new animation_reliable (by decide +kernel)
example := open_reading Ref.lzwContract .new animation_reliable
example := read_errors_retried Ref.lzw_safe .new animationShaky animationShaky_clean _ (.opened (by decide +kernel))

example := stays_at_end Ref.lzw_safe (o := .new) (r := readerOn demoFile)
  (d := (readInfo Ref.lzw .new (readerOn demoFile)).1.readNextFrame.1.readNextFrame.1)
  (.op (op := .readNextFrame) (.op (op := .readNextFrame) (.opened demo_opens.1) (by decide +kernel)) (by decide +kernel))
  (by decide +kernel)
example := at_end (C := Ref.lzw) (readInfo Ref.lzw .new (readerOn demoFile)).1.readNextFrame.1.readNextFrame.1.readNextFrame.1
  (by decide +kernel)

/-- A limit of seven bytes. -/
def seven (c : ColorOutput) : DecodeOptions := { DecodeOptions.new with memoryLimit := .bytes 7 (by decide), colorOutput := c }

/-- A frame of two pixels is within the limit. -/
example := Decoder.frame_within_limit Ref.lzw_safe (o := seven .indexed) (r := animation)
  (d := (readInfo Ref.lzw (seven .indexed) animation).1) (.opened (by decide +kernel)) (n := 7) (hn := by decide) rfl
  (f := { Frame.default with width := 2, height := 1, buffer := [1, 1], ownedCap := some 2 }) (by decide +kernel)

/-- With four bytes per pixel it is not. -/
example := large_frame_is_error Ref.lzw_safe (o := seven .rgba) (r := animation)
  (d := (readInfo Ref.lzw (seven .rgba) animation).1) (.opened (by decide +kernel)) (n := 7) (hn := by decide) rfl
  (by decide +kernel) (by decide +kernel) (by decide +kernel)

/-- A frame without rows. -/
example := zero_area_rejected Ref.lzw_safe (o := { DecodeOptions.new with colorOutput := .rgba }) (r := readerOn emptyFile)
  (d := (readInfo Ref.lzw { DecodeOptions.new with colorOutput := .rgba } (readerOn emptyFile)).1) (.opened (by decide +kernel))
  (by decide +kernel) (by decide +kernel) (by decide +kernel) (by decide +kernel)

example := frames_cost_rest Ref.lzw_safe (pair_snd demo_opens.1) [.info, .read, .info] (by decide +kernel)

/-! ## Sessions -/

example := metadata_chunk_invariant Ref.lzw_safe .new animation animationBytewise animation_reliable animationBytewise_reliable
  (by decide +kernel) 3
example := raw_chunk_invariant Ref.lzw_safe rawOptions rfl animation animationBytewise animation_reliable animationBytewise_reliable
  (by decide +kernel) [.read, .info, .read]
example := truncated_prefix_partial Ref.lzw_safe rawOptions animationCut animation animationCut_reliable animation_reliable
  ⟨animation.bytes.drop 66, by decide +kernel⟩ [.read, .read, .read] (.inr rfl)
example := pixels_prefix_partial Ref.lzwContract .new rfl rfl animationCut_reliable animation_reliable
  ⟨animation.bytes.drop 66, by decide +kernel⟩ [.read, .read, .read] animation_free.1 (.inl animation_free.2)
example := check_only_rejects_partial Ref.lzwContract .new rfl rfl animationBytewise_reliable animation_reliable (by decide +kernel)
  [.read, .read, .read] animation_free.1 (.inl animation_free.2)
example := fill_buffer_stream Ref.lzwContract .new rfl rfl animation_reliable [.read, .info] animation_free.1 animation_free.2
example := refusals_only_reject Ref.lzw_safe .new animation [true, true, false] [.read, .read, .read]
example := rgba_session Ref.lzw_safe .new rfl animation [.read, .info, .fill 0, .into]
example := no_blocks_eof Ref.lzw_safe .new (g := { sample with blocks := [] }) (by decide +kernel) rfl (readerOf_reliable _) (readerOf_bytes _)
example := no_blocks_more Ref.lzw_safe .new (g := { sample with blocks := [] }) (by decide +kernel) rfl
  (r := readerOn ({ sample with blocks := [] }.render ++ [7, 8])) (readerOn_reliable (by decide +kernel)) rfl
example := grammar_info Ref.lzwContract (o := .new) rfl rfl sample_readable (xs := sample.frames.take 1) (ys := []) rfl
  (pxs := [[0, 1, 1, 0, 1, 0]]) ⟨sample_shows.1, trivial⟩ sampleReader_reliable (junk := [1, 2, 3]) (by decide +kernel)
example := grammar_info_raw Ref.lzw_safe (o := rawOptions) rfl (sample_readable.congr rfl rfl) (xs := sample.frames.take 1) (ys := []) rfl
  (by decide +kernel) sampleReader_reliable (junk := [1, 2, 3]) (by decide +kernel)

example := strict_options_only_reject Ref.lzw { DecodeOptions.new with checkFrameConsistency := true }
  { DecodeOptions.new with allowUnknownBlocks := true } rfl rfl (fun _ h => h) (by decide) (by decide) (by decide) animation [.read, .read]
example : ∃ xs r1, xs.length = 2 ∧ Decoder.Stream Ref.lzw .new twoFiles xs r1 ∧
    ∀ ys r2, Decoder.Stream Ref.lzw .new twoFiles ys r2 → xs.length = ys.length → xs = ys ∧ r1 = r2 := by
  obtain ⟨r', h, _⟩ := Decoder.stream_frames_partial Ref.lzwContract (o := .new) rfl rfl
    (List.replicate 2 (sample, [[0, 1, 1, 0, 1, 0], [1, 1]]))
    (fun x hx => by rw [List.eq_of_mem_replicate hx]; exact ⟨sample_readable, sample_shows⟩) (junk := [1, 2, 3]) twoFiles_reliable
    (by decide +kernel)
  exact ⟨_, r', rfl, h, fun _ _ h2 hl => stream_unique h h2 hl⟩

set_option maxRecDepth 100000 in
theorem animation_free_two :
    Sane Ref.lzwContract { DecodeOptions.new with memoryLimit := .unlimited } animation 2 ∧
    ∀ f ∈ rawFrames (rawFilm Ref.lzw { DecodeOptions.new with memoryLimit := .unlimited } animation 2), Valid Ref.lzwContract f :=
  Ref.tame_sane (by decide +kernel) (by decide +kernel) (by decide +kernel)

theorem animation_sane_two :
    Sane Ref.lzwContract .new animation 2 ∧ ∀ f ∈ rawFrames (rawFilm Ref.lzw .new animation 2), Valid Ref.lzwContract f :=
  Ref.tame_sane (by decide +kernel) (by decide +kernel) (by decide +kernel)

theorem animationBytewise_sane_two :
    Sane Ref.lzwContract .new animationBytewise 2 ∧
      ∀ f ∈ rawFrames (rawFilm Ref.lzw .new animationBytewise 2), Valid Ref.lzwContract f :=
  Ref.tame_sane (by decide +kernel) (by decide +kernel) (by decide +kernel)

/-- The second frame of the animation, raw. -/
def secondRaw : Frame := frameAt (rawFilm Ref.lzw .new animation 2) 2

def secondView : View :=
  { width := 2, height := 1, globalPalette := some [10, 20, 30, 40, 50, 60], bgColor := some 1, repetition := .finite 0
    currentFrame := secondRaw }

example := read_frame_picture Ref.lzwContract .new rfl rfl animation_reliable [.read] animation_sane_two.1 (.inl animation_sane_two.2)
  (by decide +kernel) secondRaw secondView (by decide +kernel)
example := frame_independent_partial Ref.lzwContract .new rfl rfl animation_reliable animationBytewise_reliable [.read] [.info, .fill 0]
  animation_sane_two.1 animationBytewise_sane_two.1 (.inl animation_sane_two.2) (.inl animationBytewise_sane_two.2)
  (by decide +kernel) (by decide +kernel) secondRaw secondRaw secondView secondView (by decide +kernel) (by decide +kernel) rfl
example := fill_buffer_pieces_partial Ref.lzwContract .new rfl rfl animation_reliable animationBytewise_reliable (by decide +kernel) [.read]
  animation_free_two.1 animation_free_two.2
  { width := 2, height := 1, globalPalette := some [10, 20, 30, 40, 50, 60], bgColor := some 1, repetition := .finite 0
    currentFrame := { Frame.default with width := 2, height := 1, delay := 5, palette := some [1, 2, 3, 4, 5, 6] } }
  [1, 1] (by decide +kernel) (by decide +kernel) rfl [0, 0] (by decide)

/-! ## Iterators, `FrameDecoder` -/

theorem animation_opened : Reach .new animation (readInfo Ref.lzw .new animation).1 := .opened (by decide +kernel)

deriving instance DecidableEq for Except

example := DecoderIter.iterator_agrees_partial Ref.lzw_safe animation_opened 4 (by
  intro f hf
  have h : (DecoderIter.expected 4 (readInfo Ref.lzw .new animation).1).all
      (fun | some (.ok f) => decide (f.width ≠ 0 ∧ f.height ≠ 0) | _ => true) = true := by decide +kernel
  simpa using List.all_eq_true.mp h _ hf)
example := DecoderIter.iterator_exact Ref.lzw_safe animation_opened 4
example := DecoderIter.next_no_panic Ref.lzw_safe (.new animation_opened)
example := DecoderIter.next_terminates Ref.lzw_safe (.new animation_opened)
example := DecoderIter.next_errors Ref.lzw_safe (o := seven .rgba) (r := animation)
  (it := .new (readInfo Ref.lzw (seven .rgba) animation).1) (.new (.opened (by decide +kernel))) (.io .outOfMemory) (by decide +kernel)

example := FrameDecoder.calls_return Ref.lzw_safe (FrameDecoder.new Ref.lzw .new) Examples.firstRaw [5, 5]
example := FrameDecoder.decode_errors Ref.lzw_safe (.new : FrameDecoder.Reach .new (FrameDecoder.new Ref.lzw .new)) Examples.firstRaw
example := FrameDecoder.frame_calls_linear Ref.lzw_safe (FrameDecoder.new Ref.lzw .new) Examples.firstRaw
example := FrameDecoder.into_calls_linear Ref.lzw_safe (FrameDecoder.new Ref.lzw .new) Examples.firstRaw (List.replicate 40 5)
example := FrameDecoder.frame_within_limit Ref.lzw_safe (o := seven .indexed) .new (n := 7) (hn := by decide) rfl secondRaw (by decide +kernel)
example := FrameDecoder.into_calls_faithful (FrameDecoder.new Ref.lzw .new) secondRaw [5, 5] _ (pair_snd (by decide +kernel))
example := Examples.try_decode_returns Ref.lzw_safe .new animation
example := Examples.check_prints Ref.lzw_safe animation

end Gif.Applied
