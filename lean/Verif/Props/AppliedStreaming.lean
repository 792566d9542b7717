import Verif.Props.Streaming
import Verif.Props.Events
import Verif.Props.Extensions
import Verif.Props.Memory
import Verif.Props.Errors
import Verif.Props.Pixels
import Verif.Props.Film
import Verif.Props.Platform
/-!
# The theorems about `StreamingDecoder::update` and about pixels, applied

One application of each theorem to particular objects: all of its hypotheses hold together, in a case that is not trivial.
-/

namespace Gif.Props.Applied

open Spec

set_option maxRecDepth 100000

/-- A streaming decoder that has read the whole small file, and its calls. -/
def wholeRun : List UpdateCall × SD Ref.lzw := feed .none 30 (SD.withOptions Ref.lzw skipOptions) smallFile

theorem whole_history : History skipOptions wholeRun.1 wholeRun.2 := feed_calls _ _ _ _ (by decide +kernel)

/-- A streaming decoder that has read up to the image data. -/
def partRun : List UpdateCall × SD Ref.lzw := feed (.slice 10) 9 (SD.withOptions Ref.lzw DecodeOptions.new) upToData

theorem part_history : History .new partRun.1 partRun.2 := feed_calls _ _ _ _ (by decide +kernel)

/-- The same with a limit of 100 bytes. -/
def tightOptions : DecodeOptions := { skipOptions with memoryLimit := .bytes 100 (by decide) }

def tightRun : List UpdateCall × SD Ref.lzw := feed .none 30 (SD.withOptions Ref.lzw tightOptions) smallFile

theorem tight_history : History tightOptions tightRun.1 tightRun.2 := feed_calls _ _ _ _ (by decide +kernel)

theorem mem_of_all {α : Type} {p : α → Bool} {l : List α} (h : l.all p = true) : ∀ x ∈ l, p x = true := List.all_eq_true.mp h

example := events_follow_protocol Ref.lzw_safe whole_history
example := headerEnd_at_most_once Ref.lzw_safe whole_history
example := headerEnd_before_image Ref.lzw_safe whole_history (before := (wholeRun.1.filterMap UpdateCall.event).take 7)
  (after := (wholeRun.1.filterMap UpdateCall.event).drop 8) (by decide +kernel)
example := trailer_is_last Ref.lzw_safe whole_history (before := (wholeRun.1.filterMap UpdateCall.event).take 11)
  (after := []) (by decide +kernel)
example := update_hangs_after_trailer Ref.lzw_safe whole_history (by
  have h : .blockStart .trailer ∈ wholeRun.1.filterMap UpdateCall.event := by decide +kernel
  obtain ⟨c, hc, h⟩ := List.mem_filterMap.1 h
  exact ⟨c, hc, h⟩) 1 [2, 3] .none
example := update_terminates_partial Ref.lzw_safe part_history (fun c hc he => by
  have h : .blockStart .trailer ∉ partRun.1.filterMap UpdateCall.event := by decide +kernel
  exact h (List.mem_filterMap.2 ⟨c, hc, he⟩)) [2, 0x44] (.slice 3)
example := update_consumed Ref.lzw_safe part_history [2, 0x44, 1] (.slice 3) (n := 2) (ev := .bytesDecoded [2, 0, 0]) (by decide +kernel)

/-- The calls up to the fifth event: the sub-block terminator of the loop extension is next. -/
theorem loop_history : History skipOptions (feed (C := Ref.lzw) .none 5 (SD.withOptions Ref.lzw skipOptions) smallFile).1
    (feed (C := Ref.lzw) .none 5 (SD.withOptions Ref.lzw skipOptions) smallFile).2 := feed_calls _ _ _ _ (by decide +kernel)

theorem pairOf {α β : Type} {x : α × β} {b : β} (h : x.2 = b) : x = (x.1, b) := by rw [← h]

example := block_boundary Ref.lzw_safe loop_history (slice := [0, 0x2C]) (out := .none) (n := 1) (ev := .repetitions (.finite 5))
  (pairOf (by decide +kernel)) rfl
example := last_ext_within_limit Ref.lzw_safe tight_history (n := 100) (hn := by decide) rfl
example := streaming_decoder_holds Ref.lzw_safe tight_history (n := 100) (hn := by decide) rfl
example := SD.update_errors Ref.lzw_safe (Calls.nil _ : History (C := Ref.lzw) .new [] _) [71, 73, 70, 56, 56, 97] .none
  (.format .malformedHeader) (by decide +kernel)
example := update_progress_partial Ref.lzw_safe (Calls.nil _ : History (C := Ref.lzw) .new [] _) part_history
  (fun c hc => by
    have h : partRun.1.all (fun c => match c.result with | .ok (_, ev) => decide (ev ≠ .nothing) | _ => false) = true := by
      decide +kernel
    have := mem_of_all h c hc
    split at this
    · rename_i n ev he; exact ⟨n, ev, he, of_decide_eq_true this⟩
    · cases this)
  (fun _ _ => .inr rfl)

/-- Before the first extension. -/
example := label_zero Ref.lzw_safe part_history (fun c hc => by
  have h : partRun.1.all (fun c => match c.event with | some ev => decide (ev ≠ .blockStart .extension) | none => false) = true := by
    decide +kernel
  have := mem_of_all h c hc
  split at this
  · rename_i ev he; exact ⟨ev, he, of_decide_eq_true this⟩
  · cases this)

/-! ## Slices of different sizes -/

/-- The animation without its trailer, byte by byte and seven bytes at a time. -/
def bySteps (k : Nat) : List UpdateCall × SD Ref.lzw × List UInt8 :=
  dribble k 200 (SD.withOptions Ref.lzw Decoder.rawOptions) (Decoder.animation.bytes.take 69)

theorem bySteps_reading (k : Nat) : Reading (SD.withOptions Ref.lzw Decoder.rawOptions) (Decoder.animation.bytes.take 69) (bySteps k).1
    (bySteps k).2.1 (bySteps k).2.2 := dribble_reading _ _ _ _

example := events_slices Ref.lzw_safe _ (bySteps_reading 0) (bySteps_reading 6)
example := events_slices_final Ref.lzw_safe _ (bySteps_reading 0) (bySteps_reading 6)
  (e1 := none) (e2 := none) (by have : (bySteps 0).2.2 = [] := by decide +kernel
                                rw [this]; exact .all)
  (by have : (bySteps 6).2.2 = [] := by decide +kernel
      rw [this]; exact .all)

/-- Two readers that have just been told of the second frame. -/
def upTo (k fuel : Nat) : List UpdateCall × SD Ref.lzw × List UInt8 :=
  dribble k fuel (SD.withOptions Ref.lzw Decoder.rawOptions) Decoder.animation.bytes

theorem upTo_reading (k fuel : Nat) : Reading (SD.withOptions Ref.lzw Decoder.rawOptions) Decoder.animation.bytes (upTo k fuel).1
    (upTo k fuel).2.1 (upTo k fuel).2.2 := dribble_reading _ _ _ _

theorem last_telling {cs : List UpdateCall} (h : (cs.getLast?.bind UpdateCall.event).map Decoded.telling = some true) :
    ∀ c ∈ cs.getLast?, ∃ ev, c.event = some ev ∧ ev.telling = true := by
  intro c hc
  rw [hc, Option.bind_some, Option.map_eq_some_iff] at h
  exact h

example := state_slices Ref.lzw_safe _ (upTo_reading 0 69) (upTo_reading 6 17) (last_telling (by decide +kernel))
  (last_telling (by decide +kernel)) (by decide +kernel)

/-! ## Pixels -/

example := C17_deinterlace_indexed (Converter.new .indexed .unlimited) (exFrame true) (listSource 2) _ (listSource_serves 2 (by decide))
  [0, 1, 1, 0, 2, 1, 9] _ [7, 7, 7, 7, 7, 7, 7] rfl rfl rfl (by decide) (by decide) (by decide)
example := C17_deinterlace_rgba (Converter.new .rgba .unlimited) (exFrame true) (listSource 2) _ (listSource_serves 2 (by decide))
  [0, 1, 1, 0, 2, 1, 9] _ (List.replicate 25 7) rfl rfl rfl (by decide) (by decide) (by decide)
example := C17_plain_indexed (Converter.new .indexed .unlimited) (exFrame false) (listSource 2) _ (listSource_serves 2 (by decide))
  [0, 1, 1, 0, 2, 1, 9] _ [7, 7, 7, 7, 7, 7, 7] rfl rfl rfl (by decide) (by decide) (by decide) (by decide)
example := C18_rgba_is_lookup (Converter.new .rgba .unlimited) (exFrame false) (listSource 2) _ (listSource_serves 2 (by decide))
  [0, 1, 1, 0, 2, 1, 9] _ (List.replicate 24 7) rfl rfl rfl (by decide) (by decide) (by decide) (by decide)
example := picture_rgba (some [1, 2, 3]) (exFrame true) [0, 1, 1, 0, 2, 1] 4 (by decide)
example := picture_rows (some [1, 2, 3]) (exFrame true) [0, 1, 1, 0, 2, 1] rfl (by decide) 2 (by decide)
example := interlace_assert (len := 3) (next := 0) (pass := 0) (k := 8) (by decide) rfl
example := C50_check_buffer_size (2 ^ 32 - 1) (Nat.le_refl _) (Converter.new .rgba .unlimited) { exFrame true with width := 65535, height := 65535 }
example := C50_read_into_buffer_no_overflow (2 ^ 32 - 1) (Nat.le_refl _) (Converter.new .indexed .unlimited) (exFrame true) (listSource 2)
  [0, 1, 1, 0, 2, 1, 9] [7, 7, 7, 7, 7, 7, 7] (by decide)
example := C50_sizes_32_partial (Converter.new .rgba .unlimited) (exFrame true) (by decide)

end Gif.Props.Applied
