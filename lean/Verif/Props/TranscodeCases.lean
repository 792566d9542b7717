/-
Cases of C58 and C24 for files that were not written by this library: concrete, non-trivial inputs for which the hypotheses of
`Transcode.lean` hold.
-/
import Verif.Props.Transcode
import Verif.Props.RoundTripCases
import Verif.Props.Chunks

namespace Gif

open Spec Encoder

/-- The view that the decoder of `animation` gives. -/
def animationView : View :=
  { width := 2, height := 1, globalPalette := some [10, 20, 30, 40, 50, 60], bgColor := some 1, repetition := .finite 0,
    currentFrame := Frame.default }

/-- The two frames of `animation`. -/
def animationFrames : List Frame :=
  [{ Frame.default with width := 2, height := 1, buffer := [1, 1], ownedCap := some 2 },
   { Frame.default with width := 2, height := 1, delay := 5, palette := some [1, 2, 3, 4, 5, 6], buffer := [1, 1], ownedCap := some 2 }]

/-- The raw frames of `animation`. -/
def animationRaw : List Frame := animationFrames.map fun f => { f with buffer := [2, 0x4C, 0x0A], ownedCap := some 3 }

/-- What the decoder gives, after the first view, when four frames are asked for. -/
def animationRest (o : DecodeOptions) (r : Reader) : List Seen := (Decoder.sessionFrom Ref.lzw o r (List.replicate 4 .read)).tail

theorem animation_opened : Decoder.sessionFrom Ref.lzw .new Decoder.animation (List.replicate 4 .read) =
    .opened animationView :: animationRest .new Decoder.animation := by decide +kernel

theorem animation_opened_raw : Decoder.sessionFrom Ref.lzw Decoder.rawOptions Decoder.animation (List.replicate 4 .read) =
    .opened animationView :: animationRest Decoder.rawOptions Decoder.animation := by decide +kernel

theorem animation_frames : rawFrames (animationRest .new Decoder.animation) = animationFrames := by decide +kernel

theorem animation_frames_raw : rawFrames (animationRest Decoder.rawOptions Decoder.animation) = animationRaw := by decide +kernel

/-- The frames of `animation`, the second one first and the first one twice, in a new file that loops. -/
example :=
  decode_encode_decode Ref.lzwContract (o := .new) (p := .new) rfl rfl rfl rfl rfl (fun h => h) animation_opened
    (gs := animationFrames.reverse ++ animationFrames.take 1) (by rw [animation_frames]; decide) (by decide) (by decide) true .infinite
    (by decide) (by decide +kernel)

/-- A file that ends within its second frame: the first one can still be written. -/
example :=
  decode_encode_decode Ref.lzwContract (o := .new) (p := .new) rfl rfl rfl rfl rfl (fun h => h)
    (r := Decoder.animationCut) (cs := List.replicate 4 .read) (v := animationView) (rest := animationRest .new Decoder.animationCut)
    (by decide +kernel)
    (gs := animationFrames.take 1) (by decide +kernel) (by decide) (by decide) true (.finite 0) (by decide) (by decide +kernel)

/-- The raw frames of `animation`, in reverse order. -/
example :=
  rewrite_any_partial Ref.lzwContract (o := Decoder.rawOptions) (p := .new) rfl (fun h => h) animation_opened_raw (gs := animationRaw.reverse)
    (by rw [animation_frames_raw]; decide) (by decide) (by decide) (by decide) true (.finite 3) (by decide) (by decide)

/-- What C58 asserts of one frame, for the second frame of `animation`. -/
example : Sound .new 2 1 (some [10, 20, 30, 40, 50, 60]) (animationFrames[1]) :=
  (Decoder.sessionFrom_sound Ref.lzwContract.safe animation_opened).2 _ (by rw [animation_frames]; decide)

end Gif
