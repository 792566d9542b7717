import Verif.Spec.RoundTrip
import Verif.Spec.Session
import Verif.Spec.Film
/-!
# Specification: an animation made of frames from several files
-/

namespace Gif.Spec

/-- A frame that a program has read from some file, and what it wants to do with it. -/
structure Clip where
  /-- the frame as palette indices -/
  frame : Frame
  /-- what `global_palette` shows after the frame was read -/
  global : Option (List UInt8)
  /-- the pixels of the frame as an RGBA decoder gives them -/
  image : List UInt8
  /-- the place of the frame in the new animation -/
  left : UInt16
  top : UInt16
  delay : UInt16
  dispose : DisposalMethod
  needsUserInput : Bool

namespace Clip

/-- There is a file, or any other string of bytes, and a sequence of calls, such that one of the calls gives the frame if the output
is indexed, and gives the image if the output is RGBA. -/
def Read (C : Codec) (x : Clip) : Prop :=
  ∃ (o : DecodeOptions) (r : Reader) (cs : List Call) (i : Nat) (v v' : View) (f : Frame), o.skipFrameDecoding = false ∧
    (Decoder.sessionFrom C { o with colorOutput := .indexed } r cs)[i]? = some (.frame (some x.frame) v) ∧ v.globalPalette = x.global ∧
    (Decoder.sessionFrom C { o with colorOutput := .rgba } r cs)[i]? = some (.frame (some f) v') ∧ f.buffer = x.image

/-- The same for a frame that is not decompressed: one of the calls gives the frame with `skip_frame_decoding`, and the image if the
frames are decoded. `Sane`: the data of the frames can be read, and an invalid code does not come after the last pixel. -/
def Skipped {C : Codec} (K : C.Contract) (x : Clip) : Prop :=
  ∃ (o : DecodeOptions) (r : Reader) (n i : Nat) (v v' : View) (f : Frame), r.Reliable ∧ o.colorOutput = .rgba ∧
    o.skipFrameDecoding = false ∧ o.checkForEndCode = false ∧ Sane K o r n ∧
    (Decoder.rawFilm C o r n)[i]? = some (.frame (some x.frame) v) ∧ v.globalPalette = x.global ∧
    (Decoder.sessionFrom C o r (List.replicate n .read))[i]? = some (.frame (some f) v') ∧
    f.buffer = x.image

/-- The frame that the program writes: the same pixels at the new place, with the palette in force as its own. -/
def placed (x : Clip) : Frame where
  delay := x.delay
  dispose := x.dispose
  transparent := x.frame.transparent
  needsUserInput := x.needsUserInput
  top := x.top
  left := x.left
  width := x.frame.width
  height := x.frame.height
  interlaced := x.frame.interlaced
  palette := match x.frame.palette with
    | some p => some p
    | none => x.global
  buffer := x.frame.buffer
  ownedCap := x.frame.ownedCap

/-- The frame as an RGBA decoder has to give it. -/
def coloured (x : Clip) : Frame := { x.placed with buffer := x.image, ownedCap := some x.image.length, interlaced := false }

end Clip

end Gif.Spec
