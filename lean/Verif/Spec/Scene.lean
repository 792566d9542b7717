import Verif.Spec.Session
/-!
# Specification: the bytes of one frame

A GIF file begins with signature, logical screen descriptor and global colour table. What follows can be cut where the data of
an image end. Both are described without the grammar of the format: the beginning by its length, a piece by what a decoder gives
that reads nothing else.
-/

namespace Gif.Spec

/-- Signature, logical screen descriptor and the global colour table that its packed field announces, and nothing else. -/
def IsHead (head : List UInt8) : Prop :=
  (head.take 6 = [0x47, 0x49, 0x46, 0x38, 0x37, 0x61] ∨ head.take 6 = [0x47, 0x49, 0x46, 0x38, 0x39, 0x61]) ∧
  13 ≤ head.length ∧
  head.length = 13 + if 128 ≤ (head.getD 10 0).toNat then 3 * 2 ^ ((head.getD 10 0).toNat % 8 + 1) else 0

/-- What a session with one frame showed: the accessors at the beginning, and the frame. -/
def soleFrame : List Seen → Option (View × Frame)
  | [.opened v, .frame (some f) _] => some (v, f)
  | _ => none

/-- What is seen of a file when it is opened and one frame is read. -/
def firstFrame (C : Codec) (o : DecodeOptions) (bytes : List UInt8) : Option (View × Frame) :=
  soleFrame (Decoder.sessionFrom C o { buf := bytes, src := [] } [.read])

/-- Behind the head, `piece` is a file with the frame `f`, and it ends where the frame ends: with a byte less there is no frame
to be had. `v` is what the accessors show when the file is opened. -/
structure Scene (C : Codec) (o : DecodeOptions) (head piece : List UInt8) (v : View) (f : Frame) : Prop where
  shows : firstFrame C o (head ++ piece) = some (v, f)
  least : firstFrame C o (head ++ piece.dropLast) = none

/-- What is seen of a file with the given frames: `v` is what the accessors show when it is opened. -/
def roll (v : View) (fs : List Frame) : List Seen := fs.map fun f => .frame (some f) { v with currentFrame := f }

end Gif.Spec
