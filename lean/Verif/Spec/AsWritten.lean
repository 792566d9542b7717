import Verif.Spec.RoundTrip
/-!
# Specification: what a call leaves of its frame in the file
-/

namespace Gif.Spec

/-- The frame that a call wrote, as far as the file can tell: palettes are padded, compressed data begin with a code size, which is 2
if there is none, and the capacity of the buffer is not written. -/
def asWritten (C : Codec) (op : EncOp) : Frame :=
  let f := compressed C op
  { f with palette := f.palette.map padded, buffer := f.buffer.headD 2 :: f.buffer.tail, ownedCap := none }

/-- A frame with pixels, as far as a file with it can tell. -/
def essence (f : Frame) : Frame := { f with palette := f.palette.map padded, ownedCap := none }

end Gif.Spec
