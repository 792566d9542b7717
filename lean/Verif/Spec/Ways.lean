import Verif.Model.Decoder
import Verif.Spec.Interlace
/-!
# Programs that take the frames of a file in different ways (C88)

The programs use public calls only: `read_next_frame`, `next_frame_info`, `buffer_size`, `line_length`, `read_into_buffer`,
`fill_buffer` and the public fields of the current frame.
-/

namespace Gif

namespace Decoder

variable {C : Codec}

/-- How a program takes a frame. -/
inductive Way where
  /-- `read_next_frame` -/
  | read
  /-- `next_frame_info`, then `read_into_buffer` on a new buffer of `buffer_size()` zeros -/
  | into
  /-- `next_frame_info`, then `fill_buffer`: at once, or, if the frame is interlaced, line by line -/
  | lines
deriving DecidableEq, Repr

/-- The program puts a line into its picture. -/
def pasteRow (w : Nat) (pic : List UInt8) (row : Nat) (line : List UInt8) : List UInt8 :=
  pic.take (row * w) ++ line ++ pic.drop (row * w + w)

/-- The program fills one new line after the other and puts it into its picture, until a line is not full. -/
def fillRows (w : Nat) : List Nat → Decoder C → List UInt8 → Decoder C × List UInt8 × Outcome Bool
  | [], d, pic => (d, pic, .ok true)
  | row :: rows, d, pic =>
    match d.fillBuffer (List.replicate w 0) with
    | (d, line, .ok true) => fillRows w rows d (pasteRow w pic row line)
    | (d, line, r) => (d, pasteRow w pic row line, r)

/-- The pixels of the frame that `next_frame_info` found. A program that uses `fill_buffer` calls a frame truncated if a buffer
is not full. -/
def draw (d : Decoder C) : Way → Decoder C × List UInt8 × Outcome Unit
  | .lines =>
    match (if d.currentFrame.interlaced then
        fillRows d.lineLength (Spec.interlaceOrder d.currentFrame.height.toNat) d (List.replicate d.bufferSize 0)
      else d.fillBuffer (List.replicate d.bufferSize 0)) with
    | (d, pic, .ok true) => (d, pic, .ok ())
    | (d, pic, .ok false) => (d, pic, .fmtErr .imageTruncated)
    | (d, pic, .err e) => (d, pic, .err e)
    | (d, pic, .panic) => (d, pic, .panic)
    | (d, pic, .diverge) => (d, pic, .diverge)
  | _ => d.readIntoBuffer (List.replicate d.bufferSize 0)

/-- One frame, in the given way. Before it makes a buffer the program compares `buffer_size()` with the memory limit it has
set. -/
def takeBy (limit : MemoryLimit) (d : Decoder C) : Way → Decoder C × Outcome (Option Frame)
  | .read => d.readNextFrame
  | way =>
    match d.nextFrameInfo with
    | (d, .ok true) =>
      if (match limit with
        | .unlimited => true
        | .bytes n _ => decide (d.bufferSize ≤ n)) then
        match d.draw way with
        | (d, pic, .ok ()) =>
          (d, .ok (some { d.currentFrame with buffer := pic, ownedCap := some pic.length, interlaced := false }))
        | (d, _, .err e) => (d, .err e)
        | (d, _, .panic) => (d, .panic)
        | (d, _, .diverge) => (d, .diverge)
      else (d, .ioErr .outOfMemory)
    | (d, .ok false) => (d, .ok none)
    | (d, .err e) => (d, .err e)
    | (d, .panic) => (d, .panic)
    | (d, .diverge) => (d, .diverge)

/-- One frame after the other, each in its own way; the program goes on after errors. -/
def takeAll (limit : MemoryLimit) : List Way → Decoder C → Decoder C × List (Outcome (Option Frame))
  | [], d => (d, [])
  | way :: ways, d =>
    match d.takeBy limit way with
    | (d, x) =>
      match takeAll limit ways d with
      | (d, xs) => (d, x :: xs)

end Decoder

end Gif
