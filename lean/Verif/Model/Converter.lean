import Verif.Model.Options
/-!
# `src/reader/converter.rs`: deinterlacing and palette expansion

The data callback `FillBufferCallback` (`converter.rs:26`) is a function on an arbitrary source state `τ`: given the
length of the slice to fill it returns the new source state and the bytes written to the front of the slice (their
number is the `usize` the Rust callback returns).
-/

namespace Gif

/-- `src/reader/converter.rs:26` `FillBufferCallback` -/
abbrev Callback (τ : Type) := τ → Nat → τ × Outcome (List UInt8)

/-- `src/reader/converter.rs:188-192` `InterlaceIterator` -/
structure InterlaceIter where
  len : Nat
  next : Nat
  pass : Nat
deriving DecidableEq, Repr

namespace InterlaceIter

/-- `src/reader/converter.rs:204`: `[8, 8, 4, 2].get(pass)` -/
def stride (pass : Nat) : Option Nat := [8, 8, 4, 2][pass]?

/-- `src/reader/converter.rs:207`: `[4, 2, 1, 0].get(pass)` -/
def start (pass : Nat) : Option Nat := [4, 2, 1, 0][pass]?

/-- `src/reader/converter.rs:205-209`, the `while` loop: final `next` and `pass`, or `None` through `?`. It cannot run
more than four times, because `start` is `None` for `pass = 4`. The `debug_assert!(self.pass < 4)` in the loop fails exactly if
`start pass` is `none`; that this does not happen is `interlace_assert` in `Props/Pixels.lean`. -/
def skipPasses (len : Nat) : Nat → Nat → Nat → Option (Nat × Nat)
  | 0, _, _ => none
  | fuel + 1, next, pass =>
    if next ≥ len then
      match start pass with
      | none => none
      | some n => skipPasses len fuel n (pass + 1)
    else some (next, pass)

/-- `src/reader/converter.rs:198-212` `next` -/
def nextRow (it : InterlaceIter) : InterlaceIter × Option Nat :=
  if it.len = 0 then (it, none)
  else
    match stride it.pass with
    | none => (it, none)
    | some k =>
      match skipPasses it.len 5 (it.next + k) it.pass with
      | none => (it, none)
      | some (next, pass) => ({ it with next := next, pass := pass }, some it.next)

end InterlaceIter

/-- `src/reader/converter.rs:29-34` `PixelConverter`. The scratch buffer of the RGBA mode is not represented: only its
first `bytes_decoded` bytes are ever read, and those are the bytes the callback just wrote. -/
structure Converter where
  memoryLimit : MemoryLimit
  colorOutput : ColorOutput
  globalPalette : Option (List UInt8)

namespace Converter

/-- `src/reader/converter.rs:37-44` `new` -/
def new (c : ColorOutput) (m : MemoryLimit) : Converter :=
  { memoryLimit := m, colorOutput := c, globalPalette := none }

/-- `src/reader/converter.rs:153-159` `set_global_palette` -/
def setGlobalPalette (c : Converter) (p : List UInt8) : Converter :=
  { c with globalPalette := if p.isEmpty then none else some p }

/-- `src/reader/converter.rs:82-88` `line_length` -/
def lineLength (c : Converter) (f : Frame) : Nat :=
  match c.colorOutput with
  | .rgba => f.width.toNat * 4
  | .indexed => f.width.toNat

/-- `src/reader/converter.rs:77-79` `buffer_size` (64-bit: the multiplication cannot overflow) -/
def bufferSize (c : Converter) (f : Frame) : Nat := c.lineLength f * f.height.toNat

/-- `src/reader/converter.rs:46-56` `check_buffer_size`, with its `debug_assert_eq!` -/
def checkBufferSize (c : Converter) (f : Frame) : Outcome Nat :=
  match c.memoryLimit.bufferSize c.colorOutput f.width f.height with
  | none => .ioErr .outOfMemory
  | some n => if n = c.bufferSize f then .ok n else .panic

/-- `src/reader/converter.rs:124-134`: one RGBA pixel; `r g b a` are the old bytes of the buffer. -/
def expandPixel (palette : List UInt8) (transparent : Option UInt8) (idx r g b a : UInt8) : List UInt8 :=
  match (palette.drop (3 * idx.toNat)).take 3 with
  | [c0, c1, c2] =>
    [c0, c1, c2, match transparent with
      | some t => if t = idx then 0x00 else 0xFF
      | none => 0xFF]
  | _ => [r, g, b, a]

/-- `src/reader/converter.rs:123-135`: the loop over `pixels.chunks_exact_mut(4).zip(indices)`. -/
def expandPixels (palette : List UInt8) (transparent : Option UInt8) : List UInt8 → List UInt8 → List UInt8
  | idx :: idxs, r :: g :: b :: a :: rest =>
    expandPixel palette transparent idx r g b a ++ expandPixels palette transparent idxs rest
  | _, old => old

/-- `src/reader/converter.rs:115-118`: the palette in effect for the frame. -/
def effectivePalette (c : Converter) (f : Frame) : List UInt8 :=
  match f.palette with
  | some p => p
  | none => c.globalPalette.getD []

variable {τ : Type}

/-- `src/reader/converter.rs:92-147` `fill_buffer`, its loop. Returns the source state, the new contents of `buf`, and
the result. -/
def fillLoop (c : Converter) (f : Frame) (cb : Callback τ) :
    Nat → τ → List UInt8 → τ × List UInt8 × Outcome Bool
  | 0, t, buf => (t, buf, .diverge)
  | fuel + 1, t, buf =>
    match c.colorOutput with
    | .indexed =>
      match cb t buf.length with
      | (t, .ok bytes) =>
        if bytes.length = 0 then (t, buf, .ok false)
        else if bytes.length > buf.length then (t, buf, .panic)
        else
          let rest := buf.drop bytes.length
          if rest.isEmpty then (t, bytes, .ok true)
          else
            let (t, rest, r) := fillLoop c f cb fuel t rest
            (t, bytes ++ rest, r)
      | (t, .err e) => (t, buf, .err e)
      | (t, .panic) => (t, buf, .panic)
      | (t, .diverge) => (t, buf, .diverge)
    | .rgba =>
      if buf.length / 4 = 0 then (t, buf, .fmtErr .oddSizedBuffer)
      else
        match cb t (buf.length / 4) with
        | (t, .ok bytes) =>
          if bytes.length = 0 then (t, buf, .ok false)
          else if bytes.length * 4 > buf.length then (t, buf, .panic)
          else
            let pixels := expandPixels (c.effectivePalette f) f.transparent bytes (buf.take (bytes.length * 4))
            let rest := buf.drop (bytes.length * 4)
            if rest.isEmpty then (t, pixels, .ok true)
            else
              let (t, rest, r) := fillLoop c f cb fuel t rest
              (t, pixels ++ rest, r)
        | (t, .err e) => (t, buf, .err e)
        | (t, .panic) => (t, buf, .panic)
        | (t, .diverge) => (t, buf, .diverge)

/-- `src/reader/converter.rs:92-147` `fill_buffer` -/
def fillBuffer (c : Converter) (f : Frame) (cb : Callback τ) (t : τ) (buf : List UInt8) :
    τ × List UInt8 × Outcome Bool :=
  fillLoop c f cb (buf.length + 1) t buf

/-- `src/reader/converter.rs:167-176`: the loop over the interlaced rows. -/
def readRows (c : Converter) (f : Frame) (cb : Callback τ) :
    Nat → InterlaceIter → τ → List UInt8 → τ × List UInt8 × Outcome Unit
  | 0, _, t, buf => (t, buf, .diverge)
  | fuel + 1, it, t, buf =>
    match it.nextRow with
    | (_, none) => (t, buf, .ok ())
    | (it, some row) =>
      let width := c.lineLength f
      let start := row * width
      if start ≤ buf.length ∧ width ≤ (buf.drop start).length then
        match c.fillBuffer f cb t ((buf.drop start).take width) with
        | (t, line, .ok true) =>
          readRows c f cb fuel it t (buf.take start ++ line ++ buf.drop (start + width))
        | (t, line, .ok false) =>
          (t, buf.take start ++ line ++ buf.drop (start + width), .fmtErr .imageTruncated)
        | (t, line, .err e) => (t, buf.take start ++ line ++ buf.drop (start + width), .err e)
        | (t, line, .panic) => (t, buf.take start ++ line ++ buf.drop (start + width), .panic)
        | (t, line, .diverge) => (t, buf.take start ++ line ++ buf.drop (start + width), .diverge)
      else (t, buf, .fmtErr .bufferTooSmall)

/-- `src/reader/converter.rs:164-185` `read_into_buffer` -/
def readIntoBuffer (c : Converter) (f : Frame) (cb : Callback τ) (t : τ) (buf : List UInt8) :
    τ × List UInt8 × Outcome Unit :=
  if f.interlaced then
    readRows c f cb (f.height.toNat + 1) { len := f.height.toNat, next := 0, pass := 0 } t buf
  else
    let size := c.bufferSize f
    if size ≤ buf.length then
      match c.fillBuffer f cb t (buf.take size) with
      | (t, pix, .ok true) => (t, pix ++ buf.drop size, .ok ())
      | (t, pix, .ok false) => (t, pix ++ buf.drop size, .fmtErr .imageTruncated)
      | (t, pix, .err e) => (t, pix ++ buf.drop size, .err e)
      | (t, pix, .panic) => (t, pix ++ buf.drop size, .panic)
      | (t, pix, .diverge) => (t, pix ++ buf.drop size, .diverge)
    else (t, buf, .fmtErr .bufferTooSmall)

/-- `src/reader/converter.rs:61-69`: the buffer `read_frame` decodes into; an owned buffer of sufficient capacity is
reused with its old contents (`Vec::resize`). -/
def frameBuffer (f : Frame) (pixelBytes : Nat) : List UInt8 :=
  match f.ownedCap with
  | some cap =>
    if cap ≥ pixelBytes then f.buffer.take pixelBytes ++ List.replicate (pixelBytes - f.buffer.length) 0
    else List.replicate pixelBytes 0
  | none => List.replicate pixelBytes 0

/-- `src/reader/converter.rs:59-74` `read_frame`: source state, frame, result -/
def readFrame (c : Converter) (f : Frame) (cb : Callback τ) (t : τ) : τ × Frame × Outcome Unit :=
  match c.checkBufferSize f with
  | .ok n =>
    let vec := frameBuffer f n
    let f := { f with buffer := [], ownedCap := none }
    match c.readIntoBuffer f cb t vec with
    | (t, vec, .ok ()) =>
      (t, { f with buffer := vec, ownedCap := some vec.length, interlaced := false }, .ok ())
    | (t, _, .err e) => (t, f, .err e)
    | (t, _, .panic) => (t, f, .panic)
    | (t, _, .diverge) => (t, f, .diverge)
  | .err e => (t, f, .err e)
  | .panic => (t, f, .panic)
  | .diverge => (t, f, .diverge)

end Converter

end Gif
