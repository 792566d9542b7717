import Verif.Model.Converter
/-!
# The buffer arithmetic of `src/reader/converter.rs` and `src/reader/mod.rs` for a given width of `usize`

The rest of the model takes `usize` to be unbounded, which is right for 64 bits. Here every `usize` operation is
checked: overflow of `*` is a panic (`overflow-checks`), overflow of `checked_mul` is `None`.
-/

namespace Gif.Converter

variable {τ : Type}

/-- `src/reader/converter.rs:82-88` `line_length` -/
def lineLengthOn (usizeMax : Nat) (c : Converter) (f : Frame) : Outcome Nat :=
  match c.colorOutput with
  | .rgba => if f.width.toNat * 4 ≤ usizeMax then .ok (f.width.toNat * 4) else .panic
  | .indexed => .ok f.width.toNat

/-- `src/reader/converter.rs:77-79` `buffer_size`: `checked_mul` -/
def bufferSizeOn (usizeMax : Nat) (c : Converter) (f : Frame) : Outcome (Option Nat) :=
  match lineLengthOn usizeMax c f with
  | .ok w => .ok (if w * f.height.toNat ≤ usizeMax then some (w * f.height.toNat) else none)
  | .err e => .err e
  | .panic => .panic
  | .diverge => .diverge

/-- `src/reader/mod.rs:406-408` `Decoder::buffer_size`: `unwrap` -/
def decoderBufferSizeOn (usizeMax : Nat) (c : Converter) (f : Frame) : Outcome Nat :=
  match bufferSizeOn usizeMax c f with
  | .ok (some n) => .ok n
  | .ok none => .panic
  | .err e => .err e
  | .panic => .panic
  | .diverge => .diverge

/-- `src/reader/converter.rs:46-56` `check_buffer_size`: `unwrap` inside the `debug_assert_eq!` -/
def checkBufferSizeOn (usizeMax : Nat) (c : Converter) (f : Frame) : Outcome Nat :=
  match c.memoryLimit.bufferSizeOn usizeMax c.colorOutput f.width f.height with
  | none => .ioErr .outOfMemory
  | some n =>
    match decoderBufferSizeOn usizeMax c f with
    | .ok m => if n = m then .ok n else .panic
    | .err e => .err e
    | .panic => .panic
    | .diverge => .diverge

/-- `src/reader/converter.rs:167-176`: the loop over the interlaced rows, with the multiplication of line 169. -/
def readRowsOn (usizeMax : Nat) (c : Converter) (f : Frame) (cb : Callback τ) :
    Nat → InterlaceIter → τ → List UInt8 → τ × List UInt8 × Outcome Unit
  | 0, _, t, buf => (t, buf, .diverge)
  | fuel + 1, it, t, buf =>
    match it.nextRow with
    | (_, none) => (t, buf, .ok ())
    | (it, some row) =>
      let width := c.lineLength f
      if row * width > usizeMax then (t, buf, .panic)
      else
        let start := row * width
        if start ≤ buf.length ∧ width ≤ (buf.drop start).length then
          match c.fillBuffer f cb t ((buf.drop start).take width) with
          | (t, line, .ok true) =>
            readRowsOn usizeMax c f cb fuel it t (buf.take start ++ line ++ buf.drop (start + width))
          | (t, line, .ok false) =>
            (t, buf.take start ++ line ++ buf.drop (start + width), .fmtErr .imageTruncated)
          | (t, line, .err e) => (t, buf.take start ++ line ++ buf.drop (start + width), .err e)
          | (t, line, .panic) => (t, buf.take start ++ line ++ buf.drop (start + width), .panic)
          | (t, line, .diverge) => (t, buf.take start ++ line ++ buf.drop (start + width), .diverge)
        else (t, buf, .fmtErr .bufferTooSmall)

/-- `src/reader/converter.rs:164-185` `read_into_buffer` -/
def readIntoBufferOn (usizeMax : Nat) (c : Converter) (f : Frame) (cb : Callback τ) (t : τ) (buf : List UInt8) :
    τ × List UInt8 × Outcome Unit :=
  match lineLengthOn usizeMax c f with
  | .ok _ =>
    if f.interlaced then
      readRowsOn usizeMax c f cb (f.height.toNat + 1) { len := f.height.toNat, next := 0, pass := 0 } t buf
    else
      match bufferSizeOn usizeMax c f with
      | .ok (some size) =>
        if size ≤ buf.length then
          match c.fillBuffer f cb t (buf.take size) with
          | (t, pix, .ok true) => (t, pix ++ buf.drop size, .ok ())
          | (t, pix, .ok false) => (t, pix ++ buf.drop size, .fmtErr .imageTruncated)
          | (t, pix, .err e) => (t, pix ++ buf.drop size, .err e)
          | (t, pix, .panic) => (t, pix ++ buf.drop size, .panic)
          | (t, pix, .diverge) => (t, pix ++ buf.drop size, .diverge)
        else (t, buf, .fmtErr .bufferTooSmall)
      | .ok none => (t, buf, .fmtErr .bufferTooSmall)
      | .err e => (t, buf, .err e)
      | .panic => (t, buf, .panic)
      | .diverge => (t, buf, .diverge)
  | .err e => (t, buf, .err e)
  | .panic => (t, buf, .panic)
  | .diverge => (t, buf, .diverge)

end Gif.Converter
