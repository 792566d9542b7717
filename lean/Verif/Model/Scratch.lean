import Verif.Model.Decoder
/-!
# The converter with its scratch buffer, and callbacks that write to slices

`Model/Converter.lean` leaves out the buffer that RGBA output is decoded to first, and what an LZW decoder has written to a slice
by the time it reports an error. Here are the same functions with both; `Props/Scratch.lean` proves that they do the same.
-/

namespace Gif

variable {τ : Type}

/-- `src/reader/converter.rs:26` `FillBufferCallback`, called with `OutputBuffer::Slice`: gets the old contents of the slice and
gives the new ones, and the number of bytes written. -/
abbrev SliceCallback (τ : Type) := τ → List UInt8 → τ × List UInt8 × Outcome Nat

namespace Converter

/-- `src/reader/converter.rs:104-107`: the scratch buffer is made long enough. -/
def grown (sc : List UInt8) (k : Nat) : List UInt8 := if sc.length < k then sc ++ List.replicate (k - sc.length) 0 else sc

/-- `src/reader/converter.rs:92-147` `fill_buffer`, its loop. Source state, scratch buffer, `buf`, result. -/
def fillLoopS (c : Converter) (f : Frame) (cb : SliceCallback τ) :
    Nat → τ → List UInt8 → List UInt8 → τ × List UInt8 × List UInt8 × Outcome Bool
  | 0, t, sc, buf => (t, sc, buf, .diverge)
  | fuel + 1, t, sc, buf =>
    match c.colorOutput with
    | .indexed =>
      match cb t buf with
      | (t, buf, .ok n) =>
        if n = 0 then (t, sc, buf, .ok false)
        else if n > buf.length then (t, sc, buf, .panic)
        else
          let rest := buf.drop n
          if rest.isEmpty then (t, sc, buf, .ok true)
          else
            let (t, sc, rest, r) := fillLoopS c f cb fuel t sc rest
            (t, sc, buf.take n ++ rest, r)
      | (t, buf, .err e) => (t, sc, buf, .err e)
      | (t, buf, .panic) => (t, sc, buf, .panic)
      | (t, buf, .diverge) => (t, sc, buf, .diverge)
    | .rgba =>
      if buf.length / 4 = 0 then (t, sc, buf, .fmtErr .oddSizedBuffer)
      else
        let sc := grown sc (buf.length / 4)
        match cb t (sc.take (buf.length / 4)) with
        | (t, out, .ok n) =>
          let sc := out ++ sc.drop (buf.length / 4)
          if n = 0 then (t, sc, buf, .ok false)
          else if n * 4 > buf.length then (t, sc, buf, .panic)
          else
            let pixels := expandPixels (c.effectivePalette f) f.transparent (sc.take n) (buf.take (n * 4))
            let rest := buf.drop (n * 4)
            if rest.isEmpty then (t, sc, pixels, .ok true)
            else
              let (t, sc, rest, r) := fillLoopS c f cb fuel t sc rest
              (t, sc, pixels ++ rest, r)
        | (t, out, .err e) => (t, out ++ sc.drop (buf.length / 4), buf, .err e)
        | (t, out, .panic) => (t, out ++ sc.drop (buf.length / 4), buf, .panic)
        | (t, out, .diverge) => (t, out ++ sc.drop (buf.length / 4), buf, .diverge)

/-- `src/reader/converter.rs:92-147` `fill_buffer` -/
def fillBufferS (c : Converter) (f : Frame) (cb : SliceCallback τ) (t : τ) (sc buf : List UInt8) :
    τ × List UInt8 × List UInt8 × Outcome Bool :=
  fillLoopS c f cb (buf.length + 1) t sc buf

/-- `src/reader/converter.rs:167-176`: the loop over the interlaced rows. -/
def readRowsS (c : Converter) (f : Frame) (cb : SliceCallback τ) :
    Nat → InterlaceIter → τ → List UInt8 → List UInt8 → τ × List UInt8 × List UInt8 × Outcome Unit
  | 0, _, t, sc, buf => (t, sc, buf, .diverge)
  | fuel + 1, it, t, sc, buf =>
    match it.nextRow with
    | (_, none) => (t, sc, buf, .ok ())
    | (it, some row) =>
      let width := c.lineLength f
      let start := row * width
      if start ≤ buf.length ∧ width ≤ (buf.drop start).length then
        match c.fillBufferS f cb t sc ((buf.drop start).take width) with
        | (t, sc, line, .ok true) =>
          readRowsS c f cb fuel it t sc (buf.take start ++ line ++ buf.drop (start + width))
        | (t, sc, line, .ok false) =>
          (t, sc, buf.take start ++ line ++ buf.drop (start + width), .fmtErr .imageTruncated)
        | (t, sc, line, .err e) => (t, sc, buf.take start ++ line ++ buf.drop (start + width), .err e)
        | (t, sc, line, .panic) => (t, sc, buf.take start ++ line ++ buf.drop (start + width), .panic)
        | (t, sc, line, .diverge) => (t, sc, buf.take start ++ line ++ buf.drop (start + width), .diverge)
      else (t, sc, buf, .fmtErr .bufferTooSmall)

/-- `src/reader/converter.rs:164-185` `read_into_buffer` -/
def readIntoBufferS (c : Converter) (f : Frame) (cb : SliceCallback τ) (t : τ) (sc buf : List UInt8) :
    τ × List UInt8 × List UInt8 × Outcome Unit :=
  if f.interlaced then
    readRowsS c f cb (f.height.toNat + 1) { len := f.height.toNat, next := 0, pass := 0 } t sc buf
  else
    let size := c.bufferSize f
    if size ≤ buf.length then
      match c.fillBufferS f cb t sc (buf.take size) with
      | (t, sc, pix, .ok true) => (t, sc, pix ++ buf.drop size, .ok ())
      | (t, sc, pix, .ok false) => (t, sc, pix ++ buf.drop size, .fmtErr .imageTruncated)
      | (t, sc, pix, .err e) => (t, sc, pix ++ buf.drop size, .err e)
      | (t, sc, pix, .panic) => (t, sc, pix ++ buf.drop size, .panic)
      | (t, sc, pix, .diverge) => (t, sc, pix ++ buf.drop size, .diverge)
    else (t, sc, buf, .fmtErr .bufferTooSmall)

/-- `src/reader/converter.rs:59-74` `read_frame`: source state, scratch buffer, frame, result -/
def readFrameS (c : Converter) (f : Frame) (cb : SliceCallback τ) (t : τ) (sc : List UInt8) : τ × List UInt8 × Frame × Outcome Unit :=
  match c.checkBufferSize f with
  | .ok n =>
    let vec := frameBuffer f n
    let f := { f with buffer := [], ownedCap := none }
    match c.readIntoBufferS f cb t sc vec with
    | (t, sc, vec, .ok ()) =>
      (t, sc, { f with buffer := vec, ownedCap := some vec.length, interlaced := false }, .ok ())
    | (t, sc, _, .err e) => (t, sc, f, .err e)
    | (t, sc, _, .panic) => (t, sc, f, .panic)
    | (t, sc, _, .diverge) => (t, sc, f, .diverge)
  | .err e => (t, sc, f, .err e)
  | .panic => (t, sc, f, .panic)
  | .diverge => (t, sc, f, .diverge)

end Converter

namespace Decoder

variable {C : Codec}

/-- `src/reader/mod.rs:338-363` `read_next_frame`; `cb` is `decode_next_bytes` on slices. -/
def readNextFrameS (cb : SliceCallback (RD C)) (d : Decoder C) (sc : List UInt8) : Decoder C × List UInt8 × Outcome (Option Frame) :=
  match d.nextFrameInfo with
  | (d, .ok true) =>
    match d.dataType with
    | .pixels =>
      match d.conv.readFrameS d.currentFrame cb d.rd sc with
      | (rd, sc, f, .ok ()) => ({ d with rd := rd, currentFrame := f }, sc, .ok (some f))
      | (rd, sc, f, .err e) => ({ d with rd := rd, currentFrame := f }, sc, .err e)
      | (rd, sc, f, .panic) => ({ d with rd := rd, currentFrame := f }, sc, .panic)
      | (rd, sc, f, .diverge) => ({ d with rd := rd, currentFrame := f }, sc, .diverge)
    | .lzw minCodeSize =>
      let f := match d.currentFrame.ownedCap with
        | some _ => { d.currentFrame with buffer := [], ownedCap := none }
        | none => d.currentFrame
      match copyLzw minCodeSize d.rd with
      | (rd, vec, .ok ()) =>
        let f := { f with buffer := vec, ownedCap := some vec.length }
        ({ d with rd := rd, currentFrame := f }, sc, .ok (some f))
      | (rd, _, .err e) => ({ d with rd := rd, currentFrame := f }, sc, .err e)
      | (rd, _, .panic) => ({ d with rd := rd, currentFrame := f }, sc, .panic)
      | (rd, _, .diverge) => ({ d with rd := rd, currentFrame := f }, sc, .diverge)
  | (d, .ok false) => (d, sc, .ok none)
  | (d, .err e) => (d, sc, .err e)
  | (d, .panic) => (d, sc, .panic)
  | (d, .diverge) => (d, sc, .diverge)

/-- `src/reader/mod.rs:378-380` `read_into_buffer` -/
def readIntoBufferS (cb : SliceCallback (RD C)) (d : Decoder C) (sc buf : List UInt8) : Decoder C × List UInt8 × List UInt8 × Outcome Unit :=
  match d.conv.readIntoBufferS d.currentFrame cb d.rd sc buf with
  | (rd, sc, buf, r) => ({ d with rd := rd }, sc, buf, r)

/-- `src/reader/mod.rs:401-403` `fill_buffer` -/
def fillBufferS (cb : SliceCallback (RD C)) (d : Decoder C) (sc buf : List UInt8) : Decoder C × List UInt8 × List UInt8 × Outcome Bool :=
  match d.conv.fillBufferS d.currentFrame cb d.rd sc buf with
  | (rd, sc, buf, r) => ({ d with rd := rd }, sc, buf, r)

end Decoder

namespace FrameDecoder

variable {C : Codec}

/-- `src/reader/decoder.rs:222-236` `decode_lzw_encoded_frame_into_buffer`; `cb` is the closure on slices. -/
def decodeIntoBufferS (cb : SliceCallback (LzwReader C × List UInt8)) (d : FrameDecoder C) (sc : List UInt8) (f : Frame) (buf : List UInt8) :
    FrameDecoder C × List UInt8 × List UInt8 × Outcome Unit :=
  let (minCodeSize, data) : UInt8 × List UInt8 := match f.buffer with
    | [] => (2, [])
    | m :: data => (m, data)
  match d.lzw.reset minCodeSize with
  | (lzw, .ok ()) =>
    match d.conv.readIntoBufferS f cb (lzw, data) sc buf with
    | ((lzw, _), sc, buf, r) => ({ d with lzw := lzw }, sc, buf, r)
  | (lzw, .err e) => ({ d with lzw := lzw }, sc, buf, .err e)
  | (lzw, .panic) => ({ d with lzw := lzw }, sc, buf, .panic)
  | (lzw, .diverge) => ({ d with lzw := lzw }, sc, buf, .diverge)

/-- `src/reader/decoder.rs:210-217` `decode_lzw_encoded_frame` -/
def decodeFrameS (cb : SliceCallback (LzwReader C × List UInt8)) (d : FrameDecoder C) (sc : List UInt8) (f : Frame) :
    FrameDecoder C × List UInt8 × Frame × Outcome Unit :=
  match d.conv.checkBufferSize f with
  | .ok n =>
    match d.decodeIntoBufferS cb sc f (List.replicate n 0) with
    | (d, sc, vec, .ok ()) => (d, sc, { f with buffer := vec, ownedCap := some vec.length, interlaced := false }, .ok ())
    | (d, sc, _, .err e) => (d, sc, f, .err e)
    | (d, sc, _, .panic) => (d, sc, f, .panic)
    | (d, sc, _, .diverge) => (d, sc, f, .diverge)
  | .err e => (d, sc, f, .err e)
  | .panic => (d, sc, f, .panic)
  | .diverge => (d, sc, f, .diverge)

end FrameDecoder

end Gif
