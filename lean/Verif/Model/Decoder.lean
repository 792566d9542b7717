import Verif.Model.Streaming
import Verif.Model.Converter
/-!
# `src/reader/mod.rs:197-513`: `ReadDecoder`, `Decoder`, `DecoderIter`
# `src/reader/decoder.rs:183-244`: `FrameDecoder`
-/

namespace Gif

/-- One result of `Read::read` on the user's reader: some bytes (none at all means end of file), or an error. -/
inductive ReadEv where
  | data (bytes : List UInt8)
  | err (code : Nat)
deriving DecidableEq, Repr

/-- `io::BufReader<R>` (`src/reader/mod.rs:198, 268`): the buffered bytes and the results that the following `read` calls
on the inner reader will give. After the last listed result the reader is at end of file. -/
structure Reader where
  buf : List UInt8
  src : List ReadEv
deriving DecidableEq, Repr

namespace Reader

/-- `BufReader::fill_buf` -/
def fillBuf (r : Reader) : Reader × Except Nat (List UInt8) :=
  match r.buf with
  | _ :: _ => (r, .ok r.buf)
  | [] =>
    match r.src with
    | [] => (r, .ok [])
    | .data bs :: src => ({ buf := bs, src := src }, .ok bs)
    | .err e :: src => ({ buf := [], src := src }, .error e)

/-- `BufReader::consume` -/
def consume (r : Reader) (n : Nat) : Reader := { r with buf := r.buf.drop n }

/-- All bytes still to come (used for fuel and in specifications). -/
def bytes (r : Reader) : List UInt8 :=
  r.buf ++ (r.src.map fun
    | .data bs => bs
    | .err _ => []).flatten

end Reader

/-- `src/reader/mod.rs:197-201` `ReadDecoder` -/
structure RD (C : Codec) where
  reader : Reader
  sd : SD C
  atEof : Bool

namespace RD

variable {C : Codec}

/-- `src/reader/mod.rs:205-225` `decode_next`, its loop. -/
def decodeNextLoop (o : OutSpec) : Nat → RD C → RD C × Outcome (Option Decoded)
  | 0, d => (d, .diverge)
  | fuel + 1, d =>
    if d.atEof then (d, .ok none)
    else
      match d.reader.fillBuf with
      | (r, .error e) => ({ d with reader := r }, .ioErr (.reader e))
      | (r, .ok buf) =>
        if buf.isEmpty then ({ d with reader := r }, .ioErr .unexpectedEof)
        else
          match d.sd.update buf o with
          | (sd, .ok (consumed, ev)) =>
            let d := { d with reader := r.consume consumed, sd := sd }
            match ev with
            | .nothing => decodeNextLoop o fuel d
            | .blockStart .trailer => decodeNextLoop o fuel { d with atEof := true }
            | ev => (d, .ok (some ev))
          | (sd, .err e) => ({ d with reader := r, sd := sd }, .err e)
          | (sd, .panic) => ({ d with reader := r, sd := sd }, .panic)
          | (sd, .diverge) => ({ d with reader := r, sd := sd }, .diverge)

/-- `src/reader/mod.rs:205-225` `decode_next`. Every iteration but the last uses up a buffer of the reader. -/
def decodeNext (o : OutSpec) (d : RD C) : RD C × Outcome (Option Decoded) :=
  decodeNextLoop o (d.reader.src.length + 3) d

/-- `src/reader/mod.rs:231-237` `decode_next_bytes`, as data callback. -/
def decodeNextBytes : Callback (RD C) := fun d cap =>
  match d.decodeNext (.slice cap) with
  | (d, .ok (some (.bytesDecoded bytes))) => (d, .ok bytes)
  | (d, .ok (some .dataEnd)) => (d, .ok [])
  | (d, .ok _) => (d, .fmtErr .unexpectedData)
  | (d, .err e) => (d, .err e)
  | (d, .panic) => (d, .panic)
  | (d, .diverge) => (d, .diverge)

/-- Fuel for the loops that call `decode_next` until a certain event: every event consumes a byte or moves the state
machine forward (`calls_terminate` in `Props/Safety.lean`). -/
def eventFuel (d : RD C) : Nat := 4 * d.reader.bytes.length + 8

end RD

/-- `src/reader/mod.rs:242-249` `Decoder` -/
structure Decoder (C : Codec) where
  rd : RD C
  conv : Converter
  bgColor : Option UInt8
  repetition : Repeat
  currentFrame : Frame
  dataType : FrameDataType

namespace Decoder

variable {C : Codec}

/-- `src/reader/mod.rs:265-278` `with_no_init` on the reader, with the streaming decoder of `mod.rs:193`. -/
def withNoInit (C : Codec) (o : DecodeOptions) (r : Reader) : Decoder C where
  rd := { reader := r, sd := SD.withOptions C o, atEof := false }
  conv := Converter.new o.colorOutput o.memoryLimit
  bgColor := none
  repetition := Repeat.default
  currentFrame := Frame.default
  dataType := .pixels

/-- `src/reader/mod.rs:302-307`: an invalid background colour is dropped. -/
def checkBg (d : Decoder C) : Decoder C :=
  match d.conv.globalPalette with
  | some p => if (d.bgColor.getD 0).toNat ≥ p.length / 3 then { d with bgColor := none } else d
  | none => d

/-- `src/reader/mod.rs:281-301`, the loop of `init`. -/
def initLoop : Nat → Decoder C → Decoder C × Outcome Unit
  | 0, d => (d, .diverge)
  | fuel + 1, d =>
    match d.rd.decodeNext .none with
    | (rd, .ok (some (.backgroundColor c))) => initLoop fuel { d with rd := rd, bgColor := some c }
    | (rd, .ok (some (.globalPalette p))) => initLoop fuel { d with rd := rd, conv := d.conv.setGlobalPalette p }
    | (rd, .ok (some (.repetitions r))) => initLoop fuel { d with rd := rd, repetition := r }
    | (rd, .ok (some .headerEnd)) => ({ d with rd := rd }, .ok ())
    | (rd, .ok (some _)) => initLoop fuel { d with rd := rd }
    | (rd, .ok none) => ({ d with rd := rd }, .fmtErr .noImageData)
    | (rd, .err e) => ({ d with rd := rd }, .err e)
    | (rd, .panic) => ({ d with rd := rd }, .panic)
    | (rd, .diverge) => ({ d with rd := rd }, .diverge)

/-- `src/reader/mod.rs:280-309` `init` -/
def init (d : Decoder C) : Decoder C × Outcome Unit :=
  match initLoop d.rd.eventFuel d with
  | (d, .ok ()) => (d.checkBg, .ok ())
  | (d, .err e) => (d, .err e)
  | (d, .panic) => (d, .panic)
  | (d, .diverge) => (d, .diverge)

/-- `src/reader/mod.rs:192-194` `DecodeOptions::read_info` (and `Decoder::new`, `mod.rs:254-256`). On error the decoder
is dropped by the Rust code; the model keeps it to be able to speak about the reader. -/
def readInfo (C : Codec) (o : DecodeOptions) (r : Reader) : Decoder C × Outcome Unit :=
  (withNoInit C o r).init

/-- `src/reader/mod.rs:427-429` `global_palette` -/
def globalPalette (d : Decoder C) : Option (List UInt8) := d.conv.globalPalette

/-- `src/reader/mod.rs:313-328`, the loop of `next_frame_info`; `true` if a frame was found. `current_frame_mut()` panics
if there is no current frame (`decoder.rs:454-456`). -/
def nextFrameLoop : Nat → Decoder C → Decoder C × Outcome Bool
  | 0, d => (d, .diverge)
  | fuel + 1, d =>
    match d.rd.decodeNext .none with
    | (rd, .ok (some (.frameMetadata t))) =>
      match rd.sd.current with
      | none => ({ d with rd := rd }, .panic)
      | some f =>
        let rd := { rd with sd := { rd.sd with current := some f.afterTake } }
        let d := { d with rd := rd, currentFrame := f.take, dataType := t }
        if d.currentFrame.palette.isNone ∧ d.globalPalette.isNone then (d, .fmtErr .noColorTable)
        else (d, .ok true)
    | (rd, .ok (some _)) => nextFrameLoop fuel { d with rd := rd }
    | (rd, .ok none) => ({ d with rd := rd }, .ok false)
    | (rd, .err e) => ({ d with rd := rd }, .err e)
    | (rd, .panic) => ({ d with rd := rd }, .panic)
    | (rd, .diverge) => ({ d with rd := rd }, .diverge)

/-- `src/reader/mod.rs:312-330` `next_frame_info`: `true` stands for `Some(&self.current_frame)`. -/
def nextFrameInfo (d : Decoder C) : Decoder C × Outcome Bool := nextFrameLoop d.rd.eventFuel d

/-- `src/reader/mod.rs:385-391`, the loop of `copy_lzw_into_buffer`. -/
def copyLoop : Nat → RD C → List UInt8 → RD C × List UInt8 × Outcome Unit
  | 0, rd, vec => (rd, vec, .diverge)
  | fuel + 1, rd, vec =>
    match rd.decodeNext (.vec vec.length) with
    | (rd, .ok (some (.lzwDataCopied bytes))) => copyLoop fuel rd (vec ++ bytes)
    | (rd, .ok (some .dataEnd)) => (rd, vec, .ok ())
    | (rd, .ok _) => (rd, vec, .fmtErr .unexpectedData)
    | (rd, .err e) => (rd, vec, .err e)
    | (rd, .panic) => (rd, vec, .panic)
    | (rd, .diverge) => (rd, vec, .diverge)

/-- `src/reader/mod.rs:382-392` `copy_lzw_into_buffer` on an empty vector. -/
def copyLzw (minCodeSize : UInt8) (rd : RD C) : RD C × List UInt8 × Outcome Unit :=
  copyLoop rd.eventFuel rd [minCodeSize]

/-- `src/reader/mod.rs:338-363` `read_next_frame`. The capacity of a copied LZW buffer is taken to be its length (it may
be larger; nothing depends on it). -/
def readNextFrame (d : Decoder C) : Decoder C × Outcome (Option Frame) :=
  match d.nextFrameInfo with
  | (d, .ok true) =>
    match d.dataType with
    | .pixels =>
      match d.conv.readFrame d.currentFrame RD.decodeNextBytes d.rd with
      | (rd, f, .ok ()) => ({ d with rd := rd, currentFrame := f }, .ok (some f))
      | (rd, f, .err e) => ({ d with rd := rd, currentFrame := f }, .err e)
      | (rd, f, .panic) => ({ d with rd := rd, currentFrame := f }, .panic)
      | (rd, f, .diverge) => ({ d with rd := rd, currentFrame := f }, .diverge)
    | .lzw minCodeSize =>
      let f := match d.currentFrame.ownedCap with
        | some _ => { d.currentFrame with buffer := [], ownedCap := none }
        | none => d.currentFrame
      match copyLzw minCodeSize d.rd with
      | (rd, vec, .ok ()) =>
        let f := { f with buffer := vec, ownedCap := some vec.length }
        ({ d with rd := rd, currentFrame := f }, .ok (some f))
      | (rd, _, .err e) => ({ d with rd := rd, currentFrame := f }, .err e)
      | (rd, _, .panic) => ({ d with rd := rd, currentFrame := f }, .panic)
      | (rd, _, .diverge) => ({ d with rd := rd, currentFrame := f }, .diverge)
  | (d, .ok false) => (d, .ok none)
  | (d, .err e) => (d, .err e)
  | (d, .panic) => (d, .panic)
  | (d, .diverge) => (d, .diverge)

/-- `src/reader/mod.rs:378-380` `read_into_buffer`: also the new contents of `buf` -/
def readIntoBuffer (d : Decoder C) (buf : List UInt8) : Decoder C × List UInt8 × Outcome Unit :=
  match d.conv.readIntoBuffer d.currentFrame RD.decodeNextBytes d.rd buf with
  | (rd, buf, r) => ({ d with rd := rd }, buf, r)

/-- `src/reader/mod.rs:401-403` `fill_buffer`: also the new contents of `buf` -/
def fillBuffer (d : Decoder C) (buf : List UInt8) : Decoder C × List UInt8 × Outcome Bool :=
  match d.conv.fillBuffer d.currentFrame RD.decodeNextBytes d.rd buf with
  | (rd, buf, r) => ({ d with rd := rd }, buf, r)

/-- `src/reader/mod.rs:406-408` `buffer_size` -/
def bufferSize (d : Decoder C) : Nat := d.conv.bufferSize d.currentFrame

/-- `src/reader/mod.rs:411-413` `line_length` -/
def lineLength (d : Decoder C) : Nat := d.conv.lineLength d.currentFrame

/-- `src/reader/mod.rs:417-424` `palette` -/
def palette (d : Decoder C) : Outcome (List UInt8) :=
  match d.currentFrame.palette with
  | some p => .ok p
  | none => match d.globalPalette with
    | some p => .ok p
    | none => .fmtErr .noColorTable

/-- `src/reader/mod.rs:433-435` `width` -/
def width (d : Decoder C) : UInt16 := d.rd.sd.width

/-- `src/reader/mod.rs:439-441` `height` -/
def height (d : Decoder C) : UInt16 := d.rd.sd.height

/-- `src/reader/mod.rs:444-446` `into_inner` -/
def intoInner (d : Decoder C) : Reader := d.rd.reader

/-- `src/reader/mod.rs:366-371` `take_current_frame` -/
def takeCurrentFrame (d : Decoder C) : Decoder C × Option Frame :=
  if d.currentFrame.buffer.isEmpty then (d, none)
  else ({ d with currentFrame := d.currentFrame.afterTake }, some d.currentFrame.take)

end Decoder

/-- `src/reader/mod.rs:477-480` `DecoderIter` -/
structure DecoderIter (C : Codec) where
  inner : Decoder C
  ended : Bool

namespace DecoderIter

variable {C : Codec}

/-- `src/reader/mod.rs:468-473` `into_iter` -/
def new (d : Decoder C) : DecoderIter C := { inner := d, ended := false }

/-- `src/reader/mod.rs:496-512` `next`. The item is `None` or `Some(Ok(frame))` or `Some(Err(e))`; the outer `Outcome`
only carries panics and divergence. -/
def next (it : DecoderIter C) : DecoderIter C × Outcome (Option (Except DecodingError Frame)) :=
  if it.ended then (it, .ok none)
  else
    match it.inner.readNextFrame with
    | (d, .ok (some _)) =>
      match d.takeCurrentFrame with
      | (d, some f) => ({ it with inner := d }, .ok (some (.ok f)))
      | (d, none) => ({ it with inner := d }, .ok none)
    | (d, .ok none) => ({ inner := d, ended := true }, .ok none)
    | (d, .err e) => ({ inner := d, ended := true }, .ok (some (.error e)))
    | (d, .panic) => ({ it with inner := d }, .panic)
    | (d, .diverge) => ({ it with inner := d }, .diverge)

end DecoderIter

/-- `src/reader/decoder.rs:184-187` `FrameDecoder` -/
structure FrameDecoder (C : Codec) where
  lzw : LzwReader C
  conv : Converter

namespace FrameDecoder

variable {C : Codec}

/-- `src/reader/decoder.rs:193-198` `new` -/
def new (C : Codec) (o : DecodeOptions) : FrameDecoder C :=
  { lzw := LzwReader.new C o.checkForEndCode, conv := Converter.new o.colorOutput o.memoryLimit }

/-- `src/reader/decoder.rs:202-204` `set_global_palette` -/
def setGlobalPalette (d : FrameDecoder C) (p : List UInt8) : FrameDecoder C :=
  { d with conv := d.conv.setGlobalPalette p }

/-- `src/reader/decoder.rs:227-233`, the loop of the data callback: source state is the LZW reader and the rest of the
compressed data. -/
def pullLoop (cap : Nat) : Nat → LzwReader C × List UInt8 → (LzwReader C × List UInt8) × Outcome (List UInt8)
  | 0, t => (t, .diverge)
  | fuel + 1, (lzw, data) =>
    match lzw.decodeBytes data (.slice cap) with
    | (lzw, .ok (read, bytes)) =>
      let data := data.drop read
      if bytes.length > 0 ∨ read = 0 ∨ data.isEmpty then ((lzw, data), .ok bytes)
      else pullLoop cap fuel (lzw, data)
    | (lzw, .err e) => ((lzw, data), .err e)
    | (lzw, .panic) => ((lzw, data), .panic)
    | (lzw, .diverge) => ((lzw, data), .diverge)

/-- `src/reader/decoder.rs:226-234`, the data callback. -/
def pull : Callback (LzwReader C × List UInt8) := fun t cap => pullLoop cap (t.2.length + 1) t

/-- `src/reader/decoder.rs:222-236` `decode_lzw_encoded_frame_into_buffer` -/
def decodeIntoBuffer (d : FrameDecoder C) (f : Frame) (buf : List UInt8) :
    FrameDecoder C × List UInt8 × Outcome Unit :=
  let (minCodeSize, data) : UInt8 × List UInt8 := match f.buffer with
    | [] => (2, [])
    | m :: data => (m, data)
  match d.lzw.reset minCodeSize with
  | (lzw, .ok ()) =>
    match d.conv.readIntoBuffer f pull (lzw, data) buf with
    | ((lzw, _), buf, r) => ({ d with lzw := lzw }, buf, r)
  | (lzw, .err e) => ({ d with lzw := lzw }, buf, .err e)
  | (lzw, .panic) => ({ d with lzw := lzw }, buf, .panic)
  | (lzw, .diverge) => ({ d with lzw := lzw }, buf, .diverge)

/-- `src/reader/decoder.rs:210-217` `decode_lzw_encoded_frame`: new decoder, new frame, result -/
def decodeFrame (d : FrameDecoder C) (f : Frame) : FrameDecoder C × Frame × Outcome Unit :=
  match d.conv.checkBufferSize f with
  | .ok n =>
    match d.decodeIntoBuffer f (List.replicate n 0) with
    | (d, vec, .ok ()) => (d, { f with buffer := vec, ownedCap := some vec.length, interlaced := false }, .ok ())
    | (d, _, .err e) => (d, f, .err e)
    | (d, _, .panic) => (d, f, .panic)
    | (d, _, .diverge) => (d, f, .diverge)
  | .err e => (d, f, .err e)
  | .panic => (d, f, .panic)
  | .diverge => (d, f, .diverge)

end FrameDecoder

end Gif
