import Verif.Model.Alloc
/-!
# The decoder with an allocator that may refuse

The functions of `Model/Streaming.lean` and `Model/Decoder.lean` once more, with the answers that fallible reservations get. Every
`try_reserve` and `try_reserve_exact` of the decoder is covered: `src/reader/decoder.rs:376`, `563`, `601`, `670` and
`src/reader/mod.rs:353`. A step of the state machine makes at most one reservation; the list of answers has one entry for each step
(and one for `mod.rs:353`), and beyond its end every answer is yes. A refusal is also possible where the vector has room enough
already, where the real allocator is not asked: the model has more behaviours than the code.

Vectors that grow without `try_reserve` (`vec![0; n]` in `src/reader/converter.rs:68`, `push` in `src/reader/mod.rs:384`) abort the
process if memory is exhausted; this is not modelled.
-/

namespace Gif

/-- The answers of the allocator to come. -/
abbrev Answers := List Bool

namespace SD

variable {C : Codec}

/-- `src/reader/decoder.rs:365-387` `OutputBuffer::append`, with the reservation of line 376. -/
def appendOn (room : Bool) (o : OutSpec) (buf : List UInt8) (limit : MemoryLimit) : Outcome (Nat × List UInt8) :=
  match o with
  | .slice cap =>
    let len := min buf.length cap
    .ok (len, buf.take len)
  | .vec len =>
    if limit.sizeOk (len + buf.length) then
      if room then .ok (buf.length, buf) else .ioErr .outOfMemory
    else .fmtErr .memoryLimit
  | .none => .ok (buf.length, [])

/-- `src/reader/decoder.rs:555-573`, rest of the `ScreenDescriptor` arm, with the reservation of line 563. -/
def onScreenDescriptorOn (room : Bool) (s : SD C) (consumed : Nat) (desc : List UInt8) : StepResult C :=
  match desc with
  | [w0, w1, h0, h1, flags, bg, _aspect] =>
    let s := { s with width := u16le w0 w1, height := u16le h0 h1 }
    if flags &&& 0x80 ≠ 0 then
      let n := tableSize flags
      if room then
        goto { s with gctCap := max s.gctCap (s.gct.length + n) } consumed (.globalPalette n) (.backgroundColor bg)
      else (s, .ioErr .outOfMemory)
    else
      goto s consumed (.globalPalette 0) (.backgroundColor bg)
  | _ => (s, .panic)

/-- `src/reader/decoder.rs:578-605`, rest of the `ImageBlockStart` arm, with the reservation of line 601. `get_or_insert_with` has
put an empty palette into the frame before. -/
def onImageBlockStartOn (room : Bool) (s : SD C) (consumed : Nat) (header : List UInt8) : StepResult C :=
  match header with
  | [l0, l1, t0, t1, w0, w1, h0, h1, flags] =>
    match s.current with
    | none => (s, .fmtErr .badState)
    | some frame =>
      let frame := { frame with
        left := u16le l0 l1, top := u16le t0 t1, width := u16le w0 w1, height := u16le h0 h1
        interlaced := decide (flags &&& 0b01000000 ≠ 0) }
      let s := { s with current := some frame }
      if s.checkFrameConsistency ∧
          (checkedSubLt s.width frame.width frame.left ∨ checkedSubLt s.height frame.height frame.top) then
        (s, .fmtErr .frameOutOfBounds)
      else if flags &&& 0b10000000 ≠ 0 then
        let n := tableSize flags
        let pal := frame.palette.getD []
        let cap := if frame.palette.isSome then s.palCap else 0
        let s := { s with current := some { frame with palette := some pal }, palCap := cap }
        if room then goto { s with palCap := max cap (pal.length + n) } consumed (.localPalette n)
        else (s, .ioErr .outOfMemory)
      else
        goto s consumed (.localPalette 0)
  | _ => (s, .panic)

/-- `src/reader/decoder.rs:666-691`, the `ExtensionDataBlock` arm, with the reservation of line 670. -/
def onExtensionDataBlockOn (room : Bool) (s : SD C) (left : Nat) (b : UInt8) (buf : List UInt8) : StepResult C :=
  if left > 0 then
    let n := min left buf.length
    if s.memoryLimit.sizeOk (s.extData.length + n) then
      if room then goto { s with extData := s.extData ++ buf.take n } n (.extensionDataBlock (left - n))
      else (s, .ioErr .outOfMemory)
    else (s, .fmtErr .memoryLimit)
  else onExtensionDataBlock s left b buf

/-- `src/reader/decoder.rs:728-739`, the `CopySubBlock` arm, with its `debug_assert!`. -/
def onCopySubBlockOn (room : Bool) (s : SD C) (left : Nat) (b : UInt8) (buf : List UInt8) (o : OutSpec) : StepResult C :=
  if ¬ s.skipFrameDecoding then (s, .panic)
  else if left > 0 then
    let n := min left buf.length
    match appendOn room o (buf.take n) s.memoryLimit with
    | .ok (consumed, copied) =>
      if consumed > left then (s, .panic)
      else goto s consumed (.copySubBlock (left - consumed)) (.lzwDataCopied copied)
    | .err e => (s, .err e)
    | .panic => (s, .panic)
    | .diverge => (s, .diverge)
  else if b ≠ 0 then goto s 1 (.copySubBlock b.toNat)
  else goto s 0 .frameDecoded

/-- `src/reader/decoder.rs:493-782` `next_state`. The arms without a reservation are those of `nextState`. -/
def nextStateOn (room : Bool) (s : SD C) (buf : List UInt8) (o : OutSpec) : StepResult C :=
  match buf with
  | [] => (s, .ioErr .unexpectedEof)
  | b :: _ =>
    match s.state with
    | .screenDescriptor => ensureMin s buf 7 (onScreenDescriptorOn room)
    | .imageBlockStart => ensureMin s buf 9 (onImageBlockStartOn room)
    | .extensionDataBlock left => onExtensionDataBlockOn room s left b buf
    | .copySubBlock left => onCopySubBlockOn room s left b buf o
    | _ => nextState s buf o

/-- `src/reader/decoder.rs:432-442`, the loop of `update`; `len` is the length of the original slice. -/
def updateLoopOn (len : Nat) (o : OutSpec) : Nat → SD C → Answers → List UInt8 → (SD C × Answers) × Outcome (Nat × Decoded)
  | _, s, as, [] => ((s, as), .ok (len, .nothing))
  | 0, s, as, _ :: _ => ((s, as), .diverge)
  | fuel + 1, s, as, b :: bs =>
    match nextStateOn (as.headD true) s (b :: bs) o with
    | (s', .ok (n, .nothing)) => updateLoopOn len o fuel s' as.tail ((b :: bs).drop n)
    | (s', .ok (n, ev)) => ((s', as.tail), .ok (len - ((b :: bs).drop n).length, ev))
    | (s', .err e) => ((s', as.tail), .err e)
    | (s', .panic) => ((s', as.tail), .panic)
    | (s', .diverge) => ((s', as.tail), .diverge)

/-- `src/reader/decoder.rs:426-443` `update` -/
def updateOn (s : SD C) (as : Answers) (buf : List UInt8) (o : OutSpec) : (SD C × Answers) × Outcome (Nat × Decoded) :=
  updateLoopOn buf.length o (2 * buf.length + 2) s as buf

end SD

namespace RD

variable {C : Codec}

/-- `src/reader/mod.rs:205-225` `decode_next`, its loop. -/
def decodeNextLoopOn (o : OutSpec) : Nat → RD C → Answers → (RD C × Answers) × Outcome (Option Decoded)
  | 0, d, as => ((d, as), .diverge)
  | fuel + 1, d, as =>
    if d.atEof then ((d, as), .ok none)
    else
      match d.reader.fillBuf with
      | (r, .error e) => (({ d with reader := r }, as), .ioErr (.reader e))
      | (r, .ok buf) =>
        if buf.isEmpty then (({ d with reader := r }, as), .ioErr .unexpectedEof)
        else
          match d.sd.updateOn as buf o with
          | ((sd, as), .ok (consumed, ev)) =>
            let d := { d with reader := r.consume consumed, sd := sd }
            match ev with
            | .nothing => decodeNextLoopOn o fuel d as
            | .blockStart .trailer => decodeNextLoopOn o fuel { d with atEof := true } as
            | ev => ((d, as), .ok (some ev))
          | ((sd, as), .err e) => (({ d with reader := r, sd := sd }, as), .err e)
          | ((sd, as), .panic) => (({ d with reader := r, sd := sd }, as), .panic)
          | ((sd, as), .diverge) => (({ d with reader := r, sd := sd }, as), .diverge)

/-- `src/reader/mod.rs:205-225` `decode_next` -/
def decodeNextOn (o : OutSpec) (d : RD C) (as : Answers) : (RD C × Answers) × Outcome (Option Decoded) :=
  decodeNextLoopOn o (d.reader.src.length + 3) d as

/-- `src/reader/mod.rs:231-237` `decode_next_bytes`, as data callback. -/
def decodeNextBytesOn : Callback (RD C × Answers) := fun t cap =>
  match t.1.decodeNextOn (.slice cap) t.2 with
  | (t, .ok (some (.bytesDecoded bytes))) => (t, .ok bytes)
  | (t, .ok (some .dataEnd)) => (t, .ok [])
  | (t, .ok _) => (t, .fmtErr .unexpectedData)
  | (t, .err e) => (t, .err e)
  | (t, .panic) => (t, .panic)
  | (t, .diverge) => (t, .diverge)

end RD

namespace Decoder

variable {C : Codec}

/-- `src/reader/mod.rs:281-301`, the loop of `init`. -/
def initLoopOn : Nat → Decoder C → Answers → (Decoder C × Answers) × Outcome Unit
  | 0, d, as => ((d, as), .diverge)
  | fuel + 1, d, as =>
    match d.rd.decodeNextOn .none as with
    | ((rd, as), .ok (some (.backgroundColor c))) => initLoopOn fuel { d with rd := rd, bgColor := some c } as
    | ((rd, as), .ok (some (.globalPalette p))) => initLoopOn fuel { d with rd := rd, conv := d.conv.setGlobalPalette p } as
    | ((rd, as), .ok (some (.repetitions r))) => initLoopOn fuel { d with rd := rd, repetition := r } as
    | ((rd, as), .ok (some .headerEnd)) => (({ d with rd := rd }, as), .ok ())
    | ((rd, as), .ok (some _)) => initLoopOn fuel { d with rd := rd } as
    | ((rd, as), .ok none) => (({ d with rd := rd }, as), .fmtErr .noImageData)
    | ((rd, as), .err e) => (({ d with rd := rd }, as), .err e)
    | ((rd, as), .panic) => (({ d with rd := rd }, as), .panic)
    | ((rd, as), .diverge) => (({ d with rd := rd }, as), .diverge)

/-- `src/reader/mod.rs:192-194, 280-309`: `read_info`, that is `init` on a new decoder. -/
def readInfoOn (C : Codec) (o : DecodeOptions) (r : Reader) (as : Answers) : (Decoder C × Answers) × Outcome Unit :=
  let d := withNoInit C o r
  match initLoopOn d.rd.eventFuel d as with
  | ((d, as), .ok ()) => ((d.checkBg, as), .ok ())
  | ((d, as), .err e) => ((d, as), .err e)
  | ((d, as), .panic) => ((d, as), .panic)
  | ((d, as), .diverge) => ((d, as), .diverge)

/-- `src/reader/mod.rs:313-328`, the loop of `next_frame_info`. -/
def nextFrameLoopOn : Nat → Decoder C → Answers → (Decoder C × Answers) × Outcome Bool
  | 0, d, as => ((d, as), .diverge)
  | fuel + 1, d, as =>
    match d.rd.decodeNextOn .none as with
    | ((rd, as), .ok (some (.frameMetadata t))) =>
      match rd.sd.current with
      | none => (({ d with rd := rd }, as), .panic)
      | some f =>
        let rd := { rd with sd := { rd.sd with current := some f.afterTake } }
        let d := { d with rd := rd, currentFrame := f.take, dataType := t }
        if d.currentFrame.palette.isNone ∧ d.globalPalette.isNone then ((d, as), .fmtErr .noColorTable)
        else ((d, as), .ok true)
    | ((rd, as), .ok (some _)) => nextFrameLoopOn fuel { d with rd := rd } as
    | ((rd, as), .ok none) => (({ d with rd := rd }, as), .ok false)
    | ((rd, as), .err e) => (({ d with rd := rd }, as), .err e)
    | ((rd, as), .panic) => (({ d with rd := rd }, as), .panic)
    | ((rd, as), .diverge) => (({ d with rd := rd }, as), .diverge)

/-- `src/reader/mod.rs:312-330` `next_frame_info` -/
def nextFrameInfoOn (d : Decoder C) (as : Answers) : (Decoder C × Answers) × Outcome Bool :=
  nextFrameLoopOn d.rd.eventFuel d as

/-- `src/reader/mod.rs:385-391`, the loop of `copy_lzw_into_buffer`. -/
def copyLoopOn : Nat → RD C → Answers → List UInt8 → (RD C × Answers) × List UInt8 × Outcome Unit
  | 0, rd, as, vec => ((rd, as), vec, .diverge)
  | fuel + 1, rd, as, vec =>
    match rd.decodeNextOn (.vec vec.length) as with
    | ((rd, as), .ok (some (.lzwDataCopied bytes))) => copyLoopOn fuel rd as (vec ++ bytes)
    | ((rd, as), .ok (some .dataEnd)) => ((rd, as), vec, .ok ())
    | ((rd, as), .ok _) => ((rd, as), vec, .fmtErr .unexpectedData)
    | ((rd, as), .err e) => ((rd, as), vec, .err e)
    | ((rd, as), .panic) => ((rd, as), vec, .panic)
    | ((rd, as), .diverge) => ((rd, as), vec, .diverge)

/-- `src/reader/mod.rs:338-363` `read_next_frame`, with the reservation of line 353. -/
def readNextFrameRoom (d : Decoder C) (as : Answers) : (Decoder C × Answers) × Outcome (Option Frame) :=
  match d.nextFrameInfoOn as with
  | ((d, as), .ok true) =>
    match d.dataType with
    | .pixels =>
      match d.conv.readFrame d.currentFrame RD.decodeNextBytesOn (d.rd, as) with
      | ((rd, as), f, .ok ()) => (({ d with rd := rd, currentFrame := f }, as), .ok (some f))
      | ((rd, as), f, .err e) => (({ d with rd := rd, currentFrame := f }, as), .err e)
      | ((rd, as), f, .panic) => (({ d with rd := rd, currentFrame := f }, as), .panic)
      | ((rd, as), f, .diverge) => (({ d with rd := rd, currentFrame := f }, as), .diverge)
    | .lzw minCodeSize =>
      let f := match d.currentFrame.ownedCap with
        | some _ => { d.currentFrame with buffer := [], ownedCap := none }
        | none => d.currentFrame
      if as.headD true then
        match copyLoopOn d.rd.eventFuel d.rd as.tail [minCodeSize] with
        | ((rd, as), vec, .ok ()) =>
          let f := { f with buffer := vec, ownedCap := some vec.length }
          (({ d with rd := rd, currentFrame := f }, as), .ok (some f))
        | ((rd, as), _, .err e) => (({ d with rd := rd, currentFrame := f }, as), .err e)
        | ((rd, as), _, .panic) => (({ d with rd := rd, currentFrame := f }, as), .panic)
        | ((rd, as), _, .diverge) => (({ d with rd := rd, currentFrame := f }, as), .diverge)
      else (({ d with currentFrame := f }, as.tail), .ioErr .outOfMemory)
  | ((d, as), .ok false) => ((d, as), .ok none)
  | ((d, as), .err e) => ((d, as), .err e)
  | ((d, as), .panic) => ((d, as), .panic)
  | ((d, as), .diverge) => ((d, as), .diverge)

/-- `src/reader/mod.rs:378-380` `read_into_buffer` -/
def readIntoBufferOn (d : Decoder C) (as : Answers) (buf : List UInt8) : (Decoder C × Answers) × List UInt8 × Outcome Unit :=
  match d.conv.readIntoBuffer d.currentFrame RD.decodeNextBytesOn (d.rd, as) buf with
  | ((rd, as), buf, r) => (({ d with rd := rd }, as), buf, r)

/-- `src/reader/mod.rs:401-403` `fill_buffer` -/
def fillBufferOn (d : Decoder C) (as : Answers) (buf : List UInt8) : (Decoder C × Answers) × List UInt8 × Outcome Bool :=
  match d.conv.fillBuffer d.currentFrame RD.decodeNextBytesOn (d.rd, as) buf with
  | ((rd, as), buf, r) => (({ d with rd := rd }, as), buf, r)

end Decoder

/-- `src/reader/mod.rs:496-512` `DecoderIter::next` -/
def DecoderIter.nextOn {C : Codec} (it : DecoderIter C) (as : Answers) :
    (DecoderIter C × Answers) × Outcome (Option (Except DecodingError Frame)) :=
  if it.ended then ((it, as), .ok none)
  else
    match it.inner.readNextFrameRoom as with
    | ((d, as), .ok (some _)) =>
      match d.takeCurrentFrame with
      | (d, some f) => (({ it with inner := d }, as), .ok (some (.ok f)))
      | (d, none) => (({ it with inner := d }, as), .ok none)
    | ((d, as), .ok none) => (({ inner := d, ended := true }, as), .ok none)
    | ((d, as), .err e) => (({ inner := d, ended := true }, as), .ok (some (.error e)))
    | ((d, as), .panic) => (({ it with inner := d }, as), .panic)
    | ((d, as), .diverge) => (({ it with inner := d }, as), .diverge)

end Gif
