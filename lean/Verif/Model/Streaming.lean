import Verif.Model.Options
import Verif.Model.Lzw
/-!
# `src/reader/decoder.rs:99-181, 314-807`: the streaming decoder
-/

namespace Gif

/-- `src/reader/decoder.rs:101-109` -/
inductive FrameDataType where
  | pixels
  | lzw (minCodeSize : UInt8)
deriving DecidableEq, Repr

/-- `src/reader/decoder.rs:114-155` `Decoded`. Two simplifications: `BytesDecoded(n)` and `LzwDataCopied(n)` carry the
bytes that were written to the output buffer instead of their number. -/
inductive Decoded where
  | nothing
  | globalPalette (p : List UInt8)
  | backgroundColor (c : UInt8)
  | repetitions (r : Repeat)
  | headerEnd
  | blockStart (b : Block)
  | subBlockFinished (ext : UInt8)
  | blockFinished (ext : UInt8)
  | frameMetadata (t : FrameDataType)
  | bytesDecoded (bytes : List UInt8)
  | lzwDataCopied (bytes : List UInt8)
  | dataEnd
deriving DecidableEq, Repr

/-- `src/reader/decoder.rs:159-178` `State` -/
inductive State where
  | magic
  | screenDescriptor
  | imageBlockStart
  | globalPalette (left : Nat)
  | blockStart (type : UInt8)
  | blockEnd
  | extensionBlockStart
  | extensionDataBlock (left : Nat)
  | applicationExtension
  | localPalette (left : Nat)
  | lzwInit (minCodeSize : UInt8)
  | decodeSubBlock (left : Nat)
  | copySubBlock (left : Nat)
  | frameDecoded
  | trailer
deriving DecidableEq, Repr

/-- `src/reader/decoder.rs:341-346` -/
inductive Version where
  | v87a | v89a
deriving DecidableEq, Repr

/-- `src/reader/decoder.rs:317-352` `StreamingDecoder` with its `ExtensionData`.
`ibuf` is the used part `internal_buffer[..unused_internal_buffer_len]`. The capacities of the two palette vectors are
kept because the code drops bytes that exceed them (`decoder.rs:611`, `709`); they are the capacities that
`try_reserve_exact` guarantees. -/
structure SD (C : Codec) where
  state : State
  ibuf : List UInt8
  lzw : LzwReader C
  skipFrameDecoding : Bool
  checkFrameConsistency : Bool
  allowUnknownBlocks : Bool
  memoryLimit : MemoryLimit
  version : Version
  width : UInt16
  height : UInt16
  gct : List UInt8
  gctCap : Nat
  extId : UInt8
  extData : List UInt8
  extIsBlockEnd : Bool
  current : Option Frame
  palCap : Nat
  headerEndReached : Bool

/-- Result of one call on the streaming decoder: the new state, and consumed bytes with an event. -/
abbrev StepResult (C : Codec) := SD C × Outcome (Nat × Decoded)

namespace SD

variable {C : Codec}

/-- `src/reader/decoder.rs:398-420` `with_options` (`new`, `decoder.rs:393-396`, is this with the default options). -/
def withOptions (C : Codec) (o : DecodeOptions) : SD C where
  state := .magic
  ibuf := []
  lzw := LzwReader.new C o.checkForEndCode
  skipFrameDecoding := o.skipFrameDecoding
  checkFrameConsistency := o.checkFrameConsistency
  allowUnknownBlocks := o.allowUnknownBlocks
  memoryLimit := o.memoryLimit
  version := .v87a
  width := 0
  height := 0
  gct := []
  gctCap := 0
  extId := 0
  extData := []
  extIsBlockEnd := true
  current := none
  palCap := 0
  headerEndReached := false

/-- `src/reader/decoder.rs:494-511`, macro `goto!`. -/
def goto (s : SD C) (n : Nat) (st : State) (ev : Decoded := .nothing) : StepResult C :=
  ({ s with state := st }, .ok (n, ev))

/-- `src/reader/decoder.rs:513-536`, macro `ensure_min_length_buffer!`; the rest of the arm is the continuation `k`
applied to the consumed length and the collected bytes. `internal_buffer` has 9 bytes. -/
def ensureMin (s : SD C) (buf : List UInt8) (required : Nat)
    (k : SD C → Nat → List UInt8 → StepResult C) : StepResult C :=
  if buf.length ≥ required ∧ s.ibuf.length = 0 then
    k s required (buf.take required)
  else if s.ibuf.length < required then
    let toCopy := min buf.length (required - s.ibuf.length)
    let newLen := s.ibuf.length + toCopy
    if newLen > 9 then (s, .panic)
    else if newLen < required then
      ({ s with ibuf := s.ibuf ++ buf.take toCopy }, .ok (toCopy, .nothing))
    else
      k { s with ibuf := [] } toCopy (s.ibuf ++ buf.take toCopy)
  else
    k s 0 (s.ibuf.take required)

/-- `src/reader/decoder.rs:589-590`: `a.checked_sub(b) < Some(c)` on `Option<u16>` (`None` is the least element). -/
def checkedSubLt (a b c : UInt16) : Bool :=
  if b ≤ a then decide (a - b < c) else true

/-- `src/reader/decoder.rs:802-806` `add_frame` -/
def addFrame (s : SD C) : SD C :=
  match s.current with
  | none => { s with current := some Frame.default }
  | some _ => s

/-- `src/reader/decoder.rs:790-798`: the frame fields set by a control block with the given four payload bytes. -/
def controlFrame (f : Frame) (flags d0 d1 trns : UInt8) : Frame :=
  { f with
    needsUserInput := decide (flags &&& 0b10 ≠ 0)
    dispose := match DisposalMethod.fromU8 ((flags &&& 0b11100) >>> 2) with
      | some m => m
      | none => .any
    delay := u16le d0 d1
    transparent := if flags &&& 1 ≠ 0 then some trns else none }

/-- `src/reader/decoder.rs:784-800` `read_control_extension` -/
def readControlExtension (s : SD C) : SD C × Outcome Unit :=
  match s.extData with
  | [_, flags, d0, d1, trns] =>
    let frame := s.current.getD Frame.default
    ({ s with current := some (controlFrame frame flags d0 d1 trns) }, .ok ())
  | _ => (s, .fmtErr .controlWrongLength)

/-- `src/reader/decoder.rs:365-387` `OutputBuffer::append`: consumed bytes and copied bytes. Allocation is assumed to
succeed. -/
def append (o : OutSpec) (buf : List UInt8) (limit : MemoryLimit) : Outcome (Nat × List UInt8) :=
  match o with
  | .slice cap =>
    let len := min buf.length cap
    .ok (len, buf.take len)
  | .vec len =>
    if limit.sizeOk (len + buf.length) then .ok (buf.length, buf) else .fmtErr .memoryLimit
  | .none => .ok (buf.length, [])

/-- `src/reader/decoder.rs:697-698` -/
def repeatOf (r0 r1 : UInt8) : Repeat :=
  let n := u16le r0 r1
  if n = 0 then .infinite else .finite n

/-- The twelve bytes `b"NETSCAPE2.0\x01"` of `src/reader/decoder.rs:695`. -/
def netscapeTag : List UInt8 :=
  [0x4E, 0x45, 0x54, 0x53, 0x43, 0x41, 0x50, 0x45, 0x32, 0x2E, 0x30, 0x01]

/-- `b"GIF87a"`, `src/reader/decoder.rs:545` -/
def magic87a : List UInt8 := [0x47, 0x49, 0x46, 0x38, 0x37, 0x61]

/-- `b"GIF89a"`, `src/reader/decoder.rs:546` -/
def magic89a : List UInt8 := [0x47, 0x49, 0x46, 0x38, 0x39, 0x61]

/-- `src/reader/decoder.rs:544-550`, rest of the `Magic` arm. -/
def onMagic (s : SD C) (consumed : Nat) (hdr : List UInt8) : StepResult C :=
  if hdr = magic87a then goto { s with version := .v87a } consumed .screenDescriptor
  else if hdr = magic89a then goto { s with version := .v89a } consumed .screenDescriptor
  else (s, .fmtErr .malformedHeader)

/-- `src/reader/decoder.rs:561-567, 597-599`: `PLTE_CHANNELS * (1 << ((flags & 0b111) + 1))`. -/
def tableSize (flags : UInt8) : Nat := 3 * 2 ^ ((flags &&& 0b111).toNat + 1)

/-- `src/reader/decoder.rs:555-573`, rest of the `ScreenDescriptor` arm. -/
def onScreenDescriptor (s : SD C) (consumed : Nat) (desc : List UInt8) : StepResult C :=
  match desc with
  | [w0, w1, h0, h1, flags, bg, _aspect] =>
    let s := { s with width := u16le w0 w1, height := u16le h0 h1 }
    if flags &&& 0x80 ≠ 0 then
      let n := tableSize flags
      goto { s with gctCap := max s.gctCap (s.gct.length + n) } consumed (.globalPalette n) (.backgroundColor bg)
    else
      goto s consumed (.globalPalette 0) (.backgroundColor bg)
  | _ => (s, .panic)

/-- `src/reader/decoder.rs:578-605`, rest of the `ImageBlockStart` arm. -/
def onImageBlockStart (s : SD C) (consumed : Nat) (header : List UInt8) : StepResult C :=
  match header with
  | [l0, l1, t0, t1, w0, w1, h0, h1, flags] =>
    match s.current with
    | none => (s, .fmtErr .badState)
    | some frame =>
      let frame := { frame with
        left := u16le l0 l1, top := u16le t0 t1, width := u16le w0 w1, height := u16le h0 h1
        interlaced := decide (flags &&& 0b01000000 ≠ 0) }
      let s := { s with current := some frame }
      if s.checkFrameConsistency ∧
          (checkedSubLt s.width frame.width frame.left ∨ checkedSubLt s.height frame.height frame.top) then
        (s, .fmtErr .frameOutOfBounds)
      else if flags &&& 0b10000000 ≠ 0 then
        let n := tableSize flags
        let pal := frame.palette.getD []
        goto { s with
            current := some { frame with palette := some pal }
            palCap := max (if frame.palette.isSome then s.palCap else 0) (pal.length + n) }
          consumed (.localPalette n)
      else
        goto s consumed (.localPalette 0)
  | _ => (s, .panic)

/-- `src/reader/decoder.rs:607-620`, the `GlobalPalette` arm. -/
def onGlobalPalette (s : SD C) (left : Nat) (b : UInt8) (buf : List UInt8) : StepResult C :=
  if left > 0 then
    let n := min left buf.length
    let s := if n ≤ s.gctCap - s.gct.length then { s with gct := s.gct ++ buf.take n } else s
    goto s n (.globalPalette (left - n))
  else
    goto { s with gct := [], gctCap := 0 } 1 (.blockStart b) (.globalPalette s.gct)

/-- `src/reader/decoder.rs:621-652`, the `BlockStart` arm. -/
def onBlockStart (s : SD C) (type : UInt8) (b : UInt8) : StepResult C :=
  if ¬ s.headerEndReached ∧ type ≠ Block.extension.toU8 then
    goto { s with headerEndReached := true } 0 (.blockStart type) .headerEnd
  else
    match Block.fromU8 type with
    | some .image => goto s.addFrame 0 .imageBlockStart (.blockStart .image)
    | some .extension =>
      let s := { s with extData := [], extId := b }
      if (Extension.fromU8 b).isNone then (s, .fmtErr .unknownBlock)
      else goto s 1 .extensionBlockStart (.blockStart .extension)
    | some .trailer => goto s 1 .trailer (.blockStart .trailer)
    | none =>
      if s.allowUnknownBlocks then goto s 1 (.extensionDataBlock b.toNat)
      else (s, .fmtErr .unknownBlock)

/-- `src/reader/decoder.rs:653-661`, the `BlockEnd` arm. -/
def onBlockEnd (s : SD C) (b : UInt8) : StepResult C :=
  if b = Block.trailer.toU8 then goto s 0 (.blockStart b) else goto s 1 (.blockStart b)

/-- `src/reader/decoder.rs:666-691`, the `ExtensionDataBlock` arm. -/
def onExtensionDataBlock (s : SD C) (left : Nat) (b : UInt8) (buf : List UInt8) : StepResult C :=
  if left > 0 then
    let n := min left buf.length
    if s.memoryLimit.sizeOk (s.extData.length + n) then
      goto { s with extData := s.extData ++ buf.take n } n (.extensionDataBlock (left - n))
    else (s, .fmtErr .memoryLimit)
  else if b = 0 then
    let s := { s with extIsBlockEnd := true }
    match Extension.fromU8 s.extId with
    | some .application => goto s 0 .applicationExtension (.blockFinished s.extId)
    | some .control =>
      match s.readControlExtension with
      | (s, .ok ()) => goto s 1 .blockEnd (.blockFinished s.extId)
      | (s, .err e) => (s, .err e)
      | (s, .panic) => (s, .panic)
      | (s, .diverge) => (s, .diverge)
    | _ => goto s 1 .blockEnd (.blockFinished s.extId)
  else
    goto { s with extIsBlockEnd := false } 1 (.extensionDataBlock b.toNat) (.subBlockFinished s.extId)

/-- `src/reader/decoder.rs:692-702`, the `ApplicationExtension` arm, with its `debug_assert_eq!(0, b)`. -/
def onApplicationExtension (s : SD C) (b : UInt8) : StepResult C :=
  if b ≠ 0 then (s, .panic)
  else if s.extData.length ≥ 15 ∧ (s.extData.drop 1).take 12 = netscapeTag then
    match (s.extData.drop 13).take 2 with
    | [r0, r1] => goto s 1 .blockEnd (.repetitions (repeatOf r0 r1))
    | _ => (s, .panic)
  else goto s 1 .blockEnd

/-- `src/reader/decoder.rs:703-717`, the `LocalPalette` arm. -/
def onLocalPalette (s : SD C) (left : Nat) (b : UInt8) (buf : List UInt8) : StepResult C :=
  if left > 0 then
    let n := min left buf.length
    match s.current with
    | none => (s, .fmtErr .badState)
    | some frame =>
      match frame.palette with
      | some pal =>
        if s.palCap - pal.length ≥ n then
          goto { s with current := some { frame with palette := some (pal ++ buf.take n) } } n
            (.localPalette (left - n))
        else goto s n (.localPalette (left - n))
      | none => goto s n (.localPalette (left - n))
  else
    goto s 1 (.lzwInit b)

/-- `src/reader/decoder.rs:718-727`, the `LzwInit` arm. -/
def onLzwInit (s : SD C) (minCodeSize b : UInt8) : StepResult C :=
  if ¬ s.skipFrameDecoding then
    match s.lzw.reset minCodeSize with
    | (lzw, .ok ()) => goto { s with lzw := lzw } 1 (.decodeSubBlock b.toNat) (.frameMetadata .pixels)
    | (lzw, .err e) => ({ s with lzw := lzw }, .err e)
    | (lzw, .panic) => ({ s with lzw := lzw }, .panic)
    | (lzw, .diverge) => ({ s with lzw := lzw }, .diverge)
  else if LzwReader.codeSizeOk minCodeSize then
    goto s 1 (.copySubBlock b.toNat) (.frameMetadata (.lzw minCodeSize))
  else (s, .fmtErr .invalidMinCodeSize)

/-- `src/reader/decoder.rs:728-739`, the `CopySubBlock` arm, with its `debug_assert!`. -/
def onCopySubBlock (s : SD C) (left : Nat) (b : UInt8) (buf : List UInt8) (o : OutSpec) : StepResult C :=
  if ¬ s.skipFrameDecoding then (s, .panic)
  else if left > 0 then
    let n := min left buf.length
    match append o (buf.take n) s.memoryLimit with
    | .ok (consumed, copied) =>
      if consumed > left then (s, .panic)
      else goto s consumed (.copySubBlock (left - consumed)) (.lzwDataCopied copied)
    | .err e => (s, .err e)
    | .panic => (s, .panic)
    | .diverge => (s, .diverge)
  else if b ≠ 0 then goto s 1 (.copySubBlock b.toNat)
  else goto s 0 .frameDecoded

/-- `src/reader/decoder.rs:740-773`, the `DecodeSubBlock` arm, with its `debug_assert!`. -/
def onDecodeSubBlock (s : SD C) (left : Nat) (b : UInt8) (buf : List UInt8) (o : OutSpec) : StepResult C :=
  if s.skipFrameDecoding then (s, .panic)
  else if left > 0 then
    let n := min left buf.length
    if s.lzw.hasEnded ∨ o = .none then
      goto s n (.decodeSubBlock (left - n))
    else
      match s.lzw.decodeBytes (buf.take n) o with
      | (lzw, .ok (consumed, bytes)) =>
        let s := { s with lzw := lzw }
        let consumed := if consumed = 0 ∧ bytes.length = 0 then n else consumed
        if consumed > left then (s, .panic)
        else goto s consumed (.decodeSubBlock (left - consumed))
          (if bytes.length = 0 then .nothing else .bytesDecoded bytes)
      | (lzw, .err e) => ({ s with lzw := lzw }, .err e)
      | (lzw, .panic) => ({ s with lzw := lzw }, .panic)
      | (lzw, .diverge) => ({ s with lzw := lzw }, .diverge)
  else if b ≠ 0 then goto s 1 (.decodeSubBlock b.toNat)
  else
    match s.lzw.decodeBytes [] o with
    | (lzw, .ok (_, bytes)) =>
      let s := { s with lzw := lzw }
      if bytes.length = 0 then goto s 0 .frameDecoded
      else goto s 0 (.decodeSubBlock 0) (.bytesDecoded bytes)
    | (lzw, .err e) => ({ s with lzw := lzw }, .err e)
    | (lzw, .panic) => ({ s with lzw := lzw }, .panic)
    | (lzw, .diverge) => ({ s with lzw := lzw }, .diverge)

/-- `src/reader/decoder.rs:774-779`, the `FrameDecoded` arm, with its `debug_assert_eq!(0, b)`. -/
def onFrameDecoded (s : SD C) (b : UInt8) : StepResult C :=
  let s := { s with current := none }
  if b ≠ 0 then (s, .panic) else goto s 1 .blockEnd .dataEnd

/-- `src/reader/decoder.rs:493-782` `next_state` -/
def nextState (s : SD C) (buf : List UInt8) (o : OutSpec) : StepResult C :=
  match buf with
  | [] => (s, .ioErr .unexpectedEof)
  | b :: _ =>
    match s.state with
    | .magic => ensureMin s buf 6 onMagic
    | .screenDescriptor => ensureMin s buf 7 onScreenDescriptor
    | .imageBlockStart => ensureMin s buf 9 onImageBlockStart
    | .globalPalette left => onGlobalPalette s left b buf
    | .blockStart type => onBlockStart s type b
    | .blockEnd => onBlockEnd s b
    | .extensionBlockStart => goto { s with extData := s.extData ++ [b] } 1 (.extensionDataBlock b.toNat)
    | .extensionDataBlock left => onExtensionDataBlock s left b buf
    | .applicationExtension => onApplicationExtension s b
    | .localPalette left => onLocalPalette s left b buf
    | .lzwInit m => onLzwInit s m b
    | .copySubBlock left => onCopySubBlock s left b buf o
    | .decodeSubBlock left => onDecodeSubBlock s left b buf o
    | .frameDecoded => onFrameDecoded s b
    | .trailer => goto s 0 .trailer

/-- `src/reader/decoder.rs:432-442`, the loop of `update`; `len` is the length of the original slice. -/
def updateLoop (len : Nat) (o : OutSpec) : Nat → SD C → List UInt8 → StepResult C
  | _, s, [] => (s, .ok (len, .nothing))
  | 0, s, _ :: _ => (s, .diverge)
  | fuel + 1, s, b :: bs =>
    match nextState s (b :: bs) o with
    | (s', .ok (n, .nothing)) => updateLoop len o fuel s' ((b :: bs).drop n)
    | (s', .ok (n, ev)) => (s', .ok (len - ((b :: bs).drop n).length, ev))
    | (s', .err e) => (s', .err e)
    | (s', .panic) => (s', .panic)
    | (s', .diverge) => (s', .diverge)

/-- `src/reader/decoder.rs:426-443` `update`. The fuel is enough for every state but `Trailer`, where the Rust loop does
not end for any number of steps (`update_terminates_partial` and `update_hangs_after_trailer` in `Props/Streaming.lean`). -/
def update (s : SD C) (buf : List UInt8) (o : OutSpec) : StepResult C :=
  updateLoop buf.length o (2 * buf.length + 2) s buf

/-- `src/reader/decoder.rs:447-449` `last_ext` -/
def lastExt (s : SD C) : UInt8 × List UInt8 × Bool := (s.extId, s.extData, s.extIsBlockEnd)

end SD

end Gif
