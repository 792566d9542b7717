import Verif.Model.Common
import Verif.Model.Lzw
/-!
# `src/encoder.rs` and `src/traits.rs`: the encoder
-/

namespace Gif

/-- `src/encoder.rs:16-23` `EncodingFormatError` -/
inductive EncodingFormatErr where
  | tooManyColors | missingColorPalette | invalidMinCodeSize
deriving DecidableEq, Repr

/-- `io::Error` values the encoder can produce or pass on. -/
inductive EncodingIoErr where
  | invalidInput          -- encoder.rs:171
  | unsupported           -- encoder.rs:220, 364, 374
  | writeZero             -- encoder.rs:483
  | outOfMemory           -- encoder.rs:217 (only in Model/Build.lean)
  | writer (code : Nat)   -- any error returned by the user's `Write`
deriving DecidableEq, Repr

/-- `src/encoder.rs:39-44` `EncodingError` -/
inductive EncodingError where
  | format (e : EncodingFormatErr)
  | io (e : EncodingIoErr)
deriving DecidableEq, Repr

/-- Result of an encoder function. No encoder loop depends on anything but the length of a slice, so there is no
divergence. -/
inductive EOut (α : Type) where
  | ok (a : α)
  | err (e : EncodingError)
  | panic
deriving DecidableEq, Repr

/-- The user's `Write`: the bytes it has accepted, and its behaviour in the following `write_all` calls with a non-empty
argument: `none` accepts everything, `some (k, code)` accepts only the first `k` bytes and then fails with error `code`.
After the listed calls it accepts everything. -/
structure Sink where
  written : List UInt8
  plan : List (Option (Nat × Nat))
deriving DecidableEq, Repr

/-- A computation with the writer. -/
def W (α : Type) := Sink → Sink × EOut α

namespace W

/-- `Ok(a)` -/
def pure {α : Type} (a : α) : W α := fun s => (s, .ok a)

/-- `return Err(e)` -/
def fail {α : Type} (e : EncodingError) : W α := fun s => (s, .err e)

/-- The operator `?` followed by the rest of the function. -/
def bind {α β : Type} (m : W α) (k : α → W β) : W β := fun s =>
  match m s with
  | (s, .ok a) => k a s
  | (s, .err e) => (s, .err e)
  | (s, .panic) => (s, .panic)

instance : Monad W where
  pure := W.pure
  bind := W.bind

/-- `Result` without effect. -/
def ofOut {α : Type} (r : EOut α) : W α := fun s => (s, r)

/-- `io::Write::write_all` on the user's writer. An empty slice makes no call. A writer that fails has accepted a proper
prefix of the slice. -/
def writeAll (bs : List UInt8) : W Unit := fun s =>
  if bs.isEmpty then (s, .ok ())
  else
    match s.plan with
    | [] => ({ s with written := s.written ++ bs }, .ok ())
    | none :: plan => ({ written := s.written ++ bs, plan := plan }, .ok ())
    | some (k, code) :: plan =>
      ({ written := s.written ++ bs.take (min k (bs.length - 1)), plan := plan }, .err (.io (.writer code)))

/-- `src/traits.rs:17-22` `write_le` for `u8` -/
def writeU8 (n : UInt8) : W Unit := writeAll [n]

end W

/-- `src/traits.rs:24-29` `write_le` for `u16`: the bytes. -/
def leBytes (n : UInt16) : List UInt8 := [lo8 n, hi8 n]

/-- `src/encoder.rs:472-494`: writing the parts, one after the other, to a `Buf<N>` that holds `acc`. -/
def bufParts (N : Nat) : List UInt8 → List (List UInt8) → EOut (List UInt8)
  | acc, [] => .ok acc
  | acc, p :: ps => if acc.length + p.length ≤ N then bufParts N (acc ++ p) ps else .err (.io .writeZero)

/-- `src/encoder.rs:472-502`: a `tmp_buf::<N>()`, the `write_le`/`write_all` calls on it, and `finish`, with its
`debug_assert_eq!`. -/
def tmpBuf (N : Nat) (parts : List (List UInt8)) : W Unit := do
  let b ← W.ofOut (bufParts N [] parts)
  if b.length ≠ N then W.ofOut .panic else W.writeAll b

/-- `n.next_power_of_two().trailing_zeros()` for `n ≥ 1`: the least `k` with `n ≤ 2^k`. -/
def nextPow2Log (n : Nat) : Nat := ((List.range (n + 1)).find? fun k => n ≤ 2 ^ k).getD 0

/-- `src/encoder.rs:439-441` `flag_size` -/
def flagSize (size : Nat) : UInt8 := UInt8.ofNat (nextPow2Log (min (max size 2) 255) - 1)

/-- `src/encoder.rs:253-261` `check_color_table`: the table, the number of missing colours, and the size flag. -/
def checkColorTable (table : List UInt8) : EOut (List UInt8 × Nat × UInt8) :=
  let numColors := table.length / 3
  if numColors > 256 then .err (.format .tooManyColors)
  else
    let tableSize := flagSize numColors
    -- `(2 << table_size) - num_colors`, a `usize` subtraction
    if 2 * 2 ^ tableSize.toNat < numColors then .panic
    else .ok (table.take (numColors * 3), 2 * 2 ^ tableSize.toNat - numColors, tableSize)

/-- `src/encoder.rs:246-248`: the padding loop. -/
def writePadding : Nat → W Unit
  | 0 => pure ()
  | n + 1 => do
    W.writeAll [0, 0, 0]
    writePadding n

/-- `src/encoder.rs:243-250` `write_color_table` -/
def writeColorTable (table : List UInt8) (padding : Nat) : W Unit := do
  W.writeAll table
  writePadding padding

/-- `src/encoder.rs:97-109` `ExtensionData` -/
inductive ExtensionData where
  | control (flags : UInt8) (delay : UInt16) (trns : UInt8)
  | repetitions (r : Repeat)
deriving DecidableEq, Repr

/-- `src/encoder.rs:116-128` `new_control_ext` -/
def ExtensionData.newControlExt (delay : UInt16) (dispose : DisposalMethod) (needsUserInput : Bool)
    (trns : Option UInt8) : ExtensionData :=
  let (flags, t) : UInt8 × UInt8 := match trns with
    | some t => (0 ||| 1, t)
    | none => (0, 0)
  let flags := flags ||| ((if needsUserInput then (1 : UInt8) else 0) <<< 1)
  let flags := flags ||| (dispose.toU8 <<< 2)
  .control flags delay t

/-- `b"NETSCAPE2.0"`, `src/encoder.rs:289` -/
def netscapeName : List UInt8 := [0x4E, 0x45, 0x54, 0x53, 0x43, 0x41, 0x50, 0x45, 0x32, 0x2E, 0x30]

/-- `src/encoder.rs:266-300` `write_extension`, after `self.writer()?`. -/
def writeExtensionTo : ExtensionData → W Unit
  | .control flags delay trns => do
    W.writeU8 Block.extension.toU8
    tmpBuf 6 [[Extension.control.toU8], [4], [flags], leBytes delay, [trns]]
    W.writeU8 0
  | .repetitions r => do
    W.writeU8 Block.extension.toU8
    tmpBuf 17 [[Extension.application.toU8], [11], netscapeName, [3], [1],
      leBytes (match r with
        | .finite n => n
        | .infinite => 0)]
    W.writeU8 0

/-- `src/encoder.rs:230-234`: `k` full blocks of 255 bytes are written; the remainder is returned. -/
def writeFullBlocks : Nat → List UInt8 → W (List UInt8)
  | 0, data => pure data
  | k + 1, data => do
    W.writeU8 0xFF
    W.writeAll (data.take 0xFF)
    writeFullBlocks k (data.drop 0xFF)

/-- `src/encoder.rs:224-241` `write_encoded_image_block`. `chunks_exact(255)` has `len / 255` chunks. -/
def writeEncodedImageBlock (dataWithMinCodeSize : List UInt8) : W Unit := do
  let (m, data) : UInt8 × List UInt8 := match dataWithMinCodeSize with
    | [] => (2, [])
    | m :: data => (m, data)
  W.writeU8 m
  let last ← writeFullBlocks (data.length / 0xFF) data
  if last.isEmpty then W.writeU8 0
  else do
    W.writeU8 (UInt8.ofNat last.length)
    W.writeAll last
    W.writeU8 0

/-- `src/encoder.rs:312-315`: the sub-blocks of one slice; `chunks(255)` has `⌈len / 255⌉` chunks. -/
def writeChunks : Nat → List UInt8 → W Unit
  | 0, _ => pure ()
  | k + 1, data => do
    W.writeU8 (UInt8.ofNat (data.take 0xFF).length)
    W.writeAll (data.take 0xFF)
    writeChunks k (data.drop 0xFF)

/-- `src/encoder.rs:311-316`: the loop over the slices. -/
def writeRawBlocks : List (List UInt8) → W Unit
  | [] => pure ()
  | b :: bs => do
    writeChunks ((b.length + 0xFE) / 0xFF) b
    writeRawBlocks bs

/-- `src/encoder.rs:382-391`: the largest byte, as far as the loop looks. -/
def scanMax : UInt8 → List UInt8 → UInt8
  | m, [] => m
  | m, b :: bs => if b > m then (if b > 127 then b else scanMax b bs) else scanMax m bs

/-- `src/encoder.rs:392-394` -/
def minCodeSizeFor (data : List UInt8) : UInt8 :=
  UInt8.ofNat (nextPow2Log (max ((scanMax 0 data).toNat + 1) 4))

/-- `src/encoder.rs:381-399` `lzw_encode`: the new contents of `buffer`. -/
def lzwEncode (C : Codec) (data buffer : List UInt8) : List UInt8 :=
  let m := minCodeSizeFor data
  let enc := C.encode m data
  (buffer ++ [m] ++ enc).take (enc.length + 1)

/-- `src/encoder.rs:405-410` `make_lzw_pre_encoded`. Allocation is assumed to succeed. -/
def Frame.makeLzwPreEncoded (C : Codec) (f : Frame) : Frame :=
  let buffer := lzwEncode C f.buffer []
  { f with buffer := buffer, ownedCap := some buffer.length }

/-- `src/encoder.rs:414-420` `Encoder` -/
structure Encoder where
  w : Option Sink
  globalPalette : Bool
  width : UInt16
  height : UInt16
  buffer : List UInt8
deriving DecidableEq, Repr

namespace Encoder

/-- `src/encoder.rs:372-375` `writer`, and the computation with the writer that follows. -/
def withWriter {α : Type} (e : Encoder) (m : W α) : Encoder × EOut α :=
  match e.w with
  | none => (e, .err (.io .unsupported))
  | some s =>
    match m s with
    | (s, r) => ({ e with w := some s }, r)

/-- The operator `?` on a method of the encoder, followed by the rest of the function. -/
def andThen {α β : Type} (p : Encoder × EOut α) (k : Encoder → α → Encoder × EOut β) : Encoder × EOut β :=
  match p with
  | (e, .ok a) => k e a
  | (e, .err err) => (e, .err err)
  | (e, .panic) => (e, .panic)

/-- `src/encoder.rs:266-300` `write_extension` -/
def writeExtension (e : Encoder) (x : ExtensionData) : Encoder × EOut Unit :=
  match x with
  | .repetitions (.finite 0) => (e, .ok ())
  | x => e.withWriter (writeExtensionTo x)

/-- `src/encoder.rs:146-148` `set_repeat` -/
def setRepeat (e : Encoder) (r : Repeat) : Encoder × EOut Unit := e.writeExtension (.repetitions r)

/-- `src/encoder.rs:307-318` `write_raw_extension` -/
def writeRawExtension (e : Encoder) (func : UInt8) (data : List (List UInt8)) : Encoder × EOut Unit :=
  e.withWriter do
    W.writeU8 Block.extension.toU8
    W.writeU8 func
    writeRawBlocks data
    W.writeU8 0

/-- `src/encoder.rs:338-347` `write_screen_desc` -/
def writeScreenDesc (e : Encoder) (flags : UInt8) : Encoder × EOut Unit :=
  e.withWriter (tmpBuf 13
    [[0x47, 0x49, 0x46, 0x38, 0x39, 0x61], leBytes e.width, leBytes e.height, [flags], [0], [0]])

/-- `src/encoder.rs:368-370` `write_trailer` -/
def writeTrailer (e : Encoder) : Encoder × EOut Unit := e.withWriter (W.writeU8 Block.trailer.toU8)

/-- `src/encoder.rs:422-436` `drop`; `raiiNoPanic` is the (default) cargo feature `raii_no_panic`. The writer itself is
kept in the result to be able to speak about what was written to it. -/
def drop (raiiNoPanic : Bool) (e : Encoder) : Encoder × EOut Unit :=
  match e.w with
  | none => (e, .ok ())
  | some _ =>
    match e.writeTrailer with
    | (e, .ok ()) => (e, .ok ())
    | (e, .err _) => (e, if raiiNoPanic then .ok () else .panic)
    | (e, .panic) => (e, .panic)

/-- `src/encoder.rs:151-164` `write_global_palette` up to the drop of `self` on error. -/
def writeGlobalPalette (e : Encoder) (palette : List UInt8) : Encoder × EOut Unit :=
  match checkColorTable palette with
  | .err err => (e, .err err)
  | .panic => (e, .panic)
  | .ok (palette, padding, tableSize) =>
    let e := { e with globalPalette := !palette.isEmpty }
    let flags : UInt8 := 0b10000000
    let flags := flags ||| tableSize
    let flags := flags ||| (tableSize <<< 4)
    andThen (e.writeScreenDesc flags) fun e () => e.withWriter (writeColorTable palette padding)

/-- `src/encoder.rs:136-143` `new`. On error the partly constructed encoder is dropped (it is owned by
`write_global_palette`): then the result is the encoder after its destructor ran. -/
def new (raiiNoPanic : Bool) (w : Sink) (width height : UInt16) (globalPalette : List UInt8) : Encoder × EOut Unit :=
  match writeGlobalPalette { w := some w, globalPalette := false, width, height, buffer := [] } globalPalette with
  | (e, .ok ()) => (e, .ok ())
  | (e, .err err) =>
    match e.drop raiiNoPanic with
    | (e, .panic) => (e, .panic)
    | (e, _) => (e, .err err)
  | (e, .panic) => (e, .panic)

/-- `src/encoder.rs:185-198`: the flags of the image descriptor and the local table to write. -/
def framePalette (e : Encoder) (f : Frame) : EOut (UInt8 × Option (List UInt8 × Nat)) :=
  let flags : UInt8 := if f.interlaced then 0 ||| 0b01000000 else 0
  match f.palette with
  | some palette =>
    let flags := flags ||| 0b10000000
    match checkColorTable palette with
    | .ok (palette, padding, tableSize) => .ok (flags ||| tableSize, some (palette, padding))
    | .err err => .err err
    | .panic => .panic
  | none => if e.globalPalette then .ok (flags, none) else .err (.format .missingColorPalette)

/-- `src/encoder.rs:178-212` `write_frame_header` -/
def writeFrameHeader (e : Encoder) (f : Frame) : Encoder × EOut Unit :=
  andThen (e.writeExtension (.newControlExt f.delay f.dispose f.needsUserInput f.transparent)) fun e () =>
    match e.framePalette f with
    | .err err => (e, .err err)
    | .panic => (e, .panic)
    | .ok (flags, palette) =>
      e.withWriter do
        tmpBuf 10 [[Block.image.toU8], leBytes f.left, leBytes f.top, leBytes f.width, leBytes f.height, [flags]]
        match palette with
        | some (table, padding) => writeColorTable table padding
        | none => pure ()

/-- `src/encoder.rs:214-222` `write_image_block`. Allocation is assumed to succeed. -/
def writeImageBlock (C : Codec) (e : Encoder) (data : List UInt8) : Encoder × EOut Unit :=
  let e := { e with buffer := lzwEncode C data [] }
  e.withWriter (writeEncodedImageBlock e.buffer)

/-- `src/encoder.rs:169-176` `write_frame`, with its `debug_assert!` -/
def writeFrame (C : Codec) (e : Encoder) (f : Frame) : Encoder × EOut Unit :=
  if f.buffer.length < f.width.toNat * f.height.toNat then (e, .err (.io .invalidInput))
  else if ¬ ((f.width > 0 ∧ f.height > 0) ∨ f.buffer.isEmpty) then (e, .panic)
  else andThen (e.writeFrameHeader f) fun e () => e.writeImageBlock C f.buffer

/-- `src/encoder.rs:324-335` `write_lzw_pre_encoded_frame` -/
def writeLzwPreEncodedFrame (e : Encoder) (f : Frame) : Encoder × EOut Unit :=
  let go (_ : Unit) := andThen (e.writeFrameHeader f) fun e () => e.withWriter (writeEncodedImageBlock f.buffer)
  match f.buffer with
  | m :: _ => if m > 11 ∨ m < 2 then (e, .err (.format .invalidMinCodeSize)) else go ()
  | [] => go ()

/-- `src/encoder.rs:362-365` `into_inner`, including the drop of `self` at its end: the writer that was moved out on
success, and the encoder after its destructor ran. -/
def intoInner (raiiNoPanic : Bool) (e : Encoder) : Encoder × EOut Sink :=
  match e.writeTrailer with
  | (e, .ok ()) =>
    match e.w with
    | some s =>
      match ({ e with w := none } : Encoder).drop raiiNoPanic with
      | (e, .panic) => (e, .panic)
      | (e, _) => (e, .ok s)
    | none => (e, .err (.io .unsupported))
  | (e, .err err) =>
    match e.drop raiiNoPanic with
    | (e, .panic) => (e, .panic)
    | (e, _) => (e, .err err)
  | (e, .panic) => (e, .panic)

end Encoder

end Gif
