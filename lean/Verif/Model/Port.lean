import Verif.Model.Encoder
import Verif.Lemmas.EncOps
/-!
# The encoder on a writer that is called with `Write::write`

`Model/Encoder.lean` describes the user's writer by what its `write_all` does. Here it is described by what its `write`
does: it may take any part of the slice, be interrupted, take nothing, or fail. `write_all` is then the loop of the
standard library. The functions of `src/encoder.rs` that write are modelled once more, on such a writer.
`Props/Port.lean` shows that the two models agree.
-/

namespace Gif

/-- One result of `Write::write(buf)` on the user's writer: `Ok(n)`, where `n` counts at most the bytes of the slice;
`Err` of kind `Interrupted`; any other error. -/
inductive WriteEv where
  | took (n : Nat)
  | interrupted
  | err (code : Nat)
deriving DecidableEq, Repr

/-- The user's `Write`: the bytes it has taken, and the results of the following calls of `write`. After the listed calls
it takes all it is given. -/
structure Port where
  written : List UInt8
  evs : List WriteEv
deriving DecidableEq, Repr

/-- The error of kind `WriteZero` that `write_all` makes when `write` returns `Ok(0)`. -/
def wroteNothing : Nat := 0

/-- A computation with the writer. -/
def PW (α : Type) := Port → Port × EOut α

namespace PW

/-- `Ok(a)` -/
def pure {α : Type} (a : α) : PW α := fun s => (s, .ok a)

/-- The operator `?` followed by the rest of the function. -/
def bind {α β : Type} (m : PW α) (k : α → PW β) : PW β := fun s =>
  match m s with
  | (s, .ok a) => k a s
  | (s, .err e) => (s, .err e)
  | (s, .panic) => (s, .panic)

instance : Monad PW where
  pure := PW.pure
  bind := PW.bind

/-- `Result` without effect. -/
def ofOut {α : Type} (r : EOut α) : PW α := fun s => (s, r)

/-- The loop of `io::Write::write_all` (Rust standard library, provided method): `written` is what the writer has taken,
`evs` what it will answer, `bs` the rest of the slice. -/
def writeLoop (written : List UInt8) : List WriteEv → List UInt8 → Port × EOut Unit
  | evs, [] => (⟨written, evs⟩, .ok ())
  | [], bs => (⟨written ++ bs, []⟩, .ok ())
  | .took 0 :: evs, _ => (⟨written, evs⟩, .err (.io (.writer wroteNothing)))
  | .took (n + 1) :: evs, bs => writeLoop (written ++ bs.take (n + 1)) evs (bs.drop (n + 1))
  | .interrupted :: evs, bs => writeLoop written evs bs
  | .err code :: evs, _ => (⟨written, evs⟩, .err (.io (.writer code)))

/-- `io::Write::write_all` -/
def writeAll (bs : List UInt8) : PW Unit := fun s => writeLoop s.written s.evs bs

/-- `src/traits.rs:17-22` `write_le` for `u8` -/
def writeU8 (n : UInt8) : PW Unit := writeAll [n]

/-- `src/encoder.rs:472-502`: a `tmp_buf::<N>()`, the calls on it, and `finish`. -/
def tmpBuf (N : Nat) (parts : List (List UInt8)) : PW Unit := do
  let b ← PW.ofOut (bufParts N [] parts)
  if b.length ≠ N then PW.ofOut .panic else PW.writeAll b

/-- `src/encoder.rs:246-248`: the padding loop. -/
def writePadding : Nat → PW Unit
  | 0 => pure ()
  | n + 1 => do
    PW.writeAll [0, 0, 0]
    writePadding n

/-- `src/encoder.rs:243-250` `write_color_table` -/
def writeColorTable (table : List UInt8) (padding : Nat) : PW Unit := do
  PW.writeAll table
  writePadding padding

/-- `src/encoder.rs:266-300` `write_extension`, after `self.writer()?`. -/
def writeExtensionTo : ExtensionData → PW Unit
  | .control flags delay trns => do
    PW.writeU8 Block.extension.toU8
    PW.tmpBuf 6 [[Extension.control.toU8], [4], [flags], leBytes delay, [trns]]
    PW.writeU8 0
  | .repetitions r => do
    PW.writeU8 Block.extension.toU8
    PW.tmpBuf 17 [[Extension.application.toU8], [11], netscapeName, [3], [1],
      leBytes (match r with
        | .finite n => n
        | .infinite => 0)]
    PW.writeU8 0

/-- `src/encoder.rs:230-234` -/
def writeFullBlocks : Nat → List UInt8 → PW (List UInt8)
  | 0, data => pure data
  | k + 1, data => do
    PW.writeU8 0xFF
    PW.writeAll (data.take 0xFF)
    writeFullBlocks k (data.drop 0xFF)

/-- `src/encoder.rs:224-241` `write_encoded_image_block` -/
def writeEncodedImageBlock (dataWithMinCodeSize : List UInt8) : PW Unit := do
  let (m, data) : UInt8 × List UInt8 := match dataWithMinCodeSize with
    | [] => (2, [])
    | m :: data => (m, data)
  PW.writeU8 m
  let last ← PW.writeFullBlocks (data.length / 0xFF) data
  if last.isEmpty then PW.writeU8 0
  else do
    PW.writeU8 (UInt8.ofNat last.length)
    PW.writeAll last
    PW.writeU8 0

/-- `src/encoder.rs:312-315` -/
def writeChunks : Nat → List UInt8 → PW Unit
  | 0, _ => pure ()
  | k + 1, data => do
    PW.writeU8 (UInt8.ofNat (data.take 0xFF).length)
    PW.writeAll (data.take 0xFF)
    writeChunks k (data.drop 0xFF)

/-- `src/encoder.rs:311-316` -/
def writeRawBlocks : List (List UInt8) → PW Unit
  | [] => pure ()
  | b :: bs => do
    PW.writeChunks ((b.length + 0xFE) / 0xFF) b
    writeRawBlocks bs

end PW

/-- `src/encoder.rs:414-420` `Encoder` on such a writer -/
structure PEncoder where
  w : Option Port
  globalPalette : Bool
  width : UInt16
  height : UInt16
  buffer : List UInt8
deriving DecidableEq, Repr

namespace PEncoder

/-- `src/encoder.rs:372-375` `writer`, and the computation with the writer that follows. -/
def withWriter {α : Type} (e : PEncoder) (m : PW α) : PEncoder × EOut α :=
  match e.w with
  | none => (e, .err (.io .unsupported))
  | some s =>
    match m s with
    | (s, r) => ({ e with w := some s }, r)

/-- The operator `?` on a method of the encoder, followed by the rest of the function. -/
def andThen {α β : Type} (p : PEncoder × EOut α) (k : PEncoder → α → PEncoder × EOut β) : PEncoder × EOut β :=
  match p with
  | (e, .ok a) => k e a
  | (e, .err err) => (e, .err err)
  | (e, .panic) => (e, .panic)

/-- `src/encoder.rs:266-300` `write_extension` -/
def writeExtension (e : PEncoder) (x : ExtensionData) : PEncoder × EOut Unit :=
  match x with
  | .repetitions (.finite 0) => (e, .ok ())
  | x => e.withWriter (PW.writeExtensionTo x)

/-- `src/encoder.rs:146-148` `set_repeat` -/
def setRepeat (e : PEncoder) (r : Repeat) : PEncoder × EOut Unit := e.writeExtension (.repetitions r)

/-- `src/encoder.rs:307-318` `write_raw_extension` -/
def writeRawExtension (e : PEncoder) (func : UInt8) (data : List (List UInt8)) : PEncoder × EOut Unit :=
  e.withWriter do
    PW.writeU8 Block.extension.toU8
    PW.writeU8 func
    PW.writeRawBlocks data
    PW.writeU8 0

/-- `src/encoder.rs:338-347` `write_screen_desc` -/
def writeScreenDesc (e : PEncoder) (flags : UInt8) : PEncoder × EOut Unit :=
  e.withWriter (PW.tmpBuf 13
    [[0x47, 0x49, 0x46, 0x38, 0x39, 0x61], leBytes e.width, leBytes e.height, [flags], [0], [0]])

/-- `src/encoder.rs:368-370` `write_trailer` -/
def writeTrailer (e : PEncoder) : PEncoder × EOut Unit := e.withWriter (PW.writeU8 Block.trailer.toU8)

/-- `src/encoder.rs:422-436` `drop` -/
def drop (raiiNoPanic : Bool) (e : PEncoder) : PEncoder × EOut Unit :=
  match e.w with
  | none => (e, .ok ())
  | some _ =>
    match e.writeTrailer with
    | (e, .ok ()) => (e, .ok ())
    | (e, .err _) => (e, if raiiNoPanic then .ok () else .panic)
    | (e, .panic) => (e, .panic)

/-- `src/encoder.rs:151-164` `write_global_palette` up to the drop of `self` on error. -/
def writeGlobalPalette (e : PEncoder) (palette : List UInt8) : PEncoder × EOut Unit :=
  match checkColorTable palette with
  | .err err => (e, .err err)
  | .panic => (e, .panic)
  | .ok (palette, padding, tableSize) =>
    let e := { e with globalPalette := !palette.isEmpty }
    let flags : UInt8 := 0b10000000
    let flags := flags ||| tableSize
    let flags := flags ||| (tableSize <<< 4)
    andThen (e.writeScreenDesc flags) fun e () => e.withWriter (PW.writeColorTable palette padding)

/-- `src/encoder.rs:136-143` `new` -/
def new (raiiNoPanic : Bool) (w : Port) (width height : UInt16) (globalPalette : List UInt8) :
    PEncoder × EOut Unit :=
  match writeGlobalPalette { w := some w, globalPalette := false, width, height, buffer := [] } globalPalette with
  | (e, .ok ()) => (e, .ok ())
  | (e, .err err) =>
    match e.drop raiiNoPanic with
    | (e, .panic) => (e, .panic)
    | (e, _) => (e, .err err)
  | (e, .panic) => (e, .panic)

/-- `src/encoder.rs:185-198`: the flags of the image descriptor and the local table to write. -/
def framePalette (e : PEncoder) (f : Frame) : EOut (UInt8 × Option (List UInt8 × Nat)) :=
  let flags : UInt8 := if f.interlaced then 0 ||| 0b01000000 else 0
  match f.palette with
  | some palette =>
    let flags := flags ||| 0b10000000
    match checkColorTable palette with
    | .ok (palette, padding, tableSize) => .ok (flags ||| tableSize, some (palette, padding))
    | .err err => .err err
    | .panic => .panic
  | none => if e.globalPalette then .ok (flags, none) else .err (.format .missingColorPalette)

/-- `src/encoder.rs:178-212` `write_frame_header` -/
def writeFrameHeader (e : PEncoder) (f : Frame) : PEncoder × EOut Unit :=
  andThen (e.writeExtension (.newControlExt f.delay f.dispose f.needsUserInput f.transparent)) fun e () =>
    match e.framePalette f with
    | .err err => (e, .err err)
    | .panic => (e, .panic)
    | .ok (flags, palette) =>
      e.withWriter do
        PW.tmpBuf 10 [[Block.image.toU8], leBytes f.left, leBytes f.top, leBytes f.width, leBytes f.height, [flags]]
        match palette with
        | some (table, padding) => PW.writeColorTable table padding
        | none => pure ()

/-- `src/encoder.rs:214-222` `write_image_block`. Allocation is assumed to succeed. -/
def writeImageBlock (C : Codec) (e : PEncoder) (data : List UInt8) : PEncoder × EOut Unit :=
  let e := { e with buffer := lzwEncode C data [] }
  e.withWriter (PW.writeEncodedImageBlock e.buffer)

/-- `src/encoder.rs:169-176` `write_frame`, with its `debug_assert!` -/
def writeFrame (C : Codec) (e : PEncoder) (f : Frame) : PEncoder × EOut Unit :=
  if f.buffer.length < f.width.toNat * f.height.toNat then (e, .err (.io .invalidInput))
  else if ¬ ((f.width > 0 ∧ f.height > 0) ∨ f.buffer.isEmpty) then (e, .panic)
  else andThen (e.writeFrameHeader f) fun e () => e.writeImageBlock C f.buffer

/-- `src/encoder.rs:324-335` `write_lzw_pre_encoded_frame` -/
def writeLzwPreEncodedFrame (e : PEncoder) (f : Frame) : PEncoder × EOut Unit :=
  let go (_ : Unit) := andThen (e.writeFrameHeader f) fun e () => e.withWriter (PW.writeEncodedImageBlock f.buffer)
  match f.buffer with
  | m :: _ => if m > 11 ∨ m < 2 then (e, .err (.format .invalidMinCodeSize)) else go ()
  | [] => go ()

/-- `src/encoder.rs:362-365` `into_inner`, including the drop of `self` at its end -/
def intoInner (raiiNoPanic : Bool) (e : PEncoder) : PEncoder × EOut Port :=
  match e.writeTrailer with
  | (e, .ok ()) =>
    match e.w with
    | some s =>
      match ({ e with w := none } : PEncoder).drop raiiNoPanic with
      | (e, .panic) => (e, .panic)
      | (e, _) => (e, .ok s)
    | none => (e, .err (.io .unsupported))
  | (e, .err err) =>
    match e.drop raiiNoPanic with
    | (e, .panic) => (e, .panic)
    | (e, _) => (e, .err err)
  | (e, .panic) => (e, .panic)

end PEncoder

/-- Making a call on an encoder with such a writer. -/
def EncOp.runP (C : Codec) (e : PEncoder) : EncOp → PEncoder × EOut Unit
  | .setRepeat r => e.setRepeat r
  | .extension x => e.writeExtension x
  | .rawExtension label data => e.writeRawExtension label data
  | .frame f => e.writeFrame C f
  | .preEncoded f => e.writeLzwPreEncodedFrame f

/-- Making calls, one after the other. -/
def runOpsP (C : Codec) : PEncoder → List EncOp → PEncoder × List (EOut Unit)
  | e, [] => (e, [])
  | e, op :: ops =>
    match op.runP C e with
    | (e, r) =>
      let (e, rs) := runOpsP C e ops
      (e, r :: rs)

end Gif
