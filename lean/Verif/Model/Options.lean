import Verif.Model.Common
/-!
# `src/reader/mod.rs:24-195`: memory limit and decode options
-/

namespace Gif

/-- `src/reader/converter.rs:15-24` `ColorOutput` -/
inductive ColorOutput where
  | rgba | indexed
deriving DecidableEq, Repr

/-- `src/reader/mod.rs:26-47` `MemoryLimit`; `Bytes` holds a `NonZeroU64`. -/
inductive MemoryLimit where
  | unlimited
  | bytes (limit : Nat) (nonzero : 0 < limit)
deriving DecidableEq, Repr

namespace MemoryLimit

/-- `src/reader/mod.rs:50-61` `check_size`: is the size accepted? (Otherwise "memory limit reached".) -/
def sizeOk (m : MemoryLimit) (size : Nat) : Bool :=
  match m with
  | .unlimited => true
  | .bytes limit _ => decide (size ≤ limit)

/-- `src/reader/mod.rs:63-87` `buffer_size` on a platform whose largest `usize` is `usizeMax`. -/
def bufferSizeOn (usizeMax : Nat) (m : MemoryLimit) (color : ColorOutput) (width height : UInt16) : Option Nat :=
  let pixels := width.toNat * height.toNat
  let bytesPerPixel := match color with
    | .indexed => 1
    | .rgba => 4
  let totalBytes := pixels * bytesPerPixel
  if totalBytes ≤ usizeMax then
    match m with
    | .unlimited => some totalBytes
    | .bytes limit _ => if totalBytes > limit then none else some totalBytes
  else none

/-- `buffer_size` on a 64-bit platform, which the decoder model assumes. -/
def bufferSize (m : MemoryLimit) (color : ColorOutput) (width height : UInt16) : Option Nat :=
  bufferSizeOn (2 ^ 64 - 1) m color width height

end MemoryLimit

/-- `src/reader/mod.rs:92-99` `DecodeOptions` -/
structure DecodeOptions where
  memoryLimit : MemoryLimit
  colorOutput : ColorOutput
  checkFrameConsistency : Bool
  skipFrameDecoding : Bool
  checkForEndCode : Bool
  allowUnknownBlocks : Bool

/-- `src/reader/mod.rs:111-120` `DecodeOptions::new` -/
def DecodeOptions.new : DecodeOptions where
  memoryLimit := .bytes 50000000 (by decide)
  colorOutput := .indexed
  checkFrameConsistency := false
  skipFrameDecoding := false
  checkForEndCode := false
  allowUnknownBlocks := false

end Gif
