/-!
# Basic vocabulary of the model: bytes, outcomes and errors
-/

namespace Gif

/-- `src/reader/decoder.rs:49-56` and all call sites of `DecodingError::format`: one constructor per message. -/
inductive FormatErr where
  | malformedHeader       -- decoder.rs:547
  | frameOutOfBounds      -- decoder.rs:592
  | unknownBlock          -- decoder.rs:636, 648
  | controlWrongLength    -- decoder.rs:786
  | invalidMinCodeSize    -- decoder.rs:265
  | badState              -- decoder.rs:278, 468, 578
  | memoryLimit           -- mod.rs:57
  | noImageData           -- mod.rs:297-299
  | noColorTable          -- mod.rs:319-321, 420-422
  | unexpectedData        -- mod.rs:235, 389
  | oddSizedBuffer        -- converter.rs:102
  | bufferTooSmall        -- converter.rs:172, 179
  | imageTruncated        -- converter.rs:174, 181
deriving DecidableEq, Repr

/-- `io::Error` values the decoder can produce or pass on. -/
inductive IoErr where
  | unexpectedEof         -- mod.rs:210, decoder.rs:538
  | outOfMemory           -- converter.rs:49
  | unsupported           -- decoder.rs:289, 294
  | noEndCode             -- decoder.rs:303 (`InvalidData`, "no end code in lzw stream")
  | invalidCode           -- decoder.rs:307 (`InvalidData`, `LzwError::InvalidCode`)
  | reader (code : Nat)   -- any error returned by the user's `Read`
deriving DecidableEq, Repr

/-- `src/reader/decoder.rs:42-47` `DecodingError`. -/
inductive DecodingError where
  | format (e : FormatErr)
  | io (e : IoErr)
deriving DecidableEq, Repr

/-- Result of running a Rust function: `Ok`, `Err`, a panic, or no result because a loop does not end
(in the model: because its fuel ran out). -/
inductive Outcome (α : Type) where
  | ok (a : α)
  | err (e : DecodingError)
  | panic
  | diverge
deriving DecidableEq, Repr

namespace Outcome

/-- Short-hand for `Err(DecodingError::format(..))`. -/
abbrev fmtErr {α : Type} (e : FormatErr) : Outcome α := .err (.format e)

/-- Short-hand for `Err(DecodingError::Io(..))`. -/
abbrev ioErr {α : Type} (e : IoErr) : Outcome α := .err (.io e)

/-- The outcome is `Ok` or `Err`: the call returned to its caller. -/
def returns {α : Type} : Outcome α → Bool
  | .ok _ => true
  | .err _ => true
  | .panic => false
  | .diverge => false

end Outcome

/-- `u16::from_le_bytes([lo, hi])`. -/
def u16le (lo hi : UInt8) : UInt16 := UInt16.ofNat (lo.toNat + 256 * hi.toNat)

/-- `n as u8` for `n : u16`. -/
def lo8 (n : UInt16) : UInt8 := UInt8.ofNat (n.toNat % 256)

/-- `(n >> 8) as u8` for `n : u16`. -/
def hi8 (n : UInt16) : UInt8 := UInt8.ofNat (n.toNat / 256)

end Gif
