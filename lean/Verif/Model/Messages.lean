import Verif.Model.Encoder
import Verif.Model.Decoder
/-!
# `Display` and `Error::source` of the error types

The model has one constructor per message. Here are the messages, and what a program gets to see of an error: its variant, its text, its
`source`, the source of that, and so on. Texts and kinds of `io::Error` values that are made from a kind are those of the Rust standard
library. The text of weezl's `LzwError::InvalidCode` and the errors of the reader or writer are parameters.
-/

namespace Gif

/-- The messages of all call sites of `DecodingError::format`: `src/reader/decoder.rs:265, 278, 468, 547, 578, 592, 636, 648, 786`,
`src/reader/mod.rs:57, 235, 297-299, 319-321, 389, 420-422`, `src/reader/converter.rs:102, 172-181`. -/
def FormatErr.message : FormatErr → String
  | .malformedHeader => "malformed GIF header"
  | .frameOutOfBounds => "frame descriptor is out-of-bounds"
  | .unknownBlock => "unknown block type encountered"
  | .controlWrongLength => "control extension has wrong length"
  | .invalidMinCodeSize => "invalid minimal code size"
  | .badState => "bad state"
  | .memoryLimit => "memory limit reached"
  | .noImageData => "file does not contain any image data"
  | .noColorTable => "no color table available for current frame"
  | .unexpectedData => "unexpected data"
  | .oddSizedBuffer => "odd-sized buffer"
  | .bufferTooSmall => "buffer too small"
  | .imageTruncated => "image truncated"

/-- `io::ErrorKind`, as far as the crate uses it; `other n` are all the others. -/
inductive IoKind where
  | unexpectedEof | outOfMemory | unsupported | invalidData | invalidInput | writeZero
  | other (n : Nat)
deriving DecidableEq, Repr

/-- What a program sees of an `io::Error`: `kind()` and `to_string()`. -/
structure IoValue where
  kind : IoKind
  text : String
deriving DecidableEq, Repr

/-- The `io::Error` values of `src/reader/mod.rs:210`, `src/reader/decoder.rs:289-307, 538` and `src/reader/converter.rs:49`. An error of the
reader is passed on by `?` (`From<io::Error>`, `src/reader/decoder.rs:78-83`). Simplification: allocation succeeds; a refused `try_reserve`
(`src/reader/decoder.rs:376, 563, 601, 670`, `src/reader/mod.rs:354`), which has the text "out of memory", is not told from
`src/reader/converter.rs:49`. -/
def IoErr.value (lzw : String) (rd : Nat → IoValue) : IoErr → IoValue
  | .unexpectedEof => ⟨.unexpectedEof, "unexpected end of file"⟩
  | .outOfMemory => ⟨.outOfMemory, "image is too large"⟩
  | .unsupported => ⟨.unsupported, "unsupported"⟩
  | .noEndCode => ⟨.invalidData, "no end code in lzw stream"⟩
  | .invalidCode => ⟨.invalidData, lzw⟩
  | .reader c => rd c

/-- `src/encoder.rs:26-35` `Display for EncodingFormatError` -/
def EncodingFormatErr.message : EncodingFormatErr → String
  | .tooManyColors => "the image has too many colors"
  | .missingColorPalette => "the GIF format requires a color palette but none was given"
  | .invalidMinCodeSize => "LZW data is invalid"

/-- The `io::Error` values of `src/encoder.rs:171, 217, 220, 364, 374, 483`. An error of the writer is passed on by `?`
(`From<io::Error>`, `src/encoder.rs:66-71`). -/
def EncodingIoErr.value (wr : Nat → IoValue) : EncodingIoErr → IoValue
  | .invalidInput => ⟨.invalidInput, "frame.buffer is too small for its width/height"⟩
  | .unsupported => ⟨.unsupported, "unsupported"⟩
  | .writeZero => ⟨.writeZero, "write zero"⟩
  | .outOfMemory => ⟨.outOfMemory, "out of memory"⟩
  | .writer c => wr c

/-- The values that can occur as an error or as the `source` of one. A string error is the `underlying` of
`DecodingFormatError { underlying: err.into() }` (`src/reader/decoder.rs:51-56`). -/
inductive ErrValue where
  | decoding (e : DecodingError)
  | decodingFormat (e : FormatErr)
  | text (s : String)
  | encoding (e : EncodingError)
  | encodingFormat (e : EncodingFormatErr)
  | io (v : IoValue)
deriving DecidableEq, Repr

namespace ErrValue

variable (lzw : String) (rd : Nat → IoValue)

/-- `Display`: `src/reader/decoder.rs:26-31` (`DecodingFormatError`), `58-66` (`DecodingError`), `src/encoder.rs:26-35`
(`EncodingFormatError`), `46-54` (`EncodingError`); `String` and `io::Error` of the standard library. -/
def display : ErrValue → String
  | .decoding (.format e) => e.message
  | .decoding (.io e) => (e.value lzw rd).text
  | .decodingFormat e => e.message
  | .text s => s
  | .encoding (.io e) => (e.value rd).text
  | .encoding (.format e) => e.message
  | .encodingFormat e => e.message
  | .io v => v.text

/-- `Error::source`: `src/reader/decoder.rs:33-38` (`DecodingFormatError`), `68-76` (`DecodingError`), `src/encoder.rs:25`
(`EncodingFormatError`), `56-64` (`EncodingError`). String errors have none. Simplification: nor has an `io::Error`; errors inside of one
of the reader or writer are not followed. -/
def source : ErrValue → Option ErrValue
  | .decoding (.format e) => some (.decodingFormat e)
  | .decoding (.io e) => some (.io (e.value lzw rd))
  | .decodingFormat e => some (.text e.message)
  | .text _ => none
  | .encoding (.io e) => some (.io (e.value rd))
  | .encoding (.format e) => some (.encodingFormat e)
  | .encodingFormat _ => none
  | .io _ => none

end ErrValue

end Gif
