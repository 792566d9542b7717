import Verif.Model.Decoder
/-!
# Which errors the calls can report

Under the options `o` and with the reader `r`. Everything that is not listed cannot occur.
-/

namespace Gif.Spec

/-- `DecodeOptions::read_info` and `Decoder::new` -/
def MayOpen (o : DecodeOptions) (r : Reader) : DecodingError → Prop
  | .format .malformedHeader => True
  | .format .unknownBlock => True
  | .format .controlWrongLength => True
  | .format .memoryLimit => o.memoryLimit ≠ .unlimited
  | .io .unexpectedEof => True
  | .io (.reader c) => .err c ∈ r.src
  | _ => False

/-- `Decoder::next_frame_info`, with the global palette `pal` -/
def MayFind (o : DecodeOptions) (r : Reader) (pal : Option (List UInt8)) : DecodingError → Prop
  | .format .unknownBlock => True
  | .format .controlWrongLength => True
  | .format .invalidMinCodeSize => True
  | .format .memoryLimit => o.memoryLimit ≠ .unlimited
  | .format .frameOutOfBounds => o.checkFrameConsistency = true
  | .format .noColorTable => pal = none
  | .io .noEndCode => o.skipFrameDecoding = false ∧ o.checkForEndCode = true
  | .io .invalidCode => o.skipFrameDecoding = false
  | .io .unexpectedEof => True
  | .io (.reader c) => .err c ∈ r.src
  | _ => False

/-- `Decoder::read_next_frame` and the iterator -/
def MayRead (o : DecodeOptions) (r : Reader) (pal : Option (List UInt8)) : DecodingError → Prop
  | .format .imageTruncated => o.skipFrameDecoding = false
  | .format .oddSizedBuffer => o.skipFrameDecoding = false ∧ o.colorOutput = .rgba
  | .io .outOfMemory => o.skipFrameDecoding = false ∧ o.memoryLimit ≠ .unlimited
  | e => MayFind o r pal e

/-- `Decoder::fill_buffer`, wherever the decoder stands -/
def MayFill (o : DecodeOptions) (r : Reader) : DecodingError → Prop
  | .format .unexpectedData => True
  | .format .oddSizedBuffer => o.colorOutput = .rgba
  | .format .noColorTable => False
  | e => MayFind o r none e

/-- `Decoder::read_into_buffer`, wherever the decoder stands -/
def MayFillAll (o : DecodeOptions) (r : Reader) : DecodingError → Prop
  | .format .imageTruncated => True
  | .format .bufferTooSmall => True
  | e => MayFill o r e

/-- `StreamingDecoder::update` with the output buffer `out` -/
def MayStep (o : DecodeOptions) (out : OutSpec) : DecodingError → Prop
  | .format .malformedHeader => True
  | .format .unknownBlock => True
  | .format .controlWrongLength => True
  | .format .invalidMinCodeSize => True
  | .format .memoryLimit => o.memoryLimit ≠ .unlimited
  | .format .frameOutOfBounds => o.checkFrameConsistency = true
  | .io .noEndCode => o.skipFrameDecoding = false ∧ o.checkForEndCode = true
  | .io .invalidCode => o.skipFrameDecoding = false
  | .io .unsupported => o.skipFrameDecoding = false ∧ ∃ n, out = .vec n
  | _ => False

/-- `FrameDecoder::decode_lzw_encoded_frame` -/
def MayDecode (o : DecodeOptions) : DecodingError → Prop
  | .format .invalidMinCodeSize => True
  | .format .imageTruncated => True
  | .format .oddSizedBuffer => o.colorOutput = .rgba
  | .io .outOfMemory => o.memoryLimit ≠ .unlimited
  | .io .noEndCode => o.checkForEndCode = true
  | .io .invalidCode => True
  | _ => False

/-- `FrameDecoder::decode_lzw_encoded_frame_into_buffer` -/
def MayDecodeInto (o : DecodeOptions) : DecodingError → Prop
  | .format .bufferTooSmall => True
  | .io .outOfMemory => False
  | e => MayDecode o e

end Gif.Spec
