import Verif.Props.Errors
import Verif.Props.RoundTripCases
import Verif.Ref.Safe
/-!
Every error that `Spec.MayOpen`, `MayFind`, `MayRead`, `MayFill`, `MayFillAll`, `MayStep`, `MayDecode` and `MayDecodeInto` list does
occur, with a small file.
-/

namespace Gif.ErrorCases

open Gif.Spec Gif

def options : DecodeOptions := DecodeOptions.new
def severe : DecodeOptions := { options with checkForEndCode := true, checkFrameConsistency := true }
def limited : DecodeOptions := { options with memoryLimit := .bytes 3 (by decide) }
def rgba : DecodeOptions := { options with colorOutput := .rgba }
def limitedUndecoded : DecodeOptions := { limited with skipFrameDecoding := true }

/-- A screen of one pixel with a global palette, then `rest`. -/
def after (rest : List UInt8) : Reader :=
  readerOn ([0x47, 0x49, 0x46, 0x38, 0x39, 0x61, 1, 0, 1, 0, 0x80, 1, 0, 10, 20, 30, 40, 50, 60] ++ rest)

/-- The same without palette. -/
def bare (rest : List UInt8) : Reader := readerOn ([0x47, 0x49, 0x46, 0x38, 0x39, 0x61, 1, 0, 1, 0, 0, 1, 0] ++ rest)

/-- An image of one pixel; the other images have no pixel, no end code, an undefined code, an undefined code after the pixel, no width. -/
def image : List UInt8 := [0x2C, 0, 0, 0, 0, 1, 0, 1, 0, 0, 2, 2, 0x4C, 1, 0]
def short : List UInt8 := [0x2C, 0, 0, 0, 0, 1, 0, 1, 0, 0, 2, 1, 0x2C, 0]
def endless : List UInt8 := [0x2C, 0, 0, 0, 0, 1, 0, 1, 0, 0, 2, 1, 0x24, 0]
def undefinedCode : List UInt8 := [0x2C, 0, 0, 0, 0, 1, 0, 1, 0, 0, 2, 2, 0xFC, 0xFF, 0]
def undefinedNext : List UInt8 := [0x2C, 0, 0, 0, 0, 1, 0, 1, 0, 0, 2, 2, 0xC4, 0xFF, 0, 0]
def flat : List UInt8 := [0x2C, 0, 0, 0, 0, 0, 0, 1, 0, 0, 2, 2, 0x4C, 1, 0]

/-- The error of the last call, if all calls before succeed. -/
def failure (o : DecodeOptions) (r : Reader) (before : List Decoder.Op) (last : Decoder.Op) : Option DecodingError :=
  go (Decoder.readInfo Ref.lzw o r) before
where
  go : Decoder Ref.lzw × Outcome Unit → List Decoder.Op → Option DecodingError
    | (d, .ok ()), op :: before => go (d.perform op) before
    | (d, .ok ()), [] => match (d.perform last).2 with
      | .err e => some e
      | _ => none
    | _, _ => none

def openFailure (o : DecodeOptions) (r : Reader) : Option DecodingError :=
  match (Decoder.readInfo Ref.lzw o r).2 with
  | .err e => some e
  | _ => none

/-- The first error when the bytes are fed to `update`. -/
def fileFailure (bytes : List UInt8) (out : OutSpec) : Nat → SD Ref.lzw → Option DecodingError
  | 0, _ => none
  | fuel + 1, s => match s.update bytes out with
    | (s, .ok (n, _)) => fileFailure (bytes.drop n) out fuel s
    | (_, .err e) => some e
    | _ => none

def frameOf (w h : UInt16) (data : List UInt8) : Frame := { Frame.default with width := w, height := h, buffer := data }

def decodeFailure (o : DecodeOptions) (f : Frame) : Option DecodingError :=
  match ((FrameDecoder.new Ref.lzw o).decodeFrame f).2.2 with
  | .err e => some e
  | _ => none

def decodeIntoFailure (o : DecodeOptions) (f : Frame) (n : Nat) : Option DecodingError :=
  match ((FrameDecoder.new Ref.lzw o).decodeIntoBuffer f (List.replicate n 0)).2.2 with
  | .err e => some e
  | _ => none

/-- `Spec.MayOpen` -/
theorem open_occurs :
    openFailure options (readerOn [0x47, 0x49, 0x46, 0x38, 0x38, 0x61]) = some (.format .malformedHeader) ∧
    openFailure options (after [0x21, 0]) = some (.format .unknownBlock) ∧
    openFailure options (after [0x21, 0xF9, 3, 0, 0, 0, 0]) = some (.format .controlWrongLength) ∧
    openFailure limited (after [0x21, 0xFE, 4, 0, 0, 0, 0, 0]) = some (.format .memoryLimit) ∧
    openFailure options ⟨[], []⟩ = some (.io .unexpectedEof) ∧
    openFailure options ⟨[], [.err 7]⟩ = some (.io (.reader 7)) := by
  decide +kernel

/-- `Spec.MayFind` -/
theorem find_occurs :
    failure options (after [0x99, 0]) [] .nextFrameInfo = some (.format .unknownBlock) ∧
    failure options (after (image ++ [0x21, 0xF9, 3, 0, 0, 0, 0])) [.nextFrameInfo] .nextFrameInfo = some (.format .controlWrongLength) ∧
    failure options (after [0x2C, 0, 0, 0, 0, 1, 0, 1, 0, 0, 12, 0]) [] .nextFrameInfo = some (.format .invalidMinCodeSize) ∧
    failure limited (after (image ++ [0x21, 0xFE, 4, 0, 0, 0, 0, 0])) [.nextFrameInfo] .nextFrameInfo = some (.format .memoryLimit) ∧
    failure severe (after [0x2C, 1, 0, 0, 0, 1, 0, 1, 0, 0]) [] .nextFrameInfo = some (.format .frameOutOfBounds) ∧
    failure options (bare image) [] .nextFrameInfo = some (.format .noColorTable) ∧
    failure severe (after endless) [.nextFrameInfo] .nextFrameInfo = some (.io .noEndCode) ∧
    failure options (after undefinedNext) [.readNextFrame] .nextFrameInfo = some (.io .invalidCode) ∧
    failure options (after [0x2C, 0]) [] .nextFrameInfo = some (.io .unexpectedEof) ∧
    failure options { after [0x2C, 0] with src := (after [0x2C, 0]).src ++ [.err 7] } [] .nextFrameInfo = some (.io (.reader 7)) := by
  decide +kernel

/-- `Spec.MayRead`, what it has more than `MayFind`. Also: the errors in the data of the image. -/
theorem read_occurs :
    failure options (after short) [] .readNextFrame = some (.format .imageTruncated) ∧
    failure rgba (after flat) [] .readNextFrame = some (.format .oddSizedBuffer) ∧
    failure { limited with colorOutput := .rgba } (after image) [] .readNextFrame = some (.io .outOfMemory) ∧
    failure limitedUndecoded (after [0x2C, 0, 0, 0, 0, 1, 0, 1, 0, 0, 2, 4, 0x4C, 1, 0, 0, 0]) [] .readNextFrame =
      some (.format .memoryLimit) ∧
    failure severe (after endless) [] .readNextFrame = some (.io .noEndCode) ∧
    failure options (after undefinedCode) [] .readNextFrame = some (.io .invalidCode) := by
  decide +kernel

/-- `Spec.MayFill`, what it has more than `MayFind`, and `Spec.MayFillAll`, what it has more than `MayFill`. -/
theorem fill_occurs :
    failure options (after image) [] (.fillBuffer [0]) = some (.format .unexpectedData) ∧
    failure rgba (after image) [.nextFrameInfo] (.fillBuffer [0, 0, 0]) = some (.format .oddSizedBuffer) ∧
    failure options (after short) [.nextFrameInfo] (.readIntoBuffer [0]) = some (.format .imageTruncated) ∧
    failure options (after image) [.nextFrameInfo] (.readIntoBuffer []) = some (.format .bufferTooSmall) := by
  decide +kernel

/-- `Spec.MayStep`, what `MayOpen` and `MayFind` do not have: the vector that is only meant for undecoded data. -/
theorem update_occurs :
    fileFailure ([0x47, 0x49, 0x46, 0x38, 0x39, 0x61, 1, 0, 1, 0, 0, 1, 0] ++ image) (.vec 0) 20 (SD.withOptions Ref.lzw options) =
      some (.io .unsupported) := by
  decide +kernel

/-- `Spec.MayDecode` and `Spec.MayDecodeInto` -/
theorem decode_occurs :
    decodeFailure options (frameOf 1 1 [12]) = some (.format .invalidMinCodeSize) ∧
    decodeFailure options (frameOf 1 1 [2, 0x2C]) = some (.format .imageTruncated) ∧
    decodeFailure rgba (frameOf 0 1 [2, 0x4C, 1]) = some (.format .oddSizedBuffer) ∧
    decodeFailure limited (frameOf 2 2 [2, 0x4C, 1]) = some (.io .outOfMemory) ∧
    decodeFailure severe (frameOf 2 1 [2, 0x04]) = some (.io .noEndCode) ∧
    decodeFailure options (frameOf 1 1 [2, 0xFC, 0xFF]) = some (.io .invalidCode) ∧
    decodeIntoFailure options (frameOf 1 1 [2, 0x4C, 1]) 0 = some (.format .bufferTooSmall) := by
  decide +kernel

/-- What the theorems say for these cases. -/
example : MayFind severe (after endless) (some [10, 20, 30, 40, 50, 60]) (.io .noEndCode) ∧
    ¬ MayFind options (after endless) (some [10, 20, 30, 40, 50, 60]) (.io .noEndCode) :=
  ⟨⟨rfl, rfl⟩, fun h => nomatch h.2⟩

end Gif.ErrorCases
