import Verif.Model.Decoder
/-!
# Histories of API calls

Which values a program can have in its hands: everything that public calls lead to, in any order and with any arguments,
as long as each call returned. Errors do not end a history.
-/

namespace Gif

/-- One call of `StreamingDecoder::update`: the slice, the output buffer, and what came back. -/
structure UpdateCall where
  slice : List UInt8
  out : OutSpec
  result : Outcome (Nat × Decoded)

/-- `Calls s calls s'`: these calls lead from `s` to `s'`; every one of them returned. -/
inductive Calls {C : Codec} : SD C → List UpdateCall → SD C → Prop
  | nil (s : SD C) : Calls s [] s
  | cons {s s' : SD C} {calls : List UpdateCall} (slice : List UInt8) (out : OutSpec)
      (hr : (s.update slice out).2.returns = true) (h : Calls (s.update slice out).1 calls s') :
      Calls s (⟨slice, out, (s.update slice out).2⟩ :: calls) s'

/-- A streaming decoder made with options `o` is in state `s` after `calls`. -/
def History {C : Codec} (o : DecodeOptions) (calls : List UpdateCall) (s : SD C) : Prop :=
  Calls (SD.withOptions C o) calls s

/-- The event a call returned, if it did. -/
def UpdateCall.event (c : UpdateCall) : Option Decoded :=
  match c.result with
  | .ok (_, ev) => some ev
  | _ => none

/-- The bytes a call consumed. -/
def UpdateCall.consumed (c : UpdateCall) : Nat :=
  match c.result with
  | .ok (n, _) => n
  | _ => 0

/-- The bytes a call wrote to the output buffer. -/
def UpdateCall.produced (c : UpdateCall) : Nat :=
  match c.result with
  | .ok (_, .bytesDecoded bytes) => bytes.length
  | .ok (_, .lzwDataCopied bytes) => bytes.length
  | _ => 0

namespace Decoder

/-- The calls that advance a `Decoder`. -/
inductive Op where
  | nextFrameInfo
  | readNextFrame
  | readIntoBuffer (buf : List UInt8)
  | fillBuffer (buf : List UInt8)

variable {C : Codec}

/-- Performs one call; the value it returns is dropped. -/
def perform (d : Decoder C) : Op → Decoder C × Outcome Unit
  | .nextFrameInfo => match d.nextFrameInfo with
    | (d, .ok _) => (d, .ok ())
    | (d, .err e) => (d, .err e)
    | (d, .panic) => (d, .panic)
    | (d, .diverge) => (d, .diverge)
  | .readNextFrame => match d.readNextFrame with
    | (d, .ok _) => (d, .ok ())
    | (d, .err e) => (d, .err e)
    | (d, .panic) => (d, .panic)
    | (d, .diverge) => (d, .diverge)
  | .readIntoBuffer buf => match d.readIntoBuffer buf with
    | (d, _, r) => (d, r)
  | .fillBuffer buf => match d.fillBuffer buf with
    | (d, _, .ok _) => (d, .ok ())
    | (d, _, .err e) => (d, .err e)
    | (d, _, .panic) => (d, .panic)
    | (d, _, .diverge) => (d, .diverge)

/-- The decoders a program can hold after opening a reader with options `o`. -/
inductive Reach (o : DecodeOptions) (r : Reader) : Decoder C → Prop
  | opened (h : (readInfo C o r).2 = .ok ()) : Reach o r (readInfo C o r).1
  | op {d : Decoder C} (h : Reach o r d) (op : Op) (hr : (d.perform op).2.returns = true) : Reach o r (d.perform op).1

end Decoder

/-- The iterators a program can hold: any decoder can be turned into one. -/
inductive DecoderIter.Reach {C : Codec} (o : DecodeOptions) (r : Reader) : DecoderIter C → Prop
  | new {d : Decoder C} (h : Decoder.Reach o r d) : Reach o r (DecoderIter.new d)
  | next {it : DecoderIter C} (h : Reach o r it) (hr : it.next.2.returns = true) : Reach o r it.next.1

/-- The frame decoders a program can hold. -/
inductive FrameDecoder.Reach {C : Codec} (o : DecodeOptions) : FrameDecoder C → Prop
  | new : Reach o (FrameDecoder.new C o)
  | setGlobalPalette {d : FrameDecoder C} (h : Reach o d) (p : List UInt8) : Reach o (d.setGlobalPalette p)
  | decodeFrame {d : FrameDecoder C} (h : Reach o d) (f : Frame) (hr : (d.decodeFrame f).2.2.returns = true) :
      Reach o (d.decodeFrame f).1
  | decodeIntoBuffer {d : FrameDecoder C} (h : Reach o d) (f : Frame) (buf : List UInt8)
      (hr : (d.decodeIntoBuffer f buf).2.2.returns = true) : Reach o (d.decodeIntoBuffer f buf).1

end Gif
