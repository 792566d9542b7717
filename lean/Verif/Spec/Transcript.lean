import Verif.Spec.Session
/-!
# Everything a program is told by a decoder

Unlike the sessions of `Spec/Session.lean` and `Spec/Film.lean`, the calls go on after errors, and buffers have any size and any
contents.
-/

namespace Gif

/-- The calls of a program. -/
inductive Ask where
  | info
  | read
  | fill (buf : List UInt8)
  | into (buf : List UInt8)
  | take
deriving DecidableEq, Repr

/-- What a call returned, with the buffer if the call succeeded. -/
inductive Told where
  | opened (x : Outcome Unit)
  | info (x : Outcome Bool)
  | frame (x : Outcome (Option Frame))
  | filled (x : Outcome (List UInt8 × Bool))
  | image (x : Outcome (List UInt8))
  | taken (f : Option Frame)
deriving DecidableEq, Repr

/-- The call reported that the input came to its end. -/
def Told.eof : Told → Bool
  | .opened x => x == .ioErr .unexpectedEof
  | .info x => x == .ioErr .unexpectedEof
  | .frame x => x == .ioErr .unexpectedEof
  | .filled x => x == .ioErr .unexpectedEof
  | .image x => x == .ioErr .unexpectedEof
  | .taken _ => false

namespace Decoder

variable {C : Codec}

/-- One call: the decoder after it and what it returned. -/
def ask (d : Decoder C) : Ask → Decoder C × Told
  | .info => match d.nextFrameInfo with
    | (d, x) => (d, .info x)
  | .read => match d.readNextFrame with
    | (d, x) => (d, .frame x)
  | .fill buf => match d.fillBuffer buf with
    | (d, buf, .ok more) => (d, .filled (.ok (buf, more)))
    | (d, _, .err e) => (d, .filled (.err e))
    | (d, _, .panic) => (d, .filled .panic)
    | (d, _, .diverge) => (d, .filled .diverge)
  | .into buf => match d.readIntoBuffer buf with
    | (d, buf, .ok ()) => (d, .image (.ok buf))
    | (d, _, .err e) => (d, .image (.err e))
    | (d, _, .panic) => (d, .image .panic)
    | (d, _, .diverge) => (d, .image .diverge)
  | .take => match d.takeCurrentFrame with
    | (d, f) => (d, .taken f)

/-- The decoder after some calls. -/
def after : List Ask → Decoder C → Decoder C
  | [], d => d
  | a :: as, d => after as (d.ask a).1

/-- What the calls return, and what the accessors show after each of them. -/
def transcript : List Ask → Decoder C → List (Told × View)
  | [], _ => []
  | a :: as, d => ((d.ask a).2, (d.ask a).1.view) :: transcript as (d.ask a).1

/-- `read_info`, and the calls if it succeeds. -/
def transcriptFrom (C : Codec) (o : DecodeOptions) (r : Reader) (as : List Ask) : List (Told × View) :=
  match readInfo C o r with
  | (d, .ok ()) => (.opened (.ok ()), d.view) :: transcript as d
  | (d, x) => [(.opened x, d.view)]

end Decoder

end Gif
