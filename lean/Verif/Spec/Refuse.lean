import Verif.Spec.Film
import Verif.Spec.History
import Verif.Model.Refuse
/-!
# Histories and sessions with an allocator that may refuse
-/

namespace Gif

namespace Decoder

variable {C : Codec}

/-- Performs one call; the value it returns is dropped. -/
def performOn (d : Decoder C) (as : Answers) : Op → Decoder C × Outcome Unit
  | .nextFrameInfo => match d.nextFrameInfoOn as with
    | ((d, _), .ok _) => (d, .ok ())
    | ((d, _), .err e) => (d, .err e)
    | ((d, _), .panic) => (d, .panic)
    | ((d, _), .diverge) => (d, .diverge)
  | .readNextFrame => match d.readNextFrameRoom as with
    | ((d, _), .ok _) => (d, .ok ())
    | ((d, _), .err e) => (d, .err e)
    | ((d, _), .panic) => (d, .panic)
    | ((d, _), .diverge) => (d, .diverge)
  | .readIntoBuffer buf => match d.readIntoBufferOn as buf with
    | ((d, _), _, r) => (d, r)
  | .fillBuffer buf => match d.fillBufferOn as buf with
    | ((d, _), _, .ok _) => (d, .ok ())
    | ((d, _), _, .err e) => (d, .err e)
    | ((d, _), _, .panic) => (d, .panic)
    | ((d, _), _, .diverge) => (d, .diverge)

/-- The decoders a program can hold, whatever the allocator answered. Errors do not end the history: a program may go on after
`OutOfMemory`. -/
inductive ReachOn (o : DecodeOptions) (r : Reader) : Decoder C → Prop
  | opened (as : Answers) (h : (readInfoOn C o r as).2 = .ok ()) : ReachOn o r (readInfoOn C o r as).1.1
  | op {d : Decoder C} (h : ReachOn o r d) (as : Answers) (op : Op) (hr : (d.performOn as op).2.returns = true) :
      ReachOn o r (d.performOn as op).1

/-- `Decoder.act` with the answers of the allocator. -/
def actOn (d : Decoder C) (as : Answers) (live : Bool) : Act → List Got × Option ((Decoder C × Answers) × Bool)
  | .info => match d.nextFrameInfoOn as with
    | (t, .ok found) => ([.seen (.info found t.1.view)], some (t, found))
    | (_, .err e) => ([.seen (.failed e)], none)
    | _ => ([.seen .crashed], none)
  | .read => match d.readNextFrameRoom as with
    | (t, .ok f) => ([.seen (.frame f t.1.view)], some (t, false))
    | (_, .err e) => ([.seen (.failed e)], none)
    | _ => ([.seen .crashed], none)
  | .fill n =>
    if live then
      match d.fillBufferOn as (List.replicate ((n + 1) * Spec.channels d.conv.colorOutput) 0) with
      | (t, buf, .ok more) => ([.filled buf more], some (t, more))
      | (_, _, .err e) => ([.seen (.failed e)], none)
      | _ => ([.seen .crashed], none)
    else ([], some ((d, as), live))
  | .into =>
    if live then
      match d.readIntoBufferOn as (List.replicate d.bufferSize 0) with
      | (t, buf, .ok ()) => ([.image buf], some (t, true))
      | (_, _, .err e) => ([.seen (.failed e)], none)
      | _ => ([.seen .crashed], none)
    else ([], some ((d, as), live))

/-- Performs calls up to the first error. -/
def filmOn : List Act → Decoder C → Answers → Bool → List Got
  | [], _, _, _ => []
  | a :: acts, d, as, live =>
    match d.actOn as live a with
    | (x, some ((d', as'), live')) => x ++ filmOn acts d' as' live'
    | (x, none) => x

/-- A whole session: `read_info`, then the calls. -/
def filmFromOn (C : Codec) (o : DecodeOptions) (r : Reader) (as : Answers) (acts : List Act) : List Got :=
  match readInfoOn C o r as with
  | ((d, as), .ok ()) => .seen (.opened d.view) :: filmOn acts d as false
  | (_, .err e) => [.seen (.failed e)]
  | _ => [.seen .crashed]

end Decoder

/-- The iterators a program can hold, whatever the allocator answered. -/
inductive DecoderIter.ReachOn {C : Codec} (o : DecodeOptions) (r : Reader) : DecoderIter C → Prop
  | new {d : Decoder C} (h : Decoder.ReachOn o r d) : ReachOn o r (DecoderIter.new d)
  | next {it : DecoderIter C} (h : ReachOn o r it) (as : Answers) (hr : (it.nextOn as).2.returns = true) :
      ReachOn o r (it.nextOn as).1.1

end Gif
