import Verif.Model.Decoder
/-!
# What a program sees of a decoding session

A session opens a reader and then calls `next_frame_info` and `read_next_frame` in some order until the first error. All
that the calls return and all that the accessors show is recorded.
-/

namespace Gif

namespace Reader

/-- A reader that reports end of file only at the end. -/
def Clean (r : Reader) : Prop := ∀ bs, .data bs ∈ r.src → bs ≠ []

/-- A reader that hands over its bytes in non-empty pieces of any size, without errors. -/
def Reliable (r : Reader) : Prop := ∀ ev ∈ r.src, ∃ bs, ev = .data bs ∧ bs ≠ []

/-- The same reader without its errors. -/
def withoutErrors (r : Reader) : Reader :=
  { r with src := r.src.filter fun
      | .data _ => true
      | .err _ => false }

/-- The errors that are still to come. -/
def errors (r : Reader) : List Nat :=
  r.src.filterMap fun
    | .data _ => none
    | .err c => some c

end Reader

/-- What the accessors of a decoder show. -/
structure View where
  width : UInt16
  height : UInt16
  globalPalette : Option (List UInt8)
  bgColor : Option UInt8
  repetition : Repeat
  currentFrame : Frame
deriving DecidableEq, Repr

/-- What the accessors of a decoder show. -/
def Decoder.view {C : Codec} (d : Decoder C) : View where
  width := d.width
  height := d.height
  globalPalette := d.globalPalette
  bgColor := d.bgColor
  repetition := d.repetition
  currentFrame := d.currentFrame

/-- What a call returned and what the accessors show after it. -/
inductive Seen where
  | opened (v : View)
  | info (found : Bool) (v : View)
  | frame (f : Option Frame) (v : View)
  | failed (e : DecodingError)
  | crashed
deriving DecidableEq, Repr

/-- The calls of a session. -/
inductive Call where
  | info
  | read
deriving DecidableEq, Repr

namespace Decoder

variable {C : Codec}

/-- What is seen of one call, and the decoder for the next one if the session goes on. -/
def see (d : Decoder C) : Call → Seen × Option (Decoder C)
  | .info => match d.nextFrameInfo with
    | (d', .ok found) => (.info found d'.view, some d')
    | (_, .err e) => (.failed e, none)
    | _ => (.crashed, none)
  | .read => match d.readNextFrame with
    | (d', .ok f) => (.frame f d'.view, some d')
    | (_, .err e) => (.failed e, none)
    | _ => (.crashed, none)

/-- Performs calls up to the first error. -/
def session : List Call → Decoder C → List Seen
  | [], _ => []
  | c :: cs, d =>
    match d.see c with
    | (x, some d') => x :: session cs d'
    | (x, none) => [x]

/-- A whole session: `read_info`, then the calls. -/
def sessionFrom (C : Codec) (o : DecodeOptions) (r : Reader) (cs : List Call) : List Seen :=
  match readInfo C o r with
  | (d, .ok ()) => .opened d.view :: session cs d
  | (_, .err e) => [.failed e]
  | _ => [.crashed]

/-- `next_frame_info`, called again (at most `n` times) when the reader reported an error. -/
def patientInfo : Nat → Decoder C → Decoder C × Outcome Bool
  | 0, d => d.nextFrameInfo
  | n + 1, d =>
    match d.nextFrameInfo with
    | (d', .err (.io (.reader _))) => patientInfo n d'
    | x => x

/-- Calls `next_frame_info`, in the given way, `k` times or up to the first error. -/
def scan (call : Decoder C → Decoder C × Outcome Bool) : Nat → Decoder C → List Seen
  | 0, _ => []
  | k + 1, d =>
    match call d with
    | (d', .ok found) => .info found d'.view :: scan call k d'
    | (_, .err e) => [.failed e]
    | _ => [.crashed]

end Decoder

end Gif
