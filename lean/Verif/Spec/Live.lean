import Verif.Spec.Growing
import Verif.Spec.RoundTrip
/-!
# Following a file while it is being written
-/

namespace Gif

namespace Reader

/-- Whenever the reader has no bytes to give, the bytes it has given so far satisfy `stops`. -/
def InStep (r : Reader) (stops : List UInt8 → Prop) : Prop :=
  ∀ pre ev post, r.src = pre ++ ev :: post → ev.gave = false → stops (bytes { r with src := pre })

end Reader

namespace Decoder

variable {C : Codec}

/-- `read_next_frame`, called again (at most `n` times) when the reader reported an error or the end of the file came too
early. -/
def waitRead : Nat → Decoder C → Decoder C × Outcome (Option Frame)
  | 0, d => d.readNextFrame
  | n + 1, d =>
    match d.readNextFrame with
    | (d', .err (.io (.reader _))) => waitRead n d'
    | (d', .err (.io .unexpectedEof)) => waitRead n d'
    | x => x

/-- Reads `k` frames in this way, or up to the first error. -/
def follow (n : Nat) : Nat → Decoder C → List Seen
  | 0, _ => []
  | k + 1, d =>
    match d.waitRead n with
    | (d', .ok f) => .frame f d'.view :: follow n k d'
    | (_, .err e) => [.failed e]
    | _ => [.crashed]

/-- A program that opens a file and follows it. -/
def followFrom (C : Codec) (o : DecodeOptions) (r : Reader) (n k : Nat) : List Seen :=
  match readInfo C o r with
  | (d, .ok ()) => .opened d.view :: follow n k d
  | (_, .err e) => [.failed e]
  | _ => [.crashed]

end Decoder

/-- What the writer has received after `Encoder::new` and the calls, while the encoder is still in use. -/
def sentBy (C : Codec) (np : Bool) (w h : UInt16) (pal : List UInt8) (ops : List EncOp) : Option (List UInt8) :=
  match Encoder.new np { written := [], plan := [] } w h pal with
  | (e, .ok ()) => (runOps C e ops).1.w.map (·.written)
  | _ => none

end Gif
