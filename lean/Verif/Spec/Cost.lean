import Verif.Spec.Transcript
/-!
# Programs that read all frames
-/

namespace Gif

/-- Whether the call told of a frame. -/
def Told.announces : Told → Bool
  | .info (.ok true) => true
  | .frame (.ok (some _)) => true
  | _ => false

/-- The number of frames a program was told of. -/
def announced (l : List (Told × View)) : Nat := (l.filter fun x => x.1.announces).length

variable {C : Codec}

/-- `while let Some(frame) = decoder.read_next_frame()? { … }`: the frames, and what the loop ends with. -/
inductive Decoder.Looped : Decoder C → List Frame → Outcome Unit → Prop
  | done {d d' : Decoder C} : d.readNextFrame = (d', .ok none) → Looped d [] (.ok ())
  | err {d d' : Decoder C} {e : DecodingError} : d.readNextFrame = (d', .err e) → Looped d [] (.err e)
  | panic {d d' : Decoder C} : d.readNextFrame = (d', .panic) → Looped d [] .panic
  | diverge {d d' : Decoder C} : d.readNextFrame = (d', .diverge) → Looped d [] .diverge
  | frame {d d1 : Decoder C} {f : Frame} {fs : List Frame} {x : Outcome Unit} : d.readNextFrame = (d1, .ok (some f)) →
      Looped d1 fs x → Looped d (f :: fs) x

/-- `for frame in decoder { … }`: the items. -/
inductive DecoderIter.Items : DecoderIter C → List (Except DecodingError Frame) → Prop
  | done {it it' : DecoderIter C} : it.next = (it', .ok none) → Items it []
  | item {it it' : DecoderIter C} {x : Except DecodingError Frame} {xs : List (Except DecodingError Frame)} :
      it.next = (it', .ok (some x)) → Items it' xs → Items it (x :: xs)

end Gif
