import Verif.Spec.Session
/-!
# Several files in one stream

A program that reads a file to its end, and then the next file from the reader that `into_inner` returns.
-/

namespace Gif

/-- `BufReader::new` around a `BufReader`, as when the reader that `into_inner` returns is given to the next decoder: the first read
call gives the bytes that are buffered, if there are any (both buffers have the same capacity), the following ones are passed on. -/
def Reader.wrap (r : Reader) : Reader :=
  { buf := [], src := if r.buf = [] then r.src else .data r.buf :: r.src }

end Gif

namespace Gif.Decoder

variable {C : Codec}

/-- `read_next_frame`, called until it returns `Ok(None)`, returns these frames and leaves this decoder. -/
inductive Drained : Decoder C → List Frame → Decoder C → Prop
  | done {d d' : Decoder C} : d.readNextFrame = (d', .ok none) → Drained d [] d'
  | frame {d d1 d' : Decoder C} {f : Frame} {fs : List Frame} : d.readNextFrame = (d1, .ok (some f)) → Drained d1 fs d' →
      Drained d (f :: fs) d'

/-- The files of a stream, read one after the other: what the accessors show after `read_info`, and the frames. -/
inductive Stream (C : Codec) (o : DecodeOptions) : Reader → List (View × List Frame) → Reader → Prop
  | done (r : Reader) : Stream C o r [] r
  | file {r r' : Reader} {d d' : Decoder C} {fs : List Frame} {xs : List (View × List Frame)} :
      readInfo C o r = (d, .ok ()) → Drained d fs d' → Stream C o d'.intoInner.wrap xs r' → Stream C o r ((d.view, fs) :: xs) r'

end Gif.Decoder
