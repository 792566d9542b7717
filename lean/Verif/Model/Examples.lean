import Verif.Model.Decoder
import Verif.Model.Encoder
import Verif.Model.Parallel
/-!
# The programs `examples/explode.rs`, `examples/parallel.rs`, `examples/check.rs` and `fuzz/fuzz_targets/decode.rs`

Not modelled: the command line, the names of the files and the messages to the user, `BufWriter` (the encoder writes to the
file). A file that is created is an empty writer with any behaviour, or its creation fails.
-/

namespace Gif.Examples

/-- How a program ends. `main` returns `Err` for the three kinds of errors. -/
inductive Exit where
  | success
  | decoding (e : DecodingError)
  | encoding (e : EncodingError)
  | create (code : Nat)
  | panic
  | diverge
deriving DecidableEq, Repr

/-- The operator `?` on a call of the decoder that failed. -/
def Exit.ofDecoding {α : Type} : Outcome α → Exit
  | .ok _ => .success
  | .err e => .decoding e
  | .panic => .panic
  | .diverge => .diverge

/-- The operator `?` on a call of the encoder that failed. -/
def Exit.ofEncoding {α : Type} : EOut α → Exit
  | .ok _ => .success
  | .err e => .encoding e
  | .panic => .panic

/-- `examples/explode.rs:27-28` and the end of the body of the loop, `explode.rs:41`, where the encoder is dropped, as it is when
`write_frame` fails. The writer is `&mut output`: what was written, and whether the loop goes on. -/
def explodeFrame (C : Codec) (np : Bool) (s : Sink) (w h : UInt16) (pal : List UInt8) (f : Frame) : Sink × EOut Unit :=
  match Encoder.new np s w h pal with
  | (e, .ok ()) =>
    match e.writeFrame C f with
    | (e, r) =>
      match e.drop np with
      | (e, .panic) => (e.w.getD s, .panic)
      | (e, _) => (e.w.getD s, r)
  | (e, .err x) => (e.w.getD s, .err x)
  | (e, .panic) => (e.w.getD s, .panic)

/-- `examples/explode.rs:24-41`: the `while let` loop; `n` is `frame_number`, `create n` the result of `File::create` for the
name with this number. The files, and how the program ends. -/
def explodeLoop (C : Codec) (np : Bool) (create : Nat → Except Nat Sink) (w h : UInt16) (pal : List UInt8) :
    Nat → Nat → Decoder C → List Sink × Exit
  | 0, _, _ => ([], .diverge)
  | fuel + 1, n, d =>
    match d.readNextFrame with
    | (d, .ok (some f)) =>
      match create n with
      | .error code => ([], .create code)
      | .ok s =>
        match explodeFrame C np s w h pal f with
        | (s, .ok ()) =>
          match explodeLoop C np create w h pal fuel (n + 1) d with
          | (ss, x) => (s :: ss, x)
        | (s, r) => ([s], .ofEncoding r)
    | (_, x) => ([], .ofDecoding x)

/-- `examples/explode.rs:14-43`, given the opened input. Every turn of the loop takes at least one byte of the input
(`Verif.Props.Explode`). -/
def explode (C : Codec) (np : Bool) (create : Nat → Except Nat Sink) (r : Reader) : List Sink × Exit :=
  match Decoder.readInfo C { DecodeOptions.new with colorOutput := .indexed } r with
  | (d, .ok ()) => explodeLoop C np create d.width d.height (d.globalPalette.getD []) (r.bytes.length + 1) 1 d
  | (_, x) => ([], .ofDecoding x)

/-- What becomes of an item of the iterator, `examples/parallel.rs:43-53`. -/
inductive Task where
  | sent (f : Frame)
  | failed (e : DecodingError)
  | panicked
  | diverged
deriving DecidableEq, Repr

/-- `examples/parallel.rs:44-52`: the closure; `.unwrap()` panics if the frame cannot be decoded. -/
def task (C : Codec) : Except DecodingError Frame → Task
  | .error e => .failed e
  | .ok f =>
    match (FrameDecoder.new C DecodeOptions.new).decodeFrame f with
    | (_, f, .ok ()) => .sent (f.makeLzwPreEncoded C)
    | (_, _, .diverge) => .diverged
    | _ => .panicked

/-- `examples/parallel.rs:43-53`: `try_for_each` on the threads of the pool, which are done before the channel is read. If all
items are processed, the frames are in the channel, with their numbers, in any order. If not, the result is the failure of
one of the items that fail. -/
inductive Tasks (C : Codec) (items : List (Except DecodingError Frame)) : List (Nat × Frame) → Exit → Prop
  | done {fs : List Frame} {arrivals : List (Nat × Frame)} : items.map (task C) = fs.map .sent →
      arrivals.Perm (fs.zipIdx.map Prod.swap) → Tasks C items arrivals .success
  | failed {e : DecodingError} : .failed e ∈ items.map (task C) → Tasks C items [] (.decoding e)
  | panicked : .panicked ∈ items.map (task C) → Tasks C items [] .panic
  | diverged : .diverged ∈ items.map (task C) → Tasks C items [] .diverge

/-- `encoder.write_lzw_pre_encoded_frame(&frame)?` in `examples/parallel.rs:64`, as an operation of the queue. -/
def send (e : Encoder × EOut Unit) (f : Frame) : (Encoder × EOut Unit) × Bool :=
  match e.1.writeLzwPreEncodedFrame f with
  | (e, .ok ()) => ((e, .ok ()), true)
  | (e, r) => ((e, r), false)

/-- `examples/parallel.rs:38-67`: `main` returns or panics while `encoder` is alive: it is dropped. -/
def leave (np : Bool) (e : Encoder) (s : Sink) (x : Exit) : Sink × Exit :=
  match e.drop np with
  | (e, .panic) => (e.w.getD s, .panic)
  | (e, _) => (e.w.getD s, x)

/-- `examples/parallel.rs:56-68`: what is done with the frames in the channel. -/
def collect (np : Bool) (e : Encoder) (s : Sink) (arrivals : List (Nat × Frame)) : Sink × Exit :=
  match Parallel.receiveAll send (Parallel.start (e, .ok ())) arrivals with
  | (q, false) => leave np q.enc.1 s (.ofEncoding q.enc.2)
  | (q, true) =>
    match q.enc.1.intoInner np with
    | (_, .ok s) => (s, .success)
    | (e, r) => (e.w.getD s, .ofEncoding r)

/-- The items of `decoder.into_iter()`, `examples/parallel.rs:43`: `next` is called until it gives `None`. -/
def items {C : Codec} : Nat → DecoderIter C → List (Except DecodingError Frame) × Exit
  | 0, _ => ([], .diverge)
  | fuel + 1, it =>
    match it.next with
    | (it, .ok (some x)) =>
      match items fuel it with
      | (xs, y) => (x :: xs, y)
    | (_, x) => ([], .ofDecoding x)

/-- `examples/parallel.rs:24-68`, given the contents of the input and the created output file: what can be in the file when
the program ends, and how it can end. -/
inductive Reencode (C : Codec) (np : Bool) (s : Sink) (r : Reader) : Sink → Exit → Prop
  | closed {d : Decoder C} {x : Outcome Unit} : Decoder.readInfo C { DecodeOptions.new with skipFrameDecoding := true } r = (d, x) →
      x ≠ .ok () → Reencode C np s r s (.ofDecoding x)
  | header {d : Decoder C} {e : Encoder} {x : EOut Unit} :
      Decoder.readInfo C { DecodeOptions.new with skipFrameDecoding := true } r = (d, .ok ()) →
      Encoder.new np s d.width d.height (d.globalPalette.getD []) = (e, x) → x ≠ .ok () →
      Reencode C np s r (e.w.getD s) (.ofEncoding x)
  | repetition {d : Decoder C} {e e' : Encoder} {x : EOut Unit} :
      Decoder.readInfo C { DecodeOptions.new with skipFrameDecoding := true } r = (d, .ok ()) →
      Encoder.new np s d.width d.height (d.globalPalette.getD []) = (e, .ok ()) →
      e.setRepeat d.repetition = (e', x) → x ≠ .ok () →
      Reencode C np s r (leave np e' s (.ofEncoding x)).1 (leave np e' s (.ofEncoding x)).2
  | tasks {d : Decoder C} {e e' : Encoder} {xs : List (Except DecodingError Frame)} {arrivals : List (Nat × Frame)} {x : Exit} :
      Decoder.readInfo C { DecodeOptions.new with skipFrameDecoding := true } r = (d, .ok ()) →
      Encoder.new np s d.width d.height (d.globalPalette.getD []) = (e, .ok ()) →
      e.setRepeat d.repetition = (e', .ok ()) →
      items (r.bytes.length + 2) (DecoderIter.new d) = (xs, .success) →
      Tasks C xs arrivals x → x ≠ .success →
      Reencode C np s r (leave np e' s x).1 (leave np e' s x).2
  | iterator {d : Decoder C} {e e' : Encoder} {xs : List (Except DecodingError Frame)} {x : Exit} :
      Decoder.readInfo C { DecodeOptions.new with skipFrameDecoding := true } r = (d, .ok ()) →
      Encoder.new np s d.width d.height (d.globalPalette.getD []) = (e, .ok ()) →
      e.setRepeat d.repetition = (e', .ok ()) →
      items (r.bytes.length + 2) (DecoderIter.new d) = (xs, x) → x ≠ .success →
      Reencode C np s r (leave np e' s x).1 (leave np e' s x).2
  | finished {d : Decoder C} {e e' : Encoder} {xs : List (Except DecodingError Frame)} {arrivals : List (Nat × Frame)} :
      Decoder.readInfo C { DecodeOptions.new with skipFrameDecoding := true } r = (d, .ok ()) →
      Encoder.new np s d.width d.height (d.globalPalette.getD []) = (e, .ok ()) →
      e.setRepeat d.repetition = (e', .ok ()) →
      items (r.bytes.length + 2) (DecoderIter.new d) = (xs, .success) →
      Tasks C xs arrivals .success →
      Reencode C np s r (collect np e' s arrivals).1 (collect np e' s arrivals).2

/-- `fuzz/fuzz_targets/decode.rs:11`, `tests/stall.rs:39`: `while let Some(_) = reader.read_next_frame()? {}`. -/
def decodeAll {C : Codec} : Nat → Decoder C → Outcome Unit
  | 0, _ => .diverge
  | fuel + 1, d =>
    match d.readNextFrame with
    | (d, .ok (some _)) => decodeAll fuel d
    | (_, .ok none) => .ok ()
    | (_, .err e) => .err e
    | (_, .panic) => .panic
    | (_, .diverge) => .diverge

/-- `fuzz/fuzz_targets/decode.rs:8-14` `try_decode` (with default options, `Decoder::new`, `src/reader/mod.rs:253-255`) and
`tests/stall.rs:34-42` `decode` (with RGBA output). -/
def tryDecode (C : Codec) (o : DecodeOptions) (r : Reader) : Outcome Unit :=
  match Decoder.readInfo C o r with
  | (d, .ok ()) => decodeAll (r.bytes.length + 1) d
  | (_, x) => x

/-- What `examples/check.rs` prints: `check.rs:24-34` or `check.rs:19`. -/
inductive Line where
  | frame (delay width height left top : UInt16) (dispose : DisposalMethod) (needsInput : Bool)
  | error (e : DecodingError)
deriving DecidableEq, Repr

/-- `examples/check.rs:24-34` -/
def Line.of (f : Frame) : Line := .frame f.delay f.width f.height f.left f.top f.dispose f.needsUserInput

/-- `examples/check.rs:14-35`: the loop. -/
def checkLoop {C : Codec} : Nat → Decoder C → List Line × Exit
  | 0, _ => ([], .diverge)
  | fuel + 1, d =>
    match d.readNextFrame with
    | (d, .ok (some f)) =>
      match checkLoop fuel d with
      | (ls, x) => (.of f :: ls, x)
    | (_, .ok none) => ([], .success)
    | (_, .err e) => ([.error e], .success)
    | (_, .panic) => ([], .panic)
    | (_, .diverge) => ([], .diverge)

/-- `examples/check.rs:8-36`, given the opened input; `read_info(file).unwrap()` panics on errors. -/
def check (C : Codec) (r : Reader) : List Line × Exit :=
  match Decoder.readInfo C { DecodeOptions.new with allowUnknownBlocks := true } r with
  | (d, .ok ()) => checkLoop (r.bytes.length + 1) d
  | (_, .diverge) => ([], .diverge)
  | _ => ([], .panic)

end Gif.Examples
