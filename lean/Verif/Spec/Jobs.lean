import Verif.Spec.RoundTrip
/-!
# Several files with one writer

A program that writes files one after the other: the writer that `into_inner` returns is given to the next `Encoder::new`.
-/

namespace Gif.Spec

/-- A file to be written: the arguments of `Encoder::new` and the frames. -/
structure Job where
  width : UInt16
  height : UInt16
  palette : List UInt8
  frames : List Frame

end Gif.Spec

namespace Gif

open Encoder Spec

/-- `Encoder::new`, `write_frame` for every frame, `into_inner`. The writer at the end, if every call succeeds. -/
def writeJob (C : Codec) (np : Bool) (s : Sink) (j : Job) : Option Sink :=
  match Encoder.new np s j.width j.height j.palette with
  | (e, .ok ()) =>
    let (e, rs) := runOps C e (j.frames.map .frame)
    if ∀ r ∈ rs, r = .ok () then
      match e.intoInner np with
      | (_, .ok s) => some s
      | _ => none
    else none
  | _ => none

/-- All files. -/
def writeJobs (C : Codec) (np : Bool) : Sink → List Job → Option Sink
  | s, [] => some s
  | s, j :: js => (writeJob C np s j).bind fun s => writeJobs C np s js

end Gif
