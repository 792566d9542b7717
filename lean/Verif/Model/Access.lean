import Verif.Lemmas.EncOps
/-!
# `src/encoder.rs:349-359`: access to the writer behind an encoder
-/

namespace Gif

namespace Encoder

/-- `src/encoder.rs:350-352` `get_ref`: the writer as it is. -/
def getRef (e : Encoder) : EOut Sink :=
  match e.w with
  | some s => .ok s
  | none => .panic

/-- `src/encoder.rs:357-359` `get_mut`, and `f`, which the program does with the writer: it can do anything with it, even
put another one in its place. -/
def getMut {α : Type} (e : Encoder) (f : Sink → Sink × α) : Encoder × EOut α :=
  match e.w with
  | some s => ({ e with w := some (f s).1 }, .ok (f s).2)
  | none => (e, .panic)

/-- `std::mem::take(encoder.get_mut())` for an encoder on a `Vec<u8>`; the same for any other writer from which the bytes it
has accepted can be taken, whether it fails or not. -/
def takeWritten (e : Encoder) : Encoder × EOut (List UInt8) :=
  e.getMut fun s => ({ s with written := [] }, s.written)

end Encoder

/-- What a program that holds an encoder can do with it, other than to finish it. -/
inductive EncStep where
  /-- a call of one of the writing methods -/
  | call (op : EncOp)
  /-- `get_ref` -/
  | look
  /-- `get_mut` and something done with the writer -/
  | touch (f : Sink → Sink)

/-- What the program gets. -/
inductive EncGot where
  | result (r : EOut Unit)
  | shown (s : EOut Sink)
  | touched (r : EOut Unit)

/-- Doing it. -/
def EncStep.run (C : Codec) (e : Encoder) : EncStep → Encoder × EncGot
  | .call op =>
    let (e, r) := op.run C e
    (e, .result r)
  | .look => (e, .shown e.getRef)
  | .touch f =>
    let (e, r) := e.getMut fun s => (f s, ())
    (e, .touched r)

/-- One step after the other. -/
def runSteps (C : Codec) : Encoder → List EncStep → Encoder × List EncGot
  | e, [] => (e, [])
  | e, st :: sts =>
    let (e, g) := st.run C e
    let (e, gs) := runSteps C e sts
    (e, g :: gs)

/-- All the calls, and after each of them the program takes the bytes that have been written: the encoder, the results of the
calls, and the bytes taken. -/
def runTaking (C : Codec) : Encoder → List EncOp → Encoder × List (EOut Unit) × List (EOut (List UInt8))
  | e, [] => (e, [], [])
  | e, op :: ops =>
    let (e, r) := op.run C e
    let (e, bs) := e.takeWritten
    let (e, rs, bss) := runTaking C e ops
    (e, r :: rs, bs :: bss)

/-- All of the values, if none of the computations failed. -/
def allOk {α : Type} : List (EOut α) → Option (List α)
  | [] => some []
  | .ok a :: rs => (allOk rs).map (a :: ·)
  | _ :: _ => none

/-- `Encoder::new` on a `Vec<u8>`, the calls, `into_inner`; after `new` and after each call the program takes what was written.
The pieces it took and the bytes that are left in the end, if `new`, the taking and `into_inner` succeed, and the results of the
calls. -/
def encodeTaking (C : Codec) (np : Bool) (w h : UInt16) (pal : List UInt8) (ops : List EncOp) :
    Option (List (List UInt8)) × List (EOut Unit) :=
  match Encoder.new np { written := [], plan := [] } w h pal with
  | (e, .ok ()) =>
    match e.takeWritten with
    | (e, .ok head) =>
      match runTaking C e ops with
      | (e, rs, bss) =>
        match e.intoInner np with
        | (_, .ok s) => ((allOk bss).map fun bss => head :: bss ++ [s.written], rs)
        | _ => (none, rs)
    | _ => (none, [])
  | _ => (none, [])

/-- `Encoder::new` on a `Vec<u8>`, calls and other steps, `into_inner`: the file. -/
def encodeSteps (C : Codec) (np : Bool) (w h : UInt16) (pal : List UInt8) (steps : List EncStep) :
    Option (List UInt8) × List EncGot :=
  match Encoder.new np { written := [], plan := [] } w h pal with
  | (e, .ok ()) =>
    match runSteps C e steps with
    | (e, gs) =>
      match e.intoInner np with
      | (_, .ok s) => (some s.written, gs)
      | _ => (none, gs)
  | _ => (none, [])

/-- The step `encoder.get_mut().write_all(bytes)` -/
def EncStep.past (bytes : List UInt8) : EncStep := .touch fun s => (W.writeAll bytes s).1

end Gif
