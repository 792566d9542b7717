import Verif.Lemmas.EncOps
/-!
# `write_frame` in debug and release builds, with an allocator that may refuse
-/

namespace Gif.Encoder

/-- `src/encoder.rs:214-222` `write_image_block`; `room` tells if `try_reserve(data.len() / 4)` of `encoder.rs:216` succeeds. -/
def writeImageBlockOn (room : Bool) (C : Codec) (e : Encoder) (data : List UInt8) : Encoder × EOut Unit :=
  let e := { e with buffer := [] }
  if room then
    let e := { e with buffer := lzwEncode C data e.buffer }
    e.withWriter (writeEncodedImageBlock e.buffer)
  else (e, .err (.io .outOfMemory))

/-- `src/encoder.rs:169-176` `write_frame`; `debug` tells if the `debug_assert!` of `encoder.rs:173` is compiled in. -/
def writeFrameOn (debug room : Bool) (C : Codec) (e : Encoder) (f : Frame) : Encoder × EOut Unit :=
  if f.buffer.length < f.width.toNat * f.height.toNat then (e, .err (.io .invalidInput))
  else if debug ∧ ¬ ((f.width > 0 ∧ f.height > 0) ∨ f.buffer.isEmpty) then (e, .panic)
  else andThen (e.writeFrameHeader f) fun e () => e.writeImageBlockOn room C f.buffer

end Gif.Encoder

namespace Gif

/-- Making the call. Of the calls of an encoder, only `write_frame` has an assertion or reserves memory
(`src/encoder.rs:229-255, 295-359`). -/
def EncOp.runOn (debug room : Bool) (C : Codec) (e : Encoder) : EncOp → Encoder × EOut Unit
  | .frame f => e.writeFrameOn debug room C f
  | op => op.run C e

/-- All the calls, one after the other, whatever they return; each with the answer of the allocator. -/
def runOpsOn (debug : Bool) (C : Codec) : Encoder → List (EncOp × Bool) → Encoder × List (EOut Unit)
  | e, [] => (e, [])
  | e, (op, room) :: ops =>
    let (e, r) := op.runOn debug room C e
    let (e, rs) := runOpsOn debug C e ops
    (e, r :: rs)

/-- `Encoder::new` on a `Vec<u8>`, the calls, `into_inner`: the file and the results of the calls. -/
def encodeFileOn (debug : Bool) (C : Codec) (np : Bool) (w h : UInt16) (pal : List UInt8) (ops : List (EncOp × Bool)) :
    Option (List UInt8) × List (EOut Unit) :=
  match Encoder.new np { written := [], plan := [] } w h pal with
  | (e, .ok ()) =>
    match runOpsOn debug C e ops with
    | (e, rs) =>
      match e.intoInner np with
      | (_, .ok s) => (some s.written, rs)
      | _ => (none, rs)
  | _ => (none, [])

end Gif
