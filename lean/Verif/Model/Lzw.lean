import Verif.Model.Basic
/-!
# The LZW codec interface (crate `weezl`, external) and `LzwReader`

`weezl` is not part of /repo. The model is parameterised by a `Codec`: the operations of
`weezl::decode::Decoder` and `weezl::encode::Encoder` the crate calls. What is assumed about a codec is in
`Verif/Spec/LzwContract.lean` and is always an explicit hypothesis.
-/

namespace Gif

/-- `weezl::BufferResult::status`: `Ok(LzwStatus::{Ok, NoProgress, Done})` or `Err(LzwError::InvalidCode)`,
matched in `src/reader/decoder.rs:299-309`. -/
inductive LzwStatus where
  | ok | noProgress | done | invalidCode
deriving DecidableEq, Repr

/-- `weezl::BufferResult` of `decode_bytes(inp, out)` together with the new decoder state and the bytes written to
the front of `out` (`consumed_out` is `out.length`). -/
structure LzwResult (σ : Type) where
  st : σ
  consumed : Nat
  out : List UInt8
  status : LzwStatus

/-- The weezl operations used by the crate (LSB bit order, GIF code-size rules). -/
structure Codec where
  /-- `weezl::decode::Decoder` -/
  σ : Type
  /-- `Decoder::new(BitOrder::Lsb, size)`, `decoder.rs:276` -/
  new : UInt8 → σ
  /-- `Decoder::reset`, `decoder.rs:278` -/
  reset : σ → σ
  /-- `Decoder::has_ended`, `decoder.rs:285` -/
  hasEnded : σ → Bool
  /-- `Decoder::decode_bytes(inp, out)` where `out` has the given length, `decoder.rs:297` -/
  decodeBytes : σ → List UInt8 → Nat → LzwResult σ
  /-- `LzwEncoder::new(BitOrder::Lsb, size)` then `into_vec(..).encode_all(data)`: the bytes appended,
  `encoder.rs:396-397` -/
  encode : UInt8 → List UInt8 → List UInt8

/-- `src/reader/decoder.rs:355-362` `OutputBuffer`, as far as control flow depends on it: the length of the slice,
or the current length of the vector. The bytes written are carried by the event that reports them. -/
inductive OutSpec where
  | slice (cap : Nat)
  | vec (len : Nat)
  | none
deriving DecidableEq, Repr

/-- `src/reader/decoder.rs:246-250` `LzwReader` -/
structure LzwReader (C : Codec) where
  decoder : Option C.σ
  minCodeSize : UInt8
  checkForEndCode : Bool

namespace LzwReader

variable {C : Codec}

/-- `src/reader/decoder.rs:253-259` -/
def new (C : Codec) (checkForEndCode : Bool) : LzwReader C :=
  { decoder := Option.none, minCodeSize := 0, checkForEndCode }

/-- `src/reader/decoder.rs:261-268` `check_code_size`: is the size accepted? -/
def codeSizeOk (minCodeSize : UInt8) : Bool :=
  !(decide (minCodeSize > 11) || decide (minCodeSize < 1))

/-- `src/reader/decoder.rs:270-282` `reset` -/
def reset (r : LzwReader C) (minCodeSize : UInt8) : LzwReader C × Outcome Unit :=
  if codeSizeOk minCodeSize then
    match r.decoder with
    | some d =>
      if r.minCodeSize ≠ minCodeSize then
        ({ r with minCodeSize := minCodeSize, decoder := some (C.new minCodeSize) }, .ok ())
      else
        ({ r with decoder := some (C.reset d) }, .ok ())
    | Option.none =>
      ({ r with minCodeSize := minCodeSize, decoder := some (C.new minCodeSize) }, .ok ())
  else
    (r, .fmtErr .invalidMinCodeSize)

/-- `src/reader/decoder.rs:284-286` `has_ended` -/
def hasEnded (r : LzwReader C) : Bool :=
  match r.decoder with
  | some d => C.hasEnded d
  | Option.none => true

/-- `src/reader/decoder.rs:288-311` `decode_bytes`: consumed input and bytes written. On `InvalidCode` weezl may
have written bytes to the caller's slice; the Rust function drops their count, so they are not represented. -/
def decodeBytes (r : LzwReader C) (lzwData : List UInt8) (o : OutSpec) :
    LzwReader C × Outcome (Nat × List UInt8) :=
  match r.decoder with
  | Option.none => (r, .ioErr .unsupported)
  | some d =>
    let run (cap : Nat) : LzwReader C × Outcome (Nat × List UInt8) :=
      let res := C.decodeBytes d lzwData cap
      let r' := { r with decoder := some res.st }
      match res.status with
      | .done => (r', .ok (res.consumed, res.out))
      | .ok => (r', .ok (res.consumed, res.out))
      | .noProgress =>
        if r.checkForEndCode then (r', .ioErr .noEndCode) else (r', .ok (res.consumed, res.out))
      | .invalidCode => (r', .ioErr .invalidCode)
    match o with
    | .slice cap => run cap
    | .none => run 0
    | .vec _ => (r, .ioErr .unsupported)

end LzwReader

end Gif
