import Verif.Model.Decoder
/-!
# `read_next_frame` with an allocator that may refuse
-/

namespace Gif.Decoder

variable {C : Codec}

/-- `src/reader/mod.rs:353`: what is reserved for the compressed data of a frame. -/
def rawReserve (f : Frame) : Nat := f.width.toNat * f.height.toNat / 4

/-- `src/reader/mod.rs:338-363` `read_next_frame`; `alloc n` tells if `try_reserve(n)` of `mod.rs:353` succeeds. The other fallible
reservations on the way, for colour tables, extensions and sub-blocks (at most 768 bytes at a time), are taken to succeed. -/
def readNextFrameOn (alloc : Nat → Bool) (d : Decoder C) : Decoder C × Outcome (Option Frame) :=
  match d.nextFrameInfo with
  | (d, .ok true) =>
    match d.dataType with
    | .pixels =>
      match d.conv.readFrame d.currentFrame RD.decodeNextBytes d.rd with
      | (rd, f, .ok ()) => ({ d with rd := rd, currentFrame := f }, .ok (some f))
      | (rd, f, .err e) => ({ d with rd := rd, currentFrame := f }, .err e)
      | (rd, f, .panic) => ({ d with rd := rd, currentFrame := f }, .panic)
      | (rd, f, .diverge) => ({ d with rd := rd, currentFrame := f }, .diverge)
    | .lzw minCodeSize =>
      let f := match d.currentFrame.ownedCap with
        | some _ => { d.currentFrame with buffer := [], ownedCap := none }
        | none => d.currentFrame
      if alloc (rawReserve f) then
        match copyLzw minCodeSize d.rd with
        | (rd, vec, .ok ()) =>
          let f := { f with buffer := vec, ownedCap := some vec.length }
          ({ d with rd := rd, currentFrame := f }, .ok (some f))
        | (rd, _, .err e) => ({ d with rd := rd, currentFrame := f }, .err e)
        | (rd, _, .panic) => ({ d with rd := rd, currentFrame := f }, .panic)
        | (rd, _, .diverge) => ({ d with rd := rd, currentFrame := f }, .diverge)
      else ({ d with currentFrame := f }, .ioErr .outOfMemory)
  | (d, .ok false) => (d, .ok none)
  | (d, .err e) => (d, .err e)
  | (d, .panic) => (d, .panic)
  | (d, .diverge) => (d, .diverge)

end Gif.Decoder
