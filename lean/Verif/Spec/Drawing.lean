import Verif.Spec.Reading
import Verif.Spec.LzwContract
/-!
# Specification: feeding a streaming decoder and collecting what it writes to output buffers
-/

namespace Gif

/-- `Drawing s l calls s' l'`: the decoder `s` is fed with the bytes `l` in slices of any size, and has an output buffer of any kind in
each call; after these calls, none of which failed, it is in state `s'` and `l'` is still to be consumed. -/
inductive Drawing {C : Codec} : SD C → List UInt8 → List UpdateCall → SD C → List UInt8 → Prop
  | nil (s : SD C) (l : List UInt8) : Drawing s l [] s l
  | cons {s s1 s' : SD C} {slice rest l' : List UInt8} {out : OutSpec} {calls : List UpdateCall} {n : Nat} {ev : Decoded}
      (hne : slice ≠ []) (h : s.update slice out = (s1, .ok (n, ev)))
      (ht : Drawing s1 ((slice ++ rest).drop n) calls s' l') :
      Drawing s (slice ++ rest) (⟨slice, out, .ok (n, ev)⟩ :: calls) s' l'

/-- What a call wrote to its output buffer. -/
def UpdateCall.bytes (c : UpdateCall) : List UInt8 :=
  match c.event with
  | some (.bytesDecoded p) => p
  | some (.lzwDataCopied p) => p
  | _ => []

/-- What the calls wrote to their output buffers. -/
def collected (calls : List UpdateCall) : List UInt8 := (calls.map UpdateCall.bytes).flatten

/-- The events within the data of an image. -/
def Decoded.within : Decoded → Bool
  | .nothing => true
  | .bytesDecoded _ => true
  | .lzwDataCopied _ => true
  | _ => false

/-- The output buffer has room for a byte. -/
def UpdateCall.roomy (c : UpdateCall) : Prop := ∃ n, c.out = .slice (n + 1)

/-- The output buffer has room for a byte, or it is a vector. -/
def UpdateCall.stores (c : UpdateCall) : Prop := c.roomy ∨ ∃ n, c.out = .vec n

namespace Spec

/-- What a call with room for `room` bytes may return, if the pixels `px` are still to come, their data end with `e`, and they are
followed by `tail`; `l` are the bytes that are still to be consumed. -/
def PixelCall (px : List UInt8) (e : LzwEnd) (check : Bool) (tail : Option (List UInt8)) (room : Nat) (l : List UInt8) :
    Outcome (Nat × Decoded) → Prop
  | .ok (_, .nothing) => True
  | .ok (_, .bytesDecoded p) => p ≠ [] ∧ p.length ≤ room ∧ p <+: px
  | .ok (n, .dataEnd) => px = [] ∧ e ≠ .invalid ∧ (check = true → e = .ended) ∧ tail = some (l.drop n)
  | .err e' => (e' = .io .invalidCode ∧ e = .invalid) ∨ (e' = .io .noEndCode ∧ check = true ∧ e = .starved ∧ px = [])
  | _ => False

/-- What a call may return, if the data `data` are still to come and they are followed by `tail`. -/
def DataCall (data : List UInt8) (tail : Option (List UInt8)) (limit : MemoryLimit) (out : OutSpec) (l : List UInt8) :
    Outcome (Nat × Decoded) → Prop
  | .ok (_, .nothing) => True
  | .ok (_, .lzwDataCopied p) => p ≠ [] ∧ p <+: data ∧ ∀ room, out = .slice room → p.length ≤ room
  | .ok (n, .dataEnd) => data = [] ∧ tail = some (l.drop n)
  | .err e => e = .format .memoryLimit ∧ ∃ len k, out = .vec len ∧ k ≤ data.length ∧ limit.sizeOk (len + k) = false
  | _ => False

end Spec

end Gif
