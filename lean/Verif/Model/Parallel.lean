/-!
# `examples/parallel.rs:56-68`: the queue that puts compressed frames back in order

The frames are of an arbitrary type, and `encoder.write_lzw_pre_encoded_frame(&frame)?` is an operation on an arbitrary
sink state that succeeds or fails.
-/

namespace Gif.Parallel

/-- State of the receiving loop: `next_frame_number`, `frames_to_process`, the encoder. -/
structure Queue (φ ε : Type) where
  next : Nat
  pending : List (Nat × φ)
  enc : ε

/-- `examples/parallel.rs:62-66`: the `while let` loop; `false` if a write failed. Each turn takes one frame out of the
queue. -/
def drain {φ ε : Type} (write : ε → φ → ε × Bool) : Nat → Queue φ ε → Queue φ ε × Bool
  | 0, q => (q, true)
  | fuel + 1, q =>
    match q.pending.findIdx? (fun p => p.1 = q.next) with
    | none => (q, true)
    | some index =>
      match q.pending[index]? with
      | none => (q, true)
      | some (_, frame) =>
        let pending := q.pending.eraseIdx index
        match write q.enc frame with
        | (enc, true) => drain write fuel { next := q.next + 1, pending := pending, enc := enc }
        | (enc, false) => ({ q with pending := pending, enc := enc }, false)

/-- `examples/parallel.rs:58-67`: one turn of the `for` loop. -/
def receive {φ ε : Type} (write : ε → φ → ε × Bool) (q : Queue φ ε) (m : Nat × φ) : Queue φ ε × Bool :=
  let q := { q with pending := q.pending ++ [m] }
  drain write (q.pending.length + 1) q

/-- `examples/parallel.rs:58-67`: the `for` loop over everything received. -/
def receiveAll {φ ε : Type} (write : ε → φ → ε × Bool) : Queue φ ε → List (Nat × φ) → Queue φ ε × Bool
  | q, [] => (q, true)
  | q, m :: ms =>
    match receive write q m with
    | (q, true) => receiveAll write q ms
    | (q, false) => (q, false)

/-- `examples/parallel.rs:56-57` -/
def start {φ ε : Type} (enc : ε) : Queue φ ε := { next := 0, pending := [], enc := enc }

end Gif.Parallel
