import Verif.Spec.Film
/-!
# Going on after frames that cannot be read
-/

namespace Gif

namespace Decoder

variable {C : Codec}

/-- A program that calls `read_next_frame` `n` times and goes on after `OutOfMemory`, `ImageTruncated` and `OddSizedBuffer`,
but not after another error. -/
def salvage : Nat → Decoder C → List (Except DecodingError (Option Frame))
  | 0, _ => []
  | n + 1, d =>
    match d.readNextFrame with
    | (d', .ok f) => .ok f :: salvage n d'
    | (d', .err (.io .outOfMemory)) => .error (.io .outOfMemory) :: salvage n d'
    | (d', .err (.format .imageTruncated)) => .error (.format .imageTruncated) :: salvage n d'
    | (d', .err (.format .oddSizedBuffer)) => .error (.format .oddSizedBuffer) :: salvage n d'
    | (_, .err e) => [.error e]
    | _ => []

/-- A program that calls `fill_buffer` with buffers of `size` bytes, `m` times or until it does not get a full buffer. -/
def fillLines (size : Nat) : Nat → Decoder C → Decoder C × Outcome Bool
  | 0, d => (d, .ok true)
  | m + 1, d =>
    match d.fillBuffer (List.replicate size 0) with
    | (d', _, .ok true) => fillLines size m d'
    | (d', _, r) => (d', r)

end Decoder

namespace Spec

/-- What the first program has to give of a file with the given raw frames, whose data expand to `outs`: each frame on its own
account. -/
def salvaged (c : ColorOutput) (limit : MemoryLimit) : List Seen → List Pixels → List (Except DecodingError (Option Frame))
  | .frame (some f) v :: raw, px :: outs =>
    (match deliver c limit v.globalPalette f px with
      | .ok g => .ok (some g)
      | .error e => .error e) :: salvaged c limit raw outs
  | .frame none _ :: raw, outs => .ok none :: salvaged c limit raw outs
  | .failed e :: _, _ => [.error e]
  | _, _ => []

end Spec

end Gif
