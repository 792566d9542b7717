import Verif.Model.Streaming
/-!
# Programs that use a `StreamingDecoder` themselves, and change its current frame
-/

namespace Gif

namespace SD

variable {C : Codec}

/-- `src/reader/decoder.rs:454-456` `current_frame_mut`, and what the program does with the frame: anything. `cap` is the capacity
of the palette that it leaves there. -/
def currentFrameMut (s : SD C) (f : Frame → Frame) (cap : Nat) : SD C × Outcome Unit :=
  match s.current with
  | some frame => ({ s with current := some (f frame), palCap := cap }, .ok ())
  | none => (s, .panic)

/-- What a program does with a `StreamingDecoder`. -/
inductive Use where
  /-- `update` with a slice and an output buffer -/
  | update (buf : List UInt8) (o : OutSpec)
  /-- `current_frame_mut`, and a change of the frame -/
  | change (f : Frame → Frame) (cap : Nat)

/-- The program goes on whatever `update` returns. If `current_frame_mut` panics, it leaves the frame alone. The decoder, and
what the calls of `update` returned. -/
def uses : SD C → List Use → SD C × List (Outcome (Nat × Decoded))
  | s, [] => (s, [])
  | s, .update buf o :: us =>
    let (s, r) := s.update buf o
    let (s, rs) := uses s us
    (s, r :: rs)
  | s, .change f cap :: us => uses (s.currentFrameMut f cap).1 us

end SD

end Gif
