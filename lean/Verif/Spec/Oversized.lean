import Verif.Spec.Film
/-!
# Going on after a frame that is larger than the memory limit
-/

namespace Gif

namespace Decoder

variable {C : Codec}

/-- A program that calls `read_next_frame` `n` times and goes on after `OutOfMemory`, but not after another error. -/
def keepReading : Nat → Decoder C → List (Except DecodingError (Option Frame))
  | 0, _ => []
  | n + 1, d =>
    match d.readNextFrame with
    | (d', .ok f) => .ok f :: keepReading n d'
    | (d', .err (.io .outOfMemory)) => .error (.io .outOfMemory) :: keepReading n d'
    | (_, .err e) => [.error e]
    | _ => []

end Decoder

namespace Spec

/-- The picture takes more than the given number of bytes. -/
def Big (c : ColorOutput) (limit : Nat) (f : Frame) : Prop := limit < f.width.toNat * f.height.toNat * channels c

instance (c : ColorOutput) (limit : Nat) (f : Frame) : Decidable (Big c limit f) := by unfold Big; infer_instance

/-- What such a program has to give if `read_next_frame` without a limit gives `g`. -/
def limited (c : ColorOutput) (limit : Nat) : Option Frame → Except DecodingError (Option Frame)
  | some f => if Big c limit f then .error (.io .outOfMemory) else .ok (some f)
  | none => .ok none

end Spec

end Gif
