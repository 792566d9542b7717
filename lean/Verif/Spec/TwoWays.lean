import Verif.Spec.Gist
/-!
# Specification: a program that drives a streaming decoder, next to the calls of `Decoder`
-/

namespace Gif

/-- The image data that a program has collected: what it has at each `DataEnd`. -/
def gathered : List (Decoded × List UInt8) → List (List UInt8)
  | [] => []
  | (ev, d) :: l => if ev = .dataEnd then d :: gathered l else gathered l

/-- How many images were announced. -/
def announcedImages : List (Decoded × List UInt8) → Nat
  | [] => 0
  | (ev, _) :: l => match ev with
    | .frameMetadata _ => announcedImages l + 1
    | _ => announcedImages l

end Gif
