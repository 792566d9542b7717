/-!
# Specification: the row order of an interlaced GIF image (GIF89a, appendix E)
-/

namespace Gif.Spec

/-- Group 1: every 8th row from row 0; group 2: every 8th row from row 4; group 3: every 4th row from row 2;
group 4: every 2nd row from row 1. -/
def interlaceOrder (h : Nat) : List Nat :=
  (List.range h).filter (fun i => i % 8 = 0) ++ (List.range h).filter (fun i => i % 8 = 4) ++
  (List.range h).filter (fun i => i % 4 = 2) ++ (List.range h).filter (fun i => i % 2 = 1)

/-- Row `row` of an image stored as consecutive lines of `w` bytes. -/
def rowOf (w : Nat) (img : List UInt8) (row : Nat) : List UInt8 := (img.drop (row * w)).take w

end Gif.Spec
