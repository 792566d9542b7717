import Verif.Spec.Picture
/-!
# Specification: palette indices painted over a buffer that is already in use
-/

namespace Gif.Spec

/-- Palette indices as they are delivered in the given colour mode, into a buffer with the contents `old`: an index that has no
colour leaves its four bytes as they are. -/
def painted (c : ColorOutput) (palette : List UInt8) (transparent : Option UInt8) (idx old : List UInt8) : List UInt8 :=
  match c with
  | .indexed => idx
  | .rgba => rgbaPixels palette transparent idx old

/-- Every index has a colour, or no colours are asked for. -/
def Coloured (c : ColorOutput) (palette : List UInt8) (idx : List UInt8) : Prop :=
  c = .rgba → ∀ i ∈ idx, 3 * i.toNat + 3 ≤ palette.length

end Gif.Spec
