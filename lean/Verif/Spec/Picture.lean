import Verif.Spec.Interlace
import Verif.Spec.Source
/-!
# Specification: the picture that a stream of palette indices describes
-/

namespace Gif.Spec

/-- The rows of an interlaced image, given in the order of transmission, from top to bottom. -/
def deinterlace (w h : Nat) (px : List UInt8) : List UInt8 :=
  (List.range h).flatMap fun r => rowOf w px ((interlaceOrder h).idxOf r)

/-- The palette indices of a frame from top left to bottom right. Superfluous indices are dropped. -/
def pixelOrder (f : Frame) (px : List UInt8) : List UInt8 :=
  if f.interlaced then deinterlace f.width.toNat f.height.toNat px
  else px.take (f.width.toNat * f.height.toNat)

/-- Palette indices as they are delivered in the given colour mode, into a zeroed buffer. -/
def colours (c : ColorOutput) (palette : List UInt8) (transparent : Option UInt8) (idx : List UInt8) : List UInt8 :=
  match c with
  | .indexed => idx
  | .rgba => rgbaPixels palette transparent idx (List.replicate (4 * idx.length) 0)

/-- Bytes per pixel. -/
def channels : ColorOutput → Nat
  | .indexed => 1
  | .rgba => 4

/-- The palette of a frame: its own or else the global one. -/
def paletteOf (global : Option (List UInt8)) (f : Frame) : List UInt8 := (f.palette <|> global).getD []

/-- The buffer of a frame with the given palette indices in the order of transmission. -/
def picture (c : ColorOutput) (global : Option (List UInt8)) (f : Frame) (px : List UInt8) : List UInt8 :=
  colours c (paletteOf global f) f.transparent (pixelOrder f px)

end Gif.Spec
