import Verif.Spec.Scene
import Verif.Spec.Blocks
/-!
# Specification: a file is cut between blocks

Only lengths are looked at: the content of the blocks is arbitrary, and a decoder may reject it.
-/

namespace Gif.Spec

/-- `D` is what comes after the length byte `len` of the first sub-block: the rest of the sub-blocks, up to the terminating zero. -/
def SubBlocks (len : UInt8) (D d : List UInt8) : Prop := blocks len.toNat D = (d, some [])

/-- An extension, with any label. -/
def IsExtension (x : List UInt8) : Prop := ∃ label len D d, x = 0x21 :: label :: len :: D ∧ SubBlocks len D d

/-- An image: position and size, packed field, the colour table that it announces, code size, data. -/
def IsPicture (x : List UInt8) : Prop :=
  ∃ place packed colours k len D d, x = 0x2C :: (place ++ packed :: (colours ++ k :: len :: D)) ∧ place.length = 8 ∧
    colours.length = (if 128 ≤ packed.toNat then 3 * 2 ^ (packed.toNat % 8 + 1) else 0) ∧ SubBlocks len D d

/-- An extension that says nothing of the images: a comment, plain text, or data of an application, and the memory limit allows for it. -/
structure Remark (o : DecodeOptions) (label len : UInt8) (D d : List UInt8) : Prop where
  label : label = 0x01 ∨ label = 0xFE ∨ label = 0xFF
  data : SubBlocks len D d
  limit : d = [] ∨ o.memoryLimit.sizeOk (1 + d.length) = true

end Gif.Spec
