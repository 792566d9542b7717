import Verif.Spec.Remark
/-!
# Specification: files that differ in what has no meaning
-/

namespace Gif.Spec

/-- Two blocks that mean the same: their data are cut into sub-blocks in different ways; bits of packed fields differ that are reserved,
or say whether a colour table is sorted, or are the size of a colour table that is not there; a colour index differs that is not said to
be transparent. -/
inductive Like : List UInt8 → List UInt8 → Prop
  | extension {label len len' : UInt8} {D D' d : List UInt8} (h : SubBlocks len D d) (h' : SubBlocks len' D' d) :
      Like (0x21 :: label :: len :: D) (0x21 :: label :: len' :: D')
  | control {len len' p p' d0 d1 t t' : UInt8} {D D' : List UInt8} (h : SubBlocks len D [p, d0, d1, t])
      (h' : SubBlocks len' D' [p', d0, d1, t']) (hp : p.toNat % 32 = p'.toNat % 32) (ht : p.toNat % 2 = 1 → t = t') :
      Like (0x21 :: 0xF9 :: len :: D) (0x21 :: 0xF9 :: len' :: D')
  | image {place colours : List UInt8} {p p' k len len' : UInt8} {D D' d : List UInt8} (hl : place.length = 8)
      (hc : colours.length = (if 128 ≤ p.toNat then 3 * 2 ^ (p.toNat % 8 + 1) else 0)) (hp : p.toNat / 64 = p'.toNat / 64)
      (hs : 128 ≤ p.toNat → p.toNat % 8 = p'.toNat % 8) (h : SubBlocks len D d) (h' : SubBlocks len' D' d) :
      Like (0x2C :: (place ++ p :: (colours ++ k :: len :: D))) (0x2C :: (place ++ p' :: (colours ++ k :: len' :: D')))

/-- Two lists of blocks that mean the same. -/
def LikeAll : List (List UInt8) → List (List UInt8) → Prop
  | [], [] => True
  | x :: xs, y :: ys => Like x y ∧ LikeAll xs ys
  | _, _ => False

/-- Two heads of files with the same screen size, background colour and colour table. The version, the colour resolution, whether the
colour table is sorted, and the aspect ratio may differ. -/
def LikeHead (a b : List UInt8) : Prop :=
  IsHead a ∧ IsHead b ∧ (a.getD 10 0).toNat / 128 = (b.getD 10 0).toNat / 128 ∧ (a.drop 6).take 4 = (b.drop 6).take 4 ∧
    a.getD 11 0 = b.getD 11 0 ∧ a.drop 13 = b.drop 13

end Gif.Spec
