import Verif.Spec.Recolour
/-!
# Specification: what pixels depend on
-/

namespace Gif.Spec

/-- Of a frame: its size, its interlace flag and its pixels, or its data. -/
def pixFrame (f : Frame) : Frame :=
  { Frame.default with width := f.width, height := f.height, interlaced := f.interlaced, buffer := f.buffer, ownedCap := f.ownedCap }

/-- Of what the accessors show: the same of the current frame. -/
def pixView (v : View) : View :=
  { width := 0, height := 0, globalPalette := none, bgColor := none, repetition := .infinite, currentFrame := pixFrame v.currentFrame }

/-- Of what a call gave: sizes, pixels and errors. -/
def pixSeen : Seen → Seen
  | .opened v => .opened (pixView v)
  | .info found v => .info found (pixView v)
  | .frame f v => .frame (f.map pixFrame) (pixView v)
  | .failed e => .failed e
  | .crashed => .crashed

/-- The same for calls that decode pixels. -/
def pixGot : Got → Got
  | .seen s => .seen (pixSeen s)
  | .filled buf more => .filled buf more
  | .image buf => .image buf

/-- The labels of extensions that are not about the next image. -/
def OtherLabel (label : UInt8) : Prop := label = 0x01 ∨ label = 0xFE ∨ label = 0xFF

/-- Two blocks with the same pixels. Extensions have data of the same length; what a graphic control extension says counts only if
it is about transparency and that is looked at. Images have the same size, interlace flag and data, in sub-blocks of any length; the same
colour table applies to them if it is looked at. -/
inductive Kindred (c : ColorOutput) (global global' : Option (List UInt8)) : List UInt8 → List UInt8 → Prop
  | other {label label' len len' : UInt8} {D D' d d' : List UInt8} (hk : OtherLabel label) (hk' : OtherLabel label') (h : SubBlocks len D d)
      (h' : SubBlocks len' D' d') (hd : d.length = d'.length) :
      Kindred c global global' (0x21 :: label :: len :: D) (0x21 :: label' :: len' :: D')
  | control {len len' p p' d0 d1 d0' d1' t t' : UInt8} {D D' : List UInt8} (h : SubBlocks len D [p, d0, d1, t])
      (h' : SubBlocks len' D' [p', d0', d1', t']) (ht : c = .rgba → p.toNat % 2 = p'.toNat % 2 ∧ (p.toNat % 2 = 1 → t = t')) :
      Kindred c global global' (0x21 :: 0xF9 :: len :: D) (0x21 :: 0xF9 :: len' :: D')
  | image {place place' size colours colours' : List UInt8} {p p' k len len' : UInt8} {D D' d : List UInt8} (hl : place.length = 4)
      (hl' : place'.length = 4) (hz : size.length = 4) (hc : colours.length = (if 128 ≤ p.toNat then 3 * 2 ^ (p.toNat % 8 + 1) else 0))
      (hc' : colours'.length = (if 128 ≤ p'.toNat then 3 * 2 ^ (p'.toNat % 8 + 1) else 0))
      (hi : p.toNat / 64 % 2 = p'.toNat / 64 % 2)
      (hs : (applies global p colours).isSome = (applies global' p' colours').isSome)
      (he : c = .rgba → applies global p colours = applies global' p' colours') (h : SubBlocks len D d) (h' : SubBlocks len' D' d) :
      Kindred c global global' (0x2C :: (place ++ (size ++ p :: (colours ++ k :: len :: D))))
        (0x2C :: (place' ++ (size ++ p' :: (colours' ++ k :: len' :: D'))))

/-- The blocks of two files. -/
def KindredAll (c : ColorOutput) (global global' : Option (List UInt8)) : List (List UInt8) → List (List UInt8) → Prop
  | [], [] => True
  | x :: xs, y :: ys => Kindred c global global' x y ∧ KindredAll c global global' xs ys
  | _, _ => False

end Gif.Spec
