import Verif.Spec.Film
import Verif.Spec.Remark
/-!
# Specification: colours are stored in another place
-/

namespace Gif.Spec

/-- The frame without the colour table that comes with it. -/
def fadeFrame (f : Frame) : Frame := { f with palette := none }

/-- What the accessors show, without what they show of the screen. -/
def fadeView (v : View) : View :=
  { width := 0, height := 0, globalPalette := none, bgColor := none, repetition := v.repetition, currentFrame := fadeFrame v.currentFrame }

/-- What a call gave, without the screen and without colour tables. -/
def fadeSeen : Seen → Seen
  | .opened v => .opened (fadeView v)
  | .info found v => .info found (fadeView v)
  | .frame f v => .frame (f.map fadeFrame) (fadeView v)
  | .failed e => .failed e
  | .crashed => .crashed

/-- The same for calls that decode pixels. -/
def fadeGot : Got → Got
  | .seen s => .seen (fadeSeen s)
  | .filled buf more => .filled buf more
  | .image buf => .image buf

/-- The global colour table of a file that begins with the given head. -/
def headTable (head : List UInt8) : Option (List UInt8) := if 128 ≤ (head.getD 10 0).toNat then some (head.drop 13) else none

/-- The width and height of the screen. -/
def headSize (head : List UInt8) : List UInt8 := (head.drop 6).take 4

/-- The colour table that applies to an image with a packed field and the local colours that it announces. -/
def applies (global : Option (List UInt8)) (p : UInt8) (colours : List UInt8) : Option (List UInt8) :=
  if 128 ≤ p.toNat then some colours else global

/-- Two blocks: the same extension, or an image in both of which the same colour table applies, or any if the colours are not looked
at. -/
inductive Recoloured (c : ColorOutput) (global global' : Option (List UInt8)) : List UInt8 → List UInt8 → Prop
  | extension {label len : UInt8} {D d : List UInt8} (h : SubBlocks len D d) :
      Recoloured c global global' (0x21 :: label :: len :: D) (0x21 :: label :: len :: D)
  | image {place colours colours' : List UInt8} {p p' k len : UInt8} {D d : List UInt8} (hl : place.length = 8)
      (hc : colours.length = (if 128 ≤ p.toNat then 3 * 2 ^ (p.toNat % 8 + 1) else 0))
      (hc' : colours'.length = (if 128 ≤ p'.toNat then 3 * 2 ^ (p'.toNat % 8 + 1) else 0))
      (hi : p.toNat / 64 % 2 = p'.toNat / 64 % 2)
      (hs : (applies global p colours).isSome = (applies global' p' colours').isSome)
      (he : c = .rgba → applies global p colours = applies global' p' colours') (h : SubBlocks len D d) :
      Recoloured c global global' (0x2C :: (place ++ p :: (colours ++ k :: len :: D))) (0x2C :: (place ++ p' :: (colours' ++ k :: len :: D)))

/-- The blocks of two files. -/
def RecolouredAll (c : ColorOutput) (global global' : Option (List UInt8)) : List (List UInt8) → List (List UInt8) → Prop
  | [], [] => True
  | x :: xs, y :: ys => Recoloured c global global' x y ∧ RecolouredAll c global global' xs ys
  | _, _ => False

end Gif.Spec
