import Verif.Props.Recolour
import Verif.Props.RemarkCases
/-!
# C105, cases
-/

namespace Gif.Recolour.Cases

open Spec Decoder Gif.Twofold.Cases Gif.Remark.Cases
open Gif.Draw.Cases hiding head

set_option maxRecDepth 100000

/-- A larger screen without a global colour table, with another background. -/
def bare : List UInt8 := [0x47, 0x49, 0x46, 0x38, 0x37, 0x61, 9, 0, 9, 0, 0x01, 3, 0]

def colours : List UInt8 := [1, 2, 3, 4, 5, 6, 7, 8, 9, 10, 11, 12]

/-- The images with the colours of the global table as their own. -/
def own1 : List UInt8 := 0x2C :: ([0, 0, 0, 0, 3, 0, 2, 0] ++ 0x81 :: (colours ++ 2 :: 3 :: [68, 52, 1, 1, 5, 0]))

def own2 : List UInt8 := 0x2C :: ([0, 0, 0, 0, 3, 0, 2, 0] ++ 0xC1 :: (colours ++ 2 :: 2 :: [68, 52, 2, 1, 5, 0]))

def ownTables : List UInt8 := bare ++ ([own1, control, own2].flatten ++ [0x3B, 7])

def rgba : DecodeOptions := { DecodeOptions.new with colorOutput := .rgba }

theorem bare_ok : IsHead bare := ⟨.inl (by decide +kernel), by decide +kernel, by decide +kernel⟩

theorem recoloured (c : ColorOutput) : RecolouredAll c (headTable head) (headTable bare) [image1, control, image2] [own1, control, own2] := by
  have h1 : image1 = 0x2C :: ([0, 0, 0, 0, 3, 0, 2, 0] ++ 0 :: ([] ++ 2 :: 3 :: [68, 52, 1, 1, 5, 0])) := by decide +kernel
  have h2 : control = 0x21 :: 0xF9 :: 4 :: [0, 5, 0, 0, 0] := by decide +kernel
  have h3 : image2 = 0x2C :: ([0, 0, 0, 0, 3, 0, 2, 0] ++ 0x40 :: ([] ++ 2 :: 2 :: [68, 52, 2, 1, 5, 0])) := by decide +kernel
  rw [h1, h2, h3]
  exact ⟨.image (d := [68, 52, 1, 5]) rfl rfl (by decide +kernel) (by decide +kernel) (by decide +kernel) (fun _ => by decide +kernel)
      (by unfold SubBlocks; decide +kernel),
    .extension (d := [0, 5, 0, 0]) (by unfold SubBlocks; decide +kernel),
    .image (d := [68, 52, 1, 5]) rfl rfl (by decide +kernel) (by decide +kernel) (by decide +kernel) (fun _ => by decide +kernel)
      (by unfold SubBlocks; decide +kernel), trivial⟩

theorem bytes_parts : (atOnce twoImages).bytes = head ++ ([image1, control, image2].flatten ++ [0x3B, 7]) := parts

example (cs : List Call) : (sessionFrom Ref.lzw skips (atOnce twoImages) cs).map fadeSeen =
    (sessionFrom Ref.lzw skips (atOnce ownTables) cs).map fadeSeen :=
  recolour_session Ref.lzwContract.safe rfl head_ok bare_ok (.inl rfl) (.inr ⟨[7], rfl⟩) (recoloured _) (atOnce_reliable _) (atOnce_reliable _)
    bytes_parts rfl cs

example : (sessionFrom Ref.lzw .new (atOnce twoImages) []).map fadeSeen = (sessionFrom Ref.lzw .new (atOnce ownTables) []).map fadeSeen :=
  recolour_open Ref.lzwContract head_ok bare_ok (.inl rfl) (.inr ⟨[7], rfl⟩) (recoloured _) (atOnce_reliable _) (atOnce_reliable _)
    bytes_parts rfl

theorem frame_rgba : ∀ f ∈ rawFrames (rawFilm Ref.lzw rgba (atOnce twoImages) 3), f.buffer = [2, 68, 52, 1, 5] ∧
    0 < f.width.toNat * f.height.toNat := by decide +kernel

/-- The pixels as RGBA, in one go and in pieces. -/
example : (filmFrom Ref.lzw rgba (atOnce twoImages) [.read, .info, .fill 12, .fill 100, .read]).map fadeGot =
    (filmFrom Ref.lzw rgba (atOnce ownTables) [.read, .info, .fill 12, .fill 100, .read]).map fadeGot := by
  refine recolour_film Ref.lzwContract rfl rfl head_ok bare_ok (.inl rfl) (.inr ⟨[7], rfl⟩) (recoloured _) (atOnce_reliable _)
    (atOnce_reliable _) bytes_parts rfl _ ⟨by decide +kernel, by decide +kernel, ?_⟩ (.inl ?_)
  · intro f hf
    obtain ⟨h1, h2⟩ := frame_rgba f hf
    exact ⟨h2, fun m data px hb hy => (no_invalid h1 m data px hb hy).elim⟩
  · intro f hf
    obtain ⟨h1, h2⟩ := frame_rgba f hf
    exact fun m data px hb hy => no_invalid h1 m data px hb hy

/-- They are there, and have colours. -/
example : (filmFrom Ref.lzw rgba (atOnce ownTables) [.read]).map (fun
    | .seen (.frame (some f) _) => (f.buffer.take 8, f.palette.isSome)
    | _ => ([], false)) = [([], false), ([1, 2, 3, 255, 4, 5, 6, 255], true)] := by decide +kernel

/-- With another table that applies to an image, indices are the same, colours are not. -/
example : Recoloured .indexed none none (0x2C :: ([0, 0, 0, 0, 1, 0, 1, 0] ++ 0x80 :: ([1, 2, 3, 4, 5, 6] ++ 2 :: 2 :: [68, 1, 0])))
    (0x2C :: ([0, 0, 0, 0, 1, 0, 1, 0] ++ 0x81 :: (colours ++ 2 :: 2 :: [68, 1, 0]))) :=
  .image (d := [68, 1]) rfl rfl rfl rfl rfl (fun h => by cases h) (by unfold SubBlocks; decide +kernel)

example : ¬ (filmFrom Ref.lzw rgba (atOnce ownTables) [.read]).map fadeGot =
    (filmFrom Ref.lzw rgba (atOnce (bare ++ ([0x2C :: ([0, 0, 0, 0, 3, 0, 2, 0] ++ 0x81 :: (colours.reverse ++ 2 :: 3 :: [68, 52, 1, 1, 5, 0]))].flatten
      ++ [0x3B, 7]))) [.read]).map fadeGot := by decide +kernel

/-- An image to which no table applies at all is not read. -/
example : (sessionFrom Ref.lzw skips (atOnce (bare ++ (image1 ++ [0x3B]))) [.read]).map (fun | .failed _ => true | _ => false) =
    [false, true] := by decide +kernel

end Gif.Recolour.Cases
