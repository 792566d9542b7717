import Verif.Props.Alike
import Verif.Props.RemarkCases
/-!
# C104, cases
-/

namespace Gif.Alike.Cases

open Spec Decoder Gif.Twofold.Cases Gif.Remark.Cases
open Gif.Draw.Cases hiding head

set_option maxRecDepth 100000

/-- `GIF87a` instead of `GIF89a`, other bits in the packed field, another aspect ratio. -/
def head' : List UInt8 := [0x47, 0x49, 0x46, 0x38, 0x37, 0x61] ++ (head.drop 6).take 4 ++ [head.getD 10 0 + 0x78 - (head.getD 10 0 &&& 0x78), head.getD 11 0, 77] ++
  head.drop 13

/-- The data of the first image in four sub-blocks; reserved bits are set. -/
def image1' : List UInt8 := 0x2C :: ([0, 0, 0, 0, 3, 0, 2, 0] ++ 0x3F :: ([] ++ 2 :: 1 :: [68, 1, 52, 1, 1, 1, 5, 0]))

/-- Reserved bits of the control extension, and another colour that is not transparent; its data in two sub-blocks. -/
def control' : List UInt8 := 0x21 :: 0xF9 :: 1 :: [0xE0, 3, 5, 0, 9, 0]

/-- The data of the second image in one sub-block. -/
def image2' : List UInt8 := 0x2C :: ([0, 0, 0, 0, 3, 0, 2, 0] ++ 0x40 :: ([] ++ 2 :: 4 :: [68, 52, 1, 5, 0]))

def twoImages' : List UInt8 := head' ++ ([image1', control', image2'].flatten ++ [0x3B, 7])

theorem heads : LikeHead head head' :=
  ⟨head_ok, ⟨.inl (by decide +kernel), by decide +kernel, by decide +kernel⟩, by decide +kernel, by decide +kernel, by decide +kernel,
    by decide +kernel⟩

theorem like1 : Like image1 image1' := by
  have : image1 = 0x2C :: ([0, 0, 0, 0, 3, 0, 2, 0] ++ 0 :: ([] ++ 2 :: 3 :: [68, 52, 1, 1, 5, 0])) := by decide +kernel
  rw [this]
  exact .image (d := [68, 52, 1, 5]) rfl rfl (by decide +kernel) (by decide +kernel) (by unfold SubBlocks; decide +kernel)
    (by unfold SubBlocks; decide +kernel)

theorem likeControl : Like control control' := by
  have : control = 0x21 :: 0xF9 :: 4 :: [0, 5, 0, 0, 0] := by decide +kernel
  rw [this]
  exact .control (p := 0) (p' := 0xE0) (d0 := 5) (d1 := 0) (t := 0) (t' := 9) (by unfold SubBlocks; decide +kernel)
    (by unfold SubBlocks; decide +kernel) (by decide +kernel) (by decide +kernel)

theorem like2 : Like image2 image2' := by
  have : image2 = 0x2C :: ([0, 0, 0, 0, 3, 0, 2, 0] ++ 0x40 :: ([] ++ 2 :: 2 :: [68, 52, 2, 1, 5, 0])) := by decide +kernel
  rw [this]
  exact .image (d := [68, 52, 1, 5]) rfl rfl (by decide +kernel) (by decide +kernel) (by unfold SubBlocks; decide +kernel)
    (by unfold SubBlocks; decide +kernel)

theorem all_like : LikeAll [image1, control, image2] [image1', control', image2'] := ⟨like1, likeControl, like2, trivial⟩

theorem bytes_parts : (atOnce twoImages).bytes = head ++ ([image1, control, image2].flatten ++ [0x3B, 7]) := parts

/-- The files are different. -/
example : twoImages ≠ twoImages' ∧ twoImages.length ≠ twoImages'.length := by decide +kernel

example (cs : List Call) : sessionFrom Ref.lzw skips (atOnce twoImages) cs = sessionFrom Ref.lzw skips (atOnce twoImages') cs :=
  like_session Ref.lzwContract.safe rfl rfl heads all_like (atOnce_reliable _) (atOnce_reliable _) bytes_parts rfl cs

example : sessionFrom Ref.lzw .new (atOnce twoImages) [] = sessionFrom Ref.lzw .new (atOnce twoImages') [] :=
  like_open Ref.lzwContract rfl heads all_like (atOnce_reliable _) (atOnce_reliable _) bytes_parts rfl

example : filmFrom Ref.lzw .new (atOnce twoImages) [.read, .info, .fill 2, .fill 100, .read] =
    filmFrom Ref.lzw .new (atOnce twoImages') [.read, .info, .fill 2, .fill 100, .read] := by
  refine like_film Ref.lzwContract rfl rfl rfl heads all_like (atOnce_reliable _) (atOnce_reliable _) bytes_parts rfl _
    ⟨by decide +kernel, by decide +kernel, ?_⟩ (.inl ?_)
  · intro f hf
    obtain ⟨h1, h2⟩ := frame_plain f hf
    exact ⟨h2, fun m data px hb hy => (no_invalid h1 m data px hb hy).elim⟩
  · intro f hf
    obtain ⟨h1, h2⟩ := frame_plain f hf
    exact fun m data px hb hy => no_invalid h1 m data px hb hy

/-- An extension with a text in sub-blocks of different lengths. -/
example : Like (0x21 :: 0xFE :: 3 :: [72, 105, 33, 0]) (0x21 :: 0xFE :: 1 :: [72, 2, 105, 33, 0]) :=
  .extension (d := [72, 105, 33]) (by unfold SubBlocks; decide +kernel) (by unfold SubBlocks; decide +kernel)

/-- The frames are there. -/
example : (sessionFrom Ref.lzw skips (atOnce twoImages') [.read, .read, .read]).map (fun
    | .frame (some f) _ => (f.buffer, f.delay)
    | .frame none _ => ([1], 0)
    | _ => ([], 0)) = [([], 0), ([2, 68, 52, 1, 5], 0), ([2, 68, 52, 1, 5], 5), ([1], 0)] := by decide +kernel

/-- A bit that has a meaning does make a difference. -/
example : ¬ sessionFrom Ref.lzw skips (atOnce (head ++ (0x2C :: [0, 0, 0, 0, 3, 0, 2, 0, 0x00, 2, 1, 5, 0, 0x3B]))) [.read] =
    sessionFrom Ref.lzw skips (atOnce (head ++ (0x2C :: [0, 0, 0, 0, 3, 0, 2, 0, 0x40, 2, 1, 5, 0, 0x3B]))) [.read] := by decide +kernel

end Gif.Alike.Cases
