import Verif.Props.Kindred
import Verif.Props.RecolourCases
/-!
# C106, cases
-/

namespace Gif.Kindred.Cases

open Decoder Gif.Twofold.Cases Gif.Remark.Cases
open Gif.Recolour.Cases hiding bytes_parts
open Gif.Draw.Cases hiding head
open Spec hiding colours bare

set_option maxRecDepth 100000

/-- Elsewhere on the screen, with its own colours, its data in one sub-block. -/
def moved1 : List UInt8 := 0x2C :: ([200, 0, 7, 1] ++ ([3, 0, 2, 0] ++ 0x81 :: (colours ++ 2 :: 4 :: [68, 52, 1, 5, 0])))

/-- Another delay, another disposal method, waiting for user input. -/
def slow : List UInt8 := 0x21 :: 0xF9 :: 4 :: [0x0E, 0xFF, 3, 7, 0]

def moved2 : List UInt8 := 0x2C :: ([1, 2, 3, 4] ++ ([3, 0, 2, 0] ++ 0xC1 :: (colours ++ 2 :: 1 :: [68, 1, 52, 1, 1, 1, 5, 0])))

def moved : List UInt8 := bare ++ ([moved1, slow, moved2].flatten ++ [0x3B, 1, 2, 3])

theorem kindred (c : ColorOutput) : KindredAll c (headTable head) (headTable bare) [image1, control, image2] [moved1, slow, moved2] := by
  have h1 : image1 = 0x2C :: ([0, 0, 0, 0] ++ ([3, 0, 2, 0] ++ 0 :: ([] ++ 2 :: 3 :: [68, 52, 1, 1, 5, 0]))) := by decide +kernel
  have h2 : control = 0x21 :: 0xF9 :: 4 :: [0, 5, 0, 0, 0] := by decide +kernel
  have h3 : image2 = 0x2C :: ([0, 0, 0, 0] ++ ([3, 0, 2, 0] ++ 0x40 :: ([] ++ 2 :: 2 :: [68, 52, 2, 1, 5, 0]))) := by decide +kernel
  rw [h1, h2, h3]
  exact ⟨.image (d := [68, 52, 1, 5]) rfl rfl rfl rfl (by decide +kernel) (by decide +kernel) (by decide +kernel) (fun _ => by decide +kernel)
      (by unfold SubBlocks; decide +kernel) (by unfold SubBlocks; decide +kernel),
    .control (p := 0) (p' := 0x0E) (d0 := 5) (d1 := 0) (t := 0) (d0' := 0xFF) (d1' := 3) (t' := 7) (by unfold SubBlocks; decide +kernel)
      (by unfold SubBlocks; decide +kernel) (fun _ => ⟨by decide +kernel, fun h => by revert h; decide +kernel⟩),
    .image (d := [68, 52, 1, 5]) rfl rfl rfl rfl (by decide +kernel) (by decide +kernel) (by decide +kernel) (fun _ => by decide +kernel)
      (by unfold SubBlocks; decide +kernel) (by unfold SubBlocks; decide +kernel), trivial⟩

theorem ends : Ends [0x3B, 7] [0x3B, 1, 2, 3] := .inr ⟨_, _, rfl, rfl, by simp⟩

theorem bytes_parts : (atOnce twoImages).bytes = head ++ ([image1, control, image2].flatten ++ [0x3B, 7]) := parts

example (cs : List Call) : (sessionFrom Ref.lzw skips (atOnce twoImages) cs).map pixSeen =
    (sessionFrom Ref.lzw skips (atOnce moved) cs).map pixSeen :=
  kindred_session Ref.lzwContract.safe rfl rfl head_ok bare_ok ends (kindred _) (atOnce_reliable _) (atOnce_reliable _) bytes_parts rfl cs

example : (sessionFrom Ref.lzw .new (atOnce twoImages) []).map pixSeen = (sessionFrom Ref.lzw .new (atOnce moved) []).map pixSeen :=
  kindred_open Ref.lzwContract rfl head_ok bare_ok ends (kindred _) (atOnce_reliable _) (atOnce_reliable _) bytes_parts rfl

/-- The pixels as RGBA, in one go and in pieces. -/
example : (filmFrom Ref.lzw rgba (atOnce twoImages) [.read, .info, .fill 12, .fill 100, .read]).map pixGot =
    (filmFrom Ref.lzw rgba (atOnce moved) [.read, .info, .fill 12, .fill 100, .read]).map pixGot := by
  refine kindred_film Ref.lzwContract rfl rfl rfl head_ok bare_ok ends (kindred _) (atOnce_reliable _)
    (atOnce_reliable _) bytes_parts rfl _ ⟨by decide +kernel, by decide +kernel, ?_⟩ (.inl ?_)
  · intro f hf
    obtain ⟨h1, h2⟩ := frame_rgba f hf
    exact ⟨h2, fun m data px hb hy => (no_invalid h1 m data px hb hy).elim⟩
  · intro f hf
    obtain ⟨h1, h2⟩ := frame_rgba f hf
    exact fun m data px hb hy => no_invalid h1 m data px hb hy

/-- The second frame is there, elsewhere and later. -/
example : (filmFrom Ref.lzw rgba (atOnce moved) [.read, .read]).map (fun
    | .seen (.frame (some f) _) => (f.buffer.take 8, f.left, f.delay)
    | _ => ([], 0, 0)) = [([], 0, 0), ([1, 2, 3, 255, 4, 5, 6, 255], 200, 0), ([1, 2, 3, 255, 4, 5, 6, 255], 513, 1023)] := by decide +kernel

/-- A loop count and a comment of the same length. -/
example : Kindred .rgba none none
    (0x21 :: 0xFF :: 11 :: [0x4E, 0x45, 0x54, 0x53, 0x43, 0x41, 0x50, 0x45, 0x32, 0x2E, 0x30, 3, 1, 9, 0, 0])
    (0x21 :: 0xFE :: 14 :: [72, 101, 108, 108, 111, 44, 32, 119, 111, 114, 108, 100, 33, 33, 0]) :=
  .other (d := [0x4E, 0x45, 0x54, 0x53, 0x43, 0x41, 0x50, 0x45, 0x32, 0x2E, 0x30, 1, 9, 0])
    (d' := [72, 101, 108, 108, 111, 44, 32, 119, 111, 114, 108, 100, 33, 33]) (.inr (.inr rfl)) (.inr (.inl rfl))
    (by unfold SubBlocks; decide +kernel) (by unfold SubBlocks; decide +kernel) rfl

/-- Transparency does count with RGBA, and does not with indices. -/
example : ¬ (filmFrom Ref.lzw rgba (atOnce (head ++ ((0x21 :: 0xF9 :: 4 :: [0, 0, 0, 0, 0]) ++ (image1 ++ [0x3B])))) [.read]).map pixGot =
      (filmFrom Ref.lzw rgba (atOnce (head ++ ((0x21 :: 0xF9 :: 4 :: [1, 0, 0, 0, 0]) ++ (image1 ++ [0x3B])))) [.read]).map pixGot ∧
    (filmFrom Ref.lzw .new (atOnce (head ++ ((0x21 :: 0xF9 :: 4 :: [0, 0, 0, 0, 0]) ++ (image1 ++ [0x3B])))) [.read]).map pixGot =
      (filmFrom Ref.lzw .new (atOnce (head ++ ((0x21 :: 0xF9 :: 4 :: [1, 0, 0, 0, 0]) ++ (image1 ++ [0x3B])))) [.read]).map pixGot := by
  decide +kernel

/-- With `check_frame_consistency` the position does count. -/
example : ¬ (sessionFrom Ref.lzw { skips with checkFrameConsistency := true } (atOnce twoImages) [.read]).map pixSeen =
    (sessionFrom Ref.lzw { skips with checkFrameConsistency := true } (atOnce moved) [.read]).map pixSeen := by decide +kernel

/-- A trailer right behind the head, alone: this file is not opened, while it is with another byte behind the trailer. -/
example : ¬ (sessionFrom Ref.lzw .new (atOnce (head ++ [0x3B])) []).map pixSeen =
    (sessionFrom Ref.lzw .new (atOnce (head ++ [0x3B, 0])) []).map pixSeen := by decide +kernel

end Gif.Kindred.Cases
