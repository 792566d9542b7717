import Verif.Props.Remark
import Verif.Props.TwoWaysCases
/-!
# C102, cases
-/

namespace Gif.Remark.Cases

open Spec Decoder Gif.Twofold.Cases Gif.Draw.Cases

set_option maxRecDepth 100000

def skips : DecodeOptions := { DecodeOptions.new with skipFrameDecoding := true }

/-- Head, first image, control extension and second image of a file. -/
def head : List UInt8 := twoImages.take 25
def image1 : List UInt8 := (twoImages.drop 25).take 18
def control : List UInt8 := (twoImages.drop 43).take 8
def image2 : List UInt8 := (twoImages.drop 51).take 18

theorem parts : twoImages = head ++ ([image1, control, image2].flatten ++ [0x3B, 7]) := by decide +kernel

theorem head_ok : IsHead head := by
  refine ⟨.inr (by decide +kernel), by decide +kernel, by decide +kernel⟩

theorem image1_ok : IsPicture image1 :=
  ⟨[0, 0, 0, 0, 3, 0, 2, 0], 0, [], 2, 3, [68, 52, 1, 1, 5, 0], [68, 52, 1, 5], by decide +kernel, rfl, rfl, by unfold SubBlocks; decide +kernel⟩

theorem image2_ok : IsPicture image2 :=
  ⟨[0, 0, 0, 0, 3, 0, 2, 0], 0x40, [], 2, 2, [68, 52, 2, 1, 5, 0], [68, 52, 1, 5], by decide +kernel, rfl, rfl, by unfold SubBlocks; decide +kernel⟩

theorem control_ok : IsExtension control :=
  ⟨0xF9, 4, [0, 5, 0, 0, 0], [0, 5, 0, 0], by decide +kernel, by unfold SubBlocks; decide +kernel⟩

/-- A comment in two sub-blocks. -/
theorem comment : Remark DecodeOptions.new 0xFE 2 [72, 105, 1, 33, 0] [72, 105, 33] :=
  ⟨.inr (.inl rfl), by unfold SubBlocks; decide +kernel, .inr (by decide +kernel)⟩

theorem comment_skip : Remark skips 0xFE 2 [72, 105, 1, 33, 0] [72, 105, 33] :=
  ⟨.inr (.inl rfl), by unfold SubBlocks; decide +kernel, .inr (by decide +kernel)⟩

/-- The file with the comment between the control extension and the image that it belongs to. -/
def remarked : List UInt8 :=
  head ++ ([image1, control].flatten ++ ((0x21 :: 0xFE :: 2 :: [72, 105, 1, 33, 0]) ++ (image2 ++ [0x3B, 7])))

theorem two_ok : ∀ x ∈ [image1, control], IsExtension x ∨ IsPicture x := by
  intro x hx
  simp only [List.mem_cons, List.not_mem_nil, or_false] at hx
  rcases hx with rfl | rfl
  · exact .inr image1_ok
  · exact .inl control_ok

theorem plain_bytes : (atOnce twoImages).bytes = head ++ ([image1, control].flatten ++ (image2 ++ [0x3B, 7])) := by decide +kernel

/-- The raw frames are the same, whatever calls are made. -/
example (cs : List Call) : sessionFrom Ref.lzw skips (atOnce twoImages) cs = sessionFrom Ref.lzw skips (atOnce remarked) cs :=
  remark_session Ref.lzwContract.safe rfl rfl comment_skip head_ok [image1, control] two_ok (fun h => by cases h) (.inl (by simp))
    (atOnce_reliable _) (atOnce_reliable _) plain_bytes rfl cs

example : sessionFrom Ref.lzw .new (atOnce twoImages) [] = sessionFrom Ref.lzw .new (atOnce remarked) [] :=
  remark_open Ref.lzwContract rfl comment head_ok [image1, control] two_ok (fun h => by cases h) (.inl (by simp))
    (atOnce_reliable _) (atOnce_reliable _) plain_bytes rfl

/-- There are two frames, with a delay for the second; then the trailer. -/
example : (sessionFrom Ref.lzw skips (atOnce remarked) [.read, .read, .read]).map (fun
    | .frame (some f) _ => (f.buffer, f.delay)
    | .frame none _ => ([1], 0)
    | _ => ([], 0)) = [([], 0), ([2, 68, 52, 1, 5], 0), ([2, 68, 52, 1, 5], 5), ([1], 0)] := by decide +kernel

theorem yields_plain : Ref.lzwContract.Yields (Ref.lzw.new 2) [68, 52, 1, 5] [0, 1, 2, 3, 1, 0] .ended := by
  show (_ = _ ∧ _ = _)
  exact ⟨by decide +kernel, by decide +kernel⟩

theorem frame_plain : ∀ f ∈ rawFrames (rawFilm Ref.lzw .new (atOnce twoImages) 3), f.buffer = [2, 68, 52, 1, 5] ∧
    0 < f.width.toNat * f.height.toNat := by decide +kernel

theorem no_invalid {f : Frame} (h : f.buffer = [2, 68, 52, 1, 5]) (m : UInt8) (data px : List UInt8) (hb : f.buffer = m :: data)
    (hy : Ref.lzwContract.Yields (Ref.lzw.new m) data px .invalid) : False := by
  rw [h] at hb
  cases hb
  have := (Ref.lzwContract.det hy yields_plain).2
  cases this

/-- The pixels are the same, read in one go and line by line. -/
example : filmFrom Ref.lzw .new (atOnce twoImages) [.read, .info, .fill 2, .fill 100, .read] =
    filmFrom Ref.lzw .new (atOnce remarked) [.read, .info, .fill 2, .fill 100, .read] := by
  refine remark_film Ref.lzwContract rfl rfl rfl comment head_ok [image1, control] two_ok (fun h => by cases h) (.inl (by simp))
    (atOnce_reliable _) (atOnce_reliable _) plain_bytes rfl _ ⟨by decide +kernel, by decide +kernel, ?_⟩ (.inl ?_)
  · intro f hf
    obtain ⟨h1, h2⟩ := frame_plain f hf
    exact ⟨h2, fun m data px hb hy => (no_invalid h1 m data px hb hy).elim⟩
  · intro f hf
    obtain ⟨h1, h2⟩ := frame_plain f hf
    exact fun m data px hb hy => no_invalid h1 m data px hb hy

/-- After a colour table with only the trailer behind it, a comment does make a difference: without it the file is not opened. -/
example : (readInfo Ref.lzw .new (atOnce (head ++ [0x3B]))).2 = .err (.io .unexpectedEof) ∧
    (readInfo Ref.lzw .new (atOnce (head ++ ((0x21 :: 0xFE :: 2 :: [72, 105, 1, 33, 0]) ++ [0x3B])))).2 = .ok () := by
  decide +kernel

/-- With `allow_unknown_blocks` it does, too: an unknown block continues the control extension before it, which is then too long. -/
example : (rawFilm Ref.lzw { DecodeOptions.new with allowUnknownBlocks := true }
      (atOnce (head ++ (control ++ ([0x99, 1, 1, 0] ++ (image2 ++ [0x3B]))))) 1).getLast? =
      some (.failed (.format .controlWrongLength)) ∧
    ∀ e, some (.failed e) ≠ (rawFilm Ref.lzw { DecodeOptions.new with allowUnknownBlocks := true }
      (atOnce (head ++ (control ++ ([0x21, 0xFE, 2, 72, 105, 1, 33, 0] ++ ([0x99, 1, 1, 0] ++ (image2 ++ [0x3B])))))) 1).getLast? := by
  refine ⟨by decide +kernel, fun e he => ?_⟩
  have : ((rawFilm Ref.lzw { DecodeOptions.new with allowUnknownBlocks := true }
      (atOnce (head ++ (control ++ ([0x21, 0xFE, 2, 72, 105, 1, 33, 0] ++ ([0x99, 1, 1, 0] ++ (image2 ++ [0x3B])))))) 1).getLast?.map
      fun | .failed _ => true | _ => false) = some false := by decide +kernel
  rw [← he] at this
  cases this

end Gif.Remark.Cases
