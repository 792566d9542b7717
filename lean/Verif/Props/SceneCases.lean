import Verif.Props.ScenePixels
/-!
# C90: cases
-/

namespace Gif.Decoder

open Spec

/-- The beginning of the animation, the pieces with its frames, and what a decoder sees of these. -/
def animationHead : List UInt8 := animation.bytes.take 19
def animationFirst : List UInt8 := (animation.bytes.drop 19).take 21
def animationSecond : List UInt8 := (animation.bytes.drop 40).take 29

/-- What is seen of a piece that stands alone. -/
def alone (o : DecodeOptions) (piece : List UInt8) : View × Frame :=
  (firstFrame Ref.lzw o (animationHead ++ piece)).getD (⟨0, 0, none, none, .infinite, .default⟩, .default)

theorem animation_head : IsHead animationHead := by
  refine ⟨.inr ?_, ?_, ?_⟩ <;> decide +kernel

theorem animation_pieces : animation.bytes = animationHead ++ (animationFirst ++ (animationSecond ++ [0x3B, 99])) := by decide +kernel

theorem animation_scenes : ∀ s ∈ [animationFirst, animationSecond],
    Scene Ref.lzw rawOptions animationHead s (alone rawOptions s).1 (alone rawOptions s).2 := by
  intro s hs
  simp only [List.mem_cons, List.not_mem_nil, or_false] at hs
  rcases hs with rfl | rfl <;> exact ⟨by decide +kernel, by decide +kernel⟩

/-- The frames of the animation in the order second, first, second. -/
def remix : Reader := { buf := animationHead ++ (animationSecond ++ (animationFirst ++ (animationSecond ++ [0x3B, 1]))), src := [] }

theorem remix_reliable : remix.Reliable := by
  intro ev h
  cases h

set_option maxRecDepth 100000 in
/-- `scenes_spliced` applies to the animation with its frames in another order. The second frame has a delay. -/
example : (∃ w, sessionFrom Ref.lzw rawOptions remix (List.replicate 4 .read) =
      .opened (alone rawOptions animationSecond).1 :: roll (alone rawOptions animationSecond).1
        [(alone rawOptions animationSecond).2, (alone rawOptions animationFirst).2, (alone rawOptions animationSecond).2] ++
        [.frame none w]) ∧
    ((alone rawOptions animationSecond).2.delay, (alone rawOptions animationFirst).2.delay) = (5, 0) := by
  refine ⟨⟨_, scenes_spliced Ref.lzw_safe rawOptions rfl rfl animation_head (animationSecond, alone rawOptions animationSecond)
    [(animationFirst, alone rawOptions animationFirst), (animationSecond, alone rawOptions animationSecond)] ?_ remix_reliable [1]
    (by decide +kernel) 1⟩, by decide +kernel⟩
  intro x hx
  simp only [List.mem_cons, List.not_mem_nil, or_false] at hx
  rcases hx with rfl | rfl | rfl <;> exact animation_scenes _ (by simp)

set_option maxRecDepth 100000 in
/-- `scenes_spliced_pixels_partial` applies to it. -/
example : (∃ w, sessionFrom Ref.lzw .new remix (List.replicate 4 .read) =
      .opened (alone rawOptions animationSecond).1 :: roll (alone rawOptions animationSecond).1
        [(alone .new animationSecond).2, (alone .new animationFirst).2, (alone .new animationSecond).2] ++
        [.frame none w]) ∧
    ((alone .new animationSecond).2.buffer, (alone .new animationFirst).2.buffer) = ([1, 1], [1, 1]) := by
  refine ⟨⟨_, scenes_spliced_pixels_partial Ref.lzwContract .new rfl rfl rfl animation_head
    (animationSecond, (alone rawOptions animationSecond).1, (alone rawOptions animationSecond).2, (alone .new animationSecond).2)
    [(animationFirst, (alone rawOptions animationFirst).1, (alone rawOptions animationFirst).2, (alone .new animationFirst).2),
      (animationSecond, (alone rawOptions animationSecond).1, (alone rawOptions animationSecond).2, (alone .new animationSecond).2)]
    ?_ remix_reliable [1] (by decide +kernel) 1⟩, by decide +kernel⟩
  intro x hx
  simp only [List.mem_cons, List.not_mem_nil, or_false] at hx
  rcases hx with rfl | rfl | rfl <;>
    exact ⟨animation_scenes _ (by simp), Ref.tame_regular (by decide +kernel), by decide +kernel⟩

set_option maxRecDepth 100000 in
/-- `frames_rearranged` (and `scenes_exist`) apply to the animation: two frames are read of it. -/
example : ∃ v l, sessionFrom Ref.lzw rawOptions animationBytewise (List.replicate 3 .read) = .opened v :: l ∧
    (rawFrames l).map (·.delay) = [0, 5] := by
  refine ⟨(alone rawOptions animationFirst).1, (sessionFrom Ref.lzw rawOptions animationBytewise (List.replicate 3 .read)).tail, ?_, ?_⟩ <;>
    decide +kernel

/-- A piece that begins with a block of an unknown kind. -/
def strangePiece : List UInt8 := [1, 1, 7, 0] ++ animationFirst

def strangeOptions : DecodeOptions := { rawOptions with allowUnknownBlocks := true }

set_option maxRecDepth 100000 in
/-- **C90** fails with `allow_unknown_blocks`: both pieces hold a frame, the first with a graphic control extension, the second behind
an unknown block. In the file of both the decoder takes the unknown block for more data of the extension, and fails. -/
theorem scenes_unknown_block :
    (∃ v f, Scene Ref.lzw strangeOptions animationHead animationSecond v f) ∧
    (∃ v f, Scene Ref.lzw strangeOptions animationHead strangePiece v f) ∧
    ∃ v f, sessionFrom Ref.lzw strangeOptions
      { buf := animationHead ++ (animationSecond ++ (strangePiece ++ [0x3B])), src := [] } [.read, .read, .read] =
        [.opened v, f, .failed (.format .controlWrongLength)] := by
  refine ⟨⟨(alone strangeOptions animationSecond).1, (alone strangeOptions animationSecond).2, by decide +kernel, by decide +kernel⟩,
    ⟨(alone strangeOptions strangePiece).1, (alone strangeOptions strangePiece).2, by decide +kernel, by decide +kernel⟩, ?_⟩
  refine ⟨(alone strangeOptions animationSecond).1, .frame (some (alone strangeOptions animationSecond).2)
    { (alone strangeOptions animationSecond).1 with currentFrame := (alone strangeOptions animationSecond).2 }, ?_⟩
  decide +kernel

/-- A frame of one pixel with an invalid code behind it. -/
def brokenPiece : List UInt8 := [0x2C, 0, 0, 0, 0, 1, 0, 1, 0, 0, 2, 2, 0xCC, 1, 0]

set_option maxRecDepth 100000 in
/-- **C90** with pixels fails for an invalid code behind the last pixel: the frame can be read, but the one after it cannot. -/
theorem scenes_invalid_code :
    (∃ v f, Scene Ref.lzw rawOptions animationHead brokenPiece v f) ∧
    (firstFrame Ref.lzw .new (animationHead ++ brokenPiece)).map (·.2.buffer) = some [1] ∧
    (firstFrame Ref.lzw .new (animationHead ++ animationFirst)).map (·.2.buffer) = some [1, 1] ∧
    ∃ v f, sessionFrom Ref.lzw .new
      { buf := animationHead ++ (brokenPiece ++ (animationFirst ++ [0x3B])), src := [] } [.read, .read, .read] =
        [.opened v, f, .failed (.io .invalidCode)] := by
  refine ⟨⟨(alone rawOptions brokenPiece).1, (alone rawOptions brokenPiece).2, by decide +kernel, by decide +kernel⟩,
    by decide +kernel, by decide +kernel, (alone rawOptions brokenPiece).1, .frame (some (alone .new brokenPiece).2)
    { (alone rawOptions brokenPiece).1 with currentFrame := (alone .new brokenPiece).2 }, ?_⟩
  decide +kernel

end Gif.Decoder
