import Verif.Props.LastWord
import Verif.Props.RemarkCases
/-!
# C103, cases
-/

namespace Gif.Remark.Cases

open Spec Decoder Gif.Twofold.Cases Gif.Draw.Cases

set_option maxRecDepth 100000

/-- The file with another control extension before the one that it has: dispose of the frame, wait for user input, another delay, and a
transparent colour. -/
def twice : List UInt8 :=
  head ++ ([image1].flatten ++ ((0x21 :: 0xF9 :: 4 :: [0x0F, 9, 1, 2, 0]) ++ (control ++ (image2 ++ [0x3B, 7]))))

theorem other_control : SubBlocks 4 [0x0F, 9, 1, 2, 0] [0x0F, 9, 1, 2] := by unfold SubBlocks; decide +kernel

theorem one_ok : ∀ x ∈ [image1], IsExtension x ∨ IsPicture x := fun x hx => two_ok x (by simp at hx ⊢; exact .inl hx)

theorem control_next : ControlNext (control ++ (image2 ++ [0x3B, 7])) :=
  ⟨4, [0, 5, 0, 0, 0], [0, 5, 0, 0], image2 ++ [0x3B, 7], by unfold SubBlocks; decide +kernel, by decide +kernel⟩

theorem once_bytes : (atOnce twoImages).bytes = head ++ ([image1].flatten ++ (control ++ (image2 ++ [0x3B, 7]))) := by decide +kernel

example (cs : List Call) : sessionFrom Ref.lzw skips (atOnce twoImages) cs = sessionFrom Ref.lzw skips (atOnce twice) cs :=
  control_session Ref.lzwContract.safe rfl rfl other_control (by decide +kernel) head_ok [image1] one_ok control_next
    (atOnce_reliable _) (atOnce_reliable _) once_bytes rfl cs

example : sessionFrom Ref.lzw .new (atOnce twoImages) [] = sessionFrom Ref.lzw .new (atOnce twice) [] :=
  control_open Ref.lzwContract rfl other_control (by decide +kernel) head_ok [image1] one_ok control_next
    (atOnce_reliable _) (atOnce_reliable _) once_bytes rfl

example : filmFrom Ref.lzw .new (atOnce twoImages) [.read, .info, .fill 2, .fill 100, .read] =
    filmFrom Ref.lzw .new (atOnce twice) [.read, .info, .fill 2, .fill 100, .read] := by
  refine control_film Ref.lzwContract rfl rfl rfl other_control (by decide +kernel) head_ok [image1] one_ok control_next
    (atOnce_reliable _) (atOnce_reliable _) once_bytes rfl _ ⟨by decide +kernel, by decide +kernel, ?_⟩ (.inl ?_)
  · intro f hf
    obtain ⟨h1, h2⟩ := frame_plain f hf
    exact ⟨h2, fun m data px hb hy => (no_invalid h1 m data px hb hy).elim⟩
  · intro f hf
    obtain ⟨h1, h2⟩ := frame_plain f hf
    exact fun m data px hb hy => no_invalid h1 m data px hb hy

/-- What the frames say: the second one has the delay of the last control extension and nothing of the first. -/
example : (sessionFrom Ref.lzw skips (atOnce twice) [.read, .read]).map (fun
    | .frame (some f) _ => (f.delay, f.transparent, f.needsUserInput, f.dispose)
    | _ => (0, none, false, .keep)) = [(0, none, false, .keep), (0, none, false, .keep), (5, none, false, .any)] := by decide +kernel

/-- With an image between them both count. -/
example : (sessionFrom Ref.lzw skips (atOnce (head ++ ((0x21 :: 0xF9 :: 4 :: [0x0F, 9, 1, 2, 0]) ++ (image1 ++ (control ++ (image2 ++ [0x3B]))))))
      [.read, .read]).map (fun
    | .frame (some f) _ => (f.delay, f.transparent, f.needsUserInput, f.dispose)
    | _ => (0, none, false, .keep)) = [(0, none, false, .keep), (265, some 2, true, .previous), (5, none, false, .any)] := by decide +kernel

/-- A loop count of `n`. -/
def count (n : UInt8) : List UInt8 := [78, 69, 84, 83, 67, 65, 80, 69, 50, 46, 48, 3, 1, n, 0, 0]

def counted : List UInt8 := head ++ ((0x21 :: 0xFF :: 11 :: count 3) ++ (image1 ++ [0x3B]))

def countedTwice : List UInt8 := head ++ ((0x21 :: 0xFF :: 11 :: count 7) ++ ((0x21 :: 0xFF :: 11 :: count 3) ++ (image1 ++ [0x3B])))

theorem other_count (o : DecodeOptions) (ho : o.memoryLimit = DecodeOptions.new.memoryLimit) :
    Remark o 0xFF 11 (count 7) [78, 69, 84, 83, 67, 65, 80, 69, 50, 46, 48, 1, 7, 0] :=
  ⟨.inr (.inr rfl), by unfold SubBlocks; decide +kernel, .inr (by rw [ho]; decide +kernel)⟩

theorem loop_next : LoopNext ((0x21 :: 0xFF :: 11 :: count 3) ++ (image1 ++ [0x3B])) :=
  ⟨11, count 3, [78, 69, 84, 83, 67, 65, 80, 69, 50, 46, 48, 1, 3, 0], .finite 3, image1 ++ [0x3B],
    by unfold SubBlocks; decide +kernel, by decide +kernel, by decide +kernel⟩

theorem none_ok : ∀ x ∈ ([] : List (List UInt8)), IsExtension x ∨ IsPicture x := fun x hx => by cases hx

example (cs : List Call) : sessionFrom Ref.lzw skips (atOnce counted) cs = sessionFrom Ref.lzw skips (atOnce countedTwice) cs :=
  loop_session Ref.lzwContract.safe rfl rfl (other_count skips rfl) head_ok [] none_ok loop_next
    (atOnce_reliable _) (atOnce_reliable _) rfl rfl cs

example : sessionFrom Ref.lzw .new (atOnce counted) [] = sessionFrom Ref.lzw .new (atOnce countedTwice) [] :=
  loop_open Ref.lzwContract rfl (other_count .new rfl) head_ok [] none_ok loop_next
    (atOnce_reliable _) (atOnce_reliable _) rfl rfl

theorem frame_counted : ∀ f ∈ rawFrames (rawFilm Ref.lzw .new (atOnce counted) 2), f.buffer = [2, 68, 52, 1, 5] ∧
    0 < f.width.toNat * f.height.toNat := by decide +kernel

example : filmFrom Ref.lzw .new (atOnce counted) [.info, .fill 2, .fill 100, .read] =
    filmFrom Ref.lzw .new (atOnce countedTwice) [.info, .fill 2, .fill 100, .read] := by
  refine loop_film Ref.lzwContract rfl rfl rfl (other_count .new rfl) head_ok [] none_ok loop_next
    (atOnce_reliable _) (atOnce_reliable _) rfl rfl _ ⟨by decide +kernel, by decide +kernel, ?_⟩ (.inl ?_)
  · intro f hf
    obtain ⟨h1, h2⟩ := frame_counted f hf
    exact ⟨h2, fun m data px hb hy => (no_invalid h1 m data px hb hy).elim⟩
  · intro f hf
    obtain ⟨h1, h2⟩ := frame_counted f hf
    exact fun m data px hb hy => no_invalid h1 m data px hb hy

/-- `repeat()` is 3, not 7; the other way round it is 7. -/
example : (readInfo Ref.lzw .new (atOnce countedTwice)).1.repetition = .finite 3 ∧
    (readInfo Ref.lzw .new (atOnce (head ++ ((0x21 :: 0xFF :: 11 :: count 3) ++ ((0x21 :: 0xFF :: 11 :: count 7) ++ (image1 ++ [0x3B])))))).1.repetition =
      .finite 7 := by
  decide +kernel

end Gif.Remark.Cases
