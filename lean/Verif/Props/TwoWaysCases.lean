import Verif.Props.TwoWays
import Verif.Props.GistCases
/-!
# C97, cases
-/

namespace Gif.Twofold.Cases

open Spec SD Draw Gif.Draw.Cases Gif.Props

set_option maxRecDepth 100000

/-- A file with a colour table and two images; the second is interlaced. -/
def twoImages : List UInt8 :=
  [0x47, 0x49, 0x46, 0x38, 0x39, 0x61, 3, 0, 2, 0, 0x81, 0, 0, 1, 2, 3, 4, 5, 6, 7, 8, 9, 10, 11, 12,
   0x2C, 0, 0, 0, 0, 3, 0, 2, 0, 0, 2, 3, 68, 52, 1, 1, 5, 0,
   0x21, 0xF9, 4, 0, 5, 0, 0, 0,
   0x2C, 0, 0, 0, 0, 3, 0, 2, 0, 0x40, 2, 2, 68, 52, 2, 1, 5, 0, 0x3B, 7]

def rgbaOptions : DecodeOptions := { DecodeOptions.new with colorOutput := .rgba }

def reader : Reader := Decoder.atOnce twoImages

theorem reader_reliable : reader.Reliable := Decoder.atOnce_reliable _

/-- A program with slices of 100 bytes and buffers of two bytes, `n` calls. -/
def program (o : DecodeOptions) (n : Nat) := draw (List.replicate n (100, .slice 2)) (SD.withOptions Ref.lzw o) reader.bytes

theorem program_drawing (o : DecodeOptions) (n : Nat) (h : (program o n).2.2.2 = true) :
    Drawing (SD.withOptions Ref.lzw o) reader.bytes (program o n).1 (program o n).2.1 (program o n).2.2.1 := by
  unfold program at h ⊢
  generalize List.replicate n (100, OutSpec.slice 2) = ps at h ⊢
  exact draw_drawing ps _ _ h

theorem frame_exists {x : Option Seen} (h : (x.bind fun | .frame (some f) v => some (f, v) | _ => none).isSome = true) :
    ∃ f v, x = some (.frame (some f) v) := by
  revert h
  rcases x with _ | x
  · intro h; cases h
  · cases x <;> try (intro h; cases h)
    rename_i f v
    cases f
    · intro h; cases h
    · intro _; exact ⟨_, _, rfl⟩

theorem none_exists {x : Option Seen} (h : (x.bind fun | .frame none v => some v | _ => none).isSome = true) :
    ∃ v, x = some (.frame none v) := by
  revert h
  rcases x with _ | x
  · intro h; cases h
  · cases x <;> try (intro h; cases h)
    rename_i f v
    cases f
    · intro _; exact ⟨_, rfl⟩
    · intro h; cases h

theorem picture_exists {xs ys : List Got} (h : xs.dropLast = ys)
    (hl : (xs.getLast?.bind fun | .seen (.frame (some f) v) => some (f, v) | _ => none).isSome = true) :
    ∃ f v, xs = ys ++ [.seen (.frame (some f) v)] := by
  revert hl
  rcases List.eq_nil_or_concat xs with rfl | ⟨xs', x, rfl⟩
  · intro h; cases h
  · rw [List.concat_eq_append, List.dropLast_concat] at h
    subst h
    rw [List.concat_eq_append, List.getLast?_concat]
    rcases x with x | _
    · cases x <;> try (intro h; cases h)
      rename_i f v
      cases f
      · intro h; cases h
      · intro _; exact ⟨_, _, rfl⟩
    all_goals (intro h; cases h)

/-- The data of the second image, as a `Decoder` with `skip_frame_decoding` returns them, and as the program gathers them. -/
example : ∃ f v, (Decoder.sessionFrom Ref.lzw skipOptions reader (List.replicate 3 .read))[1 + 1]? = some (.frame (some f) v) ∧
    f.buffer.tail = [68, 52, 1, 5] := by
  obtain ⟨f, v, h⟩ := frame_exists
    (x := (Decoder.sessionFrom Ref.lzw skipOptions reader (List.replicate 3 .read))[1 + 1]?) (by decide +kernel)
  exact ⟨f, v, h, same_data Ref.lzwContract rfl reader_reliable (program_drawing skipOptions 17 (by decide +kernel))
    (careful_of _ _ (by decide +kernel)) (by decide +kernel) h⟩

/-- The program was told of the second image, with and without `skip_frame_decoding`. -/
example : ∃ f v, (Decoder.rawFilm Ref.lzw .new reader 3)[1 + 1]? = some (.frame (some f) v) ∧
    (program .new 13).2.1.current = some (bare f) := by
  obtain ⟨f, v, h⟩ := frame_exists (x := (Decoder.rawFilm Ref.lzw .new reader 3)[1 + 1]?) (by decide +kernel)
  exact ⟨f, v, h, (same_frame Ref.lzwContract reader_reliable (c := (program .new 13).1.getLast (by decide +kernel))
    (split_last (program_drawing .new 13 (by decide +kernel)) _) (careful_of _ _ (by decide +kernel)) (t := .pixels)
    (by decide +kernel) (i := 1) (by decide +kernel) h).1⟩

example : ∃ f v, (Decoder.rawFilm Ref.lzw skipOptions reader 3)[1 + 1]? = some (.frame (some f) v) ∧ f.buffer.head? = some 2 := by
  obtain ⟨f, v, h⟩ := frame_exists (x := (Decoder.rawFilm Ref.lzw skipOptions reader 3)[1 + 1]?) (by decide +kernel)
  exact ⟨f, v, h, (same_frame Ref.lzwContract reader_reliable (c := (program skipOptions 13).1.getLast (by decide +kernel))
    (split_last (program_drawing skipOptions 13 (by decide +kernel)) _) (careful_of _ _ (by decide +kernel)) (t := .lzw 2)
    (by decide +kernel) (i := 1) (by decide +kernel) h).2 2 rfl⟩

/-- Both find two images, and both do not find a third one. -/
example : ∃ f v, (Decoder.rawFilm Ref.lzw .new reader 3)[1 + 1]? = some (.frame (some f) v) ∧
    1 < (gathered (gist [] (program .new 18).1)).length := by
  obtain ⟨f, v, h⟩ := frame_exists (x := (Decoder.rawFilm Ref.lzw .new reader 3)[1 + 1]?) (by decide +kernel)
  exact ⟨f, v, h, no_more_frames Ref.lzwContract reader_reliable (program_drawing .new 18 (by decide +kernel))
    (careful_of _ _ (by decide +kernel)) (told_trailer (by decide +kernel)) h⟩

example : ∃ v, (Decoder.rawFilm Ref.lzw .new reader 3)[2 + 1]? = some (.frame none v) ∧
    (gathered (gist [] (program .new 18).1)).length ≤ 2 := by
  obtain ⟨v, h⟩ := none_exists (x := (Decoder.rawFilm Ref.lzw .new reader 3)[2 + 1]?) (by decide +kernel)
  exact ⟨v, h, no_more_images Ref.lzwContract reader_reliable (program_drawing .new 18 (by decide +kernel))
    (careful_of _ _ (by decide +kernel)) h⟩

/-- The picture of the second image, in RGBA, is the one that is made of what the program was told and of what it gathered. -/
example : ∃ g w f, Decoder.filmFrom Ref.lzw rgbaOptions reader ([.info] ++ [.read]) =
      Decoder.filmFrom Ref.lzw rgbaOptions reader [.info] ++ [.seen (.frame (some g) w)] ∧
    (program rgbaOptions 13).2.1.current = some f ∧ g = Spec.shown .rgba w.globalPalette f [0, 1, 2, 3, 1, 0] := by
  obtain ⟨g, w, h⟩ := picture_exists (xs := Decoder.filmFrom Ref.lzw rgbaOptions reader ([.info] ++ [.read]))
    (ys := Decoder.filmFrom Ref.lzw rgbaOptions reader [.info]) (by decide +kernel) (by decide +kernel)
  obtain ⟨f, e1, e2, -⟩ := same_picture Ref.lzwContract (o := rgbaOptions) rfl reader_reliable
    (c := (program rgbaOptions 13).1.getLast (by decide +kernel))
    (split_last (program_drawing rgbaOptions 13 (by decide +kernel)) _) (careful_of _ _ (by decide +kernel)) (t := .pixels)
    (by decide +kernel) (program_drawing rgbaOptions 17 (by decide +kernel)) (careful_of _ _ (by decide +kernel)) [.info] h
    (by decide +kernel) (x := [0, 1, 2, 3, 1, 0]) (by decide +kernel)
  exact ⟨g, w, f, h, e1, e2⟩

end Gif.Twofold.Cases
