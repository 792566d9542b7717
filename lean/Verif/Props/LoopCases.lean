import Verif.Props.Loop
import Verif.Props.TwoWaysCases
/-!
# C98, cases
-/

namespace Gif.Loop.Cases

open Spec SD Draw Twofold Gif.Draw.Cases Gif.Twofold.Cases Gif.Props

set_option maxRecDepth 100000

variable {C : Codec}

def toldTrailer (cs : List UpdateCall) : Bool := cs.any fun c => decide (c.event = some (.blockStart .trailer))

/-- The loop, for at most the given number of calls. -/
def run (p : Driver) : Nat → List UpdateCall → SD C → List UInt8 → List UpdateCall × SD C × List UInt8
  | 0, cs, s, l => (cs, s, l)
  | k + 1, cs, s, l =>
    if toldTrailer cs = true ∨ l = [] then (cs, s, l)
    else match s.update (l.take (p cs).1) (p cs).2 with
      | (s1, .ok (n, ev)) => run p k (cs ++ [⟨l.take (p cs).1, (p cs).2, .ok (n, ev)⟩]) s1 (l.drop n)
      | _ => (cs, s, l)

theorem run_drive {p : Driver} {o : DecodeOptions} {bytes : List UInt8} : ∀ (k : Nat) {cs : List UpdateCall} {s : SD C} {l : List UInt8},
    Drive C p o bytes cs s l → Drive C p o bytes (run p k cs s l).1 (run p k cs s l).2.1 (run p k cs s l).2.2 := by
  intro k
  induction k with
  | zero => intro cs s l h; exact h
  | succ k ih =>
    intro cs s l h
    rw [run]
    split
    · exact h
    · rename_i hn
      split
      · rename_i s1 n ev hu
        refine ih (.call h ?_ (fun h => hn (.inr h)) hu)
        intro c hc he
        exact hn (.inl (List.any_eq_true.2 ⟨c, hc, by simpa using he⟩))
      · exact h

/-- Slices of four bytes; buffers of two bytes. -/
def fours : Driver := fun _ => (4, .slice 2)

/-- All that is left; no output buffer outside image data, and a buffer of seven bytes within. -/
def whole : Driver := fun cs => (1000, if dataAfter none cs = none then .none else .slice 7)

theorem fours_fit : fours.Fit := fun _ => ⟨Nat.succ_pos 3, (by intro h; cases h), fun _ => ⟨1, rfl⟩⟩

theorem whole_fit : whole.Fit := by
  intro cs
  refine ⟨Nat.succ_pos 999, ?_, fun h => ⟨6, by simp [whole, h]⟩⟩
  simp only [whole]
  split <;> (intro h; cases h)

def film (p : Driver) (o : DecodeOptions) (k : Nat) := run p k [] (SD.withOptions Ref.lzw o) reader.bytes

theorem film_drive (p : Driver) (o : DecodeOptions) (k : Nat) :
    Drive Ref.lzw p o reader.bytes (film p o k).1 (film p o k).2.1 (film p o k).2.2 := run_drive k .start

theorem film_end {p : Driver} {o : DecodeOptions} {k : Nat} (h : .blockStart .trailer ∈ (film p o k).1.filterMap UpdateCall.event) :
    DriveEnd p (film p o k).1 (film p o k).2.1 (film p o k).2.2 none := .trailer (told_trailer h)

/-- It ends, for any file. -/
example (bytes : List UInt8) : ∃ cs s l r, Drive Ref.lzw whole .new bytes cs s l ∧ DriveEnd whole cs s l r :=
  drive_ends Ref.lzwContract whole_fit .new bytes

/-- 28 calls are made, of at most 358. -/
example : (film fours skipOptions 100).1.length ≤ 5 * reader.bytes.length + 3 :=
  drive_calls Ref.lzwContract fours_fit rfl (film_drive fours skipOptions 100)

example : (film fours skipOptions 100).1.length = 28 ∧ reader.bytes.length = 71 := by decide +kernel

example : ∃ N, (film fours .new 100).1.length ≤ N ∧ (film whole .new 100).1.length ≤ N := by
  obtain ⟨N, h⟩ := drive_bounded Ref.lzwContract .new reader.bytes
  exact ⟨N, h fours fours_fit (film_drive fours .new 100), h whole whole_fit (film_drive whole .new 100)⟩

/-- Another call, or the end: without a call, and when all were made. -/
example : (∃ r, DriveEnd fours (film fours .new 7).1 (film fours .new 7).2.1 (film fours .new 7).2.2 r) ∨
    ∃ c s1 l1, Drive Ref.lzw fours .new reader.bytes ((film fours .new 7).1 ++ [c]) s1 l1 :=
  drive_next Ref.lzwContract fours_fit (film_drive fours .new 7)

/-- The slices and output buffers make no difference. -/
example : gist [] (film fours .new 100).1 = gist [] (film whole .new 100).1 :=
  (drive_same Ref.lzwContract fours_fit whole_fit (film_drive fours .new 100) (film_end (by decide +kernel))
    (film_drive whole .new 100) (film_end (by decide +kernel))).1

example : (film fours .new 100).1.length = 29 ∧ (film whole .new 100).1.length = 15 := by decide +kernel

/-- The compressed data of the second image. -/
example : ∃ f v, (Decoder.sessionFrom Ref.lzw skipOptions reader (List.replicate 3 .read))[1 + 1]? = some (.frame (some f) v) ∧
    (gathered (gist [] (film fours skipOptions 100).1))[1]? = some f.buffer.tail := by
  obtain ⟨f, v, h⟩ := frame_exists
    (x := (Decoder.sessionFrom Ref.lzw skipOptions reader (List.replicate 3 .read))[1 + 1]?) (by decide +kernel)
  exact ⟨f, v, h, drive_finds Ref.lzwContract fours_fit rfl reader_reliable (film_drive fours skipOptions 100)
    (film_end (by decide +kernel)) h⟩

theorem frame_buffer {x : Option Seen} {d : List UInt8}
    (h : (x.bind fun | .frame (some f) _ => some f.buffer | _ => none) = some d) :
    ∃ f v, x = some (.frame (some f) v) ∧ f.buffer = d := by
  revert h
  rcases x with _ | x
  · intro h; cases h
  · cases x <;> try (intro h; cases h)
    rename_i f v
    cases f
    · intro h; cases h
    · intro h; exact ⟨_, _, rfl, Option.some.inj h⟩

/-- The pixels of the second image. -/
example : (gathered (gist [] (film fours .new 100).1))[1]? = some [0, 1, 2, 3, 1, 0] := by
  obtain ⟨f0, v0, h0, b0⟩ := frame_buffer (x := (Decoder.rawFilm Ref.lzw .new reader 3)[0 + 1]?) (d := [2, 68, 52, 1, 5])
    (by decide +kernel)
  obtain ⟨f1, v1, h1, b1⟩ := frame_buffer (x := (Decoder.rawFilm Ref.lzw .new reader 3)[1 + 1]?) (d := [2, 68, 52, 1, 5])
    (by decide +kernel)
  have hy : Ref.lzwContract.Yields (Ref.lzw.new 2) [68, 52, 1, 5] [0, 1, 2, 3, 1, 0] .ended := by
    show (_ = _ ∧ _ = _)
    exact ⟨by decide +kernel, by decide +kernel⟩
  have d0 : Decodes Ref.lzwContract .new f0 [0, 1, 2, 3, 1, 0] := ⟨_, _, _, b0, hy, (by intro h; cases h), fun _ => rfl⟩
  have d1 : Decodes Ref.lzwContract .new f1 [0, 1, 2, 3, 1, 0] := ⟨_, _, _, b1, hy, (by intro h; cases h), fun _ => rfl⟩
  refine drive_decodes Ref.lzwContract fours_fit rfl reader_reliable (film_drive fours .new 100) (film_end (by decide +kernel))
    (k := 3) (fun j hj => ?_) h1 d1
  match j, hj with
  | 0, _ => exact ⟨f0, v0, _, h0, d0⟩
  | 1, _ => exact ⟨f1, v1, _, h1, d1⟩

/-- A file with a block that does not exist, after the first image: both loops get the image, and fail for the same reason. -/
def damaged : List UInt8 := twoImages.take 43 ++ [0x99, 1, 2]

def broken (p : Driver) := run p 100 [] (SD.withOptions Ref.lzw .new) damaged

theorem broken_drive (p : Driver) : Drive Ref.lzw p .new damaged (broken p).1 (broken p).2.1 (broken p).2.2 := run_drive 100 .start

theorem broken_end {p : Driver} {e : DecodingError}
    (h : ((broken p).2.1.update ((broken p).2.2.take (p (broken p).1).1) (p (broken p).1).2).2 = .err e) (hne : (broken p).2.2 ≠ []) :
    DriveEnd p (broken p).1 (broken p).2.1 (broken p).2.2 (some e) := .fails hne h

example : gist [] (broken fours).1 = gist [] (broken whole).1 ∧ gathered (gist [] (broken fours).1) = [[0, 1, 2, 3, 1, 0]] := by
  refine ⟨(drive_same Ref.lzwContract fours_fit whole_fit (broken_drive fours)
    (broken_end (e := .format .unknownBlock) (by decide +kernel) (by decide +kernel)) (broken_drive whole)
    (broken_end (e := .format .unknownBlock) (by decide +kernel) (by decide +kernel))).1, by decide +kernel⟩

end Gif.Loop.Cases
