import Verif.Props.Spoil
import Verif.Props.OwnLoopCases
/-!
# C101, cases
-/

namespace Gif.Loop.Cases

open Spec SD Draw Twofold Gif.Draw.Cases Gif.Twofold.Cases Gif.Props Decoder

set_option maxRecDepth 100000

/-- The file with two images, up to the code size of the first. -/
def before : List UInt8 := twoImages.take 35

def after : List UInt8 := twoImages.drop 43

/-- The file with other data for the first image. -/
def spoilt (D : List UInt8) : List UInt8 := before ++ 2 :: 3 :: (D ++ after)

theorem spoilt_own : spoilt [68, 52, 1, 1, 5, 0] = twoImages := by decide +kernel

def tell (p : Driver) (D : List UInt8) (k : Nat) := run p k [] (SD.withOptions Ref.lzw .new) (spoilt D)

theorem tell_drive (p : Driver) (D : List UInt8) (k : Nat) :
    Drive Ref.lzw p .new (spoilt D) (tell p D k).1 (tell p D k).2.1 (tell p D k).2.2 := run_drive k .start

theorem first_image : ∃ cs c s, Drawing (SD.withOptions Ref.lzw .new) (before ++ 2 :: 3 :: ([68, 52, 1, 1, 5, 0] ++ after)) (cs ++ [c]) s
    ([68, 52, 1, 1, 5, 0] ++ after) ∧ careful none (cs ++ [c]) ∧ c.event = some (.frameMetadata .pixels) ∧
    cs ++ [c] = (tell whole [68, 52, 1, 1, 5, 0] 5).1 ∧ announcedImages (gist [] (cs ++ [c])) = 0 + 1 := by
  obtain ⟨h1, h2, -⟩ := drive_drawing whole_fit (tell_drive whole [68, 52, 1, 1, 5, 0] 5)
  have hl : (tell whole [68, 52, 1, 1, 5, 0] 5).2.2 = [68, 52, 1, 1, 5, 0] ++ after := by decide +kernel
  have he : (tell whole [68, 52, 1, 1, 5, 0] 5).1.getLast?.bind UpdateCall.event = some (.frameMetadata .pixels) := by decide +kernel
  have hn : announcedImages (gist [] (tell whole [68, 52, 1, 1, 5, 0] 5).1) = 0 + 1 := by decide +kernel
  generalize tell whole [68, 52, 1, 1, 5, 0] 5 = x at *
  obtain ⟨cs, s, l⟩ := x
  simp only at *
  obtain ⟨cs, c, rfl, hev⟩ := last_call he
  subst hl
  exact ⟨cs, c, s, h1, h2, hev, rfl, hn⟩

theorem own_opens : Opens Ref.lzwContract .new 2 [68, 52, 1, 5] [0, 1, 2, 3, 1, 0] := by
  refine ⟨.ended, ?_, (by intro h; cases h), fun _ => rfl⟩
  show (_ = _ ∧ _ = _)
  exact ⟨by decide +kernel, by decide +kernel⟩

theorem other_opens : Opens Ref.lzwContract .new 2 [92, 100, 80] [3, 1, 2, 3, 1, 0] := by
  refine ⟨.ended, ?_, (by intro h; cases h), fun _ => rfl⟩
  show (_ = _ ∧ _ = _)
  exact ⟨by decide +kernel, by decide +kernel⟩

/-- Other pixels for the first image; all the rest, with the second image, is told as before, whatever the slices. -/
example : ∃ u v, gist [] (tell fours [68, 52, 1, 1, 5, 0] 100).1 = u ++ (.dataEnd, [0, 1, 2, 3, 1, 0]) :: v ∧
    gist [] (tell whole [92, 100, 80, 0] 100).1 = u ++ (.dataEnd, [3, 1, 2, 3, 1, 0]) :: v := by
  obtain ⟨cs, c, s, h1, h2, h3, -, -⟩ := first_image
  obtain ⟨⟨v, hv⟩, -⟩ := spoil_loop Ref.lzwContract h1 h2 h3 (D2 := [92, 100, 80, 0]) (d1 := [68, 52, 1, 5]) (d2 := [92, 100, 80])
    (by decide +kernel) (by decide +kernel) own_opens other_opens fours_fit whole_fit
    (tell_drive fours _ 100) (.trailer (told_trailer (by decide +kernel)))
    (tell_drive whole _ 100) (.trailer (told_trailer (by decide +kernel)))
  exact ⟨_, v, hv⟩

/-- Both images, with the other data for the first. -/
example : (gathered (gist [] (tell whole [92, 100, 80, 0] 100).1)) = [[3, 1, 2, 3, 1, 0], [0, 1, 2, 3, 1, 0]] := by decide +kernel

/-- An undefined code in the first image: the second is not told of. -/
example : gist [] (tell whole [255, 255, 255, 0] 100).1 = gist [] (tell whole [68, 52, 1, 1, 5, 0] 5).1 := by
  obtain ⟨cs, c, s, h1, h2, h3, h4, -⟩ := first_image
  rw [← h4]
  refine spoil_stops Ref.lzwContract h1 h2 h3 (D2 := [255, 255, 255, 0]) (d2 := [255, 255, 255]) (by decide +kernel) ?_ whole_fit
    (tell_drive whole _ 100) (.fails (e := .io .invalidCode) (by decide +kernel) (by decide +kernel))
  rintro x ⟨e, hy, he, -⟩
  have hy' : Ref.lzwContract.Yields (Ref.lzw.new 2) [255, 255, 255] [] .invalid := by
    show (_ = _ ∧ _ = _)
    exact ⟨by decide +kernel, by decide +kernel⟩
  exact he (Ref.lzwContract.det hy hy').2

/-- `Decoder` returns the same second frame for both files. -/
example : ∃ f1 f2 : Frame, bare f1 = bare f2 ∧ f1.buffer = f2.buffer ∧ f1.buffer = [2, 68, 52, 1, 5] ∧ f1.delay = 5 := by
  obtain ⟨cs, c, s, h1, h2, h3, -, h5⟩ := first_image
  obtain ⟨f0, v0, h0, b0⟩ := frame_buffer (x := (Decoder.rawFilm Ref.lzw .new (Decoder.atOnce (spoilt [68, 52, 1, 1, 5, 0])) 3)[1 + 1]?)
    (d := [2, 68, 52, 1, 5]) (by decide +kernel)
  obtain ⟨f1, v1, h6, b1⟩ := frame_buffer (x := (Decoder.rawFilm Ref.lzw .new (Decoder.atOnce (spoilt [92, 100, 80, 0])) 3)[1 + 1]?)
    (d := [2, 68, 52, 1, 5]) (by decide +kernel)
  have := spoil_frames Ref.lzwContract h1 h2 h3 h5 (D2 := [92, 100, 80, 0]) (d1 := [68, 52, 1, 5]) (d2 := [92, 100, 80])
    (by decide +kernel) (by decide +kernel) (Decoder.atOnce_reliable _) (Decoder.atOnce_reliable _) rfl rfl h0 h6
  have hd : ((Decoder.rawFilm Ref.lzw .new (Decoder.atOnce (spoilt [68, 52, 1, 1, 5, 0])) 3)[1 + 1]?.bind
      fun | .frame (some f) _ => some f.delay | _ => none) = some 5 := by decide +kernel
  rw [h0] at hd
  exact ⟨f0, f1, this.1, this.2.1 (by decide), b0, Option.some.inj hd⟩

/-- The first frames differ in the data only. -/
example : ∃ f1 f2 : Frame, bare f1 = bare f2 ∧ f1.buffer = [2, 68, 52, 1, 5] ∧ f2.buffer = [2, 92, 100, 80] := by
  obtain ⟨cs, c, s, h1, h2, h3, -, h5⟩ := first_image
  obtain ⟨f0, v0, h0, b0⟩ := frame_buffer (x := (Decoder.rawFilm Ref.lzw .new (Decoder.atOnce (spoilt [68, 52, 1, 1, 5, 0])) 3)[0 + 1]?)
    (d := [2, 68, 52, 1, 5]) (by decide +kernel)
  obtain ⟨f1, v1, h6, b1⟩ := frame_buffer (x := (Decoder.rawFilm Ref.lzw .new (Decoder.atOnce (spoilt [92, 100, 80, 0])) 3)[0 + 1]?)
    (d := [2, 92, 100, 80]) (by decide +kernel)
  have := spoil_frames Ref.lzwContract h1 h2 h3 h5 (D2 := [92, 100, 80, 0]) (d1 := [68, 52, 1, 5]) (d2 := [92, 100, 80])
    (by decide +kernel) (by decide +kernel) (Decoder.atOnce_reliable _) (Decoder.atOnce_reliable _) rfl rfl h0 h6
  exact ⟨f0, f1, this.1, this.2.2 rfl⟩

end Gif.Loop.Cases
