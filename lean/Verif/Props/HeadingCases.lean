import Verif.Props.OwnLoopCases
import Verif.Props.Heading
/-!
# C100, cases
-/

namespace Gif.Loop.Cases

open Spec SD Draw Twofold Gif.Draw.Cases Gif.Twofold.Cases Gif.Props

set_option maxRecDepth 100000

/-- Two colours, the background is the given one; repeated seven times; two images. -/
def headed (bg : UInt8) : List UInt8 :=
  [0x47, 0x49, 0x46, 0x38, 0x39, 0x61, 3, 0, 2, 0, 0x80, bg, 0] ++ [10, 20, 30, 40, 50, 60] ++
  [0x21, 0xff, 11, 0x4e, 0x45, 0x54, 0x53, 0x43, 0x41, 0x50, 0x45, 0x32, 0x2e, 0x30, 3, 1, 7, 0, 0] ++ twoImages.drop 25

theorem headed_reliable (bg : UInt8) : (Decoder.atOnce (headed bg)).Reliable := Decoder.atOnce_reliable _

def headedRun (bg : UInt8) (k : Nat) := run fours k [] (SD.withOptions Ref.lzw .new) (Decoder.atOnce (headed bg)).bytes

theorem headed_drive (bg : UInt8) (k : Nat) : Drive Ref.lzw fours .new (Decoder.atOnce (headed bg)).bytes (headedRun bg k).1
    (headedRun bg k).2.1 (headedRun bg k).2.2 := run_drive k .start

/-- The calls but the last, when that one tells that the header is over. -/
theorem at_header {r : Reader} (hr : r.Reliable) {x : List UpdateCall × SD Ref.lzw × List UInt8}
    (hd : Drive Ref.lzw fours .new r.bytes x.1 x.2.1 x.2.2) (h2 : (x.1.getLast?.bind UpdateCall.event) = some .headerEnd)
    (h3 : .headerEnd ∉ x.1.dropLast.filterMap UpdateCall.event) :
    (Decoder.readInfo Ref.lzw .new r).1.view = heading x.2.1.width x.2.1.height (x.1.dropLast.filterMap UpdateCall.event) := by
  obtain ⟨cs, s, l⟩ := x
  simp only at *
  obtain ⟨hd, hcf, -⟩ := drive_drawing fours_fit hd
  rcases List.eq_nil_or_concat cs with rfl | ⟨cs, c, rfl⟩
  · cases h2
  · rw [List.concat_eq_append] at *
    rw [List.dropLast_concat] at *
    rw [List.getLast?_concat] at h2
    refine (heading_told Ref.lzwContract hr hd hcf h2 ?_).2
    intro x hx he
    exact h3 (List.mem_filterMap.2 ⟨x, hx, he⟩)

/-- The fourteenth call tells that the header is over; `Decoder` shows what the thirteen before have told. -/
theorem headed_told (bg : UInt8) (h2 : ((headedRun bg 14).1.getLast?.bind UpdateCall.event) = some .headerEnd)
    (h3 : .headerEnd ∉ (headedRun bg 14).1.dropLast.filterMap UpdateCall.event) :
    (Decoder.readInfo Ref.lzw .new (Decoder.atOnce (headed bg))).1.view =
      heading (headedRun bg 14).2.1.width (headedRun bg 14).2.1.height ((headedRun bg 14).1.dropLast.filterMap UpdateCall.event) := by
  have hd := headed_drive bg 14
  generalize headedRun bg 14 = x at *
  exact at_header (headed_reliable bg) hd h2 h3

example : (Decoder.readInfo Ref.lzw .new (Decoder.atOnce (headed 1))).1.view =
    { width := 3, height := 2, globalPalette := some [10, 20, 30, 40, 50, 60], bgColor := some 1, repetition := .finite 7,
      currentFrame := Frame.default } := by
  rw [headed_told 1 (by decide +kernel) (by decide +kernel)]
  decide +kernel

/-- The background colour is told, though it is not in the palette; `Decoder` does not show it. -/
example : .backgroundColor 2 ∈ (headedRun 2 14).1.dropLast.filterMap UpdateCall.event ∧
    (Decoder.readInfo Ref.lzw .new (Decoder.atOnce (headed 2))).1.view.bgColor = none := by
  rw [headed_told 2 (by decide +kernel) (by decide +kernel)]
  decide +kernel

/-- The other way round. -/
example : ∃ c ∈ (headedRun 1 100).1, c.event = some .headerEnd :=
  heading_reached Ref.lzwContract (headed_reliable 1) (by decide +kernel) fours_fit (headed_drive 1 100)
    (.trailer (told_trailer (by decide +kernel)))

/-- A file that stops within the extension: the loop ends without `HeaderEnd`, and `read_info` fails. -/
example : (∀ c ∈ (run fours 100 [] (SD.withOptions Ref.lzw .new) ((headed 1).take 30)).1, c.event ≠ some .headerEnd) ∧
    (Decoder.readInfo Ref.lzw .new (Decoder.atOnce ((headed 1).take 30))).2 ≠ .ok () := by
  decide +kernel

/-- The nineteenth call on the file of the encoder tells that the header is over; the calls before have told the size, the palette with
a fourth colour, and that it is repeated for ever. -/
example : heading (own fours .new 19).2.1.width (own fours .new 19).2.1.height ((own fours .new 19).1.dropLast.filterMap UpdateCall.event) =
    { width := 4, height := 4, globalPalette := some [0, 0, 0, 255, 255, 255, 1, 2, 3, 0, 0, 0], bgColor := some 0,
      repetition := .infinite, currentFrame := Frame.default } := by
  have key := (own_heading Ref.lzwContract (o := .new) true (by decide +kernel) demo_sane demo_plain demo_encode demo_admissible demo_held
    demo_changed [1, 2] fours_fit).2
  have hs : screen 4 4 demoPalette (repetitions demoOps demoResults (.finite 0)) Frame.default =
      { width := 4, height := 4, globalPalette := some [0, 0, 0, 255, 255, 255, 1, 2, 3, 0, 0, 0], bgColor := some 0,
        repetition := .infinite, currentFrame := Frame.default } := by decide +kernel
  rw [hs] at key
  have hd := own_drive fours .new 19
  have hl : (own fours .new 19).1.getLast?.bind UpdateCall.event = some .headerEnd := by decide +kernel
  have hf : .headerEnd ∉ (own fours .new 19).1.dropLast.filterMap UpdateCall.event := by decide +kernel
  generalize own fours .new 19 = x at *
  obtain ⟨cs, s, l⟩ := x
  simp only at *
  obtain ⟨cs, c, rfl, hev⟩ := last_call hl
  rw [List.dropLast_concat] at *
  exact key _ _ _ _ hd hev fun x hx he => hf (List.mem_filterMap.2 ⟨x, hx, he⟩)

end Gif.Loop.Cases
