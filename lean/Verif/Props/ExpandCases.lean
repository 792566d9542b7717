import Verif.Props.Buffers
import Verif.Props.Expand
import Verif.Props.FrameDecoderCases
import Verif.Props.GivenCases
/-!
# Cases of the theorems in `Verif.Props.Buffers` and `Verif.Props.Expand`
-/

namespace Gif

namespace Decoder

/-- RGBA mode. -/
def colourful : DecodeOptions := { DecodeOptions.new with colorOutput := .rgba }

/-- A file with one pixel and a palette of two colours; the pixel is the fourth one. -/
def uncoloured : Reader := single 1 1 0 [2, 0x5C, 1, 0, 0x3B] []

/-- The decoder of a file before the pixels of the first frame. -/
def atFirst (C : Codec) (o : DecodeOptions) (r : Reader) : Decoder C := (readInfo C o r).1.nextFrameInfo.1

set_option maxRecDepth 100000 in
/-- Buffers as in `into_keeps`, `into_blind` and `into_refuses`: one with room for one more byte than needed, one that is too small. -/
example : (atFirst Ref.lzw .new animation).bufferSize = 2 ∧
    ((atFirst Ref.lzw .new animation).readIntoBuffer [7, 8, 9]).2 = ([1, 1, 9], .ok ()) ∧
    ((atFirst Ref.lzw .new animation).readIntoBuffer [0, 0]).2 = ([1, 1], .ok ()) ∧
    ((atFirst Ref.lzw .new animation).readIntoBuffer [7]).2 = ([7], .fmtErr .bufferTooSmall) ∧
    (atFirst Ref.lzw .new animation).currentFrame.interlaced = false := by
  decide +kernel

set_option maxRecDepth 100000 in
/-- A case of `into_replaces_partial`. -/
example : (atFirst Ref.lzw .new animation).readIntoBuffer [7, 8, 9] =
    (((atFirst Ref.lzw .new animation).readIntoBuffer [0, 0]).1, [1, 1] ++ [9], .ok ()) :=
  into_replaces_partial (atFirst Ref.lzw .new animation) (by decide +kernel) [0, 0] [7, 8, 9] (b := [1, 1])
    (by rw [Prod.ext_iff, Prod.ext_iff]; exact ⟨rfl, by decide +kernel, by decide +kernel⟩) (by decide +kernel)

set_option maxRecDepth 100000 in
/-- Buffers as in `fill_blind`: two bytes are asked for, then one more. -/
example : ((atFirst Ref.lzw .new animation).fillBuffer [7]).2 = ([1], .ok true) ∧
    ((atFirst Ref.lzw .new animation).fillBuffer [7, 8, 9]).2 = ([1, 1, 9], .ok false) := by
  decide +kernel

set_option maxRecDepth 100000 in
/-- C66 is false as it is stated: in RGBA mode, a pixel whose index is not in the palette leaves what was in the buffer. -/
theorem into_leaves_old_pixels : ¬ ∀ (d : Decoder Ref.lzw) (b1 b2 : List UInt8), (∃ o r, r.Reliable ∧ d = atFirst Ref.lzw o r) →
    b1.length = d.bufferSize → b2.length = d.bufferSize →
    (d.readIntoBuffer b1).2.2 = .ok () → (d.readIntoBuffer b1).2 = (d.readIntoBuffer b2).2 := by
  intro h
  exact absurd (h (atFirst Ref.lzw colourful uncoloured) [0, 0, 0, 0] [1, 2, 3, 4]
    ⟨colourful, uncoloured, single_reliable _ _ _ _ _ (by simp), rfl⟩ (by decide +kernel) (by decide +kernel) (by decide +kernel))
    (by decide +kernel)

end Decoder

namespace FrameDecoder

open Decoder

set_option maxRecDepth 100000 in
/-- Buffers as in `into_keeps` and `into_blind`. -/
example : ((new Ref.lzw .new).decodeIntoBuffer { Frame.default with width := 2, height := 1, buffer := [2, 0x4C, 0x0A] } [7, 8, 9]).2 =
    ([1, 1, 9], .ok ()) ∧
    ((new Ref.lzw .new).decodeIntoBuffer { Frame.default with width := 2, height := 1, buffer := [2, 0x4C, 0x0A] } [7]).2 =
    ([7], .fmtErr .bufferTooSmall) := by
  decide +kernel

set_option maxRecDepth 100000 in
/-- A case of `right`: the data end without an end code, behind more pixels than the frame has, and are followed by an invalid code. -/
example : ∃ px, Spec.Unpacks Ref.lzwContract { Frame.default with width := 1, height := 1, buffer := [2, 0x4C, 0x0E] } px ∧
    1 ≤ px.1.length ∧ { Frame.default with width := 1, height := 1, buffer := [1], ownedCap := some 1 } =
      Spec.shown .indexed none { Frame.default with width := 1, height := 1, buffer := [2, 0x4C, 0x0E] } px.1 :=
  right Ref.lzwContract (o := .new) .new (d' := ((new Ref.lzw .new).decodeFrame { Frame.default with
      width := 1, height := 1, buffer := [2, 0x4C, 0x0E] }).1)
    (by rw [Prod.ext_iff, Prod.ext_iff]; exact ⟨rfl, by decide +kernel, by decide +kernel⟩) (by simp)

set_option maxRecDepth 100000 in
/-- The assumptions of `expand_agrees` are met by the second frame of a file that ends within its data. The first outcome is the one
that happens. -/
example : ∃ g w f v, filmFrom Ref.lzw .new animationShort ([.info] ++ [.read]) =
      filmFrom Ref.lzw .new animationShort [.info] ++ [.seen (.frame (some g) w)] ∧
    (rawFilm Ref.lzw .new animation 2)[2]? = some (.frame (some f) v) ∧
    ((new Ref.lzw .new).decodeFrame f).2 = (g, .ok ()) ∧ g.buffer = [1, 1] := by
  refine ⟨frameAt (rawFilm Ref.lzw .new animation 2) 2 |> fun f => { f with buffer := [1, 1], ownedCap := some 2 },
    { width := 2, height := 1, globalPalette := some [10, 20, 30, 40, 50, 60], bgColor := some 1, repetition := .finite 0,
      currentFrame := { frameAt (rawFilm Ref.lzw .new animation 2) 2 with buffer := [1, 1], ownedCap := some 2 } },
    frameAt (rawFilm Ref.lzw .new animation 2) 2,
    { width := 2, height := 1, globalPalette := some [10, 20, 30, 40, 50, 60], bgColor := some 1,
      repetition := .finite 0, currentFrame := frameAt (rawFilm Ref.lzw .new animation 2) 2 }, ?_⟩
  decide +kernel

end FrameDecoder

end Gif
