import Verif.Props.Unambiguous
import Verif.Props.RoundTripCases
/-!
# C91: cases
-/

namespace Gif

open Spec Encoder

/-- Another program for the same file: the loop count as an extension, a frame that is compressed beforehand, palettes that are
padded. -/
def twinOps : List EncOp :=
  [.extension (.repetitions .infinite), .preEncoded (demoFrame.makeLzwPreEncoded Ref.lzw), .rawExtension 0xFE [[1, 2]],
    .frame { demoFrame2 with palette := some [9, 9, 9, 0, 0, 0] }]

def twinResults : List (EOut Unit) := [.ok (), .ok (), .ok (), .ok ()]

set_option maxRecDepth 100000 in
theorem twin_encode : encodeFile Ref.lzw false 4 4 (demoPalette ++ [0, 0, 0, 77]) twinOps = (some demoFile, twinResults) := by
  decide +kernel

/-- The assumptions of `files_differ` are met by the two programs. -/
example : padded demoPalette = padded (demoPalette ++ [0, 0, 0, 77]) ∧
    repetitions demoOps demoResults (.finite 0) = repetitions twinOps twinResults (.finite 0) ∧
    (written demoOps demoResults).map (asWritten Ref.lzw) = (written twinOps twinResults).map (asWritten Ref.lzw) :=
  have h := files_differ (x := [1]) (y := [1]) demo_encode twin_encode (by decide) (by decide) rfl
  ⟨h.2.2.1, h.2.2.2.1, h.2.2.2.2.1⟩

set_option maxRecDepth 100000 in
/-- The assumptions of `animations_differ` are met by a program and its twin, in which a palette is padded. -/
example : [demoFrame, demoFrame2].map essence = [demoFrame, { demoFrame2 with palette := some [9, 9, 9, 0, 0, 0] }].map essence :=
  (animations_differ Ref.lzwContract (np := true) (np' := true) (w := 4) (h := 4) (w' := 4) (h' := 4) (pal := demoPalette)
    (pal' := demoPalette) (file := ((encodeFile Ref.lzw true 4 4 demoPalette [.frame demoFrame, .frame demoFrame2]).1).getD [])
    (by decide +kernel) (by decide +kernel)).2.2.2

set_option maxRecDepth 100000 in
/-- The files of two programs that differ in the last pixel of a frame are different. -/
example (f : Frame) (hf : f = { demoFrame with buffer := [0, 1, 2, 0, 6] }) (file : List UInt8)
    (h : encodeFile Ref.lzw true 4 4 demoPalette [.frame demoFrame] = (some file, [.ok ()])) :
    encodeFile Ref.lzw true 4 4 demoPalette [.frame f] ≠ (some file, [.ok ()]) := by
  intro h'
  have := (animations_differ Ref.lzwContract (fs := [demoFrame]) (fs' := [f]) h h').2.2.2
  subst hf
  exact absurd this (by decide)

set_option maxRecDepth 100000 in
/-- The assumptions of `format_unambiguous` are met by the file, and by another, which therefore has other bytes. -/
example : (madeFile Ref.lzw 4 4 demoPalette demoOps).Legal ∧ (madeFile Ref.lzw 4 4 demoPalette demoOps).render = demoFile ∧
    (madeFile Ref.lzw 4 4 demoPalette demoOps).blocks.length = 6 ∧
    { madeFile Ref.lzw 4 4 demoPalette demoOps with misc := 3 }.render ≠ demoFile := by
  have h1 : (madeFile Ref.lzw 4 4 demoPalette demoOps).Legal := by decide +kernel
  have h2 : (madeFile Ref.lzw 4 4 demoPalette demoOps).render = demoFile := by decide +kernel
  refine ⟨h1, h2, by decide +kernel, fun h => ?_⟩
  have := (format_unambiguous (g' := { madeFile Ref.lzw 4 4 demoPalette demoOps with misc := 3 }) (x := []) (y := []) h1
    ⟨by decide, h1.2⟩ (by rw [h, h2])).1
  exact absurd (congrArg File.misc this) (by decide +kernel)

end Gif
