import Verif.Model.Common
/-!
# `src/common.rs:179-346`: frame constructors
-/

namespace Gif

/-- One pixel `(r, g, b, a)` -/
structure Rgba where
  r : UInt8
  g : UInt8
  b : UInt8
  a : UInt8
deriving DecidableEq, Repr

/-- `color_quant::NeuQuant` (external crate), `src/common.rs:231-238`: from the speed and the pixels, `index_of(..) as u8`
and `color_map_rgb()`. -/
structure NeuQuant where
  indexOf : Int → List UInt8 → Rgba → UInt8
  colorMapRgb : Int → List UInt8 → List UInt8

/-- `pixels.chunks_exact(4)` -/
def chunks4 : List UInt8 → List Rgba
  | r :: g :: b :: a :: rest => ⟨r, g, b, a⟩ :: chunks4 rest
  | _ => []

/-- The bytes of a list of pixels. -/
def flatten4 : List Rgba → List UInt8
  | [] => []
  | p :: ps => p.r :: p.g :: p.b :: p.a :: flatten4 ps

/-- `src/common.rs:217-223`, on one pixel -/
def clampAlpha (p : Rgba) : Rgba := if p.a ≠ 0 then { p with a := 0xFF } else p

/-- `src/common.rs:216-223`: the last pixel with alpha 0 -/
def lastTransparent (acc : Option Rgba) : List Rgba → Option Rgba
  | [] => acc
  | p :: ps => lastTransparent (if p.a ≠ 0 then acc else some p) ps

/-- `src/common.rs:227-242`: the set of colours, `none` if there are more than 256. The `HashSet` is a list without
duplicates. -/
def collectColors : List Rgba → List Rgba → Option (List Rgba)
  | seen, [] => some seen
  | seen, p :: ps =>
    if p ∈ seen then collectColors seen ps
    else if (p :: seen).length > 256 then none
    else collectColors (p :: seen) ps

/-- Position of a pixel in the derived order of `(u8, u8, u8, u8)`. -/
def rgbaKey (p : Rgba) : Nat := ((p.r.toNat * 256 + p.g.toNat) * 256 + p.b.toNat) * 256 + p.a.toNat

/-- Putting a pixel at its place in a sorted list, for `src/common.rs:246` `colors_vec.sort_unstable()`. -/
def insertColor (p : Rgba) : List Rgba → List Rgba
  | [] => [p]
  | q :: qs => if rgbaKey p ≤ rgbaKey q then p :: q :: qs else q :: insertColor p qs

/-- `src/common.rs:246` `colors_vec.sort_unstable()`: the elements are distinct, so the sorted vector is determined. -/
def sortColors : List Rgba → List Rgba
  | [] => []
  | p :: ps => insertColor p (sortColors ps)

/-- `src/common.rs:247` -/
def paletteOf : List Rgba → List UInt8
  | [] => []
  | p :: ps => p.r :: p.g :: p.b :: paletteOf ps

/-- `src/common.rs:248-251`: position of the pixel in the sorted colours, of which `zip(0..=255)` numbers the first 256;
0 if it is not found. -/
def lookupColor (colors : List Rgba) (p : Rgba) : UInt8 :=
  match (colors.take 256).findIdx? (fun q => q = p) with
  | some i => UInt8.ofNat i
  | none => 0

/-- `src/common.rs:213-261` `from_rgba_speed`: the frame and the new contents of `pixels`. -/
def Frame.fromRgbaSpeed (nq : NeuQuant) (width height : UInt16) (pixels : List UInt8) (speed : Int) :
    Outcome (Frame × List UInt8) :=
  if width.toNat * height.toNat * 4 ≠ pixels.length then .panic
  else if ¬ (speed ≥ 1 ∧ speed ≤ 30) then .panic
  else
    let transparent := lastTransparent none (chunks4 pixels)
    let pix := (chunks4 pixels).map clampAlpha
    let pixels := flatten4 pix
    match collectColors [] pix with
    | none =>
      let buffer := pix.map (nq.indexOf speed pixels)
      .ok ({ Frame.default with
        width := width, height := height, buffer := buffer, ownedCap := some buffer.length
        palette := some (nq.colorMapRgb speed pixels)
        transparent := transparent.map (nq.indexOf speed pixels) }, pixels)
    | some colors =>
      let colors := sortColors colors
      let buffer := pix.map (lookupColor colors)
      .ok ({ Frame.default with
        width := width, height := height, buffer := buffer, ownedCap := some buffer.length
        palette := some (paletteOf colors)
        transparent := transparent.map (lookupColor colors) }, pixels)

/-- `src/common.rs:193-195` `from_rgba` -/
def Frame.fromRgba (nq : NeuQuant) (width height : UInt16) (pixels : List UInt8) : Outcome (Frame × List UInt8) :=
  Frame.fromRgbaSpeed nq width height pixels 1

/-- `src/common.rs:342-344` -/
def addAlpha : List UInt8 → List UInt8
  | r :: g :: b :: rest => r :: g :: b :: 0xFF :: addAlpha rest
  | _ => []

/-- `src/common.rs:338-346` `from_rgb_speed` -/
def Frame.fromRgbSpeed (nq : NeuQuant) (width height : UInt16) (pixels : List UInt8) (speed : Int) : Outcome Frame :=
  if width.toNat * height.toNat * 3 ≠ pixels.length then .panic
  else
    match Frame.fromRgbaSpeed nq width height (addAlpha pixels) speed with
    | .ok (f, _) => .ok f
    | .err e => .err e
    | .panic => .panic
    | .diverge => .diverge

/-- `src/common.rs:317-319` `from_rgb` -/
def Frame.fromRgb (nq : NeuQuant) (width height : UInt16) (pixels : List UInt8) : Outcome Frame :=
  Frame.fromRgbSpeed nq width height pixels 1

/-- `src/common.rs:269-283` `from_palette_pixels` -/
def Frame.fromPalettePixels (width height : UInt16) (pixels palette : List UInt8) (transparent : Option UInt8) :
    Outcome Frame :=
  if width.toNat * height.toNat ≠ pixels.length then .panic
  else if ¬ palette.length ≤ 256 * 3 then .panic
  else .ok { Frame.default with
    width := width, height := height, buffer := pixels, ownedCap := some pixels.length
    palette := some palette, transparent := transparent }

/-- `src/common.rs:290-302` `from_indexed_pixels` -/
def Frame.fromIndexedPixels (width height : UInt16) (pixels : List UInt8) (transparent : Option UInt8) :
    Outcome Frame :=
  if width.toNat * height.toNat ≠ pixels.length then .panic
  else .ok { Frame.default with
    width := width, height := height, buffer := pixels, ownedCap := some pixels.length
    palette := none, transparent := transparent }

end Gif
