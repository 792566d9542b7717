import Verif.Spec.Film
/-!
# The two colour modes side by side

What a session with `ColorOutput::RGBA` has to show, given what the same session shows with `ColorOutput::Indexed`.
-/

namespace Gif.Spec

/-- The frame with its palette indices replaced by their colours. -/
def tint (global : Option (List UInt8)) (f : Frame) : Frame :=
  { f with buffer := colours .rgba (paletteOf global f) f.transparent f.buffer
           ownedCap := f.ownedCap.map (4 * ·) }

/-- The accessors, with the current frame in colour. -/
def tintView (v : View) : View := { v with currentFrame := tint v.globalPalette v.currentFrame }

/-- Palette indices of the current frame in colour. -/
def tintBuf (v : View) (px : List UInt8) : List UInt8 :=
  colours .rgba (paletteOf v.globalPalette v.currentFrame) v.currentFrame.transparent px

/-- `TintedFilm limit v a b`: where indexed output gives `a`, RGBA output gives `b`; `v` is what the accessors show in the
indexed session at this point. The only differences: colours instead of indices; a frame that exceeds the memory limit in
RGBA only; and another error for a frame without pixels, which fails in both modes. -/
inductive TintedFilm (limit : MemoryLimit) : View → List Got → List Got → Prop
  | nil (v : View) : TintedFilm limit v [] []
  | opened {v v' : View} {a b : List Got} : TintedFilm limit v' a b →
      TintedFilm limit v (.seen (.opened v') :: a) (.seen (.opened (tintView v')) :: b)
  | info {v v' : View} {a b : List Got} (found : Bool) : TintedFilm limit v' a b →
      TintedFilm limit v (.seen (.info found v') :: a) (.seen (.info found (tintView v')) :: b)
  | frame {v v' : View} {a b : List Got} (f : Option Frame) : TintedFilm limit v' a b →
      TintedFilm limit v (.seen (.frame f v') :: a) (.seen (.frame (f.map (tint v'.globalPalette)) (tintView v')) :: b)
  | full {v : View} {a b : List Got} (px : List UInt8) : TintedFilm limit v a b →
      TintedFilm limit v (.filled px true :: a) (.filled (tintBuf v px) true :: b)
  | rest {v : View} {a b : List Got} (px : List UInt8) (n : Nat) : TintedFilm limit v a b →
      TintedFilm limit v (.filled (px ++ List.replicate n 0) false :: a)
        (.filled (tintBuf v px ++ List.replicate (4 * n) 0) false :: b)
  | image {v : View} {a b : List Got} (px : List UInt8) : TintedFilm limit v a b →
      TintedFilm limit v (.image px :: a) (.image (tintBuf v px) :: b)
  | failed (v : View) (e : DecodingError) : TintedFilm limit v [.seen (.failed e)] [.seen (.failed e)]
  | noPixels (v : View) (e : DecodingError) :
      TintedFilm limit v [.seen (.failed e)] [.seen (.failed (.format .oddSizedBuffer))]
  | large {v v' : View} {a : List Got} (f : Frame) : limit.bufferSize .rgba f.width f.height = none →
      TintedFilm limit v (.seen (.frame (some f) v') :: a) [.seen (.failed (.io .outOfMemory))]
  | largeFailed (v : View) (e : DecodingError) : limit ≠ .unlimited →
      TintedFilm limit v [.seen (.failed e)] [.seen (.failed (.io .outOfMemory))]

end Gif.Spec
