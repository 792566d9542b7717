import Verif.Model.Converter
/-!
# Specification: pixel sources and palette lookup

A pixel source is any data callback that hands out a fixed stream of palette indices piece by piece.
-/

namespace Gif.Spec

/-- `R t l`: from source state `t` the callback is going to serve exactly the indices `l`. `Serves cb R`: as long as
there are indices left and there is room for some, the callback returns a non-empty piece of them that fits. -/
def Serves {τ : Type} (cb : Callback τ) (R : τ → List UInt8 → Prop) : Prop :=
  ∀ t l cap, R t l → l ≠ [] → 0 < cap →
    ∃ t' piece l', cb t cap = (t', .ok piece) ∧ piece ≠ [] ∧ piece.length ≤ cap ∧ l = piece ++ l' ∧ R t' l'

/-- When nothing is left the callback returns an empty piece. -/
def Ends {τ : Type} (cb : Callback τ) (R : τ → List UInt8 → Prop) : Prop :=
  ∀ t cap, R t [] → 0 < cap → ∃ t', cb t cap = (t', .ok [])

/-- The calls of the callback that lead from one source state to another delivered these indices, one piece after the
other. -/
inductive Fetched {τ : Type} (cb : Callback τ) : τ → List UInt8 → τ → Prop
  | none (t : τ) : Fetched cb t [] t
  | more {t t1 t2 : τ} {cap : Nat} {piece l : List UInt8} : cb t cap = (t1, .ok piece) → Fetched cb t1 l t2 →
      Fetched cb t (piece ++ l) t2

/-- The four bytes of a pixel with palette index `i`: its colour, opaque unless `i` is the transparent index. `old` is
used if the palette has no such colour. -/
def rgbaPixel (palette : List UInt8) (transparent : Option UInt8) (i : UInt8) (old : List UInt8) : List UInt8 :=
  if 3 * i.toNat + 3 ≤ palette.length then
    [palette.getD (3 * i.toNat) 0, palette.getD (3 * i.toNat + 1) 0, palette.getD (3 * i.toNat + 2) 0,
      if transparent = some i then 0 else 255]
  else old

/-- Palette lookup of a list of indices; `old` is the previous content of the buffer, four bytes per pixel. -/
def rgbaPixels (palette : List UInt8) (transparent : Option UInt8) (idx old : List UInt8) : List UInt8 :=
  (List.range idx.length).flatMap fun k =>
    rgbaPixel palette transparent (idx.getD k 0) ((old.drop (4 * k)).take 4)

end Gif.Spec
