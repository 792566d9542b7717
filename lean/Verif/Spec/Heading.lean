import Verif.Spec.Session
/-!
# Specification: what the events before the first image say about the file
-/

namespace Gif.Spec

/-- The last global palette that was told. -/
def lastPalette (evs : List Decoded) : Option (List UInt8) :=
  (evs.filterMap fun | .globalPalette p => some p | _ => none).getLast?

/-- The last background colour. -/
def lastBackground (evs : List Decoded) : Option UInt8 :=
  (evs.filterMap fun | .backgroundColor c => some c | _ => none).getLast?

/-- The last number of repetitions. -/
def lastRepetitions (evs : List Decoded) : Option Repeat :=
  (evs.filterMap fun | .repetitions r => some r | _ => none).getLast?

/-- What a `Decoder` shows that was told these events. An empty palette is none; a background colour that is not in the palette is none. -/
def heading (w h : UInt16) (evs : List Decoded) : View :=
  let pal := (lastPalette evs).filter fun p => !p.isEmpty
  { width := w, height := h, globalPalette := pal
    bgColor := (lastBackground evs).filter fun c => pal.all fun p => decide (c.toNat < p.length / 3)
    repetition := (lastRepetitions evs).getD (.finite 0)
    currentFrame := Frame.default }

end Gif.Spec
