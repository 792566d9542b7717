import Verif.Model.Streaming
/-!
# The order of decoder events, as documented at `Decoded` (`src/reader/decoder.rs:111-155`)

A small automaton over events only; it knows nothing of the decoder's states.
-/

namespace Gif.Spec

/-- Where in the event protocol a reader of events is. -/
inductive Phase where
  /-- nothing seen yet -/
  | start
  /-- the background colour was reported -/
  | afterBackground
  /-- between blocks; `header`: `HeaderEnd` was reported; `app`: the last event closed an application extension -/
  | blocks (header app : Bool)
  /-- in an extension, with the label of its sub-blocks once one was reported -/
  | extension (header : Bool) (label : Option UInt8)
  /-- after `BlockStart(Image)` -/
  | image
  /-- after `FrameMetadata` -/
  | data (t : FrameDataType)
  /-- after `BlockStart(Trailer)` -/
  | done
deriving DecidableEq, Repr

/-- The end of an extension with the given label. -/
def Phase.closed (header : Bool) (label : UInt8) : Phase := .blocks header (label == 0xFF)

/-- The phase after an event, or `none` if the event is out of order. `unknown`: blocks of unknown type are allowed;
their sub-blocks are reported without a `BlockStart`. -/
def Phase.next (unknown : Bool) : Phase → Decoded → Option Phase
  | p, .nothing => some p
  | .start, .backgroundColor _ => some .afterBackground
  | .afterBackground, .globalPalette _ => some (.blocks false false)
  | .blocks false _, .headerEnd => some (.blocks true false)
  | .blocks true _, .blockStart .image => some .image
  | .blocks true _, .blockStart .trailer => some .done
  | .blocks h _, .blockStart .extension => some (.extension h none)
  | .blocks h true, .repetitions _ => some (.blocks h false)
  | .blocks true _, .subBlockFinished l => if unknown then some (.extension true (some l)) else none
  | .blocks true _, .blockFinished l => if unknown then some (.closed true l) else none
  | .extension h none, .subBlockFinished l => some (.extension h (some l))
  | .extension h (some l0), .subBlockFinished l => if l = l0 then some (.extension h (some l0)) else none
  | .extension h none, .blockFinished l => some (.closed h l)
  | .extension h (some l0), .blockFinished l => if l = l0 then some (.closed h l) else none
  | .image, .frameMetadata t => some (.data t)
  | .data .pixels, .bytesDecoded bytes => if bytes = [] then none else some (.data .pixels)
  | .data (.lzw m), .lzwDataCopied _ => some (.data (.lzw m))
  | .data _, .dataEnd => some (.blocks true false)
  | _, _ => none

/-- The phase after a list of events; `none` if one of them was out of order. -/
def Phase.run (unknown : Bool) : Phase → List Decoded → Option Phase
  | p, [] => some p
  | p, ev :: evs => (p.next unknown ev).bind fun p => p.run unknown evs

end Gif.Spec
