import Verif.Spec.Drawing
/-!
# Specification: what a program gets that drives a streaming decoder and collects what it writes
-/

namespace Gif

/-- What the calls tell a program: the events, without those within image data, and with each of them the bytes that were written to
output buffers since the last one. At `DataEnd` these are the pixels of the image, or its compressed data. -/
def gist : List UInt8 → List UpdateCall → List (Decoded × List UInt8)
  | _, [] => []
  | acc, c :: cs =>
    match c.event with
    | none => gist acc cs
    | some ev => if ev.within then gist (acc ++ c.bytes) cs else (ev, acc) :: gist [] cs

/-- Is the output buffer of the call fit for the image data that come (`none`: not within image data)? -/
def UpdateCall.fits (c : UpdateCall) : Option FrameDataType → Prop
  | none => True
  | some .pixels => c.roomy
  | some (.lzw _) => c.stores

/-- The image data that come after the call. -/
def UpdateCall.next (c : UpdateCall) (w : Option FrameDataType) : Option FrameDataType :=
  match c.event with
  | some (.frameMetadata t) => some t
  | some .dataEnd => none
  | _ => w

/-- Within image data the calls have output buffers with room; elsewhere any or none. -/
def careful : Option FrameDataType → List UpdateCall → Prop
  | _, [] => True
  | w, c :: cs => c.fits w ∧ careful (c.next w) cs

/-- The image data that come after the calls. -/
def dataAfter : Option FrameDataType → List UpdateCall → Option FrameDataType
  | w, [] => w
  | w, c :: cs => dataAfter (c.next w) cs

/-- What a program with `skip_frame_decoding` gets (first list) and what one without gets (second list), as far as both have come: the
same events, and for each image the second gets what the data of the first expand to, with the code size that the first was told. -/
inductive Spec.Expansion {C : Codec} (K : C.Contract) (check : Bool) : UInt8 → List (Decoded × List UInt8) → List (Decoded × List UInt8) → Prop
  | here {m : UInt8} {v : List (Decoded × List UInt8)} : Expansion K check m v []
  | there {m : UInt8} {u : List (Decoded × List UInt8)} : Expansion K check m [] u
  | same {m : UInt8} {ev : Decoded} {d : List UInt8} {v u : List (Decoded × List UInt8)} (h : ∀ t, ev ≠ .frameMetadata t) (h' : ev ≠ .dataEnd)
      (ht : Expansion K check m v u) : Expansion K check m ((ev, d) :: v) ((ev, d) :: u)
  | start {m k : UInt8} {v u : List (Decoded × List UInt8)} (ht : Expansion K check k v u) :
      Expansion K check m ((.frameMetadata (.lzw k), []) :: v) ((.frameMetadata .pixels, []) :: u)
  | data {m : UInt8} {d px : List UInt8} {e : LzwEnd} {v u : List (Decoded × List UInt8)} (hy : K.Yields (C.new m) d px e)
      (he : e ≠ .invalid) (hc : check = true → e = .ended) (ht : Expansion K check m v u) :
      Expansion K check m ((.dataEnd, d) :: v) ((.dataEnd, px) :: u)

/-- A program cannot go on after the calls `cs`: it was told that there is the trailer, or all bytes are consumed, or the next call
fails though its output buffer has room. -/
inductive Finished {C : Codec} (cs : List UpdateCall) (s : SD C) : List UInt8 → Option DecodingError → Prop
  | trailer {l : List UInt8} (h : ∃ c ∈ cs, c.event = some (.blockStart .trailer)) : Finished cs s l none
  | all : Finished cs s [] none
  | fails {slice rest : List UInt8} {out : OutSpec} {e : DecodingError} (hne : slice ≠ [])
      (hout : dataAfter none cs ≠ none → ∃ n, out = .slice (n + 1)) (h : (s.update slice out).2 = .err e) :
      Finished cs s (slice ++ rest) (some e)

end Gif
