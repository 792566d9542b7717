import Verif.Spec.Gist
/-!
# Specification: a loop around `StreamingDecoder::update`
-/

namespace Gif

/-- A program that drives a streaming decoder: how many bytes it passes in the next call (fewer if there are not so many left), and
which output buffer, when it has made the given calls. -/
abbrev Driver := List UpdateCall → Nat × OutSpec

/-- Within image data there is a slice with room for output; elsewhere any output buffer but an empty slice, or none. Some bytes are
passed. -/
def Driver.Fit (p : Driver) : Prop :=
  ∀ cs, 0 < (p cs).1 ∧ (p cs).2 ≠ .slice 0 ∧ (dataAfter none cs ≠ none → ∃ n, (p cs).2 = .slice (n + 1))

/-- The loop has made the calls `cs`; the decoder is in state `s`, and `l` is still to be consumed. It goes on as long as calls do not
fail, the trailer has not been reported, and there are bytes left. -/
inductive Drive (C : Codec) (p : Driver) (o : DecodeOptions) (bytes : List UInt8) : List UpdateCall → SD C → List UInt8 → Prop
  | start : Drive C p o bytes [] (SD.withOptions C o) bytes
  | call {cs : List UpdateCall} {s s1 : SD C} {l : List UInt8} {n : Nat} {ev : Decoded} (h : Drive C p o bytes cs s l)
      (ht : ∀ c ∈ cs, c.event ≠ some (.blockStart .trailer)) (hne : l ≠ [])
      (hu : s.update (l.take (p cs).1) (p cs).2 = (s1, .ok (n, ev))) :
      Drive C p o bytes (cs ++ [⟨l.take (p cs).1, (p cs).2, .ok (n, ev)⟩]) s1 (l.drop n)

/-- The loop is left: the trailer has been reported, or no bytes are left, or the next call fails. -/
inductive DriveEnd {C : Codec} (p : Driver) (cs : List UpdateCall) (s : SD C) (l : List UInt8) : Option DecodingError → Prop
  | trailer (h : ∃ c ∈ cs, c.event = some (.blockStart .trailer)) : DriveEnd p cs s l none
  | all (h : l = []) : DriveEnd p cs s l none
  | fails {e : DecodingError} (hne : l ≠ []) (h : (s.update (l.take (p cs).1) (p cs).2).2 = .err e) : DriveEnd p cs s l (some e)

end Gif
