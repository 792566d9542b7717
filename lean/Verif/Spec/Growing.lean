import Verif.Spec.Session
/-!
# Readers that are not ready yet

A reader over a file that another program is still writing, or over a connection, reports the end of the file (a `read`
call that gives no bytes) or an error and has more bytes later.
-/

namespace Gif

/-- A `read` call that gave bytes. -/
def ReadEv.gave : ReadEv → Bool
  | .data bs => !bs.isEmpty
  | .err _ => false

namespace Reader

/-- The same reader without the `read` calls that gave no bytes: it fails never and ends only at its end. -/
def ready (r : Reader) : Reader := { r with src := r.src.filter ReadEv.gave }

/-- How many of the `read` calls still to come give no bytes, though bytes may come after them. -/
def pauses (r : Reader) : Nat := (r.src.filter fun ev => !ev.gave).length

end Reader

namespace Decoder

variable {C : Codec}

/-- `next_frame_info`, called again (at most `n` times) when the reader reported an error or the end of the file came too
early. -/
def waitInfo : Nat → Decoder C → Decoder C × Outcome Bool
  | 0, d => d.nextFrameInfo
  | n + 1, d =>
    match d.nextFrameInfo with
    | (d', .err (.io (.reader _))) => waitInfo n d'
    | (d', .err (.io .unexpectedEof)) => waitInfo n d'
    | x => x

end Decoder

end Gif
