import Verif.Spec.History
/-!
# How much work a decoder does

The unit of work is one call of `next_state` (`src/reader/decoder.rs:478-834`): each is one step of the state machine, does
one thing to the bytes it takes, and calls the LZW decoder at most once. The functions below run the model and count; the
only thing they add to it is the counter. They say how often `next_state` ran in one call of the API.
-/

namespace Gif

variable {C : Codec}

/-- Steps in the loop of `update` (`src/reader/decoder.rs:433-440`). -/
def SD.updateWork (o : OutSpec) : Nat → SD C → List UInt8 → Nat
  | _, _, [] => 0
  | 0, _, _ :: _ => 0
  | fuel + 1, s, b :: bs =>
    match SD.nextState s (b :: bs) o with
    | (s', .ok (n, .nothing)) => 1 + SD.updateWork o fuel s' ((b :: bs).drop n)
    | _ => 1

namespace RD

/-- Steps in the loop of `decode_next` (`src/reader/mod.rs:205-225`). -/
def decodeNextWork (o : OutSpec) : Nat → RD C → Nat
  | 0, _ => 0
  | fuel + 1, d =>
    if d.atEof then 0
    else
      match d.reader.fillBuf with
      | (_, .error _) => 0
      | (r, .ok buf) =>
        if buf.isEmpty then 0
        else
          SD.updateWork o (2 * buf.length + 2) d.sd buf +
            match d.sd.update buf o with
            | (sd, .ok (consumed, .nothing)) => decodeNextWork o fuel { d with reader := r.consume consumed, sd := sd }
            | _ => 0

/-- Steps in one call of `decode_next`. -/
def pullWork (o : OutSpec) (d : RD C) : Nat := decodeNextWork o (d.reader.src.length + 3) d

/-- `decode_next_bytes` with a counter (`src/reader/mod.rs:231-237`). -/
def countedBytes : Callback (RD C × Nat) := fun t cap =>
  let (d, r) := decodeNextBytes t.1 cap
  ((d, t.2 + pullWork (.slice cap) t.1), r)

end RD

namespace Decoder

/-- Steps in the loop of `init` (`src/reader/mod.rs:281-301`). -/
def initWork : Nat → RD C → Nat
  | 0, _ => 0
  | fuel + 1, rd =>
    rd.pullWork .none +
      match rd.decodeNext .none with
      | (_, .ok (some .headerEnd)) => 0
      | (rd, .ok (some _)) => initWork fuel rd
      | _ => 0

/-- Steps in the loop of `next_frame_info` (`src/reader/mod.rs:313-328`). -/
def nextFrameWork : Nat → RD C → Nat
  | 0, _ => 0
  | fuel + 1, rd =>
    rd.pullWork .none +
      match rd.decodeNext .none with
      | (_, .ok (some (.frameMetadata _))) => 0
      | (rd, .ok (some _)) => nextFrameWork fuel rd
      | _ => 0

/-- Steps in the loop of `copy_lzw_into_buffer` (`src/reader/mod.rs:385-391`). -/
def copyWork : Nat → RD C → List UInt8 → Nat
  | 0, _, _ => 0
  | fuel + 1, rd, vec =>
    rd.pullWork (.vec vec.length) +
      match rd.decodeNext (.vec vec.length) with
      | (rd, .ok (some (.lzwDataCopied bytes))) => copyWork fuel rd (vec ++ bytes)
      | _ => 0

/-- Steps in one call of `read_info`. -/
def openWork (C : Codec) (o : DecodeOptions) (r : Reader) : Nat :=
  initWork (withNoInit C o r).rd.eventFuel (withNoInit C o r).rd

/-- Steps in one call of a method of `Decoder`. -/
def work (d : Decoder C) : Op → Nat
  | .nextFrameInfo => nextFrameWork d.rd.eventFuel d.rd
  | .readNextFrame =>
    nextFrameWork d.rd.eventFuel d.rd +
      match d.nextFrameInfo with
      | (d, .ok true) =>
        match d.dataType with
        | .pixels => (d.conv.readFrame d.currentFrame RD.countedBytes (d.rd, 0)).1.2
        | .lzw minCodeSize => copyWork d.rd.eventFuel d.rd [minCodeSize]
      | _ => 0
  | .readIntoBuffer buf => (d.conv.readIntoBuffer d.currentFrame RD.countedBytes (d.rd, 0) buf).1.2
  | .fillBuffer buf => (d.conv.fillBuffer d.currentFrame RD.countedBytes (d.rd, 0) buf).1.2

/-- The pixels that a call may deliver: the length of the buffer passed to `fill_buffer`, or the pixels of the frame that
`read_next_frame` and `read_into_buffer` decode. -/
def room (d : Decoder C) : Op → Nat
  | .nextFrameInfo => 0
  | .readNextFrame => match d.nextFrameInfo with
    | (d, .ok true) => d.currentFrame.width.toNat * d.currentFrame.height.toNat
    | _ => 0
  | .readIntoBuffer _ => d.currentFrame.width.toNat * d.currentFrame.height.toNat
  | .fillBuffer buf => buf.length

end Decoder

/-- The call failed for another reason than the reader: neither success, nor an error of the reader, nor the end of the
reader's bytes. -/
def Outcome.Bad {α : Type} : Outcome α → Bool
  | .ok _ => false
  | .err (.io (.reader _)) => false
  | .err (.io .unexpectedEof) => false
  | _ => true

namespace Spec

/-- A session: the calls are made one after the other, whatever they return. Steps taken, room offered, calls that failed
for another reason than the reader. -/
def toil : Decoder C → List Decoder.Op → Nat × Nat × Nat
  | _, [] => (0, 0, 0)
  | d, op :: ops =>
    let (w, r, b) := toil (d.perform op).1 ops
    (d.work op + w, d.room op + r, b + if (d.perform op).2.Bad then 1 else 0)

end Spec

end Gif
