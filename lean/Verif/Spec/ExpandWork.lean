import Verif.Model.Decoder
/-!
# How much work a `FrameDecoder` does

The unit of work is one call of `LzwReader::decode_bytes` (`src/reader/decoder.rs:288-311`), which makes one call of the LZW
decoder. As in `Spec/Work.lean`, the functions below run the model and count.
-/

namespace Gif.FrameDecoder

variable {C : Codec}

/-- Calls in the loop of the data callback (`src/reader/decoder.rs:227-233`). -/
def pullCalls (cap : Nat) : Nat → LzwReader C × List UInt8 → Nat
  | 0, _ => 0
  | fuel + 1, (lzw, data) =>
    1 + match lzw.decodeBytes data (.slice cap) with
      | (lzw, .ok (read, bytes)) =>
        if bytes.length > 0 ∨ read = 0 ∨ (data.drop read).isEmpty then 0 else pullCalls cap fuel (lzw, data.drop read)
      | _ => 0

/-- The data callback (`src/reader/decoder.rs:226-234`) with a counter. -/
def countedPull : Callback ((LzwReader C × List UInt8) × Nat) := fun t cap =>
  let (s, r) := pull t.1 cap
  ((s, t.2 + pullCalls cap (t.1.2.length + 1) t.1), r)

/-- Calls in `decode_lzw_encoded_frame_into_buffer` (`src/reader/decoder.rs:222-236`). -/
def intoCalls (d : FrameDecoder C) (f : Frame) (buf : List UInt8) : Nat :=
  match d.lzw.reset (f.buffer.headD 2) with
  | (lzw, .ok ()) => (d.conv.readIntoBuffer f countedPull ((lzw, f.buffer.drop 1), 0) buf).1.2
  | _ => 0

/-- Calls in `decode_lzw_encoded_frame` (`src/reader/decoder.rs:210-217`). -/
def frameCalls (d : FrameDecoder C) (f : Frame) : Nat :=
  match d.conv.checkBufferSize f with
  | .ok n => d.intoCalls f (List.replicate n 0)
  | _ => 0

end Gif.FrameDecoder
