import Verif.Model.Decoder
import Verif.Model.Encoder
import Verif.Model.FrameNew
import Verif.Ref.Lzw
/-!
# The tests of the repository, run on the model

Not a proof: a program that runs the executable model, with the reference LZW codec in place of `weezl`, on the files of
`/repo/tests` and compares with what the tests of the repository expect (`tests/results.txt`, `tests/*.rs` and the unit tests in
`src`). It is evidence that the model is the code. `check.sh` compiles and runs it.
-/

namespace Gif.Check

open Decoder

/-- `tests/check_testimages.rs:127-167`: the table, computed. -/
def crcTable : Array UInt32 := (Array.range 256).map fun i =>
  (List.range 8).foldl (fun c _ => if c &&& 1 = 1 then (c >>> 1) ^^^ 0xEDB88320 else c >>> 1) (UInt32.ofNat i)

/-- `Crc32::update` -/
def crcUpdate (c : UInt32) (bs : List UInt8) : UInt32 :=
  bs.foldl (fun c b => crcTable[((c ^^^ b.toUInt32) &&& 0xFF).toNat]! ^^^ (c >>> 8)) c

/-- The reads that a `BufReader` makes of a slice, `n` bytes at a time. -/
def chop (n : Nat) (bytes : ByteArray) : List ReadEv :=
  (List.range ((bytes.size + n - 1) / n)).map fun i => .data (bytes.extract (i * n) ((i + 1) * n)).toList

/-- A `BufReader` of the usual capacity on a slice. -/
def onSlice (bytes : ByteArray) : Reader := { buf := [], src := chop 8192 bytes }

/-- A failed comparison. -/
def fail {α : Type} (s : String) : IO α := throw (IO.userError s)

/-- `assert!` -/
def assert (b : Bool) (s : String) : IO Unit := if b then pure () else fail s

/-- `unwrap` -/
def unwrap {α : Type} [Repr α] (r : Outcome α) (s : String) : IO α :=
  match r with
  | .ok a => pure a
  | r => fail s!"{s}: {match r with | .err e => reprStr e | .panic => "panic" | .diverge => "no result" | .ok _ => ""}"

/-- `unwrap` -/
def unwrapE {α : Type} (r : EOut α) (s : String) : IO α :=
  match r with
  | .ok a => pure a
  | .err e => fail s!"{s}: {reprStr e}"
  | .panic => fail s!"{s}: panic"

/-- `read_info` -/
def start (o : DecodeOptions) (r : Reader) : IO (Decoder Ref.lzw) := do
  let (d, res) := readInfo Ref.lzw o r
  unwrap res "read_info"
  pure d

/-- All frames, until `None` or an error. -/
partial def frames (d : Decoder Ref.lzw) (acc : Array Frame := #[]) :
    Decoder Ref.lzw × Array Frame × Option (Outcome (Option Frame)) :=
  match d.readNextFrame with
  | (d, .ok (some f)) => frames d (acc.push f)
  | (d, .ok none) => (d, acc, none)
  | (d, r) => (d, acc, some r)

/-- All frames; an error ends the test. -/
def allFrames (d : Decoder Ref.lzw) : IO (Decoder Ref.lzw × Array Frame) := do
  let (d, fs, e) := frames d
  match e with
  | none => pure (d, fs)
  | some r => do let _ ← unwrap r s!"frame {fs.size}"; pure (d, fs)

/-- `tests/check_testimages.rs:58-77` `render_images` -/
def renderImages (dir : System.FilePath) : IO Unit := do
  for line in (← IO.FS.lines (dir / "results.txt")) do
    match line.splitOn ": " with
    | [path, crc] =>
      let bytes ← IO.FS.readBinFile (dir / ".." / path)
      let d ← start { DecodeOptions.new with colorOutput := .rgba } (onSlice bytes)
      let (_, fs) ← allFrames d
      let mut c : UInt32 := 0xFFFFFFFF
      for f in fs do
        assert (f.buffer.length = f.width.toNat * f.height.toNat * 4) "size"
        c := crcUpdate c f.buffer
      assert (toString (c ^^^ 0xFFFFFFFF) = crc) s!"{path}: {c ^^^ 0xFFFFFFFF} instead of {crc}"
    | _ => pure ()

/-- `tests/decode.rs:6-22` `test_simple_indexed` -/
def simpleIndexed (dir : System.FilePath) : IO Unit := do
  let d ← start DecodeOptions.new (onSlice (← IO.FS.readBinFile (dir / "samples" / "sample_1.gif")))
  let (_, r) := d.readNextFrame
  match ← unwrap r "frame" with
  | none => fail "no frame"
  | some f => assert (f.buffer =
      [1, 1, 1, 1, 1, 2, 2, 2, 2, 2,
       1, 1, 1, 1, 1, 2, 2, 2, 2, 2,
       1, 1, 1, 1, 1, 2, 2, 2, 2, 2,
       1, 1, 1, 0, 0, 0, 0, 2, 2, 2,
       1, 1, 1, 0, 0, 0, 0, 2, 2, 2,
       2, 2, 2, 0, 0, 0, 0, 1, 1, 1,
       2, 2, 2, 0, 0, 0, 0, 1, 1, 1,
       2, 2, 2, 2, 2, 1, 1, 1, 1, 1,
       2, 2, 2, 2, 2, 1, 1, 1, 1, 1,
       2, 2, 2, 2, 2, 1, 1, 1, 1, 1]) "pixels"

/-- `Encoder::new` on an empty vector, the calls, and `into_inner`. -/
def encode (width height : UInt16) (pal : List UInt8) (calls : List (Encoder → Encoder × EOut Unit)) : IO ByteArray := do
  let (e, r) := Encoder.new true { written := [], plan := [] } width height pal
  unwrapE r "Encoder::new"
  let mut e := e
  for c in calls do
    let (e', r) := c e
    unwrapE r "call"
    e := e'
  let (_, r) := e.intoInner true
  pure ⟨(← unwrapE r "into_inner").written.toArray⟩

/-- `tests/decode.rs:24-78` `frame_consistency_is_configurable` -/
def frameConsistency : IO Unit := do
  let f : Frame := { Frame.default with delay := 1, dispose := .any, width := 2, height := 2, buffer := [0, 0, 0, 0] }
  let image ← encode 2 2 [0, 0, 0] [(·.writeFrame Ref.lzw f), (·.writeFrame Ref.lzw { f with top := 1, left := 1 })]
  for (check, ok) in [(false, true), (true, false)] do
    let d ← start { DecodeOptions.new with checkFrameConsistency := check } (onSlice image)
    let (d, r) := d.readNextFrame
    let _ ← unwrap r "first"
    let (_, r) := d.readNextFrame
    assert (match r with | .ok _ => ok | .err _ => !ok | _ => false) "second"

/-- `tests/decode.rs:80-103` `check_for_end_code_is_configurable` -/
def endCode (dir : System.FilePath) : IO Unit := do
  let image ← IO.FS.readBinFile (dir / "samples" / "gifplayer-muybridge.gif")
  for (check, ok) in [(false, true), (true, false)] do
    let mut d ← start { DecodeOptions.new with checkForEndCode := check } (onSlice image)
    for i in List.range 61 do
      let (d', r) := d.readNextFrame
      let _ ← unwrap r s!"frame {i}"
      d := d'
    let (_, r) := d.readNextFrame
    assert (match r with | .ok _ => ok | .err _ => !ok | _ => false) "62nd frame"

/-- All items of the iterator; `None` must be followed by `None`. -/
partial def items (it : DecoderIter Ref.lzw) (acc : Array Frame := #[]) : IO (DecoderIter Ref.lzw × Array Frame) := do
  let (it, r) := it.next
  match r with
  | .ok (some (.ok f)) => items it (acc.push f)
  | .ok (some (.error e)) => fail s!"item {acc.size}: {reprStr e}"
  | .ok none =>
    let (it, r) := it.next
    match r with
    | .ok none => pure (it, acc)
    | _ => fail "not fused"
  | _ => fail "no item"

/-- `tests/decode.rs:105-153` `rebuild_without_reencode` -/
def rebuild (dir : System.FilePath) (name : String) : IO Unit := do
  let image ← IO.FS.readBinFile (dir / "samples" / name)
  let d ← start { DecodeOptions.new with skipFrameDecoding := true } (onSlice image)
  let (_, raw) ← allFrames d
  let gif ← encode d.width d.height (d.globalPalette.getD []) (raw.toList.map fun f e => e.writeLzwPreEncodedFrame f)
  let (it, rebuilt) ← items (DecoderIter.new (← start DecodeOptions.new (onSlice gif)))
  let (_, orig) ← items (DecoderIter.new (← start DecodeOptions.new (onSlice image)))
  assert (raw.size = orig.size) "number of frames"
  assert (rebuilt.size = orig.size) "number of frames"
  for (o, r) in orig.toList.zip rebuilt.toList do
    assert (o.delay = r.delay ∧ o.transparent = r.transparent ∧ o.palette = r.palette ∧ o.width = r.width ∧
      o.height = r.height ∧ o.interlaced = r.interlaced ∧ o.buffer = r.buffer) "frame"
  assert (it.inner.intoInner.buf.length = 0) "rest"

/-- `tests/decode.rs:155-188` `check_skip_frame_data`, `check_skip_frame_data_decode_frame_error` -/
def skipData (dir : System.FilePath) : IO Unit := do
  let image ← IO.FS.readBinFile (dir / "samples" / "moon_impact.gif")
  let mut d ← start { DecodeOptions.new with skipFrameDecoding := true } (onSlice image)
  for i in List.range 14 do
    let (d', r) := d.nextFrameInfo
    assert (← unwrap r s!"frame {i}") "too few frames"
    d := d'
  let (_, r) := d.nextFrameInfo
  assert (!(← unwrap r "end")) "too many frames"
  let (_, raw) ← allFrames (← start { DecodeOptions.new with skipFrameDecoding := true } (onSlice image))
  let (_, pix) ← allFrames (← start DecodeOptions.new (onSlice image))
  assert (raw.size = pix.size) "number of frames"
  for (a, b) in pix.toList.zip raw.toList do
    assert (a.width = b.width ∧ a.height = b.height ∧ a.delay = b.delay ∧ a.buffer ≠ [] ∧ b.buffer ≠ []) "frame"

/-- `tests/roundtrip.rs:5-20` `round_trip`: the file of the encoder is the original, byte for byte. -/
def roundTrip (dir : System.FilePath) : IO Unit := do
  let data ← IO.FS.readBinFile (dir / "samples" / "sample_1.gif")
  let d ← start DecodeOptions.new (onSlice data)
  let palette ← unwrap d.palette "palette"
  let (_, r) := d.readNextFrame
  match ← unwrap r "frame" with
  | none => fail "no frame"
  | some f =>
    let data2 ← encode f.width f.height palette [(·.writeFrame Ref.lzw f)]
    assert (data2 == data) "files differ"

/-- `tests/roundtrip.rs:22-38` `max_frame_size` -/
def maxFrameSize : IO Unit := do
  let f : Frame := { Frame.default with width := 0xFFFF, height := 0xFFFF, buffer := [5] }
  let res ← encode 0xFFFF 0xFFFF [1, 2, 3] [(·.writeLzwPreEncodedFrame f)]
  let d ← start DecodeOptions.new (onSlice res)
  let (d, r) := d.nextFrameInfo
  assert (← unwrap r "frame") "no frame"
  assert (d.currentFrame.width = 0xFFFF ∧ d.currentFrame.height = 0xFFFF ∧ d.lineLength = 0xFFFF) "size"
  assert (d.bufferSize = 0xFFFF * 0xFFFF) "buffer_size"

/-- `tests/roundtrip.rs:40-104` `round_trip_from_image` -/
def roundTripFrom (dir : System.FilePath) (name : String) : IO Unit := do
  let image ← IO.FS.readBinFile (dir / "samples" / name)
  let d ← start DecodeOptions.new (onSlice image)
  let (_, fs) ← allFrames d
  let calls : List (Encoder → Encoder × EOut Unit) :=
    [(·.setRepeat d.repetition), (·.writeRawExtension Extension.comment.toU8 ["hello".toUTF8.toList])]
  let file ← encode d.width d.height (d.globalPalette.getD []) (calls ++ fs.toList.map fun f e => e.writeFrame Ref.lzw f)
  let d2 ← start DecodeOptions.new (onSlice file)
  assert (d2.width = d.width ∧ d2.height = d.height ∧ d2.repetition = d.repetition ∧
    d2.globalPalette.getD [] = d.globalPalette.getD []) "header"
  let (d2, fs2) ← allFrames d2
  assert (fs2.size = fs.size) "number of frames"
  for (a, b) in fs.toList.zip fs2.toList do
    assert ({ a with ownedCap := none } = { b with ownedCap := none }) "frame"
  assert (d2.intoInner.buf.length = 0) "rest"

/-- A quantizer that is not used. -/
def noQuant : NeuQuant := { indexOf := fun _ _ _ => 0, colorMapRgb := fun _ _ => [] }

/-- `tests/roundtrip.rs:106-155` `encode_roundtrip_few_colors` -/
def fewColors : IO Unit := do
  let pixels : List UInt8 := (List.replicate (128 * 128 * 4) 255).set 5 0 |>.set 6 0
  let (f, _) ← unwrap (Frame.fromRgbaSpeed noQuant 128 128 pixels 30) "from_rgba_speed"
  let file ← encode 128 128 [] [(·.writeFrame Ref.lzw f), (·.writeLzwPreEncodedFrame (f.makeLzwPreEncoded Ref.lzw))]
  let d ← start { DecodeOptions.new with colorOutput := .rgba } (onSlice file)
  assert (d.width = 128 ∧ d.height = 128) "size"
  let (_, fs) ← allFrames d
  assert (fs.size = 2) "number of frames"
  for f in fs do assert (f.buffer = pixels) "pixels"

/-- `tests/roundtrip.rs:157-198` `palette_sizes` -/
def paletteSizes : IO Unit := do
  let global (n : Nat) : List UInt8 := (List.range n).flatMap fun i => [UInt8.ofNat i, UInt8.ofNat (i / 2), UInt8.ofNat (i + 13)]
  let loc (n : Nat) : List UInt8 := (List.range n).flatMap fun i => [UInt8.ofNat i ^^^ 0x55, UInt8.ofNat i, UInt8.ofNat (i + 7)]
  let pow (n : Nat) : Nat := ((List.range 10).map (2 ^ ·)).find? (n ≤ ·) |>.getD 0
  for i in List.range 256 do
    let size := i + 1
    let f : Frame := { Frame.default with width := 1, height := 1, buffer := [1] }
    let file ← encode 1 1 (global size) [(·.writeFrame Ref.lzw f), (·.writeFrame Ref.lzw { f with palette := some (loc size) })]
    let d ← start DecodeOptions.new (onSlice file)
    let pad := List.replicate (3 * (pow (max size 2) - size)) (0 : UInt8)
    assert (d.globalPalette = some (global size ++ pad)) s!"global palette {size}"
    let (_, fs) ← allFrames d
    assert (fs.toList.map (·.palette) = [none, some (loc size ++ pad)]) s!"local palette {size}"

/-- `tests/roundtrip.rs:200-204` `palette_fail` -/
def paletteFail : IO Unit := do
  let (e, r) := Encoder.new true { written := [], plan := [] } 0xFFFF 0xFFFF []
  unwrapE r "Encoder::new"
  let (_, r) := e.writeFrame Ref.lzw { Frame.default with width := 1, height := 1, buffer := [1] }
  assert (r = .err (.format .missingColorPalette)) "no error"

/-- `tests/crashtest.rs`, `tests/stall.rs:5-46`: no panic, and an end. -/
def noCrash (dir : System.FilePath) : IO Unit := do
  for sub in ["crashtest", "stall"] do
    for file in ← (dir / sub).readDir do
      let bytes ← IO.FS.readBinFile file.path
      for color in [ColorOutput.indexed, .rgba] do
        let (d, r) := readInfo Ref.lzw { DecodeOptions.new with colorOutput := color } (onSlice bytes)
        match r with
        | .ok () =>
          let (_, _, e) := frames d
          assert (match e with | none => true | some (.err _) => true | _ => false) s!"{file.fileName}"
        | .err _ => pure ()
        | _ => fail s!"{file.fileName}"

/-- `tests/stall.rs:48-58` `test_truncated_file` -/
def truncated (dir : System.FilePath) : IO Unit := do
  let data ← IO.FS.readBinFile (dir / "samples" / "anim-gr.gif")
  for len in List.range (data.size - 1) do
    let (d, r) := readInfo Ref.lzw DecodeOptions.new (onSlice (data.extract 0 len))
    match r with
    | .ok () =>
      let (_, _, e) := frames d
      assert (match e with | none => true | some (.err _) => true | _ => false) s!"{len}"
    | .err _ => pure ()
    | _ => fail s!"{len}"

/-- `tests/stall.rs:60-112` `one_byte_at_a_time`, … -/
def chopped (dir : System.FilePath) : IO Unit := do
  let data ← IO.FS.readBinFile (dir / "samples" / "moon_impact.gif")
  for n in [1, 2, 3] do
    let (_, fs) ← items (DecoderIter.new (← start DecodeOptions.new { buf := [], src := chop n data }))
    assert (fs.size = 14) s!"{n}"

/-- The last row of the interlace iterator. -/
def lastRow (it : InterlaceIter) : Nat → Option Nat → Option Nat
  | 0, acc => acc
  | fuel + 1, acc =>
    match it.nextRow with
    | (_, none) => acc
    | (it, some r) => lastRow it fuel (some r)

/-- `src/reader/converter.rs:248-251` `interlace_max`, `src/common.rs:372-376` `rgba_speed_avoid_panic_256_colors`,
`src/encoder.rs:444-464` -/
def units : IO Unit := do
  assert (lastRow { len := 0xFFFF, next := 0, pass := 0 } 100000 none = some 65533) "interlace_max"
  let _ ← unwrap (Frame.fromRgb noQuant 16 16 ((List.range 256).flatMap fun a => List.replicate 3 (UInt8.ofNat a))) "256 colors"
  for i in List.range 300 do
    assert ((flagSize i).toNat = if i ≤ 2 then 0 else if i ≤ 4 then 1 else if i ≤ 8 then 2 else if i ≤ 16 then 3
      else if i ≤ 32 then 4 else if i ≤ 64 then 5 else if i ≤ 128 then 6 else 7) s!"flag_size {i}"

/-- The tests. -/
def tests (dir : System.FilePath) : List (String × IO Unit) :=
  [("test_simple_indexed", simpleIndexed dir), ("frame_consistency_is_configurable", frameConsistency),
   ("check_for_end_code_is_configurable", endCode dir),
   ("check_rebuild_without_reencode1", rebuild dir "gifplayer-muybridge.gif"),
   ("check_rebuild_without_reencode2", rebuild dir "interlaced.gif"),
   ("check_skip_frame_data", skipData dir), ("round_trip", roundTrip dir), ("max_frame_size", maxFrameSize),
   ("encode_roundtrip", roundTripFrom dir "2x2.gif"), ("encode_roundtrip2", roundTripFrom dir "interlaced.gif"),
   ("encode_roundtrip_few_colors", fewColors), ("palette_sizes", paletteSizes), ("palette_fail", paletteFail),
   ("try_decode_crash_regression", noCrash dir), ("test_truncated_file", truncated dir),
   ("one_byte_at_a_time", chopped dir), ("unit tests", units), ("render_images", renderImages dir)]

/-- Runs them all on the given directory (`/repo/tests`). -/
def run (dir : System.FilePath) : IO UInt32 := do
  let mut bad : UInt32 := 0
  for (name, t) in tests dir do
    try
      t
      IO.println s!"ok     {name}"
    catch e =>
      IO.println s!"FAILED {name}: {e}"
      bad := 1
    (← IO.getStdout).flush
  pure bad

end Gif.Check

/-- The program of `check.sh`. -/
def main (args : List String) : IO UInt32 := Gif.Check.run (args.headD "/repo/tests")
