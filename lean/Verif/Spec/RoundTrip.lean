import Verif.Lemmas.EncOps
import Verif.Spec.Meaning
/-!
# Specification: writing a file and reading it back
-/

namespace Gif

/-- A whole life of an encoder on an empty `Vec<u8>`: `Encoder::new`, calls (whatever they return), `into_inner`. The file that
results, if `new` and `into_inner` succeed, and the results of the calls. -/
def encodeFile (C : Codec) (np : Bool) (w h : UInt16) (pal : List UInt8) (ops : List EncOp) :
    Option (List UInt8) × List (EOut Unit) :=
  match Encoder.new np { written := [], plan := [] } w h pal with
  | (e, .ok ()) =>
    match runOps C e ops with
    | (e, rs) =>
      match e.intoInner np with
      | (_, .ok s) => (some s.written, rs)
      | _ => (none, rs)
  | _ => (none, [])

namespace Spec

/-- Number of colours in the table that holds `n` colours: a power of two, at least two. -/
def tableColours (n : Nat) : Nat :=
  if n ≤ 2 then 2 else if n ≤ 4 then 4 else if n ≤ 8 then 8 else if n ≤ 16 then 16 else if n ≤ 32 then 32
  else if n ≤ 64 then 64 else if n ≤ 128 then 128 else 256

/-- A palette as it is read back: its whole colours, then black. -/
def padded (t : List UInt8) : List UInt8 :=
  t.take (t.length / 3 * 3) ++ List.replicate (3 * (tableColours (t.length / 3) - t.length / 3)) 0

/-- Does the call write a frame? -/
def isFrame : EncOp → Bool
  | .frame _ => true
  | .preEncoded _ => true
  | _ => false

/-- The calls that wrote a frame, given the results of all calls. -/
def written : List EncOp → List (EOut Unit) → List EncOp
  | op :: ops, r :: rs => if isFrame op ∧ r = .ok () then op :: written ops rs else written ops rs
  | _, _ => []

/-- The frame with its compressed data. -/
def compressed (C : Codec) : EncOp → Frame
  | .frame f => f.makeLzwPreEncoded C
  | .preEncoded f => f
  | _ => Frame.default

/-- The frame as it is read back with `skip_frame_decoding`. -/
def readRaw (f : Frame) : Frame :=
  { f with palette := f.palette.map padded, ownedCap := some f.buffer.length }

/-- The frame as it is read back, if the palette indices in its data are `px`. -/
def readBack (c : ColorOutput) (pal : List UInt8) (f : Frame) (px : List UInt8) : Frame :=
  shown c (some (padded pal)) { f with palette := f.palette.map padded } px

/-- The number of repetitions that a call writes into the file. `set_repeat(Repeat::Finite(0))` writes nothing. -/
def repetitionOf : EncOp → Option Repeat
  | .setRepeat r => if r = .finite 0 then none else some r
  | .extension (.repetitions r) => if r = .finite 0 then none else some r
  | .rawExtension label data => if label = 0xFF then (netscape data).map loopsOf else none
  | _ => none

/-- The number of repetitions that the file has: the last one written before the first frame. -/
def repetitions : List EncOp → List (EOut Unit) → Repeat → Repeat
  | op :: ops, r :: rs, cur =>
    if isFrame op ∧ r = .ok () then cur else repetitions ops rs ((repetitionOf op).getD cur)
  | _, _, cur => cur

/-- What the accessors have to show. -/
def screen (w h : UInt16) (pal : List UInt8) (rep : Repeat) (f : Frame) : View where
  width := w
  height := h
  globalPalette := some (padded pal)
  bgColor := some 0
  repetition := rep
  currentFrame := f

/-- What `read_info` and the calls of `read_next_frame` have to give. -/
def projection (w h : UInt16) (pal : List UInt8) (rep : Repeat) (fs : List Frame) (k : Nat) : List Seen :=
  .opened (screen w h pal rep Frame.default) :: fs.map (fun f => .frame (some f) (screen w h pal rep f)) ++
    List.replicate k (.frame none (screen w h pal rep (fs.getLast?.getD Frame.default)))

/-- Calls whose extensions can be read back: of a known kind, with data, not larger than the memory limit. -/
def Plain (o : DecodeOptions) : EncOp → Prop
  | .setRepeat _ => o.memoryLimit.sizeOk 15 = true
  | .extension (.repetitions _) => o.memoryLimit.sizeOk 15 = true
  | .rawExtension label data => (label = 0x01 ∨ label = 0xFE ∨ label = 0xFF) ∧ data.flatten ≠ [] ∧
      o.memoryLimit.sizeOk (1 + data.flatten.length) = true
  | _ => o.memoryLimit.sizeOk 5 = true

/-- What the options of the decoder require of the position, and the decoder of compressed data. -/
def Admissible (C : Codec) (o : DecodeOptions) (w h : UInt16) (op : EncOp) : Prop :=
  let f := compressed C op
  (o.checkFrameConsistency = true → f.left.toNat + f.width.toNat ≤ w.toNat ∧ f.top.toNat + f.height.toNat ≤ h.toNat) ∧
  (∀ g, op = .preEncoded g → 2 ≤ g.buffer.length)

/-- What the memory limit requires of the compressed size with `skip_frame_decoding`. -/
def Held (C : Codec) (o : DecodeOptions) (op : EncOp) : Prop := o.memoryLimit.sizeOk (compressed C op).buffer.length = true

/-- The frame has pixels, they fit into the memory limit, and `px` are its palette indices. -/
def Content {C : Codec} (K : C.Contract) (o : DecodeOptions) (op : EncOp) (px : List UInt8) : Prop :=
  let f := compressed C op
  0 < f.width.toNat * f.height.toNat ∧ (∃ n, o.memoryLimit.bufferSize o.colorOutput f.width f.height = some n) ∧
  match op with
  | .frame f => px = f.buffer
  | _ => f.width.toNat * f.height.toNat ≤ px.length ∧
      ∃ m data e, f.buffer = m :: data ∧ K.Yields (C.new m) data px e ∧ e ≠ .invalid

/-- The same for several frames. -/
def Contents {C : Codec} (K : C.Contract) (o : DecodeOptions) : List EncOp → List (List UInt8) → Prop
  | [], [] => True
  | op :: ops, px :: pxs => Content K o op px ∧ Contents K o ops pxs
  | _, _ => False

end Spec

end Gif
