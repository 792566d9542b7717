import Verif.Spec.Meaning
import Verif.Spec.Blocks
/-!
# Specification: reading any string of bytes

A recursive descent over the bytes of a file, well-formed or not: what `read_info`, `next_frame_info` and `read_next_frame`
have to return with `skip_frame_decoding`, for every string of bytes. It knows nothing of buffers, states and events. What is
not in the format is written out: the first length byte of an extension, of the data of an image and of an unknown block
does not end it, even if it is zero; an unknown block continues the last extension; a trailer directly after the colour
table is recognised only if a byte follows.
-/

namespace Gif.Spec.Descent

/-- What is read, or why it is not. -/
abbrev Parse (α : Type) := Except DecodingError α

/-- The bytes end too early. -/
def cut {α : Type} : Parse α := .error (.io .unexpectedEof)

/-- The next `n` bytes and the rest. -/
def item (n : Nat) (l : List UInt8) : Parse (List UInt8 × List UInt8) :=
  if n ≤ l.length then .ok (l.take n, l.drop n) else cut

/-- 16-bit little-endian number. -/
def number (a b : UInt8) : UInt16 := UInt16.ofNat (a.toNat + 256 * b.toNat)

/-- The colour table that a packed field announces. -/
def table (packed : UInt8) (l : List UInt8) : Parse (Option (List UInt8) × List UInt8) :=
  if packed.toNat / 128 = 1 then
    match item (3 * 2 ^ (packed.toNat % 8 + 1)) l with
    | .ok (t, l) => .ok (some t, l)
    | .error e => .error e
  else .ok (none, l)

/-- Header, logical screen descriptor and global colour table, as a file without blocks. -/
def screen (l : List UInt8) : Parse (File × List UInt8) :=
  match item 6 l with
  | .error e => .error e
  | .ok (sig, l) =>
    if sig = [0x47, 0x49, 0x46, 0x38, 0x37, 0x61] ∨ sig = [0x47, 0x49, 0x46, 0x38, 0x39, 0x61] then
      match l with
      | w0 :: w1 :: h0 :: h1 :: packed :: background :: aspect :: l =>
        match table packed l with
        | .error e => .error e
        | .ok (t, l) => .ok ({
            v89 := decide (sig = [0x47, 0x49, 0x46, 0x38, 0x39, 0x61])
            width := number w0 w1, height := number h0 h1
            misc := packed.toNat / 8 % 16, size := packed.toNat % 8, table := t
            background := background, aspect := aspect, blocks := [] }, l)
      | _ => cut
    else .error (.format .malformedHeader)

/-- Data in sub-blocks, `n` bytes in the first of them, when `used` bytes are stored already. -/
def payload (limit : MemoryLimit) (used : Nat) (n : UInt8) (l : List UInt8) : Parse (List UInt8 × List UInt8) :=
  let d := (blocks n.toNat l).1
  if d ≠ [] ∧ limit.sizeOk (used + d.length) = false then .error (.format .memoryLimit)
  else match (blocks n.toNat l).2 with
    | some l => .ok (d, l)
    | none => cut

/-- What is remembered from block to block: label and data of the last extension, with its first length byte, and what the
last graphic control extension since the last image says. -/
structure Notes where
  label : UInt8
  data : List UInt8
  graphic : Graphic
deriving DecidableEq, Repr

def Notes.blank : Notes := { label := 0, data := [], graphic := .default }

/-- The end of an extension. A graphic control extension has four bytes of data. -/
def Notes.finish (n : Notes) : Parse Notes :=
  if n.label = 0xF9 then
    match n.data with
    | [_, packed, d0, d1, trns] =>
      .ok { n with graphic := ({ packed := packed, delay := number d0 d1, trns := trns } : Control).graphic }
    | _ => .error (.format .controlWrongLength)
  else .ok n

/-- An extension, after its introducer. -/
def extension (limit : MemoryLimit) (n : Notes) : List UInt8 → Parse (Notes × List UInt8)
  | [] => cut
  | label :: l =>
    if label = 0x01 ∨ label = 0xF9 ∨ label = 0xFE ∨ label = 0xFF then
      match l with
      | [] => cut
      | len :: l =>
        match payload limit 1 len l with
        | .error e => .error e
        | .ok (d, l) =>
          match Notes.finish { n with label := label, data := len :: d } with
          | .error e => .error e
          | .ok n => .ok (n, l)
    else .error (.format .unknownBlock)

/-- An unknown block, after its introducer. -/
def stranger (o : DecodeOptions) (n : Notes) : List UInt8 → Parse (Notes × List UInt8)
  | [] => cut
  | len :: l =>
    if o.allowUnknownBlocks then
      match payload o.memoryLimit n.data.length len l with
      | .error e => .error e
      | .ok (d, l) =>
        match Notes.finish { n with data := n.data ++ d } with
        | .error e => .error e
        | .ok n => .ok (n, l)
    else .error (.format .unknownBlock)

/-- The extensions before the first image: the loop count. `first` says that there was none yet. -/
def lead (o : DecodeOptions) : Nat → Bool → Loops → Notes → List UInt8 → Parse (Loops × Notes × List UInt8)
  | fuel + 1, first, loops, n, t :: l =>
    if t = 0x21 then
      match extension o.memoryLimit n l with
      | .error e => .error e
      | .ok (n, l) =>
        lead o fuel false (if n.label = 0xFF then (netscape [n.data.drop 1]).getD loops else loops) n l
    else if l = [] ∧ (first = true ∨ t ≠ 0x3B) then cut
    else .ok (loops, n, t :: l)
  | _, _, _, _, _ => cut

/-- The blocks up to the next image, whose introducer is read, or the trailer. -/
def seek (o : DecodeOptions) : Nat → Notes → List UInt8 → Parse (Option (Notes × List UInt8))
  | fuel + 1, n, t :: l =>
    if t = 0x3B then .ok none
    else if t = 0x2C then .ok (some (n, l))
    else
      match if t = 0x21 then extension o.memoryLimit n l else stranger o n l with
      | .error e => .error e
      | .ok (n, l) => seek o fuel n l
  | _, _, _ => cut

/-- Image descriptor, local colour table and code size; the length of the first sub-block of the data, and the rest. -/
def imageHead (o : DecodeOptions) (g : File) : List UInt8 → Parse (Image × UInt8 × List UInt8)
  | l0 :: l1 :: t0 :: t1 :: w0 :: w1 :: h0 :: h1 :: packed :: l =>
    let i : Image := {
      left := number l0 l1, top := number t0 t1, width := number w0 w1, height := number h0 h1
      interlaced := decide (packed.toNat / 64 % 2 = 1), misc := packed.toNat / 8 % 8, size := packed.toNat % 8
      table := none, minCode := 0, subs := [] }
    if o.checkFrameConsistency = true ∧ ¬ g.Contains i then .error (.format .frameOutOfBounds)
    else
      match table packed l with
      | .error e => .error e
      | .ok (t, minCode :: len :: l) =>
        if minCode.toNat < 1 ∨ 11 < minCode.toNat then .error (.format .invalidMinCodeSize)
        else .ok ({ i with table := t, minCode := minCode }, len, l)
      | .ok _ => cut
  | _ => cut

/-- Where the reader is: before a block, in the data of an image, after the trailer. -/
inductive Pos where
  | block (n : Notes) (l : List UInt8)
  | data (n : Notes) (len : UInt8) (l : List UInt8)
  | done
deriving DecidableEq, Repr

/-- The next image: what the graphic control extension before it says, its head, and its data. -/
def next (o : DecodeOptions) (g : File) (n : Notes) (l : List UInt8) :
    Parse (Option (Notes × Image × UInt8 × List UInt8)) :=
  match seek o (l.length + 1) n l with
  | .error e => .error e
  | .ok none => .ok none
  | .ok (some (n, l)) =>
    match imageHead o g l with
    | .error e => .error e
    | .ok (i, len, l) =>
      if i.table = none ∧ g.table = none then .error (.format .noColorTable) else .ok (some (n, i, len, l))

/-- From where the reader is to the next image. Data that were not asked for are passed over, whatever their size. -/
def advance (o : DecodeOptions) (g : File) : Pos → Parse (Option (Notes × Image × UInt8 × List UInt8))
  | .block n l => next o g n l
  | .data n len l =>
    match (blocks len.toNat l).2 with
    | none => cut
    | some l => next o g { n with graphic := .default } l
  | .done => .ok none

/-- What the calls have to return and the accessors to show. -/
def reading (o : DecodeOptions) (g : File) (loops : Loops) : List Call → Frame → Pos → List Seen
  | [], _, _ => []
  | c :: cs, cur, p =>
    let view := fun f => { g.view f with repetition := loopsOf loops }
    match advance o g p with
    | .error e => [.failed e]
    | .ok none =>
      (match c with
        | .info => .info false (view cur)
        | .read => .frame none (view cur)) :: reading o g loops cs cur .done
    | .ok (some (n, i, len, l)) =>
      match c with
      | .info =>
        let f := headFrame (n.graphic, i)
        .info true (view f) :: reading o g loops cs f (.data n len l)
      | .read =>
        match payload o.memoryLimit 1 len l with
        | .error e => [.failed e]
        | .ok (d, l) =>
          let f := rawFrame (n.graphic, { i with subs := [d] })
          .frame (some f) (view f) :: reading o g loops cs f (.block { n with graphic := .default } l)

/-- All of a file: `read_info`, then the calls. -/
def gif (o : DecodeOptions) (bytes : List UInt8) (cs : List Call) : List Seen :=
  match screen bytes with
  | .error e => [.failed e]
  | .ok (g, l) =>
    match lead o (l.length + 1) true (.finite 0) .blank l with
    | .error e => [.failed e]
    | .ok (loops, n, l) =>
      .opened { g.view Frame.default with repetition := loopsOf loops } :: reading o g loops cs Frame.default (.block n l)

end Gif.Spec.Descent
