/-!
# Specification: the GIF89a file format

Abstract syntax of a GIF file, its bytes (`render`), and its meaning (`frames`, `loopCount`, `globalColours`). Nothing
here refers to the model of the crate.
-/

namespace Gif.Spec

/-- 16-bit little-endian number. -/
def le16 (n : UInt16) : List UInt8 := [UInt8.ofNat (n.toNat % 256), UInt8.ofNat (n.toNat / 256)]

/-- Data sub-blocks with the block terminator. -/
def renderSubs (subs : List (List UInt8)) : List UInt8 :=
  subs.flatMap (fun b => UInt8.ofNat b.length :: b) ++ [0]

/-- Legal data sub-blocks: 1 to 255 bytes each. -/
def SubsOk (subs : List (List UInt8)) : Prop := ∀ b ∈ subs, 1 ≤ b.length ∧ b.length ≤ 255

/-- Graphic control extension: packed field, delay, transparent colour index. -/
structure Control where
  packed : UInt8
  delay : UInt16
  trns : UInt8
deriving DecidableEq, Repr

/-- `0x21 0xF9 0x04 <packed> <delay> <transparent> 0x00` -/
def Control.render (c : Control) : List UInt8 := [0x21, 0xF9, 4, c.packed] ++ le16 c.delay ++ [c.trns, 0]

/-- Image descriptor, optional local colour table, code size and compressed data. `misc` are the bits 3-5 of the packed
field (sort flag, reserved), `size` its lowest three bits. -/
structure Image where
  left : UInt16
  top : UInt16
  width : UInt16
  height : UInt16
  interlaced : Bool
  misc : Nat
  size : Nat
  table : Option (List UInt8)
  minCode : UInt8
  subs : List (List UInt8)
deriving DecidableEq, Repr

/-- Packed field of the image descriptor. -/
def Image.packed (i : Image) : UInt8 :=
  UInt8.ofNat ((if i.table.isSome then 128 else 0) + (if i.interlaced then 64 else 0) + 8 * i.misc + i.size)

/-- Bytes of the descriptor up to the code size, which the sub-blocks follow. -/
def Image.renderHead (i : Image) : List UInt8 :=
  [0x2C] ++ le16 i.left ++ le16 i.top ++ le16 i.width ++ le16 i.height ++ [i.packed] ++ i.table.getD [] ++ [i.minCode]

def Image.render (i : Image) : List UInt8 := i.renderHead ++ renderSubs i.subs

/-- A colour table has `2^(size+1)` colours; the fields of the packed byte have their widths. -/
def Image.Ok (i : Image) : Prop :=
  i.misc < 8 ∧ i.size < 8 ∧ (∀ t, i.table = some t → t.length = 3 * 2 ^ (i.size + 1)) ∧ SubsOk i.subs

/-- Blocks between the header and the trailer. Extensions other than graphic control have a label and sub-blocks. Unknown
blocks are not part of the format; they have any other introducer and sub-blocks. -/
inductive Blk where
  | control (c : Control)
  | ext (label : UInt8) (subs : List (List UInt8))
  | image (i : Image)
  | unknown (intro : UInt8) (subs : List (List UInt8))
deriving DecidableEq, Repr

def Blk.render : Blk → List UInt8
  | .control c => c.render
  | .ext label subs => [0x21, label] ++ renderSubs subs
  | .image i => i.render
  | .unknown intro subs => intro :: renderSubs subs

/-- Known labels: plain text, comment, application. -/
def Blk.Ok : Blk → Prop
  | .control _ => True
  | .ext label subs => (label = 0x01 ∨ label = 0xFE ∨ label = 0xFF) ∧ subs ≠ [] ∧ SubsOk subs
  | .image i => i.Ok
  | .unknown intro subs => intro ≠ 0x21 ∧ intro ≠ 0x2C ∧ intro ≠ 0x3B ∧ subs ≠ [] ∧ SubsOk subs

def renderBlks (bs : List Blk) : List UInt8 := bs.flatMap Blk.render

/-- A GIF file. `v89` tells GIF89a from GIF87a. `misc` are the bits 3-6 of the packed field (colour resolution, sort
flag), `size` its lowest three bits. -/
structure File where
  v89 : Bool
  width : UInt16
  height : UInt16
  misc : Nat
  size : Nat
  table : Option (List UInt8)
  background : UInt8
  aspect : UInt8
  blocks : List Blk
deriving DecidableEq, Repr

def File.packed (g : File) : UInt8 :=
  UInt8.ofNat ((if g.table.isSome then 128 else 0) + 8 * g.misc + g.size)

/-- Header, logical screen descriptor, global colour table. -/
def File.renderHead (g : File) : List UInt8 :=
  [0x47, 0x49, 0x46, 0x38, if g.v89 then 0x39 else 0x37, 0x61] ++ le16 g.width ++ le16 g.height ++
    [g.packed, g.background, g.aspect] ++ g.table.getD []

/-- The bytes of the file, with the trailer `0x3B`. -/
def File.render (g : File) : List UInt8 := g.renderHead ++ renderBlks g.blocks ++ [0x3B]

def File.Ok (g : File) : Prop :=
  g.misc < 16 ∧ g.size < 8 ∧ (∀ t, g.table = some t → t.length = 3 * 2 ^ (g.size + 1)) ∧ ∀ b ∈ g.blocks, b.Ok

/-- The format also allows an extension without any data. -/
def Blk.Legal : Blk → Prop
  | .control _ => True
  | .ext label subs => (label = 0x01 ∨ label = 0xFE ∨ label = 0xFF) ∧ SubsOk subs
  | .image i => i.Ok
  | .unknown _ _ => False

/-- The files of the format. -/
def File.Legal (g : File) : Prop :=
  g.misc < 16 ∧ g.size < 8 ∧ (∀ t, g.table = some t → t.length = 3 * 2 ^ (g.size + 1)) ∧ ∀ b ∈ g.blocks, b.Legal

instance (subs : List (List UInt8)) : Decidable (SubsOk subs) := inferInstanceAs (Decidable (∀ b ∈ subs, _))

instance (i : Image) : Decidable i.Ok := by
  unfold Image.Ok
  cases i.table <;> infer_instance

instance : (b : Blk) → Decidable b.Ok
  | .control _ => isTrue trivial
  | .ext _ _ => inferInstanceAs (Decidable (_ ∧ _))
  | .image i => inferInstanceAs (Decidable i.Ok)
  | .unknown _ _ => inferInstanceAs (Decidable (_ ∧ _))

instance : (b : Blk) → Decidable b.Legal
  | .control _ => isTrue trivial
  | .ext _ _ => inferInstanceAs (Decidable (_ ∧ _))
  | .image i => inferInstanceAs (Decidable i.Ok)
  | .unknown _ _ => inferInstanceAs (Decidable False)

instance (g : File) : Decidable g.Ok := by
  unfold File.Ok
  cases g.table <;> infer_instance

instance (g : File) : Decidable g.Legal := by
  unfold File.Legal
  cases g.table <;> infer_instance

/-! ## Meaning -/

/-- Disposal methods of the GIF89a specification; undefined values count as "no disposal specified". -/
inductive Disposal where
  | unspecified | keep | background | previous
deriving DecidableEq, Repr

/-- What a graphic control extension says about the next image. -/
structure Graphic where
  delay : UInt16
  disposal : Disposal
  transparent : Option UInt8
  userInput : Bool
deriving DecidableEq, Repr

/-- Reading the packed field: bits 2-4 disposal, bit 1 user input, bit 0 transparency. -/
def Control.graphic (c : Control) : Graphic where
  delay := c.delay
  disposal := match c.packed.toNat / 4 % 8 with
    | 1 => .keep
    | 2 => .background
    | 3 => .previous
    | _ => .unspecified
  transparent := if c.packed.toNat % 2 = 1 then some c.trns else none
  userInput := c.packed.toNat / 2 % 2 = 1

/-- Without a graphic control extension the crate documents (`Frame::default`): no delay, keep, opaque, no user input. -/
def Graphic.default : Graphic := { delay := 0, disposal := .keep, transparent := none, userInput := false }

/-- The images of the file with the last graphic control extension before each (since the previous image). -/
def frames : Graphic → List Blk → List (Graphic × Image)
  | _, [] => []
  | _, .control c :: bs => frames c.graphic bs
  | g, .ext _ _ :: bs => frames g bs
  | g, .image i :: bs => (g, i) :: frames .default bs
  | g, .unknown _ _ :: bs => frames g bs

def File.frames (g : File) : List (Graphic × Image) := Spec.frames .default g.blocks

/-- Number of animation repetitions. -/
inductive Loops where
  | finite (n : UInt16)
  | infinite
deriving DecidableEq, Repr

/-- The application extension `NETSCAPE2.0`: an 11-byte identifier, then `0x01` and a 16-bit count (0 = forever). The
payload is looked at as a whole, whatever its sub-blocks. -/
def netscape (subs : List (List UInt8)) : Option Loops :=
  let p := subs.flatten
  if 14 ≤ p.length ∧ p.take 12 = [0x4E, 0x45, 0x54, 0x53, 0x43, 0x41, 0x50, 0x45, 0x32, 0x2E, 0x30, 0x01] then
    let n := UInt16.ofNat ((p.getD 12 0).toNat + 256 * (p.getD 13 0).toNat)
    some (if n = 0 then .infinite else .finite n)
  else none

/-- The loop count is what the last such extension before the first image (or unknown block) says; without one there is
none. -/
def loopCount : Loops → List Blk → Loops
  | l, .ext label subs :: bs => loopCount (if label = 0xFF then (netscape subs).getD l else l) bs
  | l, .control _ :: bs => loopCount l bs
  | l, _ => l

def File.loops (g : File) : Loops := loopCount (.finite 0) g.blocks

end Gif.Spec
