import Verif.Model.Basic
/-!
# `src/common.rs`: shared data types
-/

namespace Gif

/-- `src/common.rs:8-17` -/
inductive DisposalMethod where
  | any | keep | background | previous
deriving DecidableEq, Repr

namespace DisposalMethod

/-- `dispose as u8`, discriminants of `src/common.rs:8-17` -/
def toU8 : DisposalMethod → UInt8
  | .any => 0
  | .keep => 1
  | .background => 2
  | .previous => 3

/-- `src/common.rs:22-30` `DisposalMethod::from_u8` -/
def fromU8 (n : UInt8) : Option DisposalMethod :=
  if n = 0 then some .any
  else if n = 1 then some .keep
  else if n = 2 then some .background
  else if n = 3 then some .previous
  else none

end DisposalMethod

/-- `src/common.rs:45-52` -/
inductive Block where
  | image | extension | trailer
deriving DecidableEq, Repr

namespace Block

/-- `Block::X as u8`, discriminants of `src/common.rs:45-52` -/
def toU8 : Block → UInt8
  | .image => 0x2C
  | .extension => 0x21
  | .trailer => 0x3B

/-- `src/common.rs:57-64` `Block::from_u8` -/
def fromU8 (n : UInt8) : Option Block :=
  if n = 0x2C then some .image
  else if n = 0x21 then some .extension
  else if n = 0x3B then some .trailer
  else none

end Block

/-- `src/common.rs:84-103` -/
inductive Extension where
  | text | control | comment | application
deriving DecidableEq, Repr

namespace Extension

/-- `Extension::X as u8`, discriminants of `src/common.rs:84-103` -/
def toU8 : Extension → UInt8
  | .text => 0x01
  | .control => 0xF9
  | .comment => 0xFE
  | .application => 0xFF

/-- `src/common.rs:122-130` `Extension::from_u8`, also `AnyExtension::into_known` (`src/common.rs:108-110`);
`AnyExtension` (`src/common.rs:76`) is represented by its byte. -/
def fromU8 (n : UInt8) : Option Extension :=
  if n = 0x01 then some .text
  else if n = 0xF9 then some .control
  else if n = 0xFE then some .comment
  else if n = 0xFF then some .application
  else none

end Extension

/-- `src/encoder.rs:82-87` `Repeat` -/
inductive Repeat where
  | finite (n : UInt16)
  | infinite
deriving DecidableEq, Repr

/-- `src/encoder.rs:89-93` `Default for Repeat` -/
def Repeat.default : Repeat := .finite 0

/-- `src/common.rs:135-159` `Frame`. `buffer : Cow<[u8]>` is its bytes `buffer` together with `ownedCap`:
`none` for `Cow::Borrowed`, `some c` for `Cow::Owned` of a `Vec` of capacity `c`. -/
structure Frame where
  delay : UInt16
  dispose : DisposalMethod
  transparent : Option UInt8
  needsUserInput : Bool
  top : UInt16
  left : UInt16
  width : UInt16
  height : UInt16
  interlaced : Bool
  palette : Option (List UInt8)
  buffer : List UInt8
  ownedCap : Option Nat
deriving DecidableEq, Repr

/-- `src/common.rs:161-177` `Default for Frame` -/
def Frame.default : Frame where
  delay := 0
  dispose := .keep
  transparent := none
  needsUserInput := false
  top := 0
  left := 0
  width := 0
  height := 0
  interlaced := false
  palette := none
  buffer := []
  ownedCap := none

/-- `src/common.rs:350-364` `Frame::take`: what is returned. -/
def Frame.take (f : Frame) : Frame := f

/-- `src/common.rs:350-364` `Frame::take`: what is left behind. -/
def Frame.afterTake (f : Frame) : Frame :=
  { f with palette := none, buffer := [], ownedCap := none }

end Gif
