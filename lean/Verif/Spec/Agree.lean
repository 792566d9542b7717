import Verif.Spec.Film
/-!
# Agreement of sessions up to the first error
-/

namespace Gif

/-- The call failed. -/
def Got.isError : Got → Bool
  | .seen (.failed _) => true
  | _ => false

namespace Spec

/-- `a` is `b`, or a part of it and then an error. -/
def Upheld (a b : List Got) : Prop :=
  a = b ∨ ∃ k e, k < b.length ∧ a = b.take k ++ [.seen (.failed e)]

/-- The sessions gave the same up to the first error in one of them. -/
def Agree : List Got → List Got → Prop
  | [], [] => True
  | x :: a, y :: b => x.isError = true ∨ y.isError = true ∨ (x = y ∧ Agree a b)
  | _, _ => False

/-- `px` is what the data of the raw frame expand to. -/
def Unpacks {C : Codec} (K : C.Contract) (f : Frame) (px : Pixels) : Prop :=
  ∃ m data, f.buffer = m :: data ∧ K.Yields (C.new m) data px.1 px.2

/-- `pxs` is what the data of the raw frames expand to. -/
def YieldAll {C : Codec} (K : C.Contract) : List Frame → List Pixels → Prop
  | [], [] => True
  | f :: fs, px :: pxs => Unpacks K f px ∧ YieldAll K fs pxs
  | _, _ => False

/-- Raw frames that differ in nothing but pixels that do not belong to the picture, or in how these are compressed. -/
def SamePicture {C : Codec} (K : C.Contract) (f g : Frame) : Prop :=
  bare f = bare g ∧ ∃ px px', Unpacks K f px ∧ Unpacks K g px' ∧
    px.1.take (f.width.toNat * f.height.toNat) = px'.1.take (f.width.toNat * f.height.toNat)

/-- What was seen is the same, up to the pixels that do not belong to a picture. -/
def SameSight {C : Codec} (K : C.Contract) : Seen → Seen → Prop
  | .frame (some f) v, .frame (some g) w =>
    SamePicture K f g ∧ { v with currentFrame := Frame.default } = { w with currentFrame := Frame.default }
  | .frame none v, .frame none w => { v with currentFrame := Frame.default } = { w with currentFrame := Frame.default }
  | x, y => x = y

/-- Files whose raw frames are the same, up to the pixels that do not belong to a picture. -/
def SameShow {C : Codec} (K : C.Contract) : List Seen → List Seen → Prop
  | [], [] => True
  | x :: l, y :: l' => SameSight K x y ∧ SameShow K l l'
  | _, _ => False

/-- The raw frames could be read: the data did not end, and memory sufficed. -/
def Readable (raw : List Seen) : Prop :=
  .failed (.io .unexpectedEof) ∉ raw ∧ .failed (.format .memoryLimit) ∉ raw ∧ .failed (.io .outOfMemory) ∉ raw

end Spec

end Gif
