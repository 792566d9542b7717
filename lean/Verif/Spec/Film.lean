import Verif.Spec.Session
import Verif.Spec.Picture
import Verif.Spec.LzwContract
/-!
# Decoding of pixels, in terms of the raw frames

`next_frame_info`, `read_next_frame`, `fill_buffer` and `read_into_buffer` in any order on one side; on the other side what
they have to give, as a function of the frames a decoder with `skip_frame_decoding` reads and of what their compressed data
expand to.
-/

namespace Gif

/-- The calls that are considered. Buffers are zeroed; `fill n` has room for `n + 1` pixels, `into` has `buffer_size` bytes. -/
inductive Act where
  | info
  | read
  | fill (n : Nat)
  | into
deriving DecidableEq, Repr

/-- What a call gave: as in `Seen`, or the contents of the buffer. -/
inductive Got where
  | seen (s : Seen)
  | filled (buf : List UInt8) (more : Bool)
  | image (buf : List UInt8)
deriving DecidableEq, Repr

namespace Decoder

variable {C : Codec}

/-- One call. Image data are fetched only of a frame that `next_frame_info` has found, until `fill_buffer` says that there are
no more (`live`); otherwise the call is not made. -/
def act (d : Decoder C) (live : Bool) : Act → List Got × Option (Decoder C × Bool)
  | .info => match d.nextFrameInfo with
    | (d', .ok found) => ([.seen (.info found d'.view)], some (d', found))
    | (_, .err e) => ([.seen (.failed e)], none)
    | _ => ([.seen .crashed], none)
  | .read => match d.readNextFrame with
    | (d', .ok f) => ([.seen (.frame f d'.view)], some (d', false))
    | (_, .err e) => ([.seen (.failed e)], none)
    | _ => ([.seen .crashed], none)
  | .fill n =>
    if live then
      match d.fillBuffer (List.replicate ((n + 1) * Spec.channels d.conv.colorOutput) 0) with
      | (d', buf, .ok more) => ([.filled buf more], some (d', more))
      | (_, _, .err e) => ([.seen (.failed e)], none)
      | _ => ([.seen .crashed], none)
    else ([], some (d, live))
  | .into =>
    if live then
      match d.readIntoBuffer (List.replicate d.bufferSize 0) with
      | (d', buf, .ok ()) => ([.image buf], some (d', true))
      | (_, _, .err e) => ([.seen (.failed e)], none)
      | _ => ([.seen .crashed], none)
    else ([], some (d, live))

/-- Performs calls up to the first error. -/
def film : List Act → Decoder C → Bool → List Got
  | [], _, _ => []
  | a :: as, d, live =>
    match d.act live a with
    | (x, some (d', live')) => x ++ film as d' live'
    | (x, none) => x

/-- A whole session: `read_info`, then the calls. -/
def filmFrom (C : Codec) (o : DecodeOptions) (r : Reader) (as : List Act) : List Got :=
  match readInfo C o r with
  | (d, .ok ()) => .seen (.opened d.view) :: film as d false
  | (_, .err e) => [.seen (.failed e)]
  | _ => [.seen .crashed]

/-- The raw frames of a file: what a decoder with the option `skip_frame_decoding` reads. -/
def rawFilm (C : Codec) (o : DecodeOptions) (r : Reader) (k : Nat) : List Seen :=
  sessionFrom C { o with skipFrameDecoding := true } r (List.replicate k .read)

end Decoder

namespace Spec

/-- The frame without its data. -/
def bare (f : Frame) : Frame := { f with buffer := [], ownedCap := none }

/-- The decoded frame. -/
def shown (c : ColorOutput) (global : Option (List UInt8)) (f : Frame) (px : List UInt8) : Frame :=
  { f with buffer := picture c global f px, ownedCap := some (picture c global f px).length, interlaced := false }

/-- What compressed data expand to, and how they end. -/
abbrev Pixels := List UInt8 × LzwEnd

/-- What `read_next_frame` makes of a raw frame. -/
def deliver (c : ColorOutput) (limit : MemoryLimit) (global : Option (List UInt8)) (f : Frame) (px : Pixels) :
    Except DecodingError Frame :=
  match limit.bufferSize c f.width f.height with
  | none => .error (.io .outOfMemory)
  | some _ =>
    if px.2 = .invalid then .error (.io .invalidCode)
    else if px.1.length < f.width.toNat * f.height.toNat then .error (.format .imageTruncated)
    else .ok (shown c global f px.1)

/-- What the calls have to give: `v` is what the accessors show, `live` are the pixels not yet fetched of the current frame,
`raw` are the raw frames to come and `outs` what their data expand to. -/
def watch (c : ColorOutput) (limit : MemoryLimit) : List Act → View → Option (List UInt8) → List Seen → List Pixels → List Got
  | [], _, _, _, _ => []
  | .info :: as, v, _, raw, outs =>
    match raw, outs with
    | .frame (some f) v0 :: raw, px :: outs =>
      let v' := { v0 with currentFrame := bare f }
      .seen (.info true v') :: watch c limit as v' (some px.1) raw outs
    | .frame none v0 :: raw, outs =>
      let v' := { v0 with currentFrame := v.currentFrame }
      .seen (.info false v') :: watch c limit as v' none raw outs
    | .failed e :: _, _ => [.seen (.failed e)]
    | _, _ => []
  | .read :: as, v, _, raw, outs =>
    match raw, outs with
    | .frame (some f) v0 :: raw, px :: outs =>
      match deliver c limit v0.globalPalette f px with
      | .ok g =>
        let v' := { v0 with currentFrame := g }
        .seen (.frame (some g) v') :: watch c limit as v' none raw outs
      | .error e => [.seen (.failed e)]
    | .frame none v0 :: raw, outs =>
      let v' := { v0 with currentFrame := v.currentFrame }
      .seen (.frame none v') :: watch c limit as v' none raw outs
    | .failed e :: _, _ => [.seen (.failed e)]
    | _, _ => []
  | .fill n :: as, v, live, raw, outs =>
    match live with
    | some px =>
      let show_ := fun l => colours c (paletteOf v.globalPalette v.currentFrame) v.currentFrame.transparent l
      if n + 1 ≤ px.length then
        .filled (show_ (px.take (n + 1))) true :: watch c limit as v (some (px.drop (n + 1))) raw outs
      else
        .filled (show_ px ++ List.replicate ((n + 1 - px.length) * channels c) 0) false :: watch c limit as v none raw outs
    | none => watch c limit as v none raw outs
  | .into :: as, v, live, raw, outs =>
    match live with
    | some px =>
      let f := v.currentFrame
      if f.width.toNat * f.height.toNat ≤ px.length then
        .image (picture c v.globalPalette f px) ::
          watch c limit as v (some (px.drop (f.width.toNat * f.height.toNat))) raw outs
      else [.seen (.failed (.format .imageTruncated))]
    | none => watch c limit as v none raw outs

/-- How many frames the calls look for. -/
def seeks : List Act → Nat
  | [] => 0
  | .info :: as => seeks as + 1
  | .read :: as => seeks as + 1
  | _ :: as => seeks as

/-- `a` is `b`, or, if there is `more`, a part of it that ends with `UnexpectedEof`. -/
def Follows (more : List UInt8) (a b : List Got) : Prop :=
  a = b ∨ (more ≠ [] ∧ ∃ k, k < b.length ∧ a = b.take k ++ [.seen (.failed (.io .unexpectedEof))])

/-- `a` is `b`, or, under the given condition, a part of it that ends with the error of a missing end code. -/
def Checked (may : Prop) (more : List UInt8) (a b : List Got) : Prop :=
  Follows more a b ∨ (may ∧ ∃ k, k < b.length ∧ a = b.take k ++ [.seen (.failed (.io .noEndCode))])

/-- How many calls of `next_frame_info` and `read_next_frame` did not fail. -/
def sought : List Got → Nat
  | [] => 0
  | .seen (.info _ _) :: l => sought l + 1
  | .seen (.frame _ _) :: l => sought l + 1
  | _ :: l => sought l

/-- The next frame is not looked for before `fill_buffer` has said that there is nothing left of the current one. `live` are
the pixels left of the current frame, `outs` the pixels of the frames to come. -/
def Drained : List Act → Option (List UInt8) → List Pixels → Prop
  | [], _, _ => True
  | .info :: as, live, outs => live = none ∧
    match outs with
    | px :: outs => Drained as (some px.1) outs
    | [] => Drained as none []
  | .read :: as, live, outs => live = none ∧
    match outs with
    | _ :: _ => seeks as = 0
    | [] => Drained as none []
  | .fill n :: as, live, outs =>
    match live with
    | some px => if n + 1 ≤ px.length then Drained as (some (px.drop (n + 1))) outs else Drained as none outs
    | none => Drained as none outs
  | .into :: as, live, outs =>
    match live with
    | some _ => seeks as = 0
    | none => Drained as none outs

/-- The raw frames that were read. -/
def rawFrames : List Seen → List Frame
  | [] => []
  | .frame (some f) _ :: l => f :: rawFrames l
  | _ :: l => rawFrames l

/-- `px` is what the data of the raw frame expand to. The frame has pixels, and an invalid code does not come after the last
of them. -/
def Expands {C : Codec} (K : C.Contract) (f : Frame) (px : Pixels) : Prop :=
  (∃ m data, f.buffer = m :: data ∧ K.Yields (C.new m) data px.1 px.2) ∧
  0 < f.width.toNat * f.height.toNat ∧ (px.2 = .invalid → px.1.length < f.width.toNat * f.height.toNat)

/-- `pxs` is what the data of the raw frames expand to. -/
def ExpandAll {C : Codec} (K : C.Contract) : List Frame → List Pixels → Prop
  | [], [] => True
  | f :: fs, px :: pxs => Expands K f px ∧ ExpandAll K fs pxs
  | _, _ => False

/-- The frame has pixels, and an invalid code in its data does not come after the last of them. -/
def Regular {C : Codec} (K : C.Contract) (f : Frame) : Prop :=
  0 < f.width.toNat * f.height.toNat ∧
  ∀ m data px, f.buffer = m :: data → K.Yields (C.new m) data px .invalid → px.length < f.width.toNat * f.height.toNat

/-- There is no invalid code in the data of the frame. -/
def Valid {C : Codec} (K : C.Contract) (f : Frame) : Prop :=
  ∀ m data px, f.buffer = m :: data → ¬ K.Yields (C.new m) data px .invalid

/-- What the theorems on pixels assume about a file, as far as its first `k` frames are concerned: the compressed data of
these frames can be read, and the frames are regular. -/
structure Sane {C : Codec} (K : C.Contract) (o : DecodeOptions) (r : Reader) (k : Nat) : Prop where
  whole : .failed (.io .unexpectedEof) ∉ Decoder.rawFilm C o r k
  small : .failed (.format .memoryLimit) ∉ Decoder.rawFilm C o r k
  regular : ∀ f ∈ rawFrames (Decoder.rawFilm C o r k), Regular K f

/-- Consecutive pieces of a list, of the given sizes. -/
def pieces : List UInt8 → List Nat → List (List UInt8)
  | _, [] => []
  | l, n :: ns => l.take n :: pieces (l.drop n) ns

/-- What calls of `fill_buffer` with room for `n + 1` pixels each, `n` from the list, have to give of an image with the given
palette indices: full buffers, then one with the rest and `false`. -/
def pour (c : ColorOutput) (palette : List UInt8) (transparent : Option UInt8) : List Nat → List UInt8 → List Got
  | [], _ => []
  | n :: ns, px =>
    if n + 1 ≤ px.length then
      .filled (colours c palette transparent (px.take (n + 1))) true :: pour c palette transparent ns (px.drop (n + 1))
    else [.filled (colours c palette transparent px ++ List.replicate ((n + 1 - px.length) * channels c) 0) false]

/-- Raw frames that differ in nothing but superfluous pixels. -/
def SamePixels {C : Codec} (K : C.Contract) (f g : Frame) : Prop :=
  bare f = bare g ∧ ∃ m m' data data' px px' e e', f.buffer = m :: data ∧ g.buffer = m' :: data' ∧
    K.Yields (C.new m) data px e ∧ K.Yields (C.new m') data' px' e' ∧ e ≠ .invalid ∧ e' ≠ .invalid ∧
    f.width.toNat * f.height.toNat ≤ px.length ∧ f.width.toNat * f.height.toNat ≤ px'.length ∧
    px.take (f.width.toNat * f.height.toNat) = px'.take (f.width.toNat * f.height.toNat)

/-- What was seen is the same, up to superfluous pixels in raw frames. -/
def SameSeen {C : Codec} (K : C.Contract) : Seen → Seen → Prop
  | .frame (some f) v, .frame (some g) w =>
    SamePixels K f g ∧ { v with currentFrame := Frame.default } = { w with currentFrame := Frame.default }
  | .frame none v, .frame none w => { v with currentFrame := Frame.default } = { w with currentFrame := Frame.default }
  | x, y => x = y

/-- Files whose raw frames differ in nothing but superfluous pixels. -/
def SameFilm {C : Codec} (K : C.Contract) : List Seen → List Seen → Prop
  | [], [] => True
  | x :: l, y :: l' => SameSeen K x y ∧ SameFilm K l l'
  | _, _ => False

end Spec

end Gif
