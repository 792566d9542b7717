import Verif.Spec.GifSyntax
import Verif.Spec.Film
/-!
# Specification: what a decoder has to report of a file of the grammar

The syntax of `GifSyntax.lean` in terms of the types of the interface.
-/

namespace Gif.Spec

def disposalOf : Disposal → DisposalMethod
  | .unspecified => .any
  | .keep => .keep
  | .background => .background
  | .previous => .previous

def loopsOf : Loops → Repeat
  | .finite n => .finite n
  | .infinite => .infinite

/-- A frame that has only what a graphic control extension says. -/
def graphicFrame (gr : Graphic) : Frame :=
  { Frame.default with
    delay := gr.delay
    dispose := disposalOf gr.disposal
    transparent := gr.transparent
    needsUserInput := gr.userInput }

/-- The compressed data of an image: code size, then the contents of the sub-blocks. -/
def Image.data (i : Image) : List UInt8 := i.minCode :: i.subs.flatten

/-- The frame that an image and the graphic control extension before it describe, without its data. -/
def headFrame (x : Graphic × Image) : Frame :=
  { graphicFrame x.1 with
    left := x.2.left
    top := x.2.top
    width := x.2.width
    height := x.2.height
    interlaced := x.2.interlaced
    palette := x.2.table }

/-- The frame as the decoder reads it with `skip_frame_decoding`: with its compressed data. -/
def rawFrame (x : Graphic × Image) : Frame :=
  { headFrame x with buffer := x.2.data, ownedCap := some x.2.data.length }

/-- The background colour, if it is one of the global colours or there are none. -/
def File.backgroundColour (g : File) : Option UInt8 :=
  match g.table with
  | some t => if g.background.toNat < t.length / 3 then some g.background else none
  | none => some g.background

/-- What the accessors have to show of the file while `f` is the current frame. -/
def File.view (g : File) (f : Frame) : View where
  width := g.width
  height := g.height
  globalPalette := g.table
  bgColor := g.backgroundColour
  repetition := loopsOf g.loops
  currentFrame := f

/-- The image lies on the screen. -/
def File.Contains (g : File) (i : Image) : Prop :=
  i.left.toNat + i.width.toNat ≤ g.width.toNat ∧ i.top.toNat + i.height.toNat ≤ g.height.toNat

instance (g : File) (i : Image) : Decidable (g.Contains i) := inferInstanceAs (Decidable (_ ∧ _))

/-- Reasons for which a well-formed image is rejected without a look at its data. -/
def File.headVerdict (o : DecodeOptions) (g : File) (i : Image) : Option DecodingError :=
  if o.checkFrameConsistency ∧ ¬ g.Contains i then some (.format .frameOutOfBounds)
  else if i.minCode.toNat < 1 ∨ 11 < i.minCode.toNat then some (.format .invalidMinCodeSize)
  else if i.table = none ∧ g.table = none then some (.format .noColorTable)
  else none

/-- Reasons for which a well-formed image is rejected with `skip_frame_decoding`. -/
def File.verdict (o : DecodeOptions) (g : File) (i : Image) : Option DecodingError :=
  match g.headVerdict o i with
  | some e => some e
  | none => if o.memoryLimit.sizeOk i.data.length then none else some (.format .memoryLimit)

/-- What `k` calls of `read_next_frame` have to return and the accessors to show, for the given images. -/
def File.reel (o : DecodeOptions) (g : File) : Nat → Frame → List (Graphic × Image) → List Seen
  | 0, _, _ => []
  | k + 1, cur, [] => .frame none (g.view cur) :: File.reel o g k cur []
  | k + 1, _, x :: xs =>
    match g.verdict o x.2 with
    | some e => [.failed e]
    | none => .frame (some (rawFrame x)) (g.view (rawFrame x)) :: File.reel o g k (rawFrame x) xs

/-- What the decoder requires of the sizes of an extension, and what it does not understand: extensions without data
(see `Props/Grammar.lean`). -/
def Blk.Fits (o : DecodeOptions) : Blk → Prop
  | .control _ => o.memoryLimit.sizeOk 5 = true
  | .ext _ subs => o.memoryLimit.sizeOk (1 + subs.flatten.length) = true
  | .image i => i.subs ≠ []
  | .unknown _ _ => True

/-- What the decoder requires of unknown blocks: that they are allowed, that the last extension before (if any) is no
graphic control extension, and that their data and those of that extension together are not larger than the memory limit. `label` and `n` are the label and the size of the last extension. -/
def Skippable (o : DecodeOptions) : UInt8 → Nat → List Blk → Prop
  | _, _, [] => True
  | _, _, .control _ :: bs => Skippable o 0xF9 5 bs
  | _, _, .ext label subs :: bs => Skippable o label (1 + subs.flatten.length) bs
  | label, n, .image _ :: bs => Skippable o label n bs
  | label, n, .unknown _ subs :: bs => o.allowUnknownBlocks = true ∧ label ≠ 0xF9 ∧
      o.memoryLimit.sizeOk (n + subs.flatten.length) = true ∧ Skippable o label (n + subs.flatten.length) bs

/-- Without unknown blocks nothing is required. -/
theorem skippable_of {o : DecodeOptions} : ∀ (bs : List Blk) (label : UInt8) (n : Nat),
    (∀ b ∈ bs, ∀ t subs, b ≠ .unknown t subs) → Skippable o label n bs
  | [], _, _, _ => trivial
  | .control _ :: bs, _, _, h => skippable_of bs _ _ fun b hb => h b (List.mem_cons_of_mem _ hb)
  | .ext _ _ :: bs, _, _, h => skippable_of bs _ _ fun b hb => h b (List.mem_cons_of_mem _ hb)
  | .image _ :: bs, _, _, h => skippable_of bs _ _ fun b hb => h b (List.mem_cons_of_mem _ hb)
  | .unknown t subs :: _, _, _, h => absurd rfl (h _ List.mem_cons_self t subs)

/-- A file that the decoder reads: well-formed, with at least one block, with image data in every image, with
extensions that are not larger than the memory limit, and with unknown blocks only where they are harmless. -/
structure File.Readable (o : DecodeOptions) (g : File) : Prop where
  ok : g.Ok
  blocks : g.blocks ≠ []
  fits : ∀ b ∈ g.blocks, b.Fits o
  skips : Skippable o 0 0 g.blocks

theorem skippable_congr {o o' : DecodeOptions} (h1 : o'.memoryLimit = o.memoryLimit)
    (h2 : o'.allowUnknownBlocks = o.allowUnknownBlocks) : ∀ (bs : List Blk) (label : UInt8) (n : Nat),
    Skippable o label n bs → Skippable o' label n bs
  | [], _, _, _ => trivial
  | .control _ :: bs, _, _, h => skippable_congr h1 h2 bs _ _ h
  | .ext _ _ :: bs, _, _, h => skippable_congr h1 h2 bs _ _ h
  | .image _ :: bs, _, _, h => skippable_congr h1 h2 bs _ _ h
  | .unknown _ _ :: bs, _, _, h => by
    obtain ⟨k1, k2, k4, k5⟩ := h
    exact ⟨h2.trans k1, k2, by rw [h1]; exact k4, skippable_congr h1 h2 bs _ _ k5⟩

/-- Only the memory limit and `allow_unknown_blocks` matter. -/
theorem File.Readable.congr {o o' : DecodeOptions} {g : File} (hg : g.Readable o) (h1 : o'.memoryLimit = o.memoryLimit)
    (h2 : o'.allowUnknownBlocks = o.allowUnknownBlocks) : g.Readable o' :=
  ⟨hg.ok, hg.blocks, fun b hb => by
    have := hg.fits b hb
    cases b with
    | control c => simp only [Blk.Fits] at this ⊢; rw [h1]; exact this
    | ext l x => simp only [Blk.Fits] at this ⊢; rw [h1]; exact this
    | image i => exact this
    | unknown t x => trivial, skippable_congr h1 h2 _ _ _ hg.skips⟩

instance (o : DecodeOptions) : (b : Blk) → Decidable (b.Fits o)
  | .control _ => inferInstanceAs (Decidable (_ = _))
  | .ext _ _ => inferInstanceAs (Decidable (_ = _))
  | .image i => inferInstanceAs (Decidable (i.subs ≠ []))
  | .unknown _ _ => inferInstanceAs (Decidable True)

instance Skippable.dec (o : DecodeOptions) : (label : UInt8) → (n : Nat) → (bs : List Blk) → Decidable (Skippable o label n bs)
  | _, _, [] => isTrue trivial
  | _, _, .control _ :: bs => Skippable.dec o 0xF9 5 bs
  | _, _, .ext label subs :: bs => Skippable.dec o label (1 + subs.flatten.length) bs
  | label, n, .image _ :: bs => Skippable.dec o label n bs
  | label, n, .unknown _ subs :: bs =>
    have := Skippable.dec o label (n + subs.flatten.length) bs
    inferInstanceAs (Decidable (_ ∧ _))

/-- The image is accepted, has pixels, its pixels fit into the memory limit, and its data (of any length) expand to the palette
indices `px`, which suffice. -/
def File.Shows {C : Codec} (K : C.Contract) (o : DecodeOptions) (g : File) (x : Graphic × Image) (px : List UInt8) : Prop :=
  g.headVerdict o x.2 = none ∧ 0 < x.2.width.toNat * x.2.height.toNat ∧
  (∃ n, o.memoryLimit.bufferSize o.colorOutput x.2.width x.2.height = some n) ∧
  x.2.width.toNat * x.2.height.toNat ≤ px.length ∧
  ∃ e, e ≠ .invalid ∧ K.Yields (C.new x.2.minCode) x.2.subs.flatten px e

/-- The same for all images. -/
def File.ShowAll {C : Codec} (K : C.Contract) (o : DecodeOptions) (g : File) : List (Graphic × Image) → List (List UInt8) → Prop
  | [], [] => True
  | x :: xs, px :: pxs => g.Shows K o x px ∧ File.ShowAll K o g xs pxs
  | _, _ => False

/-- The decoded frames. -/
def File.pictures (c : ColorOutput) (g : File) (pxs : List (List UInt8)) : List Frame :=
  List.zipWith (fun x px => shown c g.table (rawFrame x) px) g.frames pxs

/-- What `read_info` and the calls of `read_next_frame` have to give of a file with the frames `fs`: its header, the frames,
and then `Ok(None)` `k` times. The accessors show the header and the last frame. -/
def File.screenplay (g : File) (fs : List Frame) (k : Nat) : List Seen :=
  .opened (g.view Frame.default) :: fs.map (fun f => .frame (some f) (g.view f)) ++
    List.replicate k (.frame none (g.view (fs.getLast?.getD Frame.default)))

end Gif.Spec
