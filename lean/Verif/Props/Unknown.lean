import Verif.Props.GrammarCases
import Verif.Props.Extensions
/-!
# Unknown blocks (C37)

What holds of `allow_unknown_blocks(true)`: an unknown block with data whose preceding extension (if any) is no graphic
control extension is skipped. What does not hold is at the end.
-/

namespace Gif

open Spec (File Blk Skippable SubsOk renderSubs)

namespace Spec

theorem skippable_mono {o : DecodeOptions} : ∀ (bs : List Blk) (label : UInt8) {n m : Nat}, m ≤ n →
    Skippable o label n bs → Skippable o label m bs
  | [], _, _, _, _, _ => trivial
  | .control _ :: _, _, _, _, _, h => h
  | .ext _ _ :: _, _, _, _, _, h => h
  | .image _ :: bs, label, _, _, hm, h => skippable_mono bs label hm h
  | .unknown _ subs :: bs, label, n, m, hm, h => by
    obtain ⟨k1, k2, k4, k5⟩ := h
    exact ⟨k1, k2, SD.sizeOk_le k4 (by omega), skippable_mono bs label (by omega) k5⟩

/-- Without an unknown block the others can be skipped as well. -/
theorem skippable_without {o : DecodeOptions} (t : UInt8) (subs : List (List UInt8)) (b : List Blk) :
    ∀ (a : List Blk) (label : UInt8) (n : Nat), Skippable o label n (a ++ .unknown t subs :: b) → Skippable o label n (a ++ b)
  | [], label, _, h => skippable_mono b label (by omega) h.2.2.2
  | .control _ :: a, _, _, h => skippable_without t subs b a _ _ h
  | .ext _ _ :: a, _, _, h => skippable_without t subs b a _ _ h
  | .image _ :: a, _, _, h => skippable_without t subs b a _ _ h
  | .unknown _ _ :: a, _, _, h => ⟨h.1, h.2.1, h.2.2.1, skippable_without t subs b a _ _ h.2.2.2⟩

theorem frames_without (t : UInt8) (subs : List (List UInt8)) (b : List Blk) : ∀ (a : List Blk) (gr : Graphic),
    frames gr (a ++ .unknown t subs :: b) = frames gr (a ++ b)
  | [], _ => rfl
  | .control c :: a, _ => frames_without t subs b a _
  | .ext _ _ :: a, gr => frames_without t subs b a gr
  | .image i :: a, gr => by simp only [List.cons_append, frames, frames_without t subs b a]
  | .unknown _ _ :: a, gr => frames_without t subs b a gr

/-- After an image, and before a part without application extensions, an unknown block leaves the loop count alone. -/
theorem loopCount_without (t : UInt8) (subs : List (List UInt8)) (b : List Blk) : ∀ (a : List Blk) (l : Loops),
    images a ≠ [] ∨ (∀ x, Blk.ext 0xFF x ∉ b) → loopCount l (a ++ .unknown t subs :: b) = loopCount l (a ++ b)
  | [], l, h => by
    have key : ∀ (b : List Blk), (∀ x, Blk.ext 0xFF x ∉ b) → loopCount l b = l := by
      intro b
      induction b with
      | nil => intro _; rfl
      | cons c b ih =>
        intro h
        have hb : ∀ x, Blk.ext 0xFF x ∉ b := fun x hx => h x (List.mem_cons_of_mem _ hx)
        cases c with
        | control c => exact ih hb
        | image i => rfl
        | unknown t x => rfl
        | ext label x =>
          have hl : label ≠ 0xFF := by rintro rfl; exact h x List.mem_cons_self
          simp only [loopCount, if_neg hl]
          exact ih hb
    rcases h with h | h
    · exact absurd rfl h
    · exact (key b h).symm
  | .control c :: a, l, h => loopCount_without t subs b a l h
  | .ext label x :: a, l, h => loopCount_without t subs b a _ h
  | .image i :: a, _, _ => rfl
  | .unknown _ _ :: a, _, _ => rfl

/-- The file without an unknown block. -/
theorem File.Readable.without {o : DecodeOptions} {g : File} {a b : List Blk} {t : UInt8} {subs : List (List UInt8)}
    (hg : File.Readable o { g with blocks := a ++ .unknown t subs :: b }) (hne : a ++ b ≠ []) :
    File.Readable o { g with blocks := a ++ b } := by
  have hsub : ∀ x ∈ a ++ b, x ∈ a ++ .unknown t subs :: b := by
    intro x hx
    rcases List.mem_append.mp hx with h | h
    · exact List.mem_append_left _ h
    · exact List.mem_append_right _ (List.mem_cons_of_mem _ h)
  exact ⟨⟨hg.ok.1, hg.ok.2.1, hg.ok.2.2.1, fun x hx => hg.ok.2.2.2 x (hsub x hx)⟩, hne, fun x hx => hg.fits x (hsub x hx),
    skippable_without t subs b a _ _ hg.skips⟩

theorem reel_blocks (o : DecodeOptions) (g : File) {bs bs' : List Blk} (hl : loopCount (.finite 0) bs = loopCount (.finite 0) bs') :
    ∀ (k : Nat) (cur : Frame) (xs : List (Graphic × Image)),
    File.reel o { g with blocks := bs } k cur xs = File.reel o { g with blocks := bs' } k cur xs := by
  have hv : ∀ f, File.view { g with blocks := bs } f = File.view { g with blocks := bs' } f := by
    intro f
    simp only [File.view, File.loops, hl, File.backgroundColour]
  intro k
  induction k with
  | zero => intro cur xs; cases xs <;> rfl
  | succ k ih =>
    intro cur xs
    cases xs with
    | nil => simp only [File.reel, hv, ih]
    | cons x xs =>
      have hver : File.verdict o { g with blocks := bs } x.2 = File.verdict o { g with blocks := bs' } x.2 := rfl
      simp only [File.reel, hver]
      split
      · rfl
      · rw [hv, ih]

theorem showAll_blocks {C : Codec} (K : C.Contract) (o : DecodeOptions) (g : File) (bs bs' : List Blk) :
    ∀ (xs : List (Graphic × Image)) (pxs : List (List UInt8)),
    File.ShowAll K o { g with blocks := bs } xs pxs → File.ShowAll K o { g with blocks := bs' } xs pxs
  | [], [], _ => trivial
  | [], _ :: _, h => h.elim
  | _ :: _, [], h => h.elim
  | _ :: xs, _ :: pxs, h => ⟨h.1, showAll_blocks K o g bs bs' xs pxs h.2⟩

end Spec

namespace Decoder

variable {C : Codec}

/-- C37 (partial) with `skip_frame_decoding`: a session does not see an unknown block. Frames, accessors and errors are those
of the file without it.

Missing from C37: `Readable` requires that the block has data, and that the last extension before it is no graphic control
extension; otherwise the claim is false (`unknown_after_control_fails`, `empty_unknown_fails`). Without `hl` the loop count
may be lost (`unknown_hides_loops`). -/
theorem unknown_block_raw_partial (hS : C.Safe) {o : DecodeOptions} {g : File} {a b : List Blk} {t : UInt8}
    {subs : List (List UInt8)} (hg : File.Readable o { g with blocks := a ++ .unknown t subs :: b }) (hne : a ++ b ≠ [])
    (hl : Spec.images a ≠ [] ∨ ∀ x, Blk.ext 0xFF x ∉ b) {junk junk' : List UInt8} {r r' : Reader} (hr : r.Reliable)
    (hr' : r'.Reliable) (hb : r.bytes = File.render { g with blocks := a ++ .unknown t subs :: b } ++ junk)
    (hb' : r'.bytes = File.render { g with blocks := a ++ b } ++ junk') (k : Nat) :
    rawFilm C o r k = rawFilm C o r' k := by
  rw [grammar_reel hS hg hr hb, grammar_reel hS (hg.without hne) hr' hb']
  have hlc := Spec.loopCount_without t subs b a (.finite 0) hl
  rw [Spec.reel_blocks o g hlc]
  have hv : File.view { g with blocks := a ++ .unknown t subs :: b } Frame.default =
      File.view { g with blocks := a ++ b } Frame.default := by
    simp only [File.view, File.loops, hlc, File.backgroundColour]
  have hf : File.frames { g with blocks := a ++ .unknown t subs :: b } = File.frames { g with blocks := a ++ b } :=
    Spec.frames_without t subs b a _
  rw [hv, hf]

/-- C37 (partial): the same with pixels. -/
theorem unknown_block_partial (K : C.Contract) {o : DecodeOptions} (hs : o.skipFrameDecoding = false)
    (hce : o.checkForEndCode = false) {g : File} {a b : List Blk} {t : UInt8} {subs : List (List UInt8)}
    (hg : File.Readable o { g with blocks := a ++ .unknown t subs :: b }) (hne : a ++ b ≠ [])
    (hl : Spec.images a ≠ [] ∨ ∀ x, Blk.ext 0xFF x ∉ b) {pxs : List (List UInt8)}
    (hpx : File.ShowAll K o { g with blocks := a ++ b } (Spec.frames .default (a ++ b)) pxs) {junk junk' : List UInt8}
    {r r' : Reader} (hr : r.Reliable) (hr' : r'.Reliable)
    (hb : r.bytes = File.render { g with blocks := a ++ .unknown t subs :: b } ++ junk)
    (hb' : r'.bytes = File.render { g with blocks := a ++ b } ++ junk') (k : Nat) :
    sessionFrom C o r (List.replicate ((Spec.images (a ++ b)).length + k) .read) =
      sessionFrom C o r' (List.replicate ((Spec.images (a ++ b)).length + k) .read) := by
  have hf : File.frames { g with blocks := a ++ .unknown t subs :: b } = File.frames { g with blocks := a ++ b } :=
    Spec.frames_without t subs b a _
  have hlen : (Spec.images (a ++ b)).length = (File.frames { g with blocks := a ++ b }).length :=
    Spec.images_length .default (a ++ b)
  have h1 := grammar_frames_partial K hs hce hg (pxs := pxs) (by
    rw [hf]; exact Spec.showAll_blocks K o g _ _ _ _ hpx) hr hb k
  have h2 := grammar_frames_partial K hs hce (hg.without hne) (pxs := pxs) hpx hr' hb' k
  rw [hf] at h1
  rw [hlen, h1, h2]
  have hlc := Spec.loopCount_without t subs b a (.finite 0) hl
  have hv : ∀ f, File.view { g with blocks := a ++ .unknown t subs :: b } f = File.view { g with blocks := a ++ b } f := by
    intro f
    simp only [File.view, File.loops, hlc, File.backgroundColour]
  have hp : File.pictures o.colorOutput { g with blocks := a ++ .unknown t subs :: b } pxs =
      File.pictures o.colorOutput { g with blocks := a ++ b } pxs := by
    simp only [File.pictures, hf]
  simp only [File.screenplay, hp, hv]

end Decoder

end Gif
