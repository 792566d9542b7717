import Verif.Props.Gist
import Verif.Props.DrawingCases
/-!
# C96, cases
-/

namespace Gif.Draw.Cases

open Spec SD Gif.Props

set_option maxRecDepth 100000

/-- A file with two images, both with data in two sub-blocks. -/
def twelvePixels : List UInt8 :=
  [0x47, 0x49, 0x46, 0x38, 0x39, 0x61, 3, 0, 2, 0, 0, 0, 0,
   0x2C, 0, 0, 0, 0, 3, 0, 2, 0, 0, 2, 3, 68, 52, 1, 1, 5, 0,
   0x2C, 0, 0, 0, 0, 3, 0, 2, 0, 0, 2, 2, 68, 52, 2, 1, 5, 0, 0x3B, 7]

/-- Everything at once, with buffers of two bytes. -/
def atOnce (o : DecodeOptions) := draw (List.replicate 16 (100, .slice 2)) (SD.withOptions Ref.lzw o) twelvePixels

/-- Slices of four bytes, with buffers of three bytes, but none before the first image. -/
def inFours (o : DecodeOptions) :=
  draw (List.replicate 9 (4, .none) ++ List.replicate 12 (4, .slice 3)) (SD.withOptions Ref.lzw o) twelvePixels

def fitsB (c : UpdateCall) : Option FrameDataType → Bool
  | none => true
  | some .pixels => isRoomy c
  | some (.lzw _) => isStores c

def carefulB : Option FrameDataType → List UpdateCall → Bool
  | _, [] => true
  | w, c :: cs => fitsB c w && carefulB (c.next w) cs

theorem careful_of : ∀ (cs : List UpdateCall) (w : Option FrameDataType), carefulB w cs = true → careful w cs := by
  intro cs
  induction cs with
  | nil => intro w _; trivial
  | cons c cs ih =>
    intro w h
    simp only [carefulB, Bool.and_eq_true] at h
    refine ⟨?_, ih _ h.2⟩
    cases w with
    | none => trivial
    | some t =>
      cases t with
      | pixels => exact roomy_of (cs := [c]) (by simpa [fitsB] using h.1) c List.mem_cons_self
      | lzw => exact stores_of (cs := [c]) (by simpa [fitsB] using h.1) c List.mem_cons_self

theorem atOnce_drawing (o : DecodeOptions) (h : (atOnce o).2.2.2 = true) :
    Drawing (SD.withOptions Ref.lzw o) twelvePixels (atOnce o).1 (atOnce o).2.1 (atOnce o).2.2.1 := by
  unfold atOnce at h ⊢
  generalize List.replicate 16 (100, OutSpec.slice 2) = ps at h ⊢
  exact draw_drawing ps _ _ h

theorem inFours_drawing (o : DecodeOptions) (h : (inFours o).2.2.2 = true) :
    Drawing (SD.withOptions Ref.lzw o) twelvePixels (inFours o).1 (inFours o).2.1 (inFours o).2.2.1 := by
  unfold inFours at h ⊢
  generalize List.replicate 9 (4, OutSpec.none) ++ List.replicate 12 (4, OutSpec.slice 3) = ps at h ⊢
  exact draw_drawing ps _ _ h

/-- Both programs get the six pixels of each image. -/
example : (gist [] (atOnce .new).1).map Prod.snd = [[], [], [], [], [], [0, 1, 2, 3, 1, 0], [], [], [0, 1, 2, 3, 1, 0], []] := by
  decide +kernel

example : gist [] (atOnce .new).1 <+: gist [] (inFours .new).1 ∨ gist [] (inFours .new).1 <+: gist [] (atOnce .new).1 :=
  gist_slices Ref.lzwContract (atOnce_drawing .new (by decide +kernel)) (careful_of _ _ (by decide +kernel))
    (inFours_drawing .new (by decide +kernel)) (careful_of _ _ (by decide +kernel))

theorem told_trailer {cs : List UpdateCall} (h : .blockStart .trailer ∈ cs.filterMap UpdateCall.event) :
    ∃ c ∈ cs, c.event = some (.blockStart .trailer) := by
  obtain ⟨c, hc, h⟩ := List.mem_filterMap.1 h
  exact ⟨c, hc, h⟩

example : gist [] (atOnce .new).1 = gist [] (inFours .new).1 :=
  (gist_final Ref.lzwContract (atOnce_drawing .new (by decide +kernel)) (careful_of _ _ (by decide +kernel))
    (.trailer (told_trailer (by decide +kernel)))
    (inFours_drawing .new (by decide +kernel)) (careful_of _ _ (by decide +kernel)) (.trailer (told_trailer (by decide +kernel)))).1

example : (atOnce .new).2.1 = { (inFours .new).2.1 with lzw := (atOnce .new).2.1.lzw } :=
  (gist_state Ref.lzwContract (c1 := (atOnce .new).1.getLast (by decide +kernel)) (c2 := (inFours .new).1.getLast (by decide +kernel))
    (split_last (atOnce_drawing .new (by decide +kernel)) _) (careful_of _ _ (by decide +kernel)) (ev1 := .blockStart .trailer)
    (by decide +kernel) rfl
    (split_last (inFours_drawing .new (by decide +kernel)) _) (careful_of _ _ (by decide +kernel)) (ev2 := .blockStart .trailer)
    (by decide +kernel) rfl (by decide +kernel)).2.2

example : Expansion Ref.lzwContract false 0 (gist [] (inFours skipOptions).1) (gist [] (atOnce .new).1) :=
  gist_modes Ref.lzwContract (o1 := .new) (o2 := skipOptions) rfl rfl rfl rfl rfl (atOnce_drawing .new (by decide +kernel)) (careful_of _ _ (by decide +kernel))
    (inFours_drawing skipOptions (by decide +kernel)) (careful_of _ _ (by decide +kernel))

/-- Two programs whose last call fails: the file is damaged, the code size is 0. -/
def damaged : List UInt8 :=
  [0x47, 0x49, 0x46, 0x38, 0x39, 0x61, 3, 0, 2, 0, 0, 0, 0, 0x2C, 0, 0, 0, 0, 3, 0, 2, 0, 0, 0, 3, 68]

def upTo (k j : Nat) := draw (List.replicate j (k, .slice 2)) (SD.withOptions Ref.lzw .new) damaged

theorem upTo_drawing (k j : Nat) (h : (upTo k j).2.2.2 = true) :
    Drawing (SD.withOptions Ref.lzw .new) damaged (upTo k j).1 (upTo k j).2.1 (upTo k j).2.2.1 := draw_drawing _ _ _ h

example : gist [] (upTo 100 4).1 = gist [] (upTo 5 8).1 :=
  (gist_final Ref.lzwContract (r1 := some (.format .invalidMinCodeSize)) (r2 := some (.format .invalidMinCodeSize))
    (upTo_drawing 100 4 (by decide +kernel)) (careful_of _ _ (by decide +kernel))
    (.fails (slice := (upTo 100 4).2.2.1) (rest := []) (out := .none) (by decide +kernel) (fun h => absurd (by decide +kernel) h)
      (by decide +kernel))
    (upTo_drawing 5 8 (by decide +kernel)) (careful_of _ _ (by decide +kernel))
    (.fails (slice := (upTo 5 8).2.2.1) (rest := []) (out := .slice 4) (by decide +kernel) (fun h => absurd (by decide +kernel) h)
      (by decide +kernel))).1

end Gif.Draw.Cases
