import Verif.Props.Drawing
import Verif.Props.Streaming
import Verif.Ref.Lawful
/-!
# C95, cases: slices of several sizes, output buffers of several kinds
-/

namespace Gif.Draw.Cases

open Spec SD Gif.Props

set_option maxRecDepth 100000

variable {C : Codec}

/-- Call `update` with a slice and an output buffer per item; the last component says that no call failed. -/
def draw : List (Nat × OutSpec) → SD C → List UInt8 → List UpdateCall × SD C × List UInt8 × Bool
  | [], s, l => ([], s, l, true)
  | (k, out) :: ps, s, l =>
    if l.take k = [] then ([], s, l, false)
    else
      match s.update (l.take k) out with
      | (s1, .ok (n, ev)) =>
        let r := draw ps s1 (l.drop n)
        (⟨l.take k, out, .ok (n, ev)⟩ :: r.1, r.2)
      | (s1, _) => ([], s1, l, false)

theorem draw_drawing : ∀ (ps : List (Nat × OutSpec)) (s : SD C) (l : List UInt8), (draw ps s l).2.2.2 = true →
    Drawing s l (draw ps s l).1 (draw ps s l).2.1 (draw ps s l).2.2.1 := by
  intro ps
  induction ps with
  | nil => intro s l _; exact .nil s l
  | cons p ps ih =>
    obtain ⟨k, out⟩ := p
    intro s l h
    unfold draw at h ⊢
    split at h
    · cases h
    · next hne =>
      rw [if_neg hne]
      split at h
      · next s1 n ev hu =>
        have h1 := ih s1 (l.drop n) h
        have := Drawing.cons (rest := l.drop k) hne hu (by rw [List.take_append_drop]; exact h1)
        rw [List.take_append_drop] at this
        simp only [hu]
        exact this
      · cases h

/-- A file: 3x2 canvas, one image whose data are in two sub-blocks, trailer. -/
def sixPixels : List UInt8 :=
  [0x47, 0x49, 0x46, 0x38, 0x39, 0x61, 3, 0, 2, 0, 0, 0, 0,
   0x2C, 0, 0, 0, 0, 3, 0, 2, 0, 0, 2, 3, 68, 52, 1, 1, 5, 0, 0x3B]

/-- Calls with the rest of the file, up to `FrameMetadata`. -/
def head (o : DecodeOptions) := draw (List.replicate 5 (100, .none)) (SD.withOptions Ref.lzw o) sixPixels

/-- Calls with slices of three bytes, up to `FrameMetadata`. -/
def thirds (o : DecodeOptions) := draw (List.replicate 12 (3, .none)) (SD.withOptions Ref.lzw o) sixPixels

theorem split_last {s s' : SD C} {l l' : List UInt8} {cs : List UpdateCall} (h : Drawing s l cs s' l') (hne : cs ≠ []) :
    Drawing s l (cs.dropLast ++ [cs.getLast hne]) s' l' := by
  rw [List.dropLast_concat_getLast hne]; exact h

/-- The calls after `FrameMetadata`, whole file at once, buffers of two pixels. -/
def pairs := draw (List.replicate 4 (100, .slice 2)) (head .new).2.1 (head .new).2.2.1

/-- The calls after `FrameMetadata`, slices of two bytes, buffers of three pixels. -/
def triples := draw (List.replicate 4 (2, .slice 3)) (thirds .new).2.1 (thirds .new).2.2.1

theorem head_ne (o : DecodeOptions) (h : (head o).1 ≠ []) (hd : (head o).2.2.2 = true) :
    Drawing (SD.withOptions Ref.lzw o) sixPixels ((head o).1.dropLast ++ [(head o).1.getLast h]) (head o).2.1 (head o).2.2.1 :=
  split_last (draw_drawing _ _ _ hd) h

theorem thirds_ne (o : DecodeOptions) (h : (thirds o).1 ≠ []) (hd : (thirds o).2.2.2 = true) :
    Drawing (SD.withOptions Ref.lzw o) sixPixels ((thirds o).1.dropLast ++ [(thirds o).1.getLast h]) (thirds o).2.1 (thirds o).2.2.1 := by
  unfold thirds at h hd ⊢
  generalize List.replicate 12 (3, OutSpec.none) = ps at h hd ⊢
  exact split_last (draw_drawing ps _ _ hd) h

def isRoomy (c : UpdateCall) : Bool := match c.out with | .slice (_ + 1) => true | _ => false

theorem roomy_of {cs : List UpdateCall} (h : cs.all isRoomy = true) : ∀ c ∈ cs, c.roomy := by
  intro c hc
  have := List.all_eq_true.mp h c hc
  unfold isRoomy at this
  split at this
  · next n hn => exact ⟨n, hn⟩
  · cases this

def isWithin (c : UpdateCall) : Bool := match c.event with | some ev => ev.within | none => true

theorem within_of {cs : List UpdateCall} (h : cs.all isWithin = true) : ∀ c ∈ cs, ∀ ev, c.event = some ev → ev.within = true := by
  intro c hc ev he
  have := List.all_eq_true.mp h c hc
  unfold isWithin at this
  rw [he] at this
  exact this

/-- Both programs collect the six pixels, in calls of different sizes. -/
example : pairs.1.map UpdateCall.bytes = [[0, 1], [2, 3], [1, 0], []] ∧ triples.1.map UpdateCall.bytes = [[0, 1, 2], [3, 1, 0], [], []] := by
  decide +kernel

example := pixels_drawn Ref.lzwContract (head_ne .new (by decide +kernel) (by decide +kernel)) (by decide +kernel)
  (draw_drawing (List.replicate 2 (100, .slice 2)) (head .new).2.1 (head .new).2.2.1 (by decide +kernel))
  (roomy_of (by decide +kernel)) (within_of (by decide +kernel))

example : collected pairs.1.dropLast = collected triples.1.dropLast ∧ pairs.2.2.1 = triples.2.2.1 :=
  pixels_alike Ref.lzwContract (l := (head .new).2.2.1) (d1 := pairs.1.getLast (by decide +kernel)) (d2 := triples.1.getLast (by decide +kernel))
    (head_ne .new (by decide +kernel) (by decide +kernel)) (by decide +kernel)
    (split_last (draw_drawing _ _ _ (by decide +kernel)) _) (roomy_of (by decide +kernel)) (within_of (by decide +kernel)) (by decide +kernel)
    (thirds_ne .new (by decide +kernel) (by decide +kernel)) (by decide +kernel)
    (split_last (draw_drawing _ _ _ (by decide +kernel)) _) (roomy_of (by decide +kernel)) (within_of (by decide +kernel)) (by decide +kernel)

example := pixels_complete Ref.lzwContract (d := pairs.1.getLast (by decide +kernel))
    (head_ne .new (by decide +kernel) (by decide +kernel)) (by decide +kernel)
    (split_last (draw_drawing _ _ _ (by decide +kernel)) _) (roomy_of (by decide +kernel)) (within_of (by decide +kernel)) (by decide +kernel)

/-- The buffers have to have room in every call within the image: one call without output buffer, and two of the six pixels are lost,
though the decoder says `DataEnd` as before. -/
example : (draw [(2, .slice 3), (2, .none), (2, .slice 3), (2, .slice 3)] (head .new).2.1 (head .new).2.2.1).1.map UpdateCall.event =
    [some (.bytesDecoded [0, 1, 2]), some .nothing, some (.bytesDecoded [3]), some .dataEnd] := by decide +kernel

/-- The calls after `FrameMetadata` with `skip_frame_decoding`: a vector once, then buffers of two bytes. -/
def copied := draw ((2, .vec 7) :: List.replicate 3 (100, .slice 2)) (head skipOptions).2.1 (head skipOptions).2.2.1

def isStores (c : UpdateCall) : Bool := match c.out with | .slice (_ + 1) => true | .vec _ => true | _ => false

theorem stores_of {cs : List UpdateCall} (h : cs.all isStores = true) : ∀ c ∈ cs, c.stores := by
  intro c hc
  have := List.all_eq_true.mp h c hc
  unfold isStores at this
  split at this
  · next n hn => exact .inl ⟨n, hn⟩
  · next n hn => exact .inr ⟨n, hn⟩
  · cases this

example : copied.1.map UpdateCall.bytes = [[68, 52], [1], [5], []] := by decide +kernel

example := data_complete Ref.lzwContract (m := 2) (d := copied.1.getLast (by decide +kernel))
    (head_ne skipOptions (by decide +kernel) (by decide +kernel)) (by decide +kernel)
    (split_last (draw_drawing _ _ _ (by decide +kernel)) _) (stores_of (by decide +kernel)) (within_of (by decide +kernel)) (by decide +kernel)

example := data_drawn Ref.lzwContract (m := 2) (head_ne skipOptions (by decide +kernel) (by decide +kernel)) (by decide +kernel)
  (draw_drawing [(2, .vec 7), (100, .slice 2)] (head skipOptions).2.1 (head skipOptions).2.2.1 (by decide +kernel))
  (stores_of (by decide +kernel)) (within_of (by decide +kernel))

end Gif.Draw.Cases
