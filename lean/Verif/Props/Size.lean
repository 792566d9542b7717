import Verif.Props.RoundTrip
import Verif.Props.RoundTripCases
import Verif.Lemmas.Grammar
/-!
# C82: the size of a file, and the pieces it is made of
-/

namespace Gif

open Spec Encoder

variable {C : Codec}

/-- `n` bytes in sub-blocks of up to 255 bytes, each with a byte for its length. -/
def inSubBlocks (n : Nat) : Nat := n + (n + 254) / 255

/-- A frame with `n` bytes of compressed data: control extension, descriptor, local colour table, code size, data, terminator. -/
def frameSize (f : Frame) (n : Nat) : Nat :=
  8 + 10 + (match f.palette with
    | some p => 3 * tableColours (p.length / 3)
    | none => 0) + 1 + inSubBlocks n + 1

/-- The bytes of a call of the encoder that returned `r`. -/
def callSize (C : Codec) (op : EncOp) (r : EOut Unit) : Nat :=
  match r, op with
  | .ok _, .setRepeat r => if r = .finite 0 then 0 else 19
  | .ok _, .extension (.repetitions r) => if r = .finite 0 then 0 else 19
  | .ok _, .extension (.control _ _ _) => 8
  | .ok _, .rawExtension _ data => 3 + (data.map fun d => inSubBlocks d.length).sum
  | .ok _, .frame f => frameSize f ((f.makeLzwPreEncoded C).buffer.length - 1)
  | .ok _, .preEncoded f => frameSize f (f.buffer.length - 1)
  -- the control extension of a frame is written before its palette is looked at
  | .err (.format .tooManyColors), _ => 8
  | .err (.format .missingColorPalette), _ => 8
  | _, _ => 0

theorem subBytes_cut_length (k : Nat) (d : List UInt8) (h : d.length ≤ 255 * k) : (subBytes (cut k d)).length = d.length + k := by
  induction k generalizing d with
  | zero => simp only [cut, subBytes, List.flatMap_nil, List.length_nil]; omega
  | succ k ih =>
    have := ih (d.drop 255) (by rw [List.length_drop]; omega)
    unfold subBytes at *
    simp only [cut, List.flatMap_cons, List.length_append, this, List.length_cons, List.length_take, List.length_drop]
    omega

theorem subBytes_subsOf_length (d : List UInt8) : (subBytes (subsOf d)).length = inSubBlocks d.length :=
  subBytes_cut_length _ _ (by omega)

theorem renderSubs_length (subs : List (List UInt8)) : (renderSubs subs).length = (subBytes subs).length + 1 := by
  simp [renderSubs, subBytes]

theorem subBytes_raw_length (data : List (List UInt8)) :
    (subBytes (data.flatMap subsOf)).length = (data.map fun d => inSubBlocks d.length).sum := by
  induction data with
  | nil => rfl
  | cons d data ih =>
    have : subBytes (subsOf d ++ data.flatMap subsOf) = subBytes (subsOf d) ++ subBytes (data.flatMap subsOf) := by
      simp [subBytes]
    rw [List.flatMap_cons, this, List.length_append, ih, subBytes_subsOf_length, List.map_cons, List.sum_cons]

theorem repeatBlks_length (r : Repeat) : (renderBlks (repeatBlks r)).length = if r = .finite 0 then 0 else 19 := by
  by_cases h : r = .finite 0
  · subst h; rfl
  · have e2 : repeatBlks r = [.ext 0xFF (repeatSubs r)] := by
      unfold repeatBlks; split
      · exact absurd rfl h
      · rfl
    rw [e2, if_neg h]
    rfl

theorem blksOf_length (f : Frame) (buf : List UInt8) (h : ∀ p, f.palette = some p → p.length / 3 ≤ 256) :
    (renderBlks (blksOf f buf)).length = frameSize f (buf.length - 1) := by
  have h1 : ((imageOf f buf).table.getD []).length = (match f.palette with
      | some p => 3 * tableColours (p.length / 3)
      | none => 0) := by
    unfold imageOf
    cases hp : f.palette with
    | none => rfl
    | some p =>
      simp only [Option.map_some, Option.getD_some]
      rw [padTable_length _ (h p hp), tableColours_eq _ (h p hp)]
  have h2 : (renderSubs (imageOf f buf).subs).length = inSubBlocks (buf.length - 1) + 1 := by
    rw [renderSubs_length]
    show (subBytes (subsOf buf.tail)).length + 1 = _
    rw [subBytes_subsOf_length, List.length_tail]
  simp only [renderBlks, blksOf, List.flatMap_cons, List.flatMap_nil, List.append_nil, Blk.render, Image.render, Image.renderHead,
    Control.render, List.length_append, h1, h2, le16, List.length_cons, List.length_nil, frameSize]
  omega

theorem opBlks_length (g : Bool) (op : EncOp) : (renderBlks (opBlks C g op)).length = callSize C op (opResult g op) := by
  cases op with
  | setRepeat r => exact repeatBlks_length r
  | extension x =>
    cases x with
    | control fl d t => rfl
    | repetitions r => exact repeatBlks_length r
  | rawExtension label data =>
    show (renderBlks [.ext label (data.flatMap subsOf)]).length = 3 + _
    simp only [renderBlks, List.flatMap_cons, List.flatMap_nil, List.append_nil, Blk.render, List.length_append, renderSubs_length,
      subBytes_raw_length, List.length_cons, List.length_nil]
    omega
  | frame f =>
    simp only [opBlks, opResult]
    split
    · rfl
    · unfold paletteError
      split
      · rename_i p hp
        by_cases hl : p.length / 3 ≤ 256
        · simp only [if_pos hl, Option.isSome_none, Bool.false_eq_true, if_false]
          exact blksOf_length f _ (by intro q hq; rw [hp] at hq; cases hq; exact hl)
        · simp only [if_neg hl, Option.isSome_some, if_true]
          rfl
      · rename_i hp
        cases g
        · rfl
        · simp only [if_true, Option.isSome_none, Bool.false_eq_true, if_false]
          exact blksOf_length f _ (by intro q hq; rw [hp] at hq; cases hq)
  | preEncoded f =>
    simp only [opBlks, opResult]
    split
    · rfl
    · unfold paletteError
      split
      · rename_i p hp
        by_cases hl : p.length / 3 ≤ 256
        · simp only [if_pos hl, Option.isSome_none, Bool.false_eq_true, if_false]
          exact blksOf_length f _ (by intro q hq; rw [hp] at hq; cases hq; exact hl)
        · simp only [if_neg hl, Option.isSome_some, if_true]
          rfl
      · rename_i hp
        cases g
        · rfl
        · simp only [if_true, Option.isSome_none, Bool.false_eq_true, if_false]
          exact blksOf_length f _ (by intro q hq; rw [hp] at hq; cases hq)

theorem fileOf_head (w h : UInt16) (pal : List UInt8) (bs : List Blk) :
    (fileOf w h pal bs).render = (fileOf w h pal []).renderHead ++ renderBlks bs ++ [0x3B] := rfl

/-- **C82** The size of a file is the sum of the sizes of its parts, which follow from the arguments and results of the calls: 13
bytes of header, the global colour table, the bytes of every call, and the trailer. -/
theorem file_size (np : Bool) (w h : UInt16) {pal : List UInt8} (hpal : pal.length / 3 ≤ 256) {ops : List EncOp}
    (hs : ∀ op ∈ ops, op.Sane) :
    ∃ file, (encodeFile C np w h pal ops).1 = some file ∧
      file.length = 13 + 3 * tableColours (pal.length / 3) +
        (List.zipWith (callSize C) ops (encodeFile C np w h pal ops).2).sum + 1 := by
  rw [encodeFile_eq C np w h pal ops hpal hs]
  refine ⟨_, rfl, ?_⟩
  rw [fileOf_head]
  have h1 : (fileOf w h pal []).renderHead.length = 13 + 3 * tableColours (pal.length / 3) := by
    simp only [File.renderHead, fileOf, le16, List.length_append, List.length_cons, List.length_nil, Option.getD_some]
    rw [padTable_length _ hpal, tableColours_eq _ hpal]
  have h2 : ∀ (g : Bool) (ops : List EncOp), (renderBlks (ops.flatMap (opBlks C g))).length =
      (List.zipWith (callSize C) ops (ops.map (opResult g))).sum := by
    intro g ops
    induction ops with
    | nil => rfl
    | cons op ops ih =>
      rw [List.flatMap_cons, SD.renderBlks_append, List.length_append, ih, opBlks_length]
      rfl
  simp only [List.length_append, h1, h2, List.length_cons, List.length_nil]

/-- **C82** What calls add to a file depends on nothing but the calls, and on whether there is a global palette: they add the same
bytes to every file, whatever its screen and its palette, and whatever was added before. -/
theorem file_pieces (g : Bool) (ops : List EncOp) (hs : ∀ op ∈ ops, op.Sane) :
    ∃ piece : List UInt8, ∀ (np : Bool) (w h : UInt16) (pal : List UInt8), pal.length / 3 ≤ 256 → (3 ≤ pal.length ↔ g = true) →
      ∀ before : List EncOp, (∀ op ∈ before, op.Sane) →
      ∃ start, (encodeFile C np w h pal before).1 = some (start ++ [0x3B]) ∧
        (encodeFile C np w h pal (before ++ ops)).1 = some (start ++ piece ++ [0x3B]) := by
  refine ⟨renderBlks (ops.flatMap (opBlks C g)), fun np w h pal hpal hg before hb => ?_⟩
  have hd : decide (3 ≤ pal.length) = g := by
    cases g
    · simpa using hg
    · simpa using hg
  refine ⟨(fileOf w h pal []).renderHead ++ renderBlks (before.flatMap (opBlks C g)), ?_, ?_⟩
  · rw [encodeFile_eq C np w h pal before hpal hb, fileOf_head, hd]
  · rw [encodeFile_eq C np w h pal (before ++ ops) hpal (by
      intro op hop
      rcases List.mem_append.1 hop with h | h
      · exact hb op h
      · exact hs op h), fileOf_head, hd, List.flatMap_append, SD.renderBlks_append]
    simp only [List.append_assoc]

/-- The hypotheses and the sizes of a file with a loop count, two frames and a comment. -/
example : demoPalette.length / 3 ≤ 256 ∧ (∀ op ∈ demoOps, op.Sane) ∧ demoFile.length = 107 ∧
    List.zipWith (callSize Ref.lzw) demoOps (encodeFile Ref.lzw true 4 4 demoPalette demoOps).2 = [19, 25, 0, 6, 31] :=
  ⟨by decide, demo_sane, by decide, by rw [demo_encode]; decide +kernel⟩

/-- A call that fails may leave 8 bytes; the sizes then still add up. -/
example : List.zipWith (callSize Ref.lzw) [.frame { demoFrame with palette := none }, .frame { demoFrame with width := 9 }]
      (encodeFile Ref.lzw true 4 4 [] [.frame { demoFrame with palette := none }, .frame { demoFrame with width := 9 }]).2 = [8, 0] ∧
    ((encodeFile Ref.lzw true 4 4 [] [.frame { demoFrame with palette := none }, .frame { demoFrame with width := 9 }]).1.map
      List.length) = some (13 + 6 + 8 + 0 + 1) := by decide +kernel

end Gif
