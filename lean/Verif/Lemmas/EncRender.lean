import Verif.Lemmas.Enc
import Verif.Spec.GifSyntax
/-!
The encoder's output is the rendering of a syntax tree.
-/

namespace Gif

open Spec Encoder

theorem leBytes_eq (n : UInt16) : leBytes n = le16 n := rfl

/-- The first `k` pieces of 255 bytes. -/
def cut : Nat → List UInt8 → List (List UInt8)
  | 0, _ => []
  | k + 1, d => d.take 255 :: cut k (d.drop 255)

/-- The sub-blocks the encoder makes of some data. -/
def subsOf (d : List UInt8) : List (List UInt8) := cut ((d.length + 254) / 255) d

theorem cut_flatten (k : Nat) (d : List UInt8) (h : d.length ≤ 255 * k) : (cut k d).flatten = d := by
  induction k generalizing d with
  | zero =>
    have : d = [] := List.eq_nil_of_length_eq_zero (by omega)
    subst this; rfl
  | succ k ih =>
    rw [cut, List.flatten_cons, ih _ (by rw [List.length_drop]; omega), List.take_append_drop]

theorem cut_ok (k : Nat) (d : List UInt8) (h : 255 * k < d.length + 255) : SubsOk (cut k d) := by
  induction k generalizing d with
  | zero => intro b hb; simp [cut] at hb
  | succ k ih =>
    intro b hb
    rw [cut, List.mem_cons] at hb
    rcases hb with rfl | hb
    · rw [List.length_take]; omega
    · exact ih (d.drop 255) (by rw [List.length_drop]; omega) b hb

theorem subsOf_flatten (d : List UInt8) : (subsOf d).flatten = d := cut_flatten _ d (by omega)
theorem subsOf_ok (d : List UInt8) : SubsOk (subsOf d) := cut_ok _ d (by omega)

/-- Bytes of the sub-blocks without the terminator. -/
def subBytes (subs : List (List UInt8)) : List UInt8 := subs.flatMap fun b => UInt8.ofNat b.length :: b

theorem subChunks_flatten (k : Nat) (d : List UInt8) : (subChunks k d).flatten = subBytes (cut k d) := by
  induction k generalizing d with
  | zero => rfl
  | succ k ih =>
    unfold subBytes at *
    simp only [subChunks, cut, List.flatten_cons, List.flatMap_cons, ih]
    simp

theorem fullChunks_flatten (k : Nat) (d : List UInt8) (h : 255 * k ≤ d.length) :
    (fullChunks k d).flatten = subBytes (cut k d) := by
  induction k generalizing d with
  | zero => rfl
  | succ k ih =>
    unfold subBytes at *
    have hl : (d.take 255).length = 255 := by rw [List.length_take]; omega
    simp only [fullChunks, cut, List.flatten_cons, List.flatMap_cons, ih (d.drop 255) (by rw [List.length_drop]; omega), hl]
    simp

theorem cut_succ (k : Nat) (d : List UInt8) : cut (k + 1) d = cut k d ++ [(d.drop (255 * k)).take 255] := by
  induction k generalizing d with
  | zero => simp [cut]
  | succ k ih =>
    rw [cut, ih, cut]
    simp only [List.cons_append, List.drop_drop]
    rw [show 255 + 255 * k = 255 * (k + 1) by omega]

theorem blockChunks_flatten (d : List UInt8) : (blockChunks d).flatten = renderSubs (subsOf d) := by
  unfold blockChunks renderSubs subsOf
  rw [List.flatten_append, fullChunks_flatten _ _ (by omega)]
  unfold lastChunks
  by_cases hz : d.length % 255 = 0
  · have h1 : (d.length + 254) / 255 = d.length / 255 := by omega
    rw [h1, if_pos]
    · rfl
    · simp; omega
  · have h1 : (d.length + 254) / 255 = d.length / 255 + 1 := by omega
    have hlen : (d.drop (255 * (d.length / 255))).length ≤ 255 := by rw [List.length_drop]; omega
    rw [h1, if_neg, cut_succ, List.take_of_length_le hlen]
    · simp [subBytes]
    · simp; omega

theorem rawChunks_flatten (bs : List (List UInt8)) : (rawChunks bs).flatten = subBytes (bs.flatMap subsOf) := by
  induction bs with
  | nil => rfl
  | cons b bs ih =>
    rw [rawChunks, List.flatten_append, ih, subChunks_flatten]
    unfold subBytes subsOf
    simp

theorem rawExtChunks_flatten (func : UInt8) (data : List (List UInt8)) :
    (rawExtChunks func data).flatten = (Blk.ext func (data.flatMap subsOf)).render := by
  unfold rawExtChunks Blk.render renderSubs
  simp [rawChunks_flatten, subBytes]

/-- The graphic control extension the encoder writes for a frame. -/
def ctrlOf (f : Frame) : Control where
  packed := (if f.transparent.isSome then (1 : UInt8) else 0) ||| ((if f.needsUserInput then (1 : UInt8) else 0) <<< 1) |||
    (f.dispose.toU8 <<< 2)
  delay := f.delay
  trns := f.transparent.getD 0

/-- A colour table as written: whole colours, padded with black. -/
def padTable (t : List UInt8) : List UInt8 :=
  t.take (t.length / 3 * 3) ++
    List.replicate (3 * (2 ^ ((flagSize (t.length / 3)).toNat + 1) - t.length / 3)) 0

theorem padTable_length (t : List UInt8) (h : t.length / 3 ≤ 256) :
    (padTable t).length = 3 * 2 ^ ((flagSize (t.length / 3)).toNat + 1) := by
  have := (flagSize_spec _ h).2.1
  simp only [padTable, List.length_append, List.length_take, List.length_replicate]
  omega

theorem flatten_replicate3 (n : Nat) : (List.replicate n [0, 0, 0]).flatten = List.replicate (3 * n) (0 : UInt8) := by
  induction n with
  | zero => rfl
  | succ n ih =>
    rw [List.replicate_succ, List.flatten_cons, ih, Nat.mul_succ, Nat.add_comm, ← List.replicate_append_replicate]
    rfl

theorem tableChunks_flatten (t : List UInt8) : (tableChunks t).flatten = padTable t := by
  unfold tableChunks padTable
  rw [List.flatten_cons, flatten_replicate3]

/-- The image the encoder writes for a frame whose compressed data (minimum code size first) is `buf`. -/
def imageOf (f : Frame) (buf : List UInt8) : Image where
  left := f.left
  top := f.top
  width := f.width
  height := f.height
  interlaced := f.interlaced
  misc := 0
  size := match f.palette with
    | some p => (flagSize (p.length / 3)).toNat
    | none => 0
  table := f.palette.map padTable
  minCode := buf.headD 2
  subs := subsOf buf.tail

theorem ctrlChunks_flatten (f : Frame) : (ctrlChunks f).flatten = (ctrlOf f).render := by
  unfold ctrlChunks ExtensionData.newControlExt ctrlOf Control.render
  cases f.transparent <;> simp [extChunks, le16, lo8, hi8] <;> rfl

theorem descFlags_eq (f : Frame) (buf : List UInt8) (h : ∀ p, f.palette = some p → p.length / 3 ≤ 256) :
    descFlags f = (imageOf f buf).packed := by
  have key1 : ∀ (i : Fin 8) (b : Bool), ((if b then 0 ||| 0b01000000 else 0 : UInt8) ||| 0b10000000 ||| UInt8.ofNat i.val)
      = UInt8.ofNat (128 + (if b then 64 else 0) + i.val) := by decide
  have key2 : ∀ (b : Bool), (if b then 0 ||| 0b01000000 else 0 : UInt8)
      = UInt8.ofNat (0 + (if b then 64 else 0)) := by decide
  unfold descFlags Image.packed imageOf
  cases hp : f.palette with
  | some p =>
    have h8 := (flagSize_spec _ (h p hp)).1
    have := key1 ⟨(flagSize (p.length / 3)).toNat, h8⟩ f.interlaced
    rw [UInt8.ofNat_toNat] at this
    simpa using this
  | none => simpa using key2 f.interlaced

theorem descChunks_flatten (f : Frame) (buf : List UInt8) (h : ∀ p, f.palette = some p → p.length / 3 ≤ 256) :
    (descChunks f).flatten ++ [(imageOf f buf).minCode] = (imageOf f buf).renderHead := by
  unfold descChunks Image.renderHead
  rw [descFlags_eq f buf h]
  cases hp : f.palette with
  | some p => simp [tableChunks_flatten, imageOf, hp, leBytes_eq]
  | none => simp [imageOf, hp, leBytes_eq]

theorem imageChunks_flatten (buf : List UInt8) :
    (imageChunks buf).flatten = buf.headD 2 :: renderSubs (subsOf buf.tail) := by
  cases buf with
  | nil => simp [imageChunks, blockChunks_flatten]
  | cons m d => simp [imageChunks, blockChunks_flatten]

/-- The blocks the encoder writes for an accepted frame. -/
def blksOf (f : Frame) (buf : List UInt8) : List Blk := [.control (ctrlOf f), .image (imageOf f buf)]

theorem frameChunks_flatten (f : Frame) (buf : List UInt8) (h : ∀ p, f.palette = some p → p.length / 3 ≤ 256) :
    (frameChunks f buf).flatten = renderBlks (blksOf f buf) := by
  unfold frameChunks renderBlks blksOf
  simp only [List.flatten_append, ctrlChunks_flatten, imageChunks_flatten, List.flatMap_cons, List.flatMap_nil,
    Blk.render, Image.render, ← descChunks_flatten f buf h, List.append_nil, List.append_assoc]
  rfl

theorem imageOf_ok (f : Frame) (buf : List UInt8) (h : ∀ p, f.palette = some p → p.length / 3 ≤ 256) :
    (imageOf f buf).Ok := by
  refine ⟨by simp [imageOf], ?_, ?_, subsOf_ok _⟩
  · unfold imageOf
    cases hp : f.palette with
    | some p => exact (flagSize_spec _ (h p hp)).1
    | none => simp
  · intro t ht
    unfold imageOf at ht ⊢
    cases hp : f.palette with
    | some p =>
      simp only [hp, Option.map_some, Option.some.injEq] at ht ⊢
      rw [← ht, padTable_length _ (h p hp)]
    | none => simp [hp] at ht

/-- The application extension the encoder writes for a repeat count. -/
def repeatSubs (r : Repeat) : List (List UInt8) :=
  let n : UInt16 := match r with
    | .finite n => n
    | .infinite => 0
  [netscapeName, [1, lo8 n, hi8 n]]

/-- The blocks `set_repeat` writes. -/
def repeatBlks : Repeat → List Blk
  | .finite 0 => []
  | r => [.ext 0xFF (repeatSubs r)]

theorem repeatChunks_flatten (r : Repeat) : (repeatChunks r).flatten = renderBlks (repeatBlks r) := by
  by_cases h : r = .finite 0
  · subst h; rfl
  · have e1 : repeatChunks r = extChunks (.repetitions r) := by
      unfold repeatChunks; split
      · exact absurd rfl h
      · rfl
    have e2 : repeatBlks r = [.ext 0xFF (repeatSubs r)] := by
      unfold repeatBlks; split
      · exact absurd rfl h
      · rfl
    rw [e1, e2]
    cases r <;> simp [extChunks, renderBlks, Blk.render, renderSubs, repeatSubs, netscapeName]

/-- The file the encoder has begun with `Encoder::new`. -/
def fileOf (width height : UInt16) (palette : List UInt8) (blocks : List Blk) : File where
  v89 := true
  width := width
  height := height
  misc := 2 * (flagSize (palette.length / 3)).toNat
  size := (flagSize (palette.length / 3)).toNat
  table := some (padTable palette)
  background := 0
  aspect := 0
  blocks := blocks

theorem headerChunks_flatten (width height : UInt16) (palette : List UInt8) (h : palette.length / 3 ≤ 256)
    (blocks : List Blk) :
    (headerChunks width height palette).flatten = (fileOf width height palette blocks).renderHead := by
  have key : ∀ (i : Fin 8), ((0b10000000 : UInt8) ||| UInt8.ofNat i.val ||| (UInt8.ofNat i.val <<< 4))
      = UInt8.ofNat (128 + 8 * (2 * i.val) + i.val) := by decide
  have hk := key ⟨_, (flagSize_spec _ h).1⟩
  have hf : screenFlags palette = (fileOf width height palette blocks).packed := by
    unfold screenFlags File.packed fileOf
    simp only [UInt8.ofNat_toNat] at hk
    rw [hk]
    simp
  unfold headerChunks File.renderHead
  rw [hf]
  simp [tableChunks_flatten, fileOf, leBytes_eq]

theorem fileOf_ok (width height : UInt16) (palette : List UInt8) (h : palette.length / 3 ≤ 256) (blocks : List Blk)
    (hb : ∀ b ∈ blocks, b.Ok) : (fileOf width height palette blocks).Ok := by
  have := (flagSize_spec _ h).1
  refine ⟨by simp [fileOf]; omega, by simpa [fileOf] using this, ?_, hb⟩
  intro t ht
  simp only [fileOf, Option.some.injEq] at ht ⊢
  rw [← ht, padTable_length _ h]

end Gif
