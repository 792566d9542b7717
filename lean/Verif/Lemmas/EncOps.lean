import Verif.Lemmas.EncRender
/-!
Sequences of encoder calls.
-/

namespace Gif

open Spec Encoder

/-- A call of one of the encoder's public writing methods. -/
inductive EncOp where
  | setRepeat (r : Repeat)
  | extension (x : ExtensionData)
  | rawExtension (label : UInt8) (data : List (List UInt8))
  | frame (f : Frame)
  | preEncoded (f : Frame)

/-- Making the call. -/
def EncOp.run (C : Codec) (e : Encoder) : EncOp → Encoder × EOut Unit
  | .setRepeat r => e.setRepeat r
  | .extension x => e.writeExtension x
  | .rawExtension label data => e.writeRawExtension label data
  | .frame f => e.writeFrame C f
  | .preEncoded f => e.writeLzwPreEncodedFrame f

/-- The documented precondition of `write_frame` (its `debug_assert!`): a frame without area has no pixels. -/
def EncOp.Sane : EncOp → Prop
  | .frame f => (f.width > 0 ∧ f.height > 0) ∨ f.buffer = []
  | _ => True

/-- The calls on the writer. -/
def opChunks (C : Codec) (hasGlobal : Bool) : EncOp → List (List UInt8)
  | .setRepeat r => repeatChunks r
  | .extension (.repetitions r) => repeatChunks r
  | .extension x => extChunks x
  | .rawExtension label data => rawExtChunks label data
  | .frame f =>
    if f.buffer.length < f.width.toNat * f.height.toNat then []
    else if (paletteError hasGlobal f).isSome then ctrlChunks f
    else frameChunks f (lzwEncode C f.buffer [])
  | .preEncoded f =>
    if badCodeSize f then []
    else if (paletteError hasGlobal f).isSome then ctrlChunks f
    else frameChunks f f.buffer

/-- The result with a working writer. -/
def opResult (hasGlobal : Bool) : EncOp → EOut Unit
  | .frame f =>
    if f.buffer.length < f.width.toNat * f.height.toNat then .err (.io .invalidInput)
    else match paletteError hasGlobal f with
      | some err => .err err
      | none => .ok ()
  | .preEncoded f =>
    if badCodeSize f then .err (.format .invalidMinCodeSize)
    else match paletteError hasGlobal f with
      | some err => .err err
      | none => .ok ()
  | _ => .ok ()

theorem does_op (C : Codec) (e : Encoder) (op : EncOp) (hw : e.w ≠ none) (hs : op.Sane) :
    Does e (op.run C e) (opChunks C e.globalPalette op) (opResult e.globalPalette op) := by
  cases op with
  | setRepeat r => exact does_setRepeat e r
  | extension x =>
    cases x with
    | control fl d t => exact does_writeExtension e (.control fl d t) (by simp)
    | repetitions r => exact does_setRepeat e r
  | rawExtension label data => exact does_writeRawExtension e label data
  | frame f =>
    unfold EncOp.run opChunks opResult
    by_cases hb : f.buffer.length < f.width.toNat * f.height.toNat
    · simp only [if_pos hb]; exact does_writeFrame_small C e f hb
    · simp only [if_neg hb]
      cases hp : paletteError e.globalPalette f with
      | some err => simpa using does_writeFrame_palette C e f hw (by omega) hs err hp
      | none => simpa using does_writeFrame_ok C e f hw (by omega) hs hp
  | preEncoded f =>
    unfold EncOp.run opChunks opResult
    by_cases hb : badCodeSize f
    · simp only [if_pos hb]; exact does_writePre_bad e f hb
    · simp only [if_neg hb]
      cases hp : paletteError e.globalPalette f with
      | some err => simpa using does_writePre_palette e f hw hb err hp
      | none => simpa using does_writePre_ok e f hw hb hp

/-- The blocks a call adds to the file. -/
def opBlks (C : Codec) (hasGlobal : Bool) : EncOp → List Blk
  | .setRepeat r => repeatBlks r
  | .extension (.repetitions r) => repeatBlks r
  | .extension (.control fl d t) => [.control ⟨fl, d, t⟩]
  | .rawExtension label data => [.ext label (data.flatMap subsOf)]
  | .frame f =>
    if f.buffer.length < f.width.toNat * f.height.toNat then []
    else if (paletteError hasGlobal f).isSome then [.control (ctrlOf f)]
    else blksOf f (lzwEncode C f.buffer [])
  | .preEncoded f =>
    if badCodeSize f then []
    else if (paletteError hasGlobal f).isSome then [.control (ctrlOf f)]
    else blksOf f f.buffer

/-- The encoder writes no unknown blocks. -/
theorem opBlks_known (C : Codec) (hasGlobal : Bool) (op : EncOp) : ∀ b ∈ opBlks C hasGlobal op, ∀ t subs, b ≠ .unknown t subs := by
  have hrep : ∀ r, ∀ b ∈ repeatBlks r, ∀ t subs, b ≠ .unknown t subs := by
    intro r b hb t subs
    unfold repeatBlks at hb
    split at hb
    · cases hb
    · rw [List.mem_singleton] at hb; subst hb; simp
  have hblk : ∀ f x, ∀ b ∈ blksOf f x, ∀ t subs, b ≠ .unknown t subs := by
    intro f x b hb t subs
    simp only [blksOf, List.mem_cons, List.not_mem_nil, or_false] at hb
    rcases hb with rfl | rfl <;> simp
  intro b hb t subs
  cases op with
  | setRepeat r => exact hrep r b hb t subs
  | extension x =>
    cases x with
    | control fl d tr => simp only [opBlks, List.mem_singleton] at hb; subst hb; simp
    | repetitions r => exact hrep r b hb t subs
  | rawExtension l d => simp only [opBlks, List.mem_singleton] at hb; subst hb; simp
  | frame f =>
    simp only [opBlks] at hb
    split at hb
    · cases hb
    · split at hb
      · rw [List.mem_singleton] at hb; subst hb; simp
      · exact hblk _ _ b hb t subs
  | preEncoded f =>
    simp only [opBlks] at hb
    split at hb
    · cases hb
    · split at hb
      · rw [List.mem_singleton] at hb; subst hb; simp
      · exact hblk _ _ b hb t subs

theorem paletteError_none {g : Bool} {f : Frame} (h : paletteError g f = none) :
    ∀ p, f.palette = some p → p.length / 3 ≤ 256 := by
  intro p hp
  unfold paletteError at h
  rw [hp] at h
  simp only at h
  by_cases h6 : p.length / 3 ≤ 256
  · exact h6
  · rw [if_neg h6] at h; simp at h

theorem opChunks_flatten (C : Codec) (g : Bool) (op : EncOp) :
    (opChunks C g op).flatten = renderBlks (opBlks C g op) := by
  cases op with
  | setRepeat r => exact repeatChunks_flatten r
  | extension x =>
    cases x with
    | control fl d t => simp [opChunks, opBlks, extChunks, renderBlks, Blk.render, Control.render, le16, lo8, hi8]
    | repetitions r => exact repeatChunks_flatten r
  | rawExtension label data => rw [opChunks, opBlks, rawExtChunks_flatten]; simp [renderBlks]
  | frame f =>
    unfold opChunks opBlks
    by_cases hb : f.buffer.length < f.width.toNat * f.height.toNat
    · simp only [if_pos hb]; rfl
    · simp only [if_neg hb]
      cases hp : paletteError g f with
      | some err => simp [ctrlChunks_flatten, renderBlks, Blk.render]
      | none => simpa using frameChunks_flatten f _ (paletteError_none hp)
  | preEncoded f =>
    unfold opChunks opBlks
    by_cases hb : badCodeSize f
    · simp only [if_pos hb]; rfl
    · simp only [if_neg hb]
      cases hp : paletteError g f with
      | some err => simp [ctrlChunks_flatten, renderBlks, Blk.render]
      | none => simpa using frameChunks_flatten f _ (paletteError_none hp)

/-- `Does` with a working writer: all bytes and the final result. -/
theorem Encoder.Does.working {α : Type} {e : Encoder} {res : Encoder × EOut α} {c : List (List UInt8)} {r : EOut α}
    (h : Does e res c r) {s : Sink} (hs : e.w = some s) (hw : s.Working) :
    ∃ s', res.1.w = some s' ∧ s'.written = s.written ++ c.flatten ∧ s'.Working ∧ res.2 = r := by
  obtain ⟨h1, h2⟩ := h.run s hs
  obtain ⟨s', hc, hwr, hwk⟩ := runChunks_working c s hw
  refine ⟨s', ?_, hwr, hwk, ?_⟩
  · rw [h1]; simp [W.bind, hc, W.ofOut]
  · rw [h2]; simp [W.bind, hc, W.ofOut]

/-- `Does` with any writer: everything, or a prefix and the writer's error. -/
theorem Encoder.Does.cases {α : Type} {e : Encoder} {res : Encoder × EOut α} {c : List (List UInt8)} {r : EOut α}
    (h : Does e res c r) {s : Sink} (hs : e.w = some s) :
    (∃ s', runChunks c s = (s', .ok ()) ∧ res.1.w = some s' ∧ s'.written = s.written ++ c.flatten ∧ res.2 = r) ∨
    (∃ s' code pre, runChunks c s = (s', .err (.io (.writer code))) ∧ res.1.w = some s' ∧ s'.written = s.written ++ pre ∧
      pre <+: c.flatten ∧ pre ≠ c.flatten ∧ ¬ s.Working ∧ res.2 = .err (.io (.writer code))) := by
  obtain ⟨h1, h2⟩ := h.run s hs
  rcases runChunks_cases c s with ⟨s', hc, hx⟩ | ⟨s', code, pre, hc, hx⟩
  · left
    refine ⟨s', hc, ?_, ?_, ?_⟩
    · rw [h1]; simp [W.bind, hc, W.ofOut]
    · grind
    · rw [h2]; simp [W.bind, hc, W.ofOut]
  · right
    refine ⟨s', code, pre, hc, ?_, hx.1, hx.2.1, hx.2.2.1, hx.2.2.2, ?_⟩
    · rw [h1]; simp [W.bind, hc]
    · rw [h2]; simp [W.bind, hc]

/-- All the calls, one after the other, whatever they return. -/
def runOps (C : Codec) : Encoder → List EncOp → Encoder × List (EOut Unit)
  | e, [] => (e, [])
  | e, op :: ops =>
    let (e, r) := op.run C e
    let (e, rs) := runOps C e ops
    (e, r :: rs)

theorem runOps_working (C : Codec) (ops : List EncOp) (e : Encoder) (s : Sink) (hs : e.w = some s) (hw : s.Working)
    (hsane : ∀ op ∈ ops, op.Sane) :
    ∃ s', (runOps C e ops).1.w = some s' ∧ s'.Working ∧
      s'.written = s.written ++ renderBlks (ops.flatMap (opBlks C e.globalPalette)) ∧
      (runOps C e ops).2 = ops.map (opResult e.globalPalette) := by
  induction ops generalizing e s with
  | nil => exact ⟨s, hs, hw, by simp [renderBlks], rfl⟩
  | cons op ops ih =>
    have hd := does_op C e op (by simp [hs]) (hsane op (by simp))
    obtain ⟨s1, h1, h2, h3, h4⟩ := hd.working hs hw
    obtain ⟨s2, k1, k2, k3, k4⟩ := ih (op.run C e).1 s1 h1 h3 (fun o ho => hsane o (by simp [ho]))
    rw [hd.palette] at k3 k4
    refine ⟨s2, k1, k2, ?_, ?_⟩
    · rw [k3, h2, opChunks_flatten]; simp [renderBlks]
    · simp only [runOps, List.map_cons, k4, h4]

end Gif
