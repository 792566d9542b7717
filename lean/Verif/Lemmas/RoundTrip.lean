import Verif.Spec.RoundTrip
import Verif.Props.EncoderIo
/-!
What the encoder writes, as a file of the grammar, and what that file says.
-/

namespace Gif

open Spec Encoder

theorem tableColours_eq : ∀ n, n ≤ 256 → 2 ^ ((flagSize n).toNat + 1) = tableColours n := by
  intro n hn
  obtain ⟨h1, h2, h3⟩ := flagSize_spec n hn
  have key : ∀ j, 1 ≤ j → n ≤ 2 ^ j → (∀ i, 1 ≤ i → n ≤ 2 ^ i → j ≤ i) → 2 ^ ((flagSize n).toNat + 1) = 2 ^ j := by
    intro j hj hn hmin
    have a := h3 j hj hn
    have b := hmin _ (by omega) h2
    rw [show (flagSize n).toNat + 1 = j by omega]
  have hlt : ∀ j i, ¬ n ≤ 2 ^ j → n ≤ 2 ^ i → j + 1 ≤ i := by
    intro j i hj hi
    apply Decidable.byContradiction
    intro h
    exact hj (Nat.le_trans hi (Nat.pow_le_pow_right (by omega) (by omega)))
  unfold tableColours
  by_cases c1 : n ≤ 2
  · rw [if_pos c1]; exact key 1 (by omega) c1 (fun i hi _ => hi)
  rw [if_neg c1]
  by_cases c2 : n ≤ 4
  · rw [if_pos c2]; exact key 2 (by omega) c2 (fun i _ hi => hlt 1 i c1 hi)
  rw [if_neg c2]
  by_cases c3 : n ≤ 8
  · rw [if_pos c3]; exact key 3 (by omega) c3 (fun i _ hi => hlt 2 i c2 hi)
  rw [if_neg c3]
  by_cases c4 : n ≤ 16
  · rw [if_pos c4]; exact key 4 (by omega) c4 (fun i _ hi => hlt 3 i c3 hi)
  rw [if_neg c4]
  by_cases c5 : n ≤ 32
  · rw [if_pos c5]; exact key 5 (by omega) c5 (fun i _ hi => hlt 4 i c4 hi)
  rw [if_neg c5]
  by_cases c6 : n ≤ 64
  · rw [if_pos c6]; exact key 6 (by omega) c6 (fun i _ hi => hlt 5 i c5 hi)
  rw [if_neg c6]
  by_cases c7 : n ≤ 128
  · rw [if_pos c7]; exact key 7 (by omega) c7 (fun i _ hi => hlt 6 i c6 hi)
  rw [if_neg c7]
  exact key 8 (by omega) hn (fun i _ hi => hlt 7 i c7 hi)

theorem padTable_eq (t : List UInt8) (h : t.length / 3 ≤ 256) : padTable t = padded t := by
  unfold padTable padded
  rw [tableColours_eq _ h]

/-- The bytes that the encoder writes. -/
theorem encodeFile_eq (C : Codec) (np : Bool) (w h : UInt16) (pal : List UInt8) (ops : List EncOp)
    (hp : pal.length / 3 ≤ 256) (hs : ∀ op ∈ ops, op.Sane) :
    encodeFile C np w h pal ops = (some (fileOf w h pal (ops.flatMap (opBlks C (3 ≤ pal.length)))).render,
      ops.map (opResult (3 ≤ pal.length))) := by
  have d := does_writeGlobalPalette { written := [], plan := [] } w h pal hp
  have hw0 : Sink.Working { written := [], plan := [] } := by intro p hp; simp at hp
  obtain ⟨s1, a1, a2, a3, a4⟩ := d.working (s := { written := [], plan := [] }) rfl hw0
  have hpal := d.palette
  unfold encodeFile
  have hnew : Encoder.new np { written := [], plan := [] } w h pal =
      (((fresh { written := [], plan := [] } w h false).writeGlobalPalette pal).1, .ok ()) := by
    have hx : (fresh { written := [], plan := [] } w h false).writeGlobalPalette pal =
        (((fresh { written := [], plan := [] } w h false).writeGlobalPalette pal).1, .ok ()) := by rw [← a4]
    unfold fresh at hx ⊢
    unfold Encoder.new
    rw [hx]
  rw [hnew]
  generalize ((fresh { written := [], plan := [] } w h false).writeGlobalPalette pal).1 = e at *
  obtain ⟨s2, b1, b2, b3, b4⟩ := runOps_working C ops e s1 a1 a3 hs
  simp only
  generalize runOps C e ops = x at *
  obtain ⟨e2, rs⟩ := x
  simp only at *
  obtain ⟨s3, c1, c2, c3, c4⟩ := C29_into_inner np e2 s2 b1 b2
  generalize e2.intoInner np = x at *
  obtain ⟨e3, out⟩ := x
  simp only at *
  subst c1
  simp only
  have hg : e.globalPalette = decide (3 ≤ pal.length) := hpal
  rw [c2, b3, a2, b4, hg, headerChunks_flatten w h pal hp (ops.flatMap (opBlks C (3 ≤ pal.length)))]
  simp only [File.render, List.nil_append]
  rfl

/-! ## The frames -/

/-- The image that a call writes and its control extension. -/
def frameOf (C : Codec) (op : EncOp) : Graphic × Image :=
  ((ctrlOf (compressed C op)).graphic, imageOf (compressed C op) (compressed C op).buffer)

theorem opBlks_frame (C : Codec) (g : Bool) (op : EncOp) (hf : isFrame op = true) (hr : opResult g op = .ok ()) :
    opBlks C g op = [.control (ctrlOf (compressed C op)), .image (imageOf (compressed C op) (compressed C op).buffer)] := by
  cases op with
  | setRepeat r => cases hf
  | extension x => cases hf
  | rawExtension l d => cases hf
  | frame f =>
    unfold opResult at hr
    unfold opBlks
    by_cases h : f.buffer.length < f.width.toNat * f.height.toNat
    · simp only [if_pos h] at hr; cases hr
    · simp only [if_neg h] at hr ⊢
      cases hpe : paletteError g f with
      | some e => rw [hpe] at hr; cases hr
      | none => rfl
  | preEncoded f =>
    unfold opResult at hr
    unfold opBlks
    by_cases h : badCodeSize f
    · simp only [if_pos h] at hr; cases hr
    · simp only [if_neg h] at hr ⊢
      cases hpe : paletteError g f with
      | some e => rw [hpe] at hr; cases hr
      | none => rfl

/-- Calls that do not write a frame write no image. -/
theorem opBlks_other (C : Codec) (g : Bool) (op : EncOp) (hr : ¬ (isFrame op = true ∧ opResult g op = .ok ())) :
    (∃ l x, opBlks C g op = [.ext l x]) ∨ (∃ c, opBlks C g op = [.control c]) ∨ opBlks C g op = [] := by
  have hrep : ∀ r, (∃ l x, repeatBlks r = [.ext l x]) ∨ (∃ c, repeatBlks r = [.control c]) ∨ repeatBlks r = [] := by
    intro r
    unfold repeatBlks
    split
    · exact .inr (.inr rfl)
    · exact .inl ⟨_, _, rfl⟩
  cases op with
  | setRepeat r => exact hrep r
  | extension x =>
    cases x with
    | control fl d t => exact .inr (.inl ⟨_, rfl⟩)
    | repetitions r => exact hrep r
  | rawExtension l d => exact .inl ⟨_, _, rfl⟩
  | frame f =>
    unfold opResult at hr
    unfold opBlks
    by_cases h : f.buffer.length < f.width.toNat * f.height.toNat
    · simp only [if_pos h]; exact .inr (.inr trivial)
    · simp only [if_neg h] at hr ⊢
      cases hpe : paletteError g f with
      | some e => exact .inr (.inl ⟨_, rfl⟩)
      | none => rw [hpe] at hr; exact absurd ⟨rfl, rfl⟩ hr
  | preEncoded f =>
    unfold opResult at hr
    unfold opBlks
    by_cases h : badCodeSize f
    · simp only [if_pos h]; exact .inr (.inr trivial)
    · simp only [if_neg h] at hr ⊢
      cases hpe : paletteError g f with
      | some e => exact .inr (.inl ⟨_, rfl⟩)
      | none => rw [hpe] at hr; exact absurd ⟨rfl, rfl⟩ hr

theorem frames_ops (C : Codec) (g : Bool) : ∀ (ops : List EncOp) (gr : Graphic),
    Spec.frames gr (ops.flatMap (opBlks C g)) = (written ops (ops.map (opResult g))).map (frameOf C)
  | [], _ => rfl
  | op :: ops, gr => by
    rw [List.flatMap_cons, List.map_cons, written]
    by_cases h : isFrame op = true ∧ opResult g op = .ok ()
    · rw [if_pos h, opBlks_frame C g op h.1 h.2]
      simp only [List.cons_append, List.nil_append, Spec.frames, frames_ops C g ops, List.map_cons]
      rfl
    · rw [if_neg h]
      rcases opBlks_other C g op h with ⟨l, x, hx⟩ | ⟨c, hx⟩ | hx
      · rw [hx]; exact frames_ops C g ops _
      · rw [hx]; exact frames_ops C g ops _
      · rw [hx]; exact frames_ops C g ops _

theorem written_mem (g : Bool) : ∀ (ops : List EncOp) (op : EncOp), op ∈ written ops (ops.map (opResult g)) →
    op ∈ ops ∧ isFrame op = true ∧ opResult g op = .ok ()
  | [], _, h => by cases h
  | a :: ops, op, h => by
    rw [List.map_cons, written] at h
    by_cases ha : isFrame a = true ∧ opResult g a = .ok ()
    · rw [if_pos ha] at h
      rcases List.mem_cons.mp h with rfl | h
      · exact ⟨List.mem_cons_self, ha⟩
      · obtain ⟨h1, h2⟩ := written_mem g ops op h
        exact ⟨List.mem_cons_of_mem _ h1, h2⟩
    · rw [if_neg ha] at h
      obtain ⟨h1, h2⟩ := written_mem g ops op h
      exact ⟨List.mem_cons_of_mem _ h1, h2⟩

/-- The fields of the control extension. -/
theorem ctrl_graphic (f : Frame) : graphicFrame (ctrlOf f).graphic =
    { Frame.default with
      delay := f.delay, dispose := f.dispose, transparent := f.transparent, needsUserInput := f.needsUserInput } := by
  obtain ⟨delay, d, t, u, top, left, width, height, inter, palette, buffer, cap⟩ := f
  cases d <;> cases u <;> cases t <;> simp [graphicFrame, ctrlOf, Control.graphic, disposalOf, DisposalMethod.toU8]

theorem paletteError_of_ok {g : Bool} {op : EncOp} {C : Codec} (hf : isFrame op = true) (hr : opResult g op = .ok ()) :
    paletteError g (compressed C op) = none := by
  cases op with
  | setRepeat r => cases hf
  | extension x => cases hf
  | rawExtension l d => cases hf
  | frame f =>
    unfold opResult at hr
    by_cases h : f.buffer.length < f.width.toNat * f.height.toNat
    · simp only [if_pos h] at hr; cases hr
    · simp only [if_neg h] at hr
      show paletteError g f = none
      cases hpe : paletteError g f with
      | some e => rw [hpe] at hr; cases hr
      | none => rfl
  | preEncoded f =>
    unfold opResult at hr
    by_cases h : badCodeSize f
    · simp only [if_pos h] at hr; cases hr
    · simp only [if_neg h] at hr
      show paletteError g f = none
      cases hpe : paletteError g f with
      | some e => rw [hpe] at hr; cases hr
      | none => rfl

theorem palette_map {g : Bool} {f : Frame} (h : paletteError g f = none) : f.palette.map padTable = f.palette.map padded := by
  have := paletteError_none h
  cases hp : f.palette with
  | none => rfl
  | some p => rw [Option.map_some, Option.map_some, padTable_eq p (this p hp)]

/-- The frame that is read back with its compressed data. -/
theorem rawFrame_frameOf {C : Codec} {g : Bool} {op : EncOp} (hp : paletteError g (compressed C op) = none)
    (hb : (compressed C op).buffer ≠ []) : rawFrame (frameOf C op) = readRaw (compressed C op) := by
  obtain ⟨m, data, hmd⟩ := List.exists_cons_of_ne_nil hb
  have hd : (imageOf (compressed C op) (compressed C op).buffer).data = (compressed C op).buffer := by
    unfold imageOf Image.data
    simp only [hmd, List.headD_cons, List.tail_cons, subsOf_flatten]
  unfold rawFrame headFrame frameOf readRaw
  simp only [hd, ctrl_graphic]
  simp only [imageOf, palette_map hp]

/-! ## The loop count -/

theorem flatten_subsOf (data : List (List UInt8)) : (data.flatMap subsOf).flatten = data.flatten := by
  induction data with
  | nil => rfl
  | cons d ds ih => rw [List.flatMap_cons, List.flatten_append, subsOf_flatten, ih, List.flatten_cons]

theorem netscape_flatten {a b : List (List UInt8)} (h : a.flatten = b.flatten) : netscape a = netscape b := by
  unfold netscape
  rw [h]

theorem netscape_repeat (r : Repeat) (hr : r ≠ .finite 0) : (netscape (repeatSubs r)).map loopsOf = some r := by
  have key : ∀ n : UInt16, (UInt16.ofNat ((lo8 n).toNat + 256 * (hi8 n).toNat)) = n := by
    intro n
    apply UInt16.toNat_inj.mp
    have := n.toNat_lt
    simp [lo8, hi8]
    omega
  cases r with
  | infinite => decide
  | finite n =>
    have hn : n ≠ 0 := fun h => hr (by rw [h])
    have hf : (repeatSubs (.finite n)).flatten = netscapeName ++ [1, lo8 n, hi8 n] := by simp [repeatSubs]
    unfold netscape
    rw [hf]
    rw [if_pos ⟨by simp [netscapeName], by simp [netscapeName]⟩]
    simp only [netscapeName, List.cons_append, List.nil_append, List.getD_cons_succ, List.getD_cons_zero, Option.map_some, key,
      if_neg hn, loopsOf]

theorem loops_ops (C : Codec) (g : Bool) : ∀ (ops : List EncOp) (cur : Loops),
    loopsOf (loopCount cur (ops.flatMap (opBlks C g))) = repetitions ops (ops.map (opResult g)) (loopsOf cur)
  | [], cur => rfl
  | op :: ops, cur => by
    rw [List.flatMap_cons, List.map_cons, repetitions]
    by_cases h : isFrame op = true ∧ opResult g op = .ok ()
    · rw [if_pos h, opBlks_frame C g op h.1 h.2]
      rfl
    · rw [if_neg h]
      have hrep : ∀ r, loopsOf (loopCount cur (repeatBlks r ++ ops.flatMap (opBlks C g))) =
          repetitions ops (ops.map (opResult g)) ((if r = .finite 0 then none else some r).getD (loopsOf cur)) := by
        intro r
        by_cases hr : r = .finite 0
        · subst hr
          exact loops_ops C g ops cur
        · have e2 : repeatBlks r = [.ext 0xFF (repeatSubs r)] := by
            unfold repeatBlks; split
            · exact absurd rfl hr
            · rfl
          rw [e2, if_neg hr, List.cons_append, loopCount, if_pos rfl, List.nil_append, loops_ops C g ops]
          have := netscape_repeat r hr
          cases hn : netscape (repeatSubs r) with
          | none => rw [hn] at this; cases this
          | some l =>
            rw [hn] at this
            simp only [Option.map_some, Option.some.injEq] at this
            simp only [Option.getD_some, this]
      cases op with
      | setRepeat r => exact hrep r
      | extension x =>
        cases x with
        | control fl d t => exact loops_ops C g ops cur
        | repetitions r => exact hrep r
      | rawExtension l d =>
        simp only [opBlks, List.cons_append, List.nil_append, loopCount, loops_ops C g ops, repetitionOf]
        rw [netscape_flatten (flatten_subsOf d)]
        by_cases hl : l = 0xFF
        · simp only [if_pos hl]
          cases netscape d <;> rfl
        · simp only [if_neg hl]
          rfl
      | frame f =>
        have hb : ∀ x, opBlks C g (.frame f) = x → (∃ c, x = [.control c]) ∨ x = [] →
            loopsOf (loopCount cur (x ++ ops.flatMap (opBlks C g))) = repetitions ops (ops.map (opResult g)) (loopsOf cur) := by
          intro x _ hx
          rcases hx with ⟨c, rfl⟩ | rfl
          · exact loops_ops C g ops cur
          · exact loops_ops C g ops cur
        refine hb _ rfl ?_
        rcases opBlks_other C g _ h with ⟨l, x, hx⟩ | hx | hx
        · exfalso
          unfold opBlks at hx
          by_cases h1 : f.buffer.length < f.width.toNat * f.height.toNat
          · simp only [if_pos h1] at hx; cases hx
          · simp only [if_neg h1] at hx
            by_cases h2 : (paletteError g f).isSome = true
            · simp only [if_pos h2] at hx; cases hx
            · simp only [if_neg h2] at hx; cases hx
        · exact .inl hx
        · exact .inr hx
      | preEncoded f =>
        have hb : ∀ x, opBlks C g (.preEncoded f) = x → (∃ c, x = [.control c]) ∨ x = [] →
            loopsOf (loopCount cur (x ++ ops.flatMap (opBlks C g))) = repetitions ops (ops.map (opResult g)) (loopsOf cur) := by
          intro x _ hx
          rcases hx with ⟨c, rfl⟩ | rfl
          · exact loops_ops C g ops cur
          · exact loops_ops C g ops cur
        refine hb _ rfl ?_
        rcases opBlks_other C g _ h with ⟨l, x, hx⟩ | hx | hx
        · exfalso
          unfold opBlks at hx
          by_cases h1 : badCodeSize f
          · simp only [if_pos h1] at hx; cases hx
          · simp only [if_neg h1] at hx
            by_cases h2 : (paletteError g f).isSome = true
            · simp only [if_pos h2] at hx; cases hx
            · simp only [if_neg h2] at hx; cases hx
        · exact .inl hx
        · exact .inr hx

/-! ## The file can be read -/

theorem subsOf_ne {d : List UInt8} (h : d ≠ []) : subsOf d ≠ [] := by
  intro hs
  apply h
  rw [← subsOf_flatten d, hs]
  rfl

theorem flatMap_subsOf_ok (data : List (List UInt8)) : SubsOk (data.flatMap subsOf) := by
  intro b hb
  obtain ⟨d, _, hd⟩ := List.mem_flatMap.mp hb
  exact subsOf_ok d b hd

theorem encode_ne {C : Codec} (K : C.Contract) (f : Frame) : ∃ m data, (f.makeLzwPreEncoded C).buffer = m :: data ∧ data ≠ [] ∧
    2 ≤ m ∧ m ≤ 8 ∧ K.Yields (C.new m) data f.buffer .ended := by
  obtain ⟨m, hm, h2, h8, hlt, _⟩ := C20_code_size C f
  have hy := K.roundtrip (m := m) (data := f.buffer) (by exact UInt8.le_iff_toNat_le.mpr h2) (UInt8.le_iff_toNat_le.mpr h8) hlt
  refine ⟨m, _, hm, ?_, UInt8.le_iff_toNat_le.mpr h2, UInt8.le_iff_toNat_le.mpr h8, hy⟩
  intro h
  rw [h] at hy
  have := (K.det hy (K.nil m)).2
  cases this

/-- The blocks of a call can be read. -/
theorem opBlks_fits {C : Codec} (K : C.Contract) {o : DecodeOptions} {w h : UInt16} {g : Bool} {op : EncOp} (hpl : Plain o op)
    (had : isFrame op = true → opResult g op = .ok () → Admissible C o w h op) : ∀ b ∈ opBlks C g op, b.Ok ∧ b.Fits o := by
  have hrep : ∀ r, o.memoryLimit.sizeOk 15 = true → ∀ b ∈ repeatBlks r, b.Ok ∧ b.Fits o := by
    intro r hs b hb
    unfold repeatBlks at hb
    split at hb
    · cases hb
    · rw [List.mem_singleton] at hb
      subst hb
      refine ⟨⟨.inr (.inr rfl), by simp [repeatSubs], ?_⟩, ?_⟩
      · intro x hx
        simp only [repeatSubs, List.mem_cons, List.not_mem_nil, or_false] at hx
        rcases hx with rfl | rfl <;> simp [netscapeName]
      · show o.memoryLimit.sizeOk (1 + (repeatSubs _).flatten.length) = true
        simp only [repeatSubs, List.flatten_cons, List.flatten_nil, List.length_append, netscapeName, List.length_cons, List.length_nil]
        exact hs
  by_cases hfr : isFrame op = true ∧ opResult g op = .ok ()
  · intro b hb
    have hpe := paletteError_of_ok (C := C) hfr.1 hfr.2
    rw [opBlks_frame C g op hfr.1 hfr.2] at hb
    have hs5 : o.memoryLimit.sizeOk 5 = true := by
      cases op with
      | frame f => exact hpl
      | preEncoded f => exact hpl
      | setRepeat r => cases hfr.1
      | extension x => cases hfr.1
      | rawExtension l d => cases hfr.1
    simp only [List.mem_cons, List.not_mem_nil, or_false] at hb
    rcases hb with rfl | rfl
    · exact ⟨trivial, hs5⟩
    · refine ⟨imageOf_ok _ _ (paletteError_none hpe), ?_⟩
      show subsOf (compressed C op).buffer.tail ≠ []
      apply subsOf_ne
      obtain ⟨_, h3⟩ := had hfr.1 hfr.2
      cases op with
      | frame f =>
        obtain ⟨m, data, hm, hd, _⟩ := encode_ne K f
        show (f.makeLzwPreEncoded C).buffer.tail ≠ []
        rw [hm]; exact hd
      | preEncoded f =>
        have := h3 f rfl
        show f.buffer.tail ≠ []
        intro ht
        have hl := congrArg List.length ht
        rw [List.length_tail, List.length_nil] at hl
        omega
      | setRepeat r => cases hfr.1
      | extension x => cases hfr.1
      | rawExtension l d => cases hfr.1
  · intro b hb
    cases op with
    | setRepeat r => exact hrep r hpl b hb
    | extension x =>
      cases x with
      | control fl d t =>
        simp only [opBlks, List.mem_singleton] at hb
        subst hb
        exact ⟨trivial, hpl⟩
      | repetitions r => exact hrep r hpl b hb
    | rawExtension l d =>
      simp only [opBlks, List.mem_singleton] at hb
      subst hb
      obtain ⟨h1, h2, h3⟩ := hpl
      refine ⟨⟨h1, ?_, flatMap_subsOf_ok d⟩, ?_⟩
      · intro hn
        apply h2
        rw [← flatten_subsOf d, hn]
        rfl
      · show o.memoryLimit.sizeOk (1 + (d.flatMap subsOf).flatten.length) = true
        rw [flatten_subsOf]
        exact h3
    | frame f =>
      rcases opBlks_other C g _ hfr with ⟨l, x, hx⟩ | ⟨c, hx⟩ | hx
      · exfalso
        unfold opBlks at hx
        by_cases h1 : f.buffer.length < f.width.toNat * f.height.toNat
        · simp only [if_pos h1] at hx; cases hx
        · simp only [if_neg h1] at hx
          by_cases h2 : (paletteError g f).isSome = true
          · simp only [if_pos h2] at hx; cases hx
          · simp only [if_neg h2] at hx; cases hx
      · rw [hx, List.mem_singleton] at hb
        subst hb
        exact ⟨trivial, hpl⟩
      · rw [hx] at hb; cases hb
    | preEncoded f =>
      rcases opBlks_other C g _ hfr with ⟨l, x, hx⟩ | ⟨c, hx⟩ | hx
      · exfalso
        unfold opBlks at hx
        by_cases h1 : badCodeSize f
        · simp only [if_pos h1] at hx; cases hx
        · simp only [if_neg h1] at hx
          by_cases h2 : (paletteError g f).isSome = true
          · simp only [if_pos h2] at hx; cases hx
          · simp only [if_neg h2] at hx; cases hx
      · rw [hx, List.mem_singleton] at hb
        subst hb
        exact ⟨trivial, hpl⟩
      · rw [hx] at hb; cases hb

end Gif
