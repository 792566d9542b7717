import Verif.Props.Build
import Verif.Props.Descent
import Verif.Lemmas.DescentGrammar
/-!
C75: an encoder that gets no memory.
-/

namespace Gif

open Spec Encoder

variable {C : Codec}

/-! ## One call -/

theorem oom_chunks {g : Bool} {f : Frame} (hb : f.width.toNat * f.height.toNat ≤ f.buffer.length) (hp : paletteError g f = none) :
    (onChunks false C g (.frame f)).flatten = (ctrlOf f).render ++ Descent.descriptor (imageOf f []) ∧
    onResult false g (.frame f) = .err (.io .outOfMemory) := by
  constructor
  · simp only [onChunks, Bool.false_eq_true, if_false, if_neg (Nat.not_lt.2 hb), hp, Option.isSome_none, List.flatten_append,
      ctrlChunks_flatten]
    have h := descChunks_flatten f [] (paletteError_none hp)
    have h2 : (imageOf f []).renderHead = Descent.descriptor (imageOf f []) ++ [(imageOf f []).minCode] := rfl
    rw [h2] at h
    rw [List.append_cancel_right h]
  · simp only [onResult, Bool.false_eq_true, if_false, opResult, if_neg (Nat.not_lt.2 hb), hp]

/-- C75: `write_frame` without memory. The frame is not rejected for another reason, and the writer works: the call returns
`OutOfMemory`, but control extension, image descriptor and colour table of the frame have been written, and no data. -/
theorem out_of_memory (debug : Bool) (C : Codec) (e : Encoder) (s : Sink) (hs : e.w = some s) (hw : s.Working) (f : Frame)
    (hb : f.width.toNat * f.height.toNat ≤ f.buffer.length) (hd : debug = true → (f.width > 0 ∧ f.height > 0) ∨ f.buffer = [])
    (hp : ∀ p, f.palette = some p → p.length / 3 ≤ 256) (hg : f.palette = none → e.globalPalette = true) :
    (e.writeFrameOn debug false C f).2 = .err (.io .outOfMemory) ∧
    ∃ s' c i, (e.writeFrameOn debug false C f).1.w = some s' ∧ s'.Working ∧
      s'.written = s.written ++ (0x21 :: 0xF9 :: 4 :: c :: le16 f.delay ++ [f.transparent.getD 0, 0]) ++
        (0x2C :: le16 f.left ++ le16 f.top ++ le16 f.width ++ le16 f.height ++ [i] ++ (f.palette.map padded).getD []) ∧
      -- with memory the data follow
      ∃ s2 m data, (e.writeFrameOn debug true C f).1.w = some s2 ∧ (e.writeFrameOn debug true C f).2 = .ok () ∧
        s2.written = s'.written ++ m :: data ∧ 2 ≤ m.toNat ∧ m.toNat ≤ 8 := by
  have hpe : paletteError e.globalPalette f = none := by
    unfold paletteError
    cases hx : f.palette with
    | some p => simp only; rw [if_pos (hp p hx)]
    | none => simp only; rw [hg hx]; rfl
  obtain ⟨h1, h2⟩ := oom_chunks (C := C) hb hpe
  have hne : e.w ≠ none := by rw [hs]; simp
  obtain ⟨s', k1, k2, k3, k4⟩ := (does_on debug false C e (.frame f) hne hd).working hs hw
  obtain ⟨s2, m1, m2, m3, m4⟩ := (does_on debug true C e (.frame f) hne hd).working hs hw
  rw [h1] at k2
  refine ⟨k4.trans h2, s', (ctrlOf f).packed, (imageOf f []).packed, k1, k3, ?_, s2, ?_⟩
  · rw [k2, ← List.append_assoc]
    have hpal : (imageOf f []).table.getD [] = (f.palette.map padded).getD [] := by
      unfold imageOf
      cases hx : f.palette with
      | none => rfl
      | some p => simp only [Option.map_some, Option.getD_some]; rw [padTable_eq p (hp p hx)]
    simp only [Descent.descriptor, hpal]
    simp only [Control.render, ctrlOf, imageOf, List.append_assoc, List.cons_append, List.nil_append]
  · have hc : onChunks true C e.globalPalette (.frame f) = frameChunks f (lzwEncode C f.buffer []) := by
      simp only [onChunks, if_true, opChunks, if_neg (Nat.not_lt.2 hb), hpe, Option.isSome_none]
      rfl
    have hr : onResult true e.globalPalette (.frame f) = .ok () := by
      simp only [onResult, if_true, opResult, if_neg (Nat.not_lt.2 hb), hpe]
    rw [hc] at m2
    have hfl : (frameChunks f (lzwEncode C f.buffer [])).flatten =
        (ctrlChunks f ++ descChunks f).flatten ++ (imageChunks (lzwEncode C f.buffer [])).flatten := by
      simp [frameChunks]
    have hpre : (ctrlChunks f ++ descChunks f).flatten = (ctrlOf f).render ++ Descent.descriptor (imageOf f []) := by
      rw [← h1]
      simp only [onChunks, Bool.false_eq_true, if_false, if_neg (Nat.not_lt.2 hb), hpe, Option.isSome_none]
    rw [hfl, hpre, imageChunks_flatten] at m2
    obtain ⟨m, hm, g2, g8, _⟩ := C20_code_size C f
    have hh : (lzwEncode C f.buffer []).headD 2 = m := by
      have : (f.makeLzwPreEncoded C).buffer = lzwEncode C f.buffer [] := rfl
      rw [← this, hm]; rfl
    refine ⟨m, renderSubs (subsOf (lzwEncode C f.buffer []).tail), m1, m4.trans hr, ?_, g2, g8⟩
    rw [m2, k2, hh]
    simp

/-- C75: nothing else depends on the memory: other calls, and frames that are rejected anyway. -/
theorem oom_only_frames (debug : Bool) (C : Codec) (e : Encoder) (op : EncOp)
    (h : ∀ f, op = .frame f → f.buffer.length < f.width.toNat * f.height.toNat ∨
      (∃ p, f.palette = some p ∧ 256 < p.length / 3) ∨ (f.palette = none ∧ e.globalPalette = false)) (hw : e.w ≠ none) :
    (op.runOn debug false C e).1.w = (op.runOn debug true C e).1.w ∧ (op.runOn debug false C e).2 = (op.runOn debug true C e).2 := by
  cases op with
  | frame f =>
    by_cases hd : debug = true ∧ ¬ ((f.width > 0 ∧ f.height > 0) ∨ f.buffer.isEmpty = true)
    · show (e.writeFrameOn debug false C f).1.w = (e.writeFrameOn debug true C f).1.w ∧ (e.writeFrameOn debug false C f).2 = (e.writeFrameOn debug true C f).2
      unfold writeFrameOn
      by_cases hb : f.buffer.length < f.width.toNat * f.height.toNat
      · rw [if_pos hb, if_pos hb]; exact ⟨rfl, rfl⟩
      · rw [if_neg hb, if_neg hb, if_pos hd, if_pos hd]; exact ⟨rfl, rfl⟩
    · have hs : debug = true → (EncOp.frame f).Sane := by
        intro h1
        refine Classical.byContradiction fun hn => hd ⟨h1, fun hx => hn ?_⟩
        rcases hx with hx | hx
        · exact .inl hx
        · exact .inr (List.isEmpty_iff.1 hx)
      obtain ⟨s, hsk⟩ := Option.ne_none_iff_exists'.1 hw
      have a := (does_on debug false C e (.frame f) hw hs).run s hsk
      have b := (does_on debug true C e (.frame f) hw hs).run s hsk
      have hc : onChunks false C e.globalPalette (.frame f) = onChunks true C e.globalPalette (.frame f) ∧
          onResult false e.globalPalette (.frame f) = onResult true e.globalPalette (.frame f) := by
        simp only [onChunks, onResult, opChunks, opResult, Bool.false_eq_true, if_false, if_true]
        by_cases hb : f.buffer.length < f.width.toNat * f.height.toNat
        · simp [if_pos hb]
        · simp only [if_neg hb]
          have hpe : ∃ err, paletteError e.globalPalette f = some err := by
            unfold paletteError
            rcases h f rfl with h | ⟨p, h1, h2⟩ | ⟨h1, h2⟩
            · exact absurd h hb
            · rw [h1]; simp only; rw [if_neg (by omega)]; exact ⟨_, rfl⟩
            · rw [h1, h2]; exact ⟨_, rfl⟩
          obtain ⟨err, hpe⟩ := hpe
          simp [hpe]
      rw [hc.1, hc.2] at a
      exact ⟨a.1.trans b.1.symm, a.2.trans b.2.symm⟩
  | _ => exact ⟨rfl, rfl⟩

/-! ## Files -/

theorem runOpsOn_working (debug : Bool) (C : Codec) : ∀ (ops : List (EncOp × Bool)) (e : Encoder) (s : Sink), e.w = some s → s.Working →
    (debug = true → ∀ x ∈ ops, x.1.Sane) →
    ∃ s', (runOpsOn debug C e ops).1.w = some s' ∧ s'.Working ∧
      s'.written = s.written ++ ops.flatMap (fun x => (onChunks x.2 C e.globalPalette x.1).flatten) ∧
      (runOpsOn debug C e ops).2 = ops.map (fun x => onResult x.2 e.globalPalette x.1)
  | [], e, s, hs, hw, _ => ⟨s, hs, hw, by simp, rfl⟩
  | (op, room) :: ops, e, s, hs, hw, hsane => by
    have hd := does_on debug room C e op (by simp [hs]) (fun h => hsane h (op, room) (by simp))
    obtain ⟨s1, h1, h2, h3, h4⟩ := hd.working hs hw
    obtain ⟨s2, k1, k2, k3, k4⟩ := runOpsOn_working debug C ops (op.runOn debug room C e).1 s1 h1 h3
      (fun h x hx => hsane h x (by simp [hx]))
    rw [hd.palette] at k3 k4
    refine ⟨s2, k1, k2, ?_, ?_⟩
    · rw [k3, h2]; simp
    · simp only [runOpsOn, List.map_cons, k4, h4]

theorem encodeFileOn_eq (debug : Bool) (C : Codec) (np : Bool) (w h : UInt16) (pal : List UInt8) (ops : List (EncOp × Bool))
    (hp : pal.length / 3 ≤ 256) (hs : debug = true → ∀ x ∈ ops, x.1.Sane) (bs : List Blk) :
    encodeFileOn debug C np w h pal ops =
      (some ((fileOf w h pal bs).renderHead ++ ops.flatMap (fun x => (onChunks x.2 C (3 ≤ pal.length) x.1).flatten) ++ [0x3B]),
      ops.map (fun x => onResult x.2 (3 ≤ pal.length) x.1)) := by
  have d := does_writeGlobalPalette { written := [], plan := [] } w h pal hp
  have hw0 : Sink.Working { written := [], plan := [] } := by intro p hp; simp at hp
  obtain ⟨s1, a1, a2, a3, a4⟩ := d.working (s := { written := [], plan := [] }) rfl hw0
  have hpal := d.palette
  unfold encodeFileOn
  have hnew : Encoder.new np { written := [], plan := [] } w h pal =
      (((fresh { written := [], plan := [] } w h false).writeGlobalPalette pal).1, .ok ()) := by
    have hx : (fresh { written := [], plan := [] } w h false).writeGlobalPalette pal =
        (((fresh { written := [], plan := [] } w h false).writeGlobalPalette pal).1, .ok ()) := by rw [← a4]
    unfold fresh at hx ⊢
    unfold Encoder.new
    rw [hx]
  rw [hnew]
  generalize ((fresh { written := [], plan := [] } w h false).writeGlobalPalette pal).1 = e at *
  obtain ⟨s2, b1, b2, b3, b4⟩ := runOpsOn_working debug C ops e s1 a1 a3 hs
  simp only
  generalize runOpsOn debug C e ops = x at *
  obtain ⟨e2, rs⟩ := x
  simp only at *
  obtain ⟨s3, c1, c2, c3, c4⟩ := C29_into_inner np e2 s2 b1 b2
  generalize e2.intoInner np = x at *
  obtain ⟨e3, out⟩ := x
  simp only at *
  subst c1
  simp only
  have hg : e.globalPalette = decide (3 ≤ pal.length) := hpal
  rw [c2, b3, a2, b4, hg, headerChunks_flatten w h pal hp bs]
  simp

/-- Whatever a call writes begins with an extension. -/
theorem on_first (room : Bool) (g : Bool) (op : EncOp) :
    (onChunks room C g op).flatten = [] ∨ ∃ l, (onChunks room C g op).flatten = 0x21 :: l := by
  have hrep : ∀ r : Repeat, renderBlks (repeatBlks r) = [] ∨ ∃ l, renderBlks (repeatBlks r) = 0x21 :: l := by
    intro r
    unfold repeatBlks
    split
    · exact .inl rfl
    · exact .inr ⟨_, rfl⟩
  have hop : ∀ op : EncOp, (opChunks C g op).flatten = [] ∨ ∃ l, (opChunks C g op).flatten = 0x21 :: l := by
    intro op
    rw [opChunks_flatten]
    cases op with
    | setRepeat r => exact hrep r
    | extension x =>
      cases x with
      | control fl d t => right; exact ⟨_, rfl⟩
      | repetitions r => exact hrep r
    | rawExtension l d => right; exact ⟨_, rfl⟩
    | frame f =>
      unfold opBlks
      simp only
      split
      · exact .inl rfl
      · split
        · right; exact ⟨_, rfl⟩
        · right; exact ⟨_, rfl⟩
    | preEncoded f =>
      unfold opBlks
      simp only
      split
      · exact .inl rfl
      · split
        · right; exact ⟨_, rfl⟩
        · right; exact ⟨_, rfl⟩
  cases op with
  | frame f =>
    cases room with
    | true => exact hop (.frame f)
    | false =>
      simp only [onChunks, Bool.false_eq_true, if_false]
      split
      · exact .inl rfl
      · split
        · right; rw [ctrlChunks_flatten]; exact ⟨_, rfl⟩
        · right; rw [List.flatten_append, ctrlChunks_flatten]; exact ⟨_, rfl⟩
  | setRepeat r => exact hop (.setRepeat r)
  | extension x => exact hop (.extension x)
  | rawExtension l d => exact hop (.rawExtension l d)
  | preEncoded f => exact hop (.preEncoded f)

theorem behind_first : ∀ (b : List (EncOp × Bool)) (g : Bool) (junk : List UInt8), ∃ m rest,
    b.flatMap (fun x => (onChunks x.2 C g x.1).flatten) ++ 0x3B :: junk = m :: rest ∧ (m = 0x21 ∨ m = 0x3B)
  | [], _, junk => ⟨0x3B, junk, rfl, .inr rfl⟩
  | (op, room) :: b, g, junk => by
    rcases on_first (C := C) room g op with h | ⟨l, h⟩
    · obtain ⟨m, rest, h1, h2⟩ := behind_first b g junk
      exact ⟨m, rest, by rw [List.flatMap_cons]; simp only [h, List.nil_append]; exact h1, h2⟩
    · exact ⟨0x21, _, by rw [List.flatMap_cons]; simp only [h, List.cons_append]; rfl, .inl rfl⟩

theorem frames_control (c : Control) : ∀ (bs : List Blk) (gr : Graphic), frames gr (bs ++ [.control c]) = frames gr bs
  | [], _ => rfl
  | .control _ :: bs, _ => frames_control c bs _
  | .ext _ _ :: bs, gr => frames_control c bs gr
  | .image i :: bs, gr => by
    show (gr, i) :: frames .default (bs ++ [.control c]) = (gr, i) :: frames .default bs
    rw [frames_control c bs]
  | .unknown _ _ :: bs, gr => frames_control c bs gr

theorem loops_control (c : Control) : ∀ (bs : List Blk) (l : Loops), loopCount l (bs ++ [.control c]) = loopCount l bs
  | [], _ => rfl
  | .control _ :: bs, l => loops_control c bs l
  | .ext _ _ :: bs, l => loops_control c bs _
  | .image _ :: _, _ => rfl
  | .unknown _ _ :: _, _ => rfl

/-- C75: what such a file is good for. The frames before are read. The next call fails, whatever has been written afterwards and
whatever follows the file: no frame behind can be reached. -/
theorem oom_unreadable (K : C.Contract) {o : DecodeOptions} (debug np : Bool) {w h : UInt16} {pal : List UInt8}
    (hpal : pal.length / 3 ≤ 256) {a : List EncOp} {f : Frame} {b : List (EncOp × Bool)}
    (hsane : debug = true → ∀ x ∈ a.map (·, true) ++ (.frame f, false) :: b, x.1.Sane)
    (hpl : ∀ op ∈ a, Plain o op) (h5 : o.memoryLimit.sizeOk 5 = true) {file : List UInt8} {rs : List (EOut Unit)}
    (henc : encodeFileOn debug C np w h pal (a.map (·, true) ++ (.frame f, false) :: b) = (some file, rs))
    (hoom : rs[a.length]? = some (.err (.io .outOfMemory)))
    (had : ∀ op ∈ written a (rs.take a.length), Admissible C o w h op) (hld : ∀ op ∈ written a (rs.take a.length), Held C o op)
    (hin : o.checkFrameConsistency = true → f.left.toNat + f.width.toNat ≤ w.toNat ∧ f.top.toNat + f.height.toNat ≤ h.toNat)
    {junk : List UInt8} {r : Reader} (hr : r.Reliable) (hb : r.bytes = file ++ junk) :
    ∃ e, (e = .io .unexpectedEof ∨ e = .format .invalidMinCodeSize) ∧
      Decoder.rawFilm C o r ((written a (rs.take a.length)).length + 1) =
        projection w h pal (repetitions a (rs.take a.length) (.finite 0))
          ((written a (rs.take a.length)).map fun op => readRaw (compressed C op)) 0 ++ [.failed e] := by
  rw [encodeFileOn_eq debug C np w h pal _ hpal hsane []] at henc
  simp only [Prod.mk.injEq, Option.some.injEq] at henc
  obtain ⟨hfile, rfl⟩ := henc
  have htake : ((a.map (·, true) ++ (.frame f, false) :: b).map (fun x => onResult x.2 (3 ≤ pal.length) x.1)).take a.length =
      a.map (opResult (3 ≤ pal.length)) := by
    rw [List.map_append, List.map_map, List.take_append_of_le_length (by simp), List.take_of_length_le (by simp)]
    refine List.map_congr_left fun op _ => ?_
    cases op <;> rfl
  rw [htake] at had hld ⊢
  have hres : onResult false (decide (3 ≤ pal.length)) (.frame f) = .err (.io .outOfMemory) := by
    rw [List.map_append, List.getElem?_append_right (by simp)] at hoom
    simpa using hoom
  have hacc : f.width.toNat * f.height.toNat ≤ f.buffer.length ∧ paletteError (decide (3 ≤ pal.length)) f = none := by
    simp only [onResult, Bool.false_eq_true, if_false, opResult] at hres
    by_cases hs : f.buffer.length < f.width.toNat * f.height.toNat
    · simp only [if_pos hs] at hres; cases hres
    · simp only [if_neg hs] at hres
      refine ⟨by omega, ?_⟩
      cases hp : paletteError (decide (3 ≤ pal.length)) f with
      | none => rfl
      | some err =>
        rw [hp] at hres
        simp only at hres
        unfold paletteError at hp
        cases hq : f.palette with
        | none =>
          rw [hq] at hp
          simp only at hp
          split at hp
          · cases hp
          · cases hp; cases hres
        | some p =>
          rw [hq] at hp
          simp only at hp
          split at hp
          · cases hp
          · cases hp; cases hres
  obtain ⟨c1, _⟩ := oom_chunks (C := C) hacc.1 hacc.2
  have hi := imageOf_ok f [] (paletteError_none hacc.2)
  obtain ⟨m, rest, hm1, hm2⟩ := behind_first (C := C) b (decide (3 ≤ pal.length)) junk
  -- the file up to the control extension
  let g : File := fileOf w h pal (a.flatMap (opBlks C (3 ≤ pal.length)) ++ [.control (ctrlOf f)])
  have hbytes : r.bytes = g.renderHead ++ renderBlks g.blocks ++ (Descent.descriptor (imageOf f []) ++ m :: rest) := by
    rw [hb, ← hfile]
    have hra : (a.map (·, true)).flatMap (fun x : EncOp × Bool => (onChunks x.2 C (decide (3 ≤ pal.length)) x.1).flatten) =
        renderBlks (a.flatMap (opBlks C (3 ≤ pal.length))) := by
      rw [List.flatMap_map]
      unfold renderBlks
      rw [List.flatMap_assoc]
      congr 1
      funext op
      have : onChunks true C (decide (3 ≤ pal.length)) op = opChunks C (decide (3 ≤ pal.length)) op := by cases op <;> rfl
      simp only [this]
      exact opChunks_flatten C _ op
    rw [List.flatMap_append, List.flatMap_cons, hra]
    simp only [c1, ← hm1]
    show (fileOf w h pal []).renderHead ++ _ ++ [0x3B] ++ junk = (fileOf w h pal []).renderHead ++ renderBlks (_ ++ _) ++ _
    have hrb : renderBlks (a.flatMap (opBlks C (3 ≤ pal.length)) ++ [.control (ctrlOf f)]) =
        renderBlks (a.flatMap (opBlks C (3 ≤ pal.length))) ++ (ctrlOf f).render := by
      simp [renderBlks, Blk.render]
    rw [hrb]
    simp only [List.append_assoc, List.cons_append, List.nil_append]
  have hmem : ∀ (op : EncOp) (ops : List EncOp), isFrame op = true → opResult (3 ≤ pal.length) op = .ok () → op ∈ ops →
      op ∈ written ops (ops.map (opResult (3 ≤ pal.length))) := by
    intro op ops h1 h2
    induction ops with
    | nil => intro h; cases h
    | cons x ops ih =>
      intro hm
      rw [List.map_cons, written]
      rcases List.mem_cons.mp hm with rfl | hm
      · rw [if_pos ⟨h1, h2⟩]; exact List.mem_cons_self
      · by_cases ha : isFrame x = true ∧ opResult (3 ≤ pal.length) x = .ok ()
        · rw [if_pos ha]; exact List.mem_cons_of_mem _ (ih hm)
        · rw [if_neg ha]; exact ih hm
  have hblk : ∀ x ∈ g.blocks, x.Ok ∧ x.Fits o := by
    intro x hx
    rcases List.mem_append.1 hx with hx | hx
    · obtain ⟨op, hop, hx⟩ := List.mem_flatMap.mp hx
      exact opBlks_fits K (w := w) (h := h) (hpl op hop) (fun h1 h2 => had op (hmem op a h1 h2 hop)) x hx
    · rw [List.mem_singleton] at hx
      subst hx
      exact ⟨trivial, h5⟩
  have hun : ∀ x ∈ g.blocks, ∀ t subs, x ≠ .unknown t subs := by
    intro x hx t subs
    rcases List.mem_append.1 hx with hx | hx
    · obtain ⟨op, _, hx⟩ := List.mem_flatMap.mp hx
      exact opBlks_known C _ op x hx t subs
    · rw [List.mem_singleton] at hx
      subst hx
      simp
  have hfr : g.frames = (written a (a.map (opResult (3 ≤ pal.length)))).map (frameOf C) := by
    show frames .default (_ ++ [_]) = _
    rw [frames_control]
    exact frames_ops C _ a _
  have hver : ∀ x ∈ g.frames, g.verdict o x.2 = none := by
    rw [hfr]
    intro x hx
    obtain ⟨op, hop, rfl⟩ := List.mem_map.mp hx
    obtain ⟨_, m2, m3⟩ := written_mem _ a op hop
    exact made_held (pal := pal) (ops := a) K m2 m3 (had op hop) (hld op hop)
  have hview : ∀ x, g.view x = screen w h pal (repetitions a (a.map (opResult (3 ≤ pal.length))) (.finite 0)) x := by
    intro x
    rw [← made_view (C := C) w h pal hpal a x]
    have hl : g.loops = (madeFile C w h pal a).loops := loops_control _ _ _
    unfold File.view
    rw [hl]
    rfl
  obtain ⟨l, hdl⟩ : ∃ l, Descent.descriptor (imageOf f []) = 0x2C :: l := ⟨_, rfl⟩
  obtain ⟨n, cur, hgif⟩ := Descent.gif_blks (o := o) (g := g) (fileOf_ok w h pal hpal _ (fun x hx => (hblk x hx).1))
    (fun x hx => (hblk x hx).2) hun hver (t := 0x2C) (tail := l ++ m :: rest) (by decide) (by simp) 1
  have h11 : 11 < m.toNat := by rcases hm2 with rfl | rfl <;> decide
  have htorn := Descent.reading_torn (o := o) (g := g) g.loops cur n hi (by
    intro hc
    exact hin hc) h11 rest
  rw [hdl, List.cons_append] at htorn
  refine ⟨if rest = [] then .io .unexpectedEof else .format .invalidMinCodeSize, by split <;> simp, ?_⟩
  rw [Decoder.rawFilm_gif K.safe o hr, hbytes, hdl, List.cons_append]
  have hlen : (written a (a.map (opResult (3 ≤ pal.length)))).length = g.frames.length := by rw [hfr, List.length_map]
  rw [hlen]
  refine hgif.trans ?_
  have ht : Descent.reading o g g.loops (List.replicate 1 .read) cur (.block n (0x2C :: (l ++ m :: rest))) = _ := htorn
  rw [ht]
  simp only [hview]
  rw [hfr, List.map_map]
  unfold projection
  simp only [List.replicate_zero, List.append_nil, List.map_map, List.cons_append]
  congr 2
  refine List.map_congr_left fun op hop => ?_
  obtain ⟨_, m2, m3⟩ := written_mem _ a op hop
  simp only [Function.comp, rawFrame_frameOf (paletteError_of_ok m2 m3) (buffer_ne K m2 (had op hop))]

/-! ## The assumptions are met -/

/-- A frame of one pixel. -/
def dotFrame : Frame := { Frame.default with width := 1, height := 1, buffer := [1] }

/-- The second of three frames gets no memory. -/
def tornFile : List UInt8 :=
  [71, 73, 70, 56, 57, 97, 1, 0, 1, 0, 128, 0, 0, 1, 2, 3, 4, 5, 6] ++
    [33, 249, 4, 4, 0, 0, 0, 0, 44, 0, 0, 0, 0, 1, 0, 1, 0, 0, 2, 2, 76, 1, 0] ++
    [33, 249, 4, 4, 0, 0, 0, 0, 44, 0, 0, 0, 0, 1, 0, 1, 0, 0] ++
    [33, 249, 4, 4, 0, 0, 0, 0, 44, 0, 0, 0, 0, 1, 0, 1, 0, 0, 2, 2, 76, 1, 0] ++ [59]

set_option maxRecDepth 100000 in
theorem torn_encode : encodeFileOn true Ref.lzw true 1 1 [1, 2, 3, 4, 5, 6]
    ([EncOp.frame dotFrame].map (·, true) ++ (.frame dotFrame, false) :: [(.frame dotFrame, true)]) =
      (some tornFile, [.ok (), .err (.io .outOfMemory), .ok ()]) := by
  decide +kernel

/-- The first frame is read; the third, written without an error, is not. -/
example : ∃ e, (e = .io .unexpectedEof ∨ e = .format .invalidMinCodeSize) ∧
    Decoder.rawFilm Ref.lzw DecodeOptions.new { buf := tornFile, src := [] } 2 =
      projection 1 1 [1, 2, 3, 4, 5, 6] (repetitions [.frame dotFrame] [.ok ()] (.finite 0))
        [readRaw (compressed Ref.lzw (.frame dotFrame))] 0 ++ [.failed e] :=
  oom_unreadable Ref.lzwContract true true (by decide) (a := [.frame dotFrame]) (f := dotFrame) (b := [(.frame dotFrame, true)])
    (by
      intro _ x h
      simp at h
      have h : x.1 = .frame dotFrame := by rcases h with h | h | h <;> rw [h]
      rw [h]
      exact .inl (by decide))
    (by intro op h; simp at h; subst h; exact rfl) rfl torn_encode rfl
    (by
      intro op h
      simp [written, isFrame] at h
      subst h
      exact ⟨fun _ => by decide, fun g hg => by cases hg⟩)
    (by
      intro op h
      simp [written, isFrame] at h
      subst h
      exact (by decide +kernel : DecodeOptions.new.memoryLimit.sizeOk (compressed Ref.lzw (.frame dotFrame)).buffer.length = true))
    (fun _ => by decide) (junk := []) (by intro ev h; cases h) (by simp [Reader.bytes])

/-- The assumptions of `out_of_memory` and of `oom_only_frames`. -/
example : dotFrame.width.toNat * dotFrame.height.toNat ≤ dotFrame.buffer.length ∧ (dotFrame.width > 0 ∧ dotFrame.height > 0) ∧
    dotFrame.palette = none ∧ ({ dotFrame with buffer := [] } : Frame).buffer.length < dotFrame.width.toNat * dotFrame.height.toNat := by
  decide

end Gif
