import Verif.Props.RoundTrip
/-!
# What the encoder makes of any sequence of calls: C54, C55, C56

C54: the file follows the GIF89a grammar. C55: exactly the frames that can be written are accepted. C56: panics.
-/

namespace Gif

open Encoder

/-! ## C54 -/

namespace Spec

/-- The order of blocks in the grammar of GIF89a: a graphic control extension stands directly before an image or a plain text
extension. The flag tells that there is one before the blocks. -/
def Ordered : Bool → List Blk → Prop
  | pending, [] => pending = false
  | pending, .control _ :: bs => pending = false ∧ Ordered true bs
  | _, .image _ :: bs => Ordered false bs
  | pending, .ext label _ :: bs => (label = 0x01 ∨ pending = false) ∧ Ordered false bs
  | _, .unknown _ _ :: _ => False

/-- A call that leaves graphic control extensions to the encoder, and writes only extensions that GIF89a knows. -/
def Ordinary : EncOp → Prop
  | .extension (.control _ _ _) => False
  | .rawExtension label _ => label = 0x01 ∨ label = 0xFE ∨ label = 0xFF
  | _ => True

/-- The call wrote what it had to, or rejected the frame for its size. -/
def Clean (r : EOut Unit) : Prop := r = .ok () ∨ r = .err (.io .invalidInput) ∨ r = .err (.format .invalidMinCodeSize)

theorem ordered_append (a b : List Blk) : ∀ p, Ordered p a → Ordered false b → Ordered p (a ++ b) := by
  induction a with
  | nil => intro p h hb; rw [Ordered] at h; subst h; exact hb
  | cons x xs ih =>
    intro p h hb
    cases x with
    | control c => exact ⟨h.1, ih _ h.2 hb⟩
    | image i => exact ih _ h hb
    | ext l s => exact ⟨h.1, ih _ h.2 hb⟩
    | unknown t s => exact h

theorem images_append (a b : List Blk) : images (a ++ b) = images a ++ images b := by
  induction a with
  | nil => rfl
  | cons x xs ih => cases x <;> simp [images]

end Spec

open Spec

variable {C : Codec}

/-- `write_frame` panics for a frame without area that has data. -/
theorem run_insane (C : Codec) (e : Encoder) (op : EncOp) (h : ¬ op.Sane) : op.run C e = (e, .panic) := by
  cases op with
  | frame f =>
    have hb : ¬ f.buffer.length < f.width.toNat * f.height.toNat := by
      intro hl
      have h1 : f.width.toNat ≠ 0 := by intro h0; simp [h0] at hl
      have h2 : f.height.toNat ≠ 0 := by intro h0; simp [h0] at hl
      apply h
      left
      simp only [gt_iff_lt, UInt16.lt_iff_toNat_lt]
      simp; omega
    have hd : ¬ ((f.width > 0 ∧ f.height > 0) ∨ f.buffer.isEmpty) := by
      intro hx; apply h; simpa [EncOp.Sane] using hx
    simp only [EncOp.run, Encoder.writeFrame]
    rw [if_neg hb, if_pos hd]
  | setRepeat r => exact absurd trivial h
  | extension x => exact absurd trivial h
  | rawExtension l d => exact absurd trivial h
  | preEncoded f => exact absurd trivial h

theorem run_palette (C : Codec) (e : Encoder) (op : EncOp) (hw : e.w ≠ none) :
    (op.run C e).1.w ≠ none ∧ (op.run C e).1.globalPalette = e.globalPalette := by
  by_cases hs : op.Sane
  · have d := does_op C e op hw hs
    refine ⟨?_, d.palette⟩
    cases he : e.w with
    | none => exact absurd he hw
    | some s => rw [(d.run s he).1]; simp
  · rw [run_insane C e op hs]; exact ⟨hw, rfl⟩

theorem runOps_panic (C : Codec) : ∀ (ops : List EncOp) (e : Encoder), .panic ∉ (runOps C e ops).2 → ∀ op ∈ ops, op.Sane := by
  intro ops
  induction ops with
  | nil => intro e _ op h; cases h
  | cons a ops ih =>
    intro e hp op hop
    have hr : (runOps C e (a :: ops)).2 = (a.run C e).2 :: (runOps C (a.run C e).1 ops).2 := rfl
    rw [hr] at hp
    rcases List.mem_cons.1 hop with rfl | hop
    · refine Classical.byContradiction fun hs => hp ?_
      rw [run_insane C e op hs]
      exact List.mem_cons_self
    · exact ih _ (fun h => hp (List.mem_cons_of_mem _ h)) op hop

/-- `Encoder::new` accepts the global palette, and nothing panicked. -/
theorem encodeFile_cases (np : Bool) (w h : UInt16) (pal : List UInt8) (ops : List EncOp) (file : List UInt8) (rs : List (EOut Unit))
    (henc : encodeFile C np w h pal ops = (some file, rs)) (hp : .panic ∉ rs) :
    pal.length / 3 ≤ 256 ∧ ∀ op ∈ ops, op.Sane := by
  have hpal : pal.length / 3 ≤ 256 := by
    refine Classical.byContradiction fun hgt => ?_
    obtain ⟨e, s', h1, _⟩ := C30_negation np { written := [], plan := [] } (by intro p hp; simp at hp) w h pal (by omega)
    unfold encodeFile at henc
    rw [h1] at henc
    cases henc
  refine ⟨hpal, ?_⟩
  unfold encodeFile at henc
  split at henc
  · rename_i e he
    split at henc
    rename_i e2 rs2 hr
    have hrs : rs = rs2 := by
      split at henc
      · exact (Prod.mk.inj henc).2.symm
      · exact (Prod.mk.inj henc).2.symm
    subst hrs
    have := runOps_panic C ops e
    rw [hr] at this
    exact this hp
  · cases henc

theorem opBlks_ordered (g : Bool) (op : EncOp) (ho : Ordinary op) (hr : Clean (opResult g op)) :
    Ordered false (opBlks C g op) ∧ (∀ b ∈ opBlks C g op, b.Legal) := by
  have hrep : ∀ r, Ordered false (repeatBlks r) ∧ (∀ b ∈ repeatBlks r, b.Legal) := by
    intro r
    unfold repeatBlks
    split
    · exact ⟨rfl, fun b h => by cases h⟩
    · refine ⟨⟨.inr rfl, rfl⟩, fun b hb => ?_⟩
      rw [List.mem_singleton] at hb
      subst hb
      refine ⟨.inr (.inr rfl), ?_⟩
      intro x hx
      simp only [repeatSubs, List.mem_cons, List.not_mem_nil, or_false] at hx
      rcases hx with rfl | rfl <;> simp [netscapeName]
  by_cases hf : isFrame op = true ∧ opResult g op = .ok ()
  · rw [opBlks_frame C g op hf.1 hf.2]
    refine ⟨⟨rfl, rfl⟩, fun b hb => ?_⟩
    simp only [List.mem_cons, List.not_mem_nil, or_false] at hb
    rcases hb with rfl | rfl
    · trivial
    · exact imageOf_ok _ _ (paletteError_none (paletteError_of_ok (C := C) hf.1 hf.2))
  · cases op with
    | setRepeat r => exact hrep r
    | extension x =>
      cases x with
      | control fl d t => exact ho.elim
      | repetitions r => exact hrep r
    | rawExtension l d =>
      refine ⟨⟨.inr rfl, rfl⟩, fun b hb => ?_⟩
      have : b = .ext l (d.flatMap subsOf) := by simpa [opBlks] using hb
      subst this
      refine ⟨ho, fun x hx => ?_⟩
      obtain ⟨y, _, hy⟩ := List.mem_flatMap.1 hx
      exact subsOf_ok y x hy
    | frame f =>
      unfold opResult at hr hf
      unfold opBlks
      by_cases h : f.buffer.length < f.width.toNat * f.height.toNat
      · simp only [if_pos h]
        exact ⟨rfl, fun b h => by cases h⟩
      · simp only [if_neg h] at hr hf ⊢
        cases hpe : paletteError g f with
        | none => rw [hpe] at hf; exact absurd ⟨rfl, rfl⟩ hf
        | some e =>
          rw [hpe] at hr
          exfalso
          unfold paletteError at hpe
          rcases hr with hr | hr | hr
          · cases hr
          · cases hr; cases hp : f.palette <;> rw [hp] at hpe <;> simp only at hpe <;> split at hpe <;> cases hpe
          · cases hr; cases hp : f.palette <;> rw [hp] at hpe <;> simp only at hpe <;> split at hpe <;> cases hpe
    | preEncoded f =>
      unfold opResult at hr hf
      unfold opBlks
      by_cases h : badCodeSize f
      · simp only [if_pos h]
        exact ⟨rfl, fun b h => by cases h⟩
      · simp only [if_neg h] at hr hf ⊢
        cases hpe : paletteError g f with
        | none => rw [hpe] at hf; exact absurd ⟨rfl, rfl⟩ hf
        | some e =>
          rw [hpe] at hr
          exfalso
          unfold paletteError at hpe
          rcases hr with hr | hr | hr
          · cases hr
          · cases hr; cases hp : f.palette <;> rw [hp] at hpe <;> simp only at hpe <;> split at hpe <;> cases hpe
          · cases hr; cases hp : f.palette <;> rw [hp] at hpe <;> simp only at hpe <;> split at hpe <;> cases hpe

/-- The image of an accepted frame. -/
theorem opBlks_images (g : Bool) (op : EncOp) : images (opBlks C g op) =
    if isFrame op = true ∧ opResult g op = .ok () then [(frameOf C op).2] else [] := by
  by_cases hf : isFrame op = true ∧ opResult g op = .ok ()
  · rw [if_pos hf, opBlks_frame C g op hf.1 hf.2]; rfl
  · rw [if_neg hf]
    rcases opBlks_other C g op hf with ⟨l, x, hx⟩ | ⟨c, hx⟩ | hx <;> rw [hx] <;> rfl

theorem ops_images (g : Bool) (ops : List EncOp) : images (ops.flatMap (opBlks C g)) =
    (written ops (ops.map (opResult g))).map fun op => (frameOf C op).2 := by
  induction ops with
  | nil => rfl
  | cons op ops ih =>
    rw [List.flatMap_cons, images_append, ih, opBlks_images, List.map_cons, written]
    split <;> rfl

theorem minCode_range (g : Bool) (op : EncOp) (hf : isFrame op = true) (hr : opResult g op = .ok ()) :
    2 ≤ (frameOf C op).2.minCode.toNat ∧ (frameOf C op).2.minCode.toNat ≤ 11 := by
  cases op with
  | setRepeat r => cases hf
  | extension x => cases hf
  | rawExtension l d => cases hf
  | frame f =>
    obtain ⟨m, hm, h2, h8, _⟩ := C20_code_size C f
    have : (frameOf C (.frame f)).2.minCode = m := by
      show (f.makeLzwPreEncoded C).buffer.headD 2 = m
      cases hb : (f.makeLzwPreEncoded C).buffer with
      | nil => rw [hb] at hm; cases hm
      | cons a as => rw [hb] at hm; cases hm; rfl
    rw [this]; omega
  | preEncoded f =>
    have hb : ¬ badCodeSize f := by
      intro hb
      unfold opResult at hr
      simp only [if_pos hb] at hr
      cases hr
    show 2 ≤ (f.buffer.headD 2).toNat ∧ (f.buffer.headD 2).toNat ≤ 11
    unfold badCodeSize at hb
    cases hbuf : f.buffer with
    | nil => exact ⟨by decide, by decide⟩
    | cons m d =>
      rw [hbuf] at hb
      simp only [gt_iff_lt, UInt8.lt_iff_toNat_lt, not_or, Nat.not_lt] at hb
      exact ⟨hb.2, hb.1⟩

/-- C54: whatever is written with an encoder on a `Vec<u8>`, if control extensions are left to the encoder, raw extensions have the
labels of GIF89a, and no frame was rejected for its palette, then the result is a GIF89a file: the bytes of a file of the
grammar, in which every control extension stands before its image, with one image for every accepted frame. -/
theorem encoder_writes_gif (np : Bool) (w h : UInt16) (pal : List UInt8) (ops : List EncOp) (file : List UInt8) (rs : List (EOut Unit))
    (henc : encodeFile C np w h pal ops = (some file, rs)) (hrs : ∀ r ∈ rs, Clean r) (hord : ∀ op ∈ ops, Ordinary op) :
    ∃ g : File, file = g.render ∧ g.Legal ∧ Ordered false g.blocks ∧ g.v89 = true ∧ g.width = w ∧ g.height = h ∧
      g.background = 0 ∧ g.aspect = 0 ∧
      (images g.blocks).map (fun i => (i.left, i.top, i.width, i.height, i.interlaced)) =
        (written ops rs).map (fun op =>
          ((compressed C op).left, (compressed C op).top, (compressed C op).width, (compressed C op).height, (compressed C op).interlaced)) ∧
      ∀ i ∈ images g.blocks, 2 ≤ i.minCode.toNat ∧ i.minCode.toNat ≤ 11 := by
  obtain ⟨hpal, hsane⟩ := encodeFile_cases np w h pal ops file rs henc (by
    intro hp
    rcases hrs _ hp with h | h | h <;> cases h)
  rw [encodeFile_eq C np w h pal ops hpal hsane] at henc
  simp only [Prod.mk.injEq, Option.some.injEq] at henc
  obtain ⟨rfl, rfl⟩ := henc
  have hall : ∀ op ∈ ops, Clean (opResult (decide (3 ≤ pal.length)) op) := fun op hop => hrs _ (List.mem_map_of_mem hop)
  have hleg : ∀ ops : List EncOp, (∀ op ∈ ops, Clean (opResult (decide (3 ≤ pal.length)) op)) → (∀ op ∈ ops, Ordinary op) →
      Ordered false (ops.flatMap (opBlks C (3 ≤ pal.length))) ∧ ∀ b ∈ ops.flatMap (opBlks C (3 ≤ pal.length)), b.Legal := by
    intro ops
    induction ops with
    | nil => intro _ _; exact ⟨rfl, fun b h => by cases h⟩
    | cons op ops ih =>
      intro h1 h2
      obtain ⟨a, b⟩ := opBlks_ordered (C := C) _ op (h2 op (by simp)) (h1 op (by simp))
      obtain ⟨c, d⟩ := ih (fun o ho => h1 o (by simp [ho])) (fun o ho => h2 o (by simp [ho]))
      rw [List.flatMap_cons]
      refine ⟨ordered_append _ _ _ a c, fun x hx => ?_⟩
      rcases List.mem_append.1 hx with hx | hx
      · exact b x hx
      · exact d x hx
  obtain ⟨ho, hl⟩ := hleg ops hall hord
  refine ⟨_, rfl, ?_, ho, rfl, rfl, rfl, rfl, rfl, ?_, ?_⟩
  · have := fileOf_ok w h pal hpal [] (by simp)
    exact ⟨this.1, this.2.1, this.2.2.1, hl⟩
  · show (images (ops.flatMap (opBlks C (3 ≤ pal.length)))).map _ = _
    rw [ops_images, List.map_map]
    rfl
  · intro i hi
    have hi' : i ∈ images (ops.flatMap (opBlks C (3 ≤ pal.length))) := hi
    rw [ops_images] at hi'
    obtain ⟨op, hop, rfl⟩ := List.mem_map.1 hi'
    obtain ⟨_, h2, h3⟩ := written_mem _ ops op hop
    exact minCode_range _ op h2 h3

/-- An explicit control extension before a frame gives two in a row, which the grammar does not allow: the condition `Ordinary` is
needed. -/
theorem two_controls_fail : ∃ ops : List EncOp, ∃ file, (encodeFile idCodec true 2 1 [] ops).1 = some file ∧
    (∀ r ∈ (encodeFile idCodec true 2 1 [] ops).2, r = .ok ()) ∧
    file = (fileOf 2 1 [] (ops.flatMap (opBlks idCodec false))).render ∧ ¬ Ordered false (ops.flatMap (opBlks idCodec false)) := by
  refine ⟨[.extension (.control 0 0 0), .frame exFrame], _, rfl, by decide, rfl, ?_⟩
  intro h
  exact Bool.noConfusion (show true = false from h.2.1)

/-! ## C55 -/

/-- The results of the calls, with a writer that does not fail. -/
theorem frames_accepted (np : Bool) (w h : UInt16) (pal : List UInt8) (ops : List EncOp) (file : List UInt8) (rs : List (EOut Unit))
    (henc : encodeFile C np w h pal ops = (some file, rs)) (hp : .panic ∉ rs) :
    rs.length = ops.length ∧ ∀ (i : Nat) (hi : i < ops.length) (hr : i < rs.length),
      (∀ f, ops[i] = .frame f →
        (rs[i] = .err (.io .invalidInput) ↔ f.buffer.length < f.width.toNat * f.height.toNat) ∧
        (rs[i] = .err (.format .tooManyColors) ↔ f.width.toNat * f.height.toNat ≤ f.buffer.length ∧
          ∃ p, f.palette = some p ∧ 256 < p.length / 3) ∧
        (rs[i] = .err (.format .missingColorPalette) ↔ f.width.toNat * f.height.toNat ≤ f.buffer.length ∧
          f.palette = none ∧ pal.length < 3) ∧
        (rs[i] = .ok () ↔ f.width.toNat * f.height.toNat ≤ f.buffer.length ∧ (∀ p, f.palette = some p → p.length / 3 ≤ 256) ∧
          (f.palette = none → 3 ≤ pal.length))) ∧
      (∀ f, ops[i] = .preEncoded f →
        (rs[i] = .err (.format .invalidMinCodeSize) ↔ ∃ m d, f.buffer = m :: d ∧ ¬ (2 ≤ m.toNat ∧ m.toNat ≤ 11)) ∧
        (rs[i] = .ok () ↔ (∀ m d, f.buffer = m :: d → 2 ≤ m.toNat ∧ m.toNat ≤ 11) ∧ (∀ p, f.palette = some p → p.length / 3 ≤ 256) ∧
          (f.palette = none → 3 ≤ pal.length))) ∧
      (isFrame ops[i] = false → rs[i] = .ok ()) := by
  obtain ⟨hpal, hsane⟩ := encodeFile_cases np w h pal ops file rs henc hp
  rw [encodeFile_eq C np w h pal ops hpal hsane] at henc
  simp only [Prod.mk.injEq, Option.some.injEq] at henc
  obtain ⟨_, rfl⟩ := henc
  refine ⟨by simp, fun i hi hr => ?_⟩
  rw [List.getElem_map]
  generalize ops[i] = op
  refine ⟨?_, ?_, ?_⟩
  · rintro f rfl
    simp only [opResult]
    by_cases hs : f.buffer.length < f.width.toNat * f.height.toNat
    · have hs' : ¬ f.width.toNat * f.height.toNat ≤ f.buffer.length := by omega
      simp [hs, hs']
    · have hs' : f.width.toNat * f.height.toNat ≤ f.buffer.length := by omega
      simp only [hs, hs', true_and]
      unfold paletteError
      cases hp : f.palette with
      | some p =>
        by_cases h6 : p.length / 3 ≤ 256
        · have h6' : ¬ 256 < p.length / 3 := by omega
          simp [h6, h6']
        · have h6' : 256 < p.length / 3 := by omega
          simp [h6, h6']
      | none =>
        by_cases h3 : 3 ≤ pal.length
        · have h3' : ¬ pal.length < 3 := by omega
          simp [h3, h3']
        · have h3' : pal.length < 3 := by omega
          simp [h3, h3']
  · rintro f rfl
    simp only [opResult]
    have hbad : badCodeSize f ↔ ∃ m d, f.buffer = m :: d ∧ ¬ (2 ≤ m.toNat ∧ m.toNat ≤ 11) := by
      unfold badCodeSize
      cases hb : f.buffer with
      | nil => simp
      | cons m d =>
        simp only [gt_iff_lt, UInt8.lt_iff_toNat_lt]
        have h11 : (11 : UInt8).toNat = 11 := rfl
        have h2 : (2 : UInt8).toNat = 2 := rfl
        rw [h11, h2]
        constructor
        · intro h
          exact ⟨m, d, rfl, by omega⟩
        · rintro ⟨m', d', he, h⟩
          cases he
          omega
    by_cases hs : badCodeSize f
    · rw [if_pos hs]
      obtain ⟨m, d, h1, h2⟩ := hbad.1 hs
      refine ⟨⟨fun _ => ⟨m, d, h1, h2⟩, fun _ => rfl⟩, ⟨(fun h => by cases h), fun h => absurd (h.1 m d h1) h2⟩⟩
    · rw [if_neg hs]
      have hg : ∀ m d, f.buffer = m :: d → 2 ≤ m.toNat ∧ m.toNat ≤ 11 := by
        intro m d hb
        exact Classical.byContradiction fun hn => hs (hbad.2 ⟨m, d, hb, hn⟩)
      have hng : ¬ ∃ m d, f.buffer = m :: d ∧ ¬ (2 ≤ m.toNat ∧ m.toNat ≤ 11) := fun h => hs (hbad.2 h)
      unfold paletteError
      cases hp : f.palette with
      | some p =>
        by_cases h6 : p.length / 3 ≤ 256
        · simp only [if_pos h6, hng, iff_false]
          exact ⟨(fun h => by cases h), ⟨fun _ => ⟨hg, (fun q hq => by cases hq; exact h6), fun h => by cases h⟩, fun _ => trivial⟩⟩
        · simp only [if_neg h6, hng, iff_false]
          exact ⟨(fun h => by cases h), ⟨(fun h => by cases h), fun h => absurd (h.2.1 p rfl) h6⟩⟩
      | none =>
        by_cases h3 : 3 ≤ pal.length
        · simp only [decide_eq_true h3, if_true, hng, iff_false]
          exact ⟨(fun h => by cases h), ⟨fun _ => ⟨hg, (fun q hq => by cases hq), fun _ => h3⟩, fun _ => trivial⟩⟩
        · simp only [decide_eq_false h3, hng, iff_false]
          exact ⟨(fun h => by cases h), ⟨(fun h => by cases h), fun h => absurd (h.2.2 trivial) h3⟩⟩
  · intro hf
    cases op with
    | frame f => cases hf
    | preEncoded f => cases hf
    | _ => rfl

/-! ## C56 -/

/-- C56 does not hold in debug builds: a frame without area that has data makes `write_frame` panic. -/
theorem encoder_panics_fails : ∃ (e : Encoder) (s : Sink) (f : Frame), e.w = some s ∧ s.Working ∧ (e.writeFrame idCodec f).2 = .panic :=
  ⟨exEncoder true [], _, { Frame.default with width := 0, height := 1, buffer := [0] }, rfl, by intro p hp; simp at hp, by decide⟩

/-- C56, proved part: that is the only case. No other call panics, whatever the frame, the encoder and the writer. -/
theorem encoder_panics_partial (C : Codec) (e : Encoder) (op : EncOp) (hw : e.w ≠ none) :
    (op.run C e).2 = .panic ↔ ∃ f, op = .frame f ∧ (f.width = 0 ∨ f.height = 0) ∧ f.buffer ≠ [] := by
  have hsane : ¬ op.Sane ↔ ∃ f, op = .frame f ∧ (f.width = 0 ∨ f.height = 0) ∧ f.buffer ≠ [] := by
    cases op with
    | frame f =>
      have h0 : ∀ x : UInt16, x > 0 ↔ x ≠ 0 := by
        intro x
        rw [gt_iff_lt, UInt16.lt_iff_toNat_lt, ne_eq, ← UInt16.toNat_inj]
        show 0 < x.toNat ↔ ¬ x.toNat = 0
        omega
      constructor
      · intro h
        refine ⟨f, rfl, ?_, fun hb => h (.inr hb)⟩
        refine Classical.byContradiction fun hn => h (.inl ?_)
        rw [h0, h0]
        exact ⟨fun hx => hn (.inl hx), fun hx => hn (.inr hx)⟩
      · rintro ⟨g, hg, h1, h2⟩ hs
        cases hg
        rcases hs with hs | hs
        · rw [h0, h0] at hs
          rcases h1 with h1 | h1
          · exact hs.1 h1
          · exact hs.2 h1
        · exact h2 hs
    | setRepeat r => exact ⟨fun h => absurd trivial h, fun ⟨f, hf, _⟩ => by cases hf⟩
    | extension x => exact ⟨fun h => absurd trivial h, fun ⟨f, hf, _⟩ => by cases hf⟩
    | rawExtension l d => exact ⟨fun h => absurd trivial h, fun ⟨f, hf, _⟩ => by cases hf⟩
    | preEncoded f => exact ⟨fun h => absurd trivial h, fun ⟨f, hf, _⟩ => by cases hf⟩
  rw [← hsane]
  constructor
  · intro h hs
    obtain ⟨s, he⟩ : ∃ s, e.w = some s := by
      cases he : e.w with
      | none => exact absurd he hw
      | some s => exact ⟨s, rfl⟩
    rcases (does_op C e op hw hs).cases he with ⟨_, _, _, _, h4⟩ | ⟨_, _, _, _, _, _, _, _, _, h4⟩
    · rw [h4] at h
      cases op with
      | frame f =>
        unfold opResult at h
        simp only at h
        split at h
        · cases h
        · split at h <;> cases h
      | preEncoded f =>
        unfold opResult at h
        simp only at h
        split at h
        · cases h
        · split at h <;> cases h
      | _ => cases h
    · rw [h4] at h; cases h
  · intro h
    rw [run_insane C e op h]

/-- `drop` panics only without the feature `raii_no_panic`, and then only if the writer fails. -/
theorem drop_panics (np : Bool) (e : Encoder) (h : (e.drop np).2 = .panic) : np = false ∧ ∃ s, e.w = some s ∧ ¬ s.Working := by
  unfold Encoder.drop at h
  cases hw : e.w with
  | none => rw [hw] at h; cases h
  | some s =>
    rw [hw] at h
    simp only at h
    rcases (does_writeTrailer e).cases hw with ⟨s', _, _, _, h4⟩ | ⟨s', code, pre, _, _, _, _, _, h5, h4⟩
    · rcases hx : e.writeTrailer with ⟨e₁, r⟩
      rw [hx] at h4 h
      simp only at h4
      subst h4
      cases h
    · rcases hx : e.writeTrailer with ⟨e₁, r⟩
      rw [hx] at h4 h
      simp only at h4
      subst h4
      cases np with
      | true => cases h
      | false => exact ⟨rfl, s, rfl, h5⟩

/-- Nor do `Encoder::new` and `into_inner` panic, with the feature `raii_no_panic`. -/
theorem new_no_panic (s : Sink) (w h : UInt16) (pal : List UInt8) : (Encoder.new true s w h pal).2 ≠ .panic := by
  intro hp
  by_cases hpal : pal.length / 3 ≤ 256
  · obtain ⟨_, _, _, _, _, _, hr⟩ := C28_new_partial s w h pal hpal (Encoder.new true s w h pal).1 (Encoder.new true s w h pal).2 rfl
    rw [hp] at hr
    rcases hr with ⟨hr, _⟩ | ⟨_, _, hr, _⟩ <;> cases hr
  · obtain ⟨_, _, hr, _⟩ := C30_new_partial s w h pal (by omega)
    rw [hr] at hp; cases hp

theorem into_inner_no_panic (e : Encoder) : (e.intoInner true).2 ≠ .panic := by
  have hd : ∀ e : Encoder, (e.drop true).2 ≠ .panic := fun e h => by cases (drop_panics true e h).1
  intro h
  unfold Encoder.intoInner at h
  have ht : e.writeTrailer.2 ≠ .panic := by
    cases hw : e.w with
    | none => unfold Encoder.writeTrailer Encoder.withWriter; rw [hw]; intro h; cases h
    | some s =>
      rcases (does_writeTrailer e).cases hw with ⟨_, _, _, _, h4⟩ | ⟨_, _, _, _, _, _, _, _, _, h4⟩ <;>
        (rw [h4]; intro h; cases h)
  rcases hx : e.writeTrailer with ⟨e₁, r⟩
  rw [hx] at h ht
  cases r with
  | panic => exact ht rfl
  | ok u =>
    simp only at h
    cases hw : e₁.w with
    | none => rw [hw] at h; cases h
    | some s =>
      rw [hw] at h
      simp only at h
      have := hd { e₁ with w := none }
      rcases hy : ({ e₁ with w := none } : Encoder).drop true with ⟨e₂, r₂⟩
      rw [hy] at h this
      cases r₂ with
      | panic => exact this rfl
      | ok _ => cases h
      | err _ => cases h
  | err err =>
    simp only at h
    have := hd e₁
    rcases hy : e₁.drop true with ⟨e₂, r₂⟩
    rw [hy] at h this
    cases r₂ with
    | panic => exact this rfl
    | ok _ => cases h
    | err _ => cases h

/-! ## Cases -/

/-- A session with a loop count, a comment, two frames, a frame that is too small and a bad pre-encoded frame. -/
def someCalls : List EncOp :=
  [.setRepeat .infinite, .rawExtension 0xFE [[1, 2, 3]], .frame exFrame, .frame { exFrame with width := 3 }, .preEncoded { exFrame with buffer := [1] },
   .preEncoded { exFrame with buffer := [2, 7, 7] }]

example : (encodeFile idCodec true 5 4 [9, 9, 9] someCalls).1.isSome = true ∧ (encodeFile idCodec true 5 4 [9, 9, 9] someCalls).2 =
    [.ok (), .ok (), .ok (), .err (.io .invalidInput), .err (.format .invalidMinCodeSize), .ok ()] ∧ ∀ op ∈ someCalls, Ordinary op := by
  refine ⟨by decide +kernel, by decide +kernel, ?_⟩
  intro op hop
  simp only [someCalls, List.mem_cons, List.not_mem_nil, or_false] at hop
  rcases hop with rfl | rfl | rfl | rfl | rfl | rfl <;> simp [Ordinary]

end Gif
