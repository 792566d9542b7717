import Verif.Lemmas.Walk
/-!
The streaming decoder with `skip_frame_decoding` on the blocks of a file of the grammar: from the header to the first image,
from image to image, and through the data of an image.
-/

namespace Gif

namespace SD

variable {C : Codec}

/-! ## One image -/

/-- From the introducer to the code size. -/
theorem walk_image (s : SD C) (g : Spec.File) (i : Spec.Image) (hi : i.Ok) (gr : Spec.Graphic)
    (hst : s.state = .blockStart 0x2C) (hh : s.headerEndReached = true) (hib : s.ibuf = [])
    (hf : s.current.getD Frame.default = Spec.graphicFrame gr) (hw : s.width = g.width) (hht : s.height = g.height)
    (hr : ¬ Rejected s g i) :
    ∃ cap, Walk s (descriptor i ++ i.table.getD [] ++ [i.minCode]) [.blockStart .image]
      { s with state := .lzwInit i.minCode, palCap := cap, current := some (Spec.headFrame (gr, i)) } := by
  -- the block start
  have h0 : ∀ b, nextState s [b] .none =
      ({ s with state := .imageBlockStart, current := some (Spec.graphicFrame gr) }, .ok (0, .blockStart .image)) := by
    intro b
    simp only [nextState, hst]
    unfold onBlockStart
    rw [if_neg (by simp [hh])]
    have : Block.fromU8 0x2C = some .image := rfl
    simp only [this, goto, addFrame]
    cases hc : s.current with
    | none => rw [hc] at hf; simp only [Option.getD_none] at hf; simp only [hf]
    | some f => rw [hc] at hf; simp only [Option.getD_some] at hf; simp only [← hf, ← hc]
  obtain ⟨cap, hcap, hk⟩ := (onImage { s with state := .imageBlockStart, ibuf := [], current := some (Spec.graphicFrame gr) } g i hi gr
    rfl hw hht).2 hr
  have h1 : Walk { s with state := .imageBlockStart, current := some (Spec.graphicFrame gr) } (descriptor i) []
      { s with
        state := .localPalette (i.table.getD []).length, palCap := cap
        current := some { Spec.headFrame (gr, i) with palette := i.table.map fun _ => [] } } := by
    refine (walk_item (st := .imageBlockStart) (required := 9) (k := onImageBlockStart) (x := descriptor i) (by omega) (by omega)
      (s := { s with state := .imageBlockStart, current := some (Spec.graphicFrame gr) }) ?_ rfl hib rfl (s' := _)
      (ev := .nothing) ?_).1 rfl
    · intro s b hs
      simp only [nextState, hs]
    · rw [hk, hib]
  have h2 : Walk { s with
        state := .localPalette (i.table.getD []).length, palCap := cap
        current := some { Spec.headFrame (gr, i) with palette := i.table.map fun _ => [] } } (i.table.getD []) []
      { s with state := .localPalette 0, palCap := cap, current := some (Spec.headFrame (gr, i)) } := by
    cases ht : i.table with
    | none =>
      have : ({ Spec.headFrame (gr, i) with palette := none } : Frame) = Spec.headFrame (gr, i) := by
        simp only [Spec.headFrame, ht]
      simp only [Option.getD_none, List.length_nil, Option.map_none, this]
      exact .refl _
    | some t =>
      have := walk_lct t { s with palCap := cap } 0 { Spec.headFrame (gr, i) with palette := some [] } [] rfl (by
        rw [ht] at hcap; simpa using hcap)
      have he : ({ Spec.headFrame (gr, i) with palette := some t } : Frame) = Spec.headFrame (gr, i) := by
        simp only [Spec.headFrame, ht]
      simp only [List.nil_append, he] at this
      exact this
  have h3 : Walk { s with state := .localPalette 0, palCap := cap, current := some (Spec.headFrame (gr, i)) } [i.minCode] []
      { s with state := .lzwInit i.minCode, palCap := cap, current := some (Spec.headFrame (gr, i)) } := walk_one rfl
  refine ⟨cap, ?_⟩
  have := walk_trans (walk_trans h1 h2) h3
  simp only [List.append_nil] at this
  have hne : descriptor i ++ i.table.getD [] ++ [i.minCode] =
    lo8 i.left :: (hi8 i.left :: (Spec.le16 i.top ++ Spec.le16 i.width ++ Spec.le16 i.height ++ [i.packed]) ++ i.table.getD [] ++
      [i.minCode]) := rfl
  rw [hne] at this ⊢
  exact walk_peek (h0 _) (not_quiet (by simp) (by simp)) this

/-- An image out of the screen. -/
theorem eval_rejected (s : SD C) (g : Spec.File) (i : Spec.Image) (hi : i.Ok) (gr : Spec.Graphic)
    (hst : s.state = .blockStart 0x2C) (hh : s.headerEndReached = true) (hib : s.ibuf = [])
    (hf : s.current.getD Frame.default = Spec.graphicFrame gr) (hw : s.width = g.width) (hht : s.height = g.height)
    (hr : Rejected s g i) (rest : List UInt8) :
    Upto Decoder.isMetadata s (descriptor i ++ rest) [.blockStart .image] (.err (.format .frameOutOfBounds)) := by
  have h0 : ∀ b, nextState s [b] .none =
      ({ s with state := .imageBlockStart, current := some (Spec.graphicFrame gr) }, .ok (0, .blockStart .image)) := by
    intro b
    simp only [nextState, hst]
    unfold onBlockStart
    rw [if_neg (by simp [hh])]
    have : Block.fromU8 0x2C = some .image := rfl
    simp only [this, goto, addFrame]
    cases hc : s.current with
    | none => rw [hc] at hf; simp only [Option.getD_none] at hf; simp only [hf]
    | some f => rw [hc] at hf; simp only [Option.getD_some] at hf; simp only [← hf, ← hc]
  obtain ⟨s', hk⟩ := (onImage { s with state := .imageBlockStart, ibuf := [], current := some (Spec.graphicFrame gr) } g i hi gr
    rfl hw hht).1 hr
  have hst' : ∀ (s : SD C) (b : UInt8), s.state = .imageBlockStart →
      nextState s [b] .none = ensureMin s [b] 9 onImageBlockStart := by
    intro s b hs
    simp only [nextState, hs]
  have hd : descriptor i = Spec.le16 i.left ++ Spec.le16 i.top ++ Spec.le16 i.width ++ Spec.le16 i.height ++ [i.packed] := rfl
  have hc := walk_collect (by omega) hst' (Spec.le16 i.left ++ Spec.le16 i.top ++ Spec.le16 i.width ++ Spec.le16 i.height)
    { s with state := .imageBlockStart, current := some (Spec.graphicFrame gr) } rfl (by simp [hib, Spec.le16])
  have hl := hst' { s with
      state := .imageBlockStart, current := some (Spec.graphicFrame gr)
      ibuf := s.ibuf ++ (Spec.le16 i.left ++ Spec.le16 i.top ++ Spec.le16 i.width ++ Spec.le16 i.height) } i.packed rfl
  rw [ensure_last _ i.packed 9 onImageBlockStart (by simp [hib, Spec.le16]) (by omega) (by omega)] at hl
  simp only [hib, List.nil_append, ← hd] at hl
  rw [hk] at hl
  have he : Upto Decoder.isMetadata { s with
      state := .imageBlockStart, current := some (Spec.graphicFrame gr)
      ibuf := s.ibuf ++ (Spec.le16 i.left ++ Spec.le16 i.top ++ Spec.le16 i.width ++ Spec.le16 i.height) }
      ([i.packed] ++ rest) [] (.err (.format .frameOutOfBounds)) := by
    refine .stop (.err (s' := s') _ ?_) (by intro _ _ _ _ h; cases h)
    rw [spec_false]
    simp only [hib, List.nil_append]
    exact hl
  have := walk_upto hc (by intro ev h; cases h) he
  have hne : descriptor i ++ rest = lo8 i.left :: (hi8 i.left :: (Spec.le16 i.top ++ Spec.le16 i.width ++ Spec.le16 i.height ++
    [i.packed]) ++ rest) := rfl
  rw [hne]
  refine upto_event (h0 _) (not_quiet (by simp) (by simp)) rfl (by simp) ?_
  rw [List.drop_zero, ← hne, hd]
  simp only [List.append_assoc, List.nil_append] at this ⊢
  exact this

/-! ## Image data -/

theorem copy_byte (s : SD C) (acc : List UInt8) (b : UInt8) (n : Nat) (hk : s.skipFrameDecoding = true)
    (hst : s.state = .copySubBlock (n + 1)) :
    nextState s [b] (spec true acc) = if s.memoryLimit.sizeOk (acc.length + 1) = true then
      ({ s with state := .copySubBlock n }, .ok (1, .lzwDataCopied [b])) else (s, .fmtErr .memoryLimit) := by
  rw [spec_true]
  simp only [nextState, hst]
  unfold onCopySubBlock
  rw [if_neg (by simp [hk]), if_pos (by omega)]
  have hm : min (n + 1) [b].length = 1 := by simp
  have ht : [b].take 1 = [b] := rfl
  rw [hm]
  simp only [ht, append, List.length_singleton]
  by_cases h : s.memoryLimit.sizeOk (acc.length + 1) = true
  · rw [if_pos h, if_pos h]
    simp only
    rw [if_neg (by omega)]
    rfl
  · rw [if_neg h, if_neg h]

/-- The bytes of a data sub-block. -/
theorem copy_bytes : ∀ (x : List UInt8) (s : SD C) (acc rest : List UInt8) (n : Nat) (r : Res C),
    s.skipFrameDecoding = true → s.memoryLimit.sizeOk (acc.length + x.length) = true →
    Eval true { s with state := .copySubBlock n } (acc ++ x) rest r →
    Eval true { s with state := .copySubBlock (x.length + n) } acc (x ++ rest) r := by
  intro x
  induction x with
  | nil =>
    intro s acc rest n r hk hm h
    rw [List.append_nil] at h
    simpa using h
  | cons b x ih =>
    intro s acc rest n r hk hm h
    rw [List.length_cons] at hm
    have := ih s (acc ++ [b]) rest n r hk (by
      refine sizeOk_le hm ?_
      simp only [List.length_append, List.length_singleton]; omega) (by rw [List.append_assoc]; exact h)
    have hb := copy_byte { s with state := .copySubBlock ((b :: x).length + n) } acc b (x.length + n) hk (by
      simp only [List.length_cons]
      congr 1
      omega)
    rw [if_pos (sizeOk_le hm (by omega))] at hb
    exact .quiet hb (.copied _) this

/-- The bytes of a data sub-block that exceed the memory limit. -/
theorem copy_bytes_limit : ∀ (x : List UInt8) (s : SD C) (acc rest : List UInt8) (n : Nat),
    s.skipFrameDecoding = true → s.memoryLimit.sizeOk acc.length = true →
    s.memoryLimit.sizeOk (acc.length + x.length) = false →
    Eval true { s with state := .copySubBlock (x.length + n) } acc (x ++ rest) (.err (.format .memoryLimit)) := by
  intro x
  induction x with
  | nil => intro s acc rest n hk h1 h2; rw [List.length_nil, Nat.add_zero, h1] at h2; cases h2
  | cons b x ih =>
    intro s acc rest n hk h1 h2
    have hb := copy_byte { s with state := .copySubBlock ((b :: x).length + n) } acc b (x.length + n) hk (by
      simp only [List.length_cons]
      congr 1
      omega)
    by_cases h : s.memoryLimit.sizeOk (acc.length + 1) = true
    · rw [if_pos h] at hb
      refine .quiet hb (.copied _) ?_
      exact ih s (acc ++ [b]) rest n hk (by simpa using h) (by
        rw [← h2]; congr 1; simp only [List.length_append, List.length_cons, List.length_nil]; omega)
    · rw [if_neg h] at hb
      exact .err _ hb

/-- From a data sub-block to the end of the image data. -/
theorem copy_subs (hs : Spec.SubsOk subs) (s : SD C) (acc x rest : List UInt8)
    (hk : s.skipFrameDecoding = true) (h1 : s.memoryLimit.sizeOk acc.length = true) :
    Eval true { s with state := .copySubBlock x.length } acc (x ++ Spec.renderSubs subs ++ rest)
      (if s.memoryLimit.sizeOk (acc ++ x ++ subs.flatten).length = true then
        .event { s with state := .blockEnd, current := none } (acc ++ x ++ subs.flatten) .dataEnd rest
      else .err (.format .memoryLimit)) := by
  induction subs generalizing acc x with
  | nil =>
    simp only [List.flatten_nil, List.append_nil]
    by_cases h : s.memoryLimit.sizeOk (acc.length + x.length) = true
    · rw [if_pos (by simpa using h), List.append_assoc]
      refine copy_bytes x s acc _ 0 _ hk h ?_
      refine .quiet (s' := { s with state := .frameDecoded }) (n := 0) (ev := .nothing) (x := []) ?_ .nothing ?_
      · simp only [nextState, onCopySubBlock, hk]
        rfl
      · rw [List.append_nil, List.drop_zero]
        exact .event (ev := .dataEnd) (n := 1) _ rfl (not_quiet (by simp) (by simp))
    · rw [if_neg (by simpa using h), List.append_assoc]
      exact copy_bytes_limit x s acc _ 0 hk h1 (by simpa using h)
  | cons y subs ih =>
    have hy := hs y List.mem_cons_self
    have hs' : Spec.SubsOk subs := fun z hz => hs z (List.mem_cons_of_mem _ hz)
    rw [List.append_assoc]
    by_cases h : s.memoryLimit.sizeOk (acc.length + x.length) = true
    · refine copy_bytes x s acc _ 0 _ hk h ?_
      have := ih hs' (acc ++ x) y (by simpa using h)
      have hrs : Spec.renderSubs (y :: subs) ++ rest = UInt8.ofNat y.length :: (y ++ Spec.renderSubs subs ++ rest) := by
        simp [Spec.renderSubs]
      rw [hrs]
      refine .quiet (s' := { s with state := .copySubBlock y.length }) (n := 1) (ev := .nothing) (x := []) ?_ .nothing ?_
      · simp only [nextState, onCopySubBlock, hk]
        rw [if_neg (by simp), if_neg (by omega), if_pos (ofNat_ne_zero hy.1 hy.2), ofNat_toNat_of_le hy.2]
        rfl
      · rw [List.append_nil]
        rw [List.flatten_cons, ← List.append_assoc (acc ++ x)]
        exact this
    · rw [if_neg ?_]
      · exact copy_bytes_limit x s acc _ 0 hk h1 (by simpa using h)
      · intro h'
        refine h (sizeOk_le h' ?_)
        simp only [List.length_append]
        omega

/-! ## Unknown blocks -/

/-- The terminator of an unknown block. -/
theorem walk_unknown_end (s : SD C) (hst : s.state = .extensionDataBlock 0) (hid : s.extId ≠ 0xF9) :
    ∃ more, (more = [] ∨ s.extId = 0xFF ∧ ∃ r, more = [.repetitions r]) ∧
      Walk s [0] (.blockFinished s.extId :: more) { s with state := .blockEnd, extIsBlockEnd := true } := by
  by_cases hf : s.extId = 0xFF
  · cases s
    simp only at hst hf
    subst hst hf
    generalize hs1 : ({ state := State.applicationExtension, extIsBlockEnd := true, extId := 0xFF, .. } : SD C) = s1
    have hstep : nextState s1 [0] .none = onApplicationExtension s1 0 := by rw [← hs1]; rfl
    have hx : ∃ ev, nextState s1 [0] .none = ({ s1 with state := .blockEnd }, .ok (1, ev)) ∧
        (ev = .nothing ∨ ∃ r, ev = .repetitions r) := by
      rw [hstep]
      unfold onApplicationExtension
      rw [if_neg (by simp)]
      split
      · match hdr : (s1.extData.drop 13).take 2 with
        | [] => have := congrArg List.length hdr; simp at this; omega
        | [_] => have := congrArg List.length hdr; simp at this; omega
        | [r0, r1] => exact ⟨_, rfl, .inr ⟨_, rfl⟩⟩
        | _ :: _ :: _ :: _ => have := congrArg List.length hdr; simp at this; omega
      · exact ⟨_, rfl, .inl rfl⟩
    obtain ⟨ev, h1, h2⟩ := hx
    subst hs1
    rcases h2 with rfl | ⟨r, rfl⟩
    · exact ⟨[], .inl rfl, walk_peek rfl (not_quiet (by simp) (by simp)) (walk_one h1)⟩
    · exact ⟨[.repetitions r], .inr ⟨rfl, r, rfl⟩, walk_peek rfl (not_quiet (by simp) (by simp))
        (walk_one_event h1 (not_quiet (by simp) (by simp)))⟩
  · refine ⟨[], .inl rfl, walk_one_event ?_ (not_quiet (by simp) (by simp))⟩
    simp only [nextState, hst, onExtensionDataBlock]
    rw [if_neg (by omega), if_pos trivial]
    have : Extension.fromU8 s.extId = none ∨ Extension.fromU8 s.extId = some .text ∨
        Extension.fromU8 s.extId = some .comment := by
      unfold Extension.fromU8
      rw [if_neg hid, if_neg hf]
      repeat' split
      all_goals simp
    rcases this with h | h | h <;> rw [h] <;> rfl

/-- An unknown block after its introducer, without its terminator. -/
theorem walk_unknown_body (s : SD C) (t : UInt8) (subs : List (List UInt8)) (hst : s.state = .blockStart t)
    (ht : Block.fromU8 t = none) (ha : s.allowUnknownBlocks = true) (hne : subs ≠ []) (hs : Spec.SubsOk subs)
    (hm : s.memoryLimit.sizeOk (s.extData.length + subs.flatten.length) = true) :
    ∃ e, Walk s (subs.flatMap (fun b => UInt8.ofNat b.length :: b))
      ((if s.headerEndReached then [] else [.headerEnd]) ++ List.replicate (subs.length - 1) (.subBlockFinished s.extId))
      { s with
        state := .extensionDataBlock 0, headerEndReached := true, extIsBlockEnd := e, extData := s.extData ++ subs.flatten } := by
  obtain ⟨x, subs, rfl⟩ : ∃ x l, subs = x :: l := by
    cases subs with
    | nil => exact absurd rfl hne
    | cons x l => exact ⟨x, l, rfl⟩
  have hx := hs x List.mem_cons_self
  have hs' : Spec.SubsOk subs := fun y hy => hs y (List.mem_cons_of_mem _ hy)
  have ht' : t ≠ 0x21 := by rintro rfl; cases ht
  rw [List.flatten_cons, List.length_append] at hm
  have h1 := walk_ext_bytes x { s with headerEndReached := true } 0 (sizeOk_le hm (by simp only; omega))
  obtain ⟨e, h2⟩ := walk_ext_subs s.extId subs { s with headerEndReached := true, extData := s.extData ++ x } hs' rfl (by
    refine sizeOk_le hm ?_
    simp only [List.length_append]; omega)
  refine ⟨e, ?_⟩
  have hb : (x :: subs).flatMap (fun b => UInt8.ofNat b.length :: b) =
      UInt8.ofNat x.length :: (x ++ subs.flatMap (fun b => UInt8.ofNat b.length :: b)) := rfl
  have h4 : Walk { s with headerEndReached := true } ((x :: subs).flatMap (fun b => UInt8.ofNat b.length :: b))
      (List.replicate ((x :: subs).length - 1) (.subBlockFinished s.extId))
      { s with
        state := .extensionDataBlock 0, headerEndReached := true, extIsBlockEnd := e
        extData := s.extData ++ (x :: subs).flatten } := by
    have hw := walk_trans h1 (by simpa only [Nat.add_zero] using h2)
    rw [hb]
    refine walk_quiet (s' := { s with headerEndReached := true, state := .extensionDataBlock (x.length + 0) }) ?_ ?_
    · simp only [nextState, hst, onBlockStart, ht, ha]
      rw [if_neg (by simp)]
      simp only [goto, ofNat_toNat_of_le hx.2, Nat.add_zero]
      rfl
    · simp only [List.nil_append, List.length_cons, Nat.add_sub_cancel, List.flatten_cons, ← List.append_assoc] at hw ⊢
      exact hw
  cases hh : s.headerEndReached with
  | true =>
    rw [if_pos rfl]
    have : ({ s with headerEndReached := true } : SD C) = s := by rw [← hh]
    rw [this] at h4
    exact h4
  | false =>
    rw [if_neg (by simp), List.singleton_append]
    rw [hb] at h4 ⊢
    refine walk_peek ?_ (not_quiet (by simp) (by simp)) h4
    simp only [nextState, hst, onBlockStart]
    rw [if_pos ⟨by rw [hh]; simp, by simpa [Block.toU8] using ht'⟩]
    simp only [goto]

/-- An unknown block after its introducer, when the last extension was not a graphic control extension. -/
theorem walk_unknown (s : SD C) (t : UInt8) (subs : List (List UInt8)) (hst : s.state = .blockStart t)
    (ht : Block.fromU8 t = none) (ha : s.allowUnknownBlocks = true) (hne : subs ≠ []) (hs : Spec.SubsOk subs)
    (hid : s.extId ≠ 0xF9) (hm : s.memoryLimit.sizeOk (s.extData.length + subs.flatten.length) = true) :
    ∃ more, (more = [] ∨ s.extId = 0xFF ∧ ∃ r, more = [.repetitions r]) ∧ Walk s (Spec.renderSubs subs)
      ((if s.headerEndReached then [] else [.headerEnd]) ++ List.replicate (subs.length - 1) (.subBlockFinished s.extId) ++
        .blockFinished s.extId :: more)
      { s with state := .blockEnd, headerEndReached := true, extIsBlockEnd := true, extData := s.extData ++ subs.flatten } := by
  obtain ⟨e, h1⟩ := walk_unknown_body s t subs hst ht ha hne hs hm
  obtain ⟨more, hmore, h2⟩ := walk_unknown_end { s with
      state := .extensionDataBlock 0, headerEndReached := true, extIsBlockEnd := e, extData := s.extData ++ subs.flatten }
      rfl hid
  exact ⟨more, hmore, walk_trans h1 h2⟩

/-! ## From block to block -/

/-- A decoder between two blocks, with what the graphic control extensions since the last image say. -/
structure Between (o : DecodeOptions) (g : Spec.File) (gr : Spec.Graphic) (s : SD C) : Prop where
  ibuf : s.ibuf = []
  skip : s.skipFrameDecoding = true
  check : s.checkFrameConsistency = o.checkFrameConsistency
  limit : s.memoryLimit = o.memoryLimit
  allow : s.allowUnknownBlocks = o.allowUnknownBlocks
  width : s.width = g.width
  height : s.height = g.height
  frame : s.current.getD Frame.default = Spec.graphicFrame gr

/-- What the decoder has still to read: the blocks `bs`, the trailer and `junk`. The introducer of the first may have been
read. -/
inductive Here (junk : List UInt8) (s : SD C) : List Spec.Blk → List UInt8 → Prop
  | blocks (bs : List Spec.Blk) (h : s.state = .blockEnd) : Here junk s bs (Spec.renderBlks bs ++ 0x3B :: junk)
  | image (i : Spec.Image) (bs : List Spec.Blk) (h : s.state = .blockStart 0x2C) :
      Here junk s (.image i :: bs) (i.render.tail ++ Spec.renderBlks bs ++ 0x3B :: junk)
  | unknown (t : UInt8) (subs : List (List UInt8)) (bs : List Spec.Blk) (h : s.state = .blockStart t) :
      Here junk s (.unknown t subs :: bs) (Spec.renderSubs subs ++ Spec.renderBlks bs ++ 0x3B :: junk)
  | trailer (h : s.state = .blockStart 0x3B) : Here junk s [] (0x3B :: junk)

/-- What must be known about the blocks that are still to be read. -/
def Todo (o : DecodeOptions) (s : SD C) (bs : List Spec.Blk) : Prop :=
  (∀ b ∈ bs, b.Ok ∧ b.Fits o) ∧ Spec.Skippable o s.extId s.extData.length bs

def IsImage : Spec.Blk → Prop
  | .image _ => True
  | _ => False

def IsUnknown : Spec.Blk → Prop
  | .unknown _ _ => True
  | _ => False

/-- The first byte of a block. -/
def introducer : Spec.Blk → UInt8
  | .control _ => 0x21
  | .ext _ _ => 0x21
  | .image _ => 0x2C
  | .unknown t _ => t

/-- What a block before the next image says about it. -/
def graphicOf (gr : Spec.Graphic) : Spec.Blk → Spec.Graphic
  | .control c => c.graphic
  | _ => gr

/-- The events of an extension. -/
def blkEvents : Spec.Blk → List Decoded
  | .control _ => extEvents 0xF9 0
  | .ext label subs => extEvents label (subs.length - 1) ++ if label = 0xFF then loopEvents subs else []
  | .image _ => []
  | .unknown _ _ => []

/-- Events that neither end a search nor belong to the header. -/
def Plain (evs : List Decoded) : Prop := ∀ ev ∈ evs, Decoder.isHeaderEnd ev = false ∧ Decoder.isMetadata ev = false ∧
    ev ≠ .blockStart .trailer ∧ (∀ c, ev ≠ .backgroundColor c) ∧ (∀ c, ev ≠ .globalPalette c)

theorem blkEvents_plain (b : Spec.Blk) : Plain (blkEvents b) := by
  have h1 : ∀ label n, ∀ ev ∈ extEvents label n, Decoder.isHeaderEnd ev = false ∧ Decoder.isMetadata ev = false ∧
      ev ≠ .blockStart .trailer ∧ (∀ c, ev ≠ .backgroundColor c) ∧ (∀ c, ev ≠ .globalPalette c) := by
    intro label n ev h
    simp only [extEvents, List.cons_append, List.mem_cons, List.mem_append, List.mem_replicate, List.not_mem_nil, or_false] at h
    rcases h with rfl | ⟨_, rfl⟩ | rfl <;> simp [Decoder.isHeaderEnd, Decoder.isMetadata]
  have h2 : ∀ subs, ∀ ev ∈ loopEvents subs, Decoder.isHeaderEnd ev = false ∧ Decoder.isMetadata ev = false ∧
      ev ≠ .blockStart .trailer ∧ (∀ c, ev ≠ .backgroundColor c) ∧ (∀ c, ev ≠ .globalPalette c) := by
    intro subs ev h
    unfold loopEvents at h
    split at h
    · simp only [List.mem_singleton] at h
      subst h
      simp [Decoder.isHeaderEnd, Decoder.isMetadata]
    · cases h
  intro ev h
  cases b with
  | control c => exact h1 _ _ ev h
  | ext label subs =>
    simp only [blkEvents, List.mem_append] at h
    rcases h with h | h
    · exact h1 _ _ ev h
    · split at h
      · exact h2 _ ev h
      · cases h
  | image i => cases h
  | unknown t subs => cases h

/-- A block that is no image, from its introducer. -/
theorem walk_block {o : DecodeOptions} {g : Spec.File} {gr : Spec.Graphic} {s : SD C} (hb : Between o g gr s)
    (b : Spec.Blk) (hst : s.state = .blockStart (introducer b)) (bs : List Spec.Blk) (ht : Todo o s (b :: bs)) (hni : ¬ IsImage b)
    (hu : IsUnknown b → s.headerEndReached = true) :
    ∃ s' t evs, b.render = introducer b :: t ∧ Walk s t evs s' ∧ Between o g (graphicOf gr b) s' ∧ s'.state = .blockEnd ∧
      s'.headerEndReached = s.headerEndReached ∧ Plain evs ∧ (¬ IsUnknown b → evs = blkEvents b) ∧ Todo o s' bs := by
  obtain ⟨hok, hfit⟩ := ht.1 b List.mem_cons_self
  have hrest : ∀ c ∈ bs, c.Ok ∧ c.Fits o := fun c hc => ht.1 c (List.mem_cons_of_mem _ hc)
  have hsk := ht.2
  cases b with
  | control c =>
    have h := walk_control s c hst (by rw [hb.limit]; exact hfit) gr hb.frame
    exact ⟨_, _, _, rfl, h, ⟨hb.ibuf, hb.skip, hb.check, hb.limit, hb.allow, hb.width, hb.height, rfl⟩, rfl, rfl,
      blkEvents_plain (.control c), fun _ => rfl, hrest, hsk⟩
  | ext label subs =>
    obtain ⟨b0, h⟩ := walk_ext s label subs hst hok (by rw [hb.limit]; exact hfit)
    refine ⟨_, _, _, rfl, h, ⟨hb.ibuf, hb.skip, hb.check, hb.limit, hb.allow, hb.width, hb.height, hb.frame⟩, rfl, rfl,
      blkEvents_plain (.ext label subs), fun _ => rfl, hrest, ?_⟩
    rw [Spec.Skippable] at hsk
    simp only [List.length_cons, Nat.add_comm _ 1]
    exact hsk
  | image i => exact absurd trivial hni
  | unknown t subs =>
    obtain ⟨h1, h2, h3, h4, h5⟩ := hok
    obtain ⟨k1, k2, k4, k5⟩ := hsk
    have hh := hu trivial
    have hn : Block.fromU8 t = none := by
      unfold Block.fromU8
      rw [if_neg h2, if_neg h1, if_neg h3]
    obtain ⟨more, hmore, h⟩ := walk_unknown s t subs hst hn (hb.allow.trans k1) h4 h5 k2 (by rw [hb.limit]; exact k4)
    rw [hh, if_pos rfl, List.nil_append] at h
    refine ⟨_, _, _, rfl, h, ⟨hb.ibuf, hb.skip, hb.check, hb.limit, hb.allow, hb.width, hb.height, hb.frame⟩, rfl, hh.symm, ?_,
      fun h => absurd trivial h, hrest, ?_⟩
    · intro ev hev
      simp only [List.mem_append, List.mem_replicate, List.mem_cons] at hev
      rcases hev with ⟨_, rfl⟩ | rfl | hev
      · simp [Decoder.isHeaderEnd, Decoder.isMetadata]
      · simp [Decoder.isHeaderEnd, Decoder.isMetadata]
      · rcases hmore with rfl | ⟨_, r, rfl⟩
        · cases hev
        · rw [List.mem_singleton] at hev
          subst hev
          simp [Decoder.isHeaderEnd, Decoder.isMetadata]
    · simp only [List.length_append]
      exact k5

theorem enter {s : SD C} (hst : s.state = .blockEnd) (b : UInt8) (hb : b ≠ 0x3B) :
    nextState s [b] .none = ({ s with state := .blockStart b }, .ok (1, .nothing)) := by
  simp only [nextState, hst]
  unfold onBlockEnd
  rw [if_neg (by simpa [Block.toU8] using hb)]
  rfl

theorem introducer_ne {b : Spec.Blk} (hok : b.Ok) : introducer b ≠ 0x3B := by
  cases b with
  | control c => exact (by decide : (0x21 : UInt8) ≠ 0x3B)
  | ext label subs => exact (by decide : (0x21 : UInt8) ≠ 0x3B)
  | image i => exact (by decide : (0x2C : UInt8) ≠ 0x3B)
  | unknown t subs => exact hok.2.2.1

theorem between_start {o : DecodeOptions} {g : Spec.File} {gr : Spec.Graphic} {s : SD C} (hb : Between o g gr s) (b : UInt8) :
    Between o g gr { s with state := .blockStart b } :=
  ⟨hb.ibuf, hb.skip, hb.check, hb.limit, hb.allow, hb.width, hb.height, hb.frame⟩

/-- Blocks without images in a row. -/
theorem walk_blocks {o : DecodeOptions} {g : Spec.File} (tail : List Spec.Blk) : ∀ (bs : List Spec.Blk) {gr : Spec.Graphic} {s : SD C},
    Between o g gr s → s.state = .blockEnd → Todo o s (bs ++ tail) → (∀ b ∈ bs, ¬ IsImage b) →
    (∀ b ∈ bs, IsUnknown b → s.headerEndReached = true) →
    ∃ s' evs, Walk s (Spec.renderBlks bs) evs s' ∧ Between o g (bs.foldl graphicOf gr) s' ∧
      s'.state = .blockEnd ∧ s'.headerEndReached = s.headerEndReached ∧ Plain evs ∧
      ((∀ b ∈ bs, ¬ IsUnknown b) → evs = bs.flatMap blkEvents) ∧ Todo o s' tail := by
  intro bs
  induction bs with
  | nil => intro gr s hb hst ht _ _; exact ⟨s, [], .refl _, hb, hst, rfl, (by intro ev h; cases h), fun _ => rfl, ht⟩
  | cons b bs ih =>
    intro gr s hb hst ht hi hu
    obtain ⟨s', t, evs, e1, e2, e3, e4, e5, e6, e7, e8⟩ := walk_block (between_start hb (introducer b)) b rfl (bs ++ tail) ht
      (hi b List.mem_cons_self) (hu b List.mem_cons_self)
    obtain ⟨s'', evs', f1, f2, f3, f4, f5, f6, f7⟩ := ih e3 e4 e8 (fun c hc => hi c (List.mem_cons_of_mem _ hc))
      (fun c hc h => e5.trans (hu c (List.mem_cons_of_mem _ hc) h))
    refine ⟨s'', evs ++ evs', ?_, f2, f3, f4.trans e5, ?_, ?_, f7⟩
    · have hr : Spec.renderBlks (b :: bs) = introducer b :: (t ++ Spec.renderBlks bs) := by
        simp only [Spec.renderBlks, List.flatMap_cons, e1, List.cons_append]
      rw [hr]
      exact walk_quiet (enter hst _ (introducer_ne (ht.1 b List.mem_cons_self).1)) (walk_trans e2 f1)
    · intro ev hev
      rcases List.mem_append.mp hev with h | h
      · exact e6 ev h
      · exact f5 ev h
    · intro h
      rw [e7 (h b List.mem_cons_self), f6 (fun c hc => h c (List.mem_cons_of_mem _ hc)), List.flatMap_cons]

/-- Blocks up to the first image. -/
theorem split_blocks (bs : List Spec.Blk) : ∃ lead tail, bs = lead ++ tail ∧ (∀ b ∈ lead, ¬ IsImage b) ∧
    (tail = [] ∨ ∃ i t, tail = .image i :: t) := by
  induction bs with
  | nil => exact ⟨[], [], rfl, by simp, .inl rfl⟩
  | cons b bs ih =>
    by_cases hb : IsImage b
    · cases b with
      | image i => exact ⟨[], .image i :: bs, rfl, by simp, .inr ⟨i, bs, rfl⟩⟩
      | _ => exact absurd hb id
    · obtain ⟨lead, tail, h1, h2, h3⟩ := ih
      refine ⟨b :: lead, tail, by rw [h1]; rfl, ?_, h3⟩
      intro c hc
      rcases List.mem_cons.mp hc with rfl | hc
      · exact hb
      · exact h2 c hc

/-- Where the header ends: at an image, an unknown block or the trailer. -/
def Turn (tail : List Spec.Blk) : Prop := tail = [] ∨ (∃ i t, tail = .image i :: t) ∨ ∃ x subs t, tail = .unknown x subs :: t

/-- Extensions up to the first image or unknown block. -/
theorem split_header (bs : List Spec.Blk) : ∃ lead tail, bs = lead ++ tail ∧ (∀ b ∈ lead, ¬ IsImage b ∧ ¬ IsUnknown b) ∧
    Turn tail := by
  induction bs with
  | nil => exact ⟨[], [], rfl, by simp, .inl rfl⟩
  | cons b bs ih =>
    by_cases hb : IsImage b ∨ IsUnknown b
    · refine ⟨[], b :: bs, rfl, by simp, ?_⟩
      cases b with
      | image i => exact .inr (.inl ⟨i, bs, rfl⟩)
      | unknown t subs => exact .inr (.inr ⟨t, subs, bs, rfl⟩)
      | _ => exact absurd hb (by simp [IsImage, IsUnknown])
    · obtain ⟨lead, tail, h1, h2, h3⟩ := ih
      refine ⟨b :: lead, tail, by rw [h1]; rfl, ?_, h3⟩
      intro c hc
      rcases List.mem_cons.mp hc with rfl | hc
      · exact ⟨fun h => hb (.inl h), fun h => hb (.inr h)⟩
      · exact h2 c hc

theorem frames_lead : ∀ (lead tail : List Spec.Blk) (gr : Spec.Graphic), (∀ b ∈ lead, ¬ IsImage b) →
    Spec.frames gr (lead ++ tail) = Spec.frames (lead.foldl graphicOf gr) tail := by
  intro lead
  induction lead with
  | nil => intro tail gr _; rfl
  | cons b lead ih =>
    intro tail gr h
    have h' : ∀ b ∈ lead, ¬ IsImage b := fun c hc => h c (List.mem_cons_of_mem _ hc)
    cases b with
    | control c => exact ih tail c.graphic h'
    | ext label subs => exact ih tail gr h'
    | image i => exact absurd trivial (h _ List.mem_cons_self)
    | unknown t subs => exact ih tail gr h'

/-! ## From the header to the first image -/

theorem renderBlks_append (a b : List Spec.Blk) : Spec.renderBlks (a ++ b) = Spec.renderBlks a ++ Spec.renderBlks b := by
  simp [Spec.renderBlks]

theorem render_image_tail (i : Spec.Image) : i.render = 0x2C :: i.render.tail := rfl

/-- At the introducer of an image or unknown block the header ends. -/
theorem found_header {o : DecodeOptions} {g : Spec.File} {gr : Spec.Graphic} {s : SD C} (hb : Between o g gr s)
    (hh : s.headerEndReached = false) {b : Spec.Blk} {bs : List Spec.Blk} (ht : Todo o s (b :: bs))
    (hst : s.state = .blockStart (introducer b)) (hbi : IsImage b ∨ IsUnknown b) (junk : List UInt8) :
    ∃ s' l, Spec.renderBlks (b :: bs) ++ 0x3B :: junk = introducer b :: l ∧
      Upto Decoder.isHeaderEnd s l [] (.event s' [] .headerEnd l) ∧
      Between o g gr s' ∧ s'.headerEndReached = true ∧ Here junk s' (b :: bs) l ∧ Todo o s' (b :: bs) := by
  refine ⟨{ s with headerEndReached := true }, b.render.tail ++ Spec.renderBlks bs ++ 0x3B :: junk, ?_, ?_,
    ⟨hb.ibuf, hb.skip, hb.check, hb.limit, hb.allow, hb.width, hb.height, hb.frame⟩, rfl, ?_, ht⟩
  · cases b <;> rfl
  · obtain ⟨c, m, hcm⟩ : ∃ c m, b.render.tail ++ Spec.renderBlks bs ++ 0x3B :: junk = c :: m := by
      cases h : b.render.tail ++ Spec.renderBlks bs ++ 0x3B :: junk with
      | nil => simp at h
      | cons c m => exact ⟨c, m, rfl⟩
    have hne : introducer b ≠ Block.extension.toU8 := by
      rcases hbi with h | h
      · cases b with
        | image i => exact (by decide : (0x2C : UInt8) ≠ Block.extension.toU8)
        | _ => exact absurd h id
      · have hok := (ht.1 b List.mem_cons_self).1
        cases b with
        | unknown t subs => exact hok.1
        | _ => exact absurd h id
    rw [hcm]
    refine upto_found (n := 0) ?_ (not_quiet (by simp) (by simp)) (.inl rfl)
    simp only [nextState, onBlockStart, hst]
    rw [if_pos ⟨by rw [hh]; simp, hne⟩]
    simp only [goto]
  · cases b with
    | image i => exact .image i bs hst
    | unknown t subs => exact .unknown t subs bs hst
    | control c => exact absurd hbi (by simp [IsImage, IsUnknown])
    | ext label subs => exact absurd hbi (by simp [IsImage, IsUnknown])

/-- The blocks after the extensions in front: the header ends. -/
theorem upto_header {o : DecodeOptions} {g : Spec.File} {gr : Spec.Graphic} {s : SD C} (hb : Between o g gr s)
    (hh : s.headerEndReached = false) (hst : s.state = .blockEnd) (tail : List Spec.Blk)
    (ht : Turn tail) (htodo : Todo o s tail) (junk : List UInt8) :
    ∃ s' l, Upto Decoder.isHeaderEnd s (Spec.renderBlks tail ++ 0x3B :: junk) [] (.event s' [] .headerEnd l) ∧
      Between o g gr s' ∧ s'.headerEndReached = true ∧ Here junk s' tail l ∧ Todo o s' tail := by
  have key : ∀ b bs, tail = b :: bs → (IsImage b ∨ IsUnknown b) → ∃ s' l,
      Upto Decoder.isHeaderEnd s (Spec.renderBlks tail ++ 0x3B :: junk) [] (.event s' [] .headerEnd l) ∧
      Between o g gr s' ∧ s'.headerEndReached = true ∧ Here junk s' tail l ∧ Todo o s' tail := by
    rintro b bs rfl hbi
    obtain ⟨s', l, k1, k2, k3⟩ := found_header (between_start hb (introducer b)) hh (bs := bs) htodo rfl hbi junk
    refine ⟨s', l, ?_, k3⟩
    rw [k1]
    refine upto_quiet (enter hst _ (introducer_ne (htodo.1 b List.mem_cons_self).1)) ?_
    rw [List.drop_succ_cons, List.drop_zero]
    exact k2
  rcases ht with rfl | ⟨i, t, rfl⟩ | ⟨x, subs, t, rfl⟩
  · refine ⟨{ s with state := .blockStart 0x3B, headerEndReached := true }, 0x3B :: junk, ?_,
      ⟨hb.ibuf, hb.skip, hb.check, hb.limit, hb.allow, hb.width, hb.height, hb.frame⟩, rfl, .trailer rfl, htodo⟩
    refine upto_quiet (s' := { s with state := .blockStart 0x3B }) (n := 0) ?_ ?_
    · simp only [nextState, hst]
      rfl
    · refine upto_found (n := 0) ?_ (not_quiet (by simp) (by simp)) (.inl rfl)
      simp only [nextState, onBlockStart, hh]
      rfl
  · exact key _ _ rfl (.inl trivial)
  · exact key _ _ rfl (.inr trivial)

/-- From the end of the header and global palette. -/
theorem upto_start {o : DecodeOptions} {g : Spec.File} {s : SD C} (hg : g.Readable o) (hb : Between o g .default s)
    (hh : s.headerEndReached = false) (hst : s.state = .globalPalette 0) (hid : s.extId = 0) (hx : s.extData = [])
    (junk : List UInt8) :
    ∃ s' l lead tail, g.blocks = lead ++ tail ∧ (∀ b ∈ lead, ¬ IsImage b ∧ ¬ IsUnknown b) ∧ Turn tail ∧
      Upto Decoder.isHeaderEnd s (Spec.renderBlks g.blocks ++ 0x3B :: junk)
        (.globalPalette s.gct :: lead.flatMap blkEvents) (.event s' [] .headerEnd l) ∧
      Between o g (lead.foldl graphicOf .default) s' ∧ s'.headerEndReached = true ∧ Here junk s' tail l ∧ Todo o s' tail := by
  obtain ⟨lead, tail, h1, h2, h3⟩ := split_header g.blocks
  have hall : Todo o s g.blocks := ⟨fun b hb => ⟨hg.ok.2.2.2 b hb, hg.fits b hb⟩, by
    have := hg.skips
    rw [hid, hx]
    exact this⟩
  rw [h1] at hall
  have hfirst : ∀ b, nextState s [b] .none =
      ({ s with gct := [], gctCap := 0, state := .blockStart b }, .ok (1, .globalPalette s.gct)) := by
    intro b
    simp only [nextState, hst]
    rfl
  have hb' : ∀ b, Between o g .default { s with gct := [], gctCap := 0, state := .blockStart b } := fun b =>
    ⟨hb.ibuf, hb.skip, hb.check, hb.limit, hb.allow, hb.width, hb.height, hb.frame⟩
  cases lead with
  | nil =>
    rw [List.nil_append] at h1 hall
    obtain ⟨b, bs, rfl, hbi⟩ : ∃ b bs, tail = b :: bs ∧ (IsImage b ∨ IsUnknown b) := by
      rcases h3 with h | ⟨i, t, h⟩ | ⟨x, subs, t, h⟩
      · exact absurd (by rw [h1, h]) hg.blocks
      · exact ⟨_, _, h, .inl trivial⟩
      · exact ⟨_, _, h, .inr trivial⟩
    obtain ⟨s', l, k1, k2, k3⟩ := found_header (hb' (introducer b)) hh (bs := bs) hall rfl hbi junk
    refine ⟨s', l, [], b :: bs, h1, by simp, h3, ?_, k3⟩
    rw [h1, k1]
    refine upto_event (hfirst _) (not_quiet (by simp) (by simp)) rfl (by simp) ?_
    rw [List.drop_succ_cons, List.drop_zero]
    exact k2
  | cons b lead =>
    have hbl := h2 b List.mem_cons_self
    have hin : introducer b = 0x21 := by
      cases b with
      | control c => rfl
      | ext label subs => rfl
      | image i => exact absurd trivial hbl.1
      | unknown t subs => exact absurd trivial hbl.2
    obtain ⟨s1, t1, evs1, e1, e2, e3, e4, e5, e6, e7, e8⟩ := walk_block (hb' (introducer b)) b rfl (lead ++ tail) hall hbl.1
      (fun h => absurd h hbl.2)
    obtain ⟨s2, evs2, f1, f2, f3, f4, f5, f6, f7⟩ := walk_blocks tail lead e3 e4 e8 (fun c hc => (h2 c (List.mem_cons_of_mem _ hc)).1)
      (fun c hc h => absurd h (h2 c (List.mem_cons_of_mem _ hc)).2)
    obtain ⟨s3, l, k1, k2, k3, k4, k5⟩ := upto_header f2 (by rw [f4, e5]; exact hh) f3 tail h3 f7 junk
    have e7' := e7 hbl.2
    have f6' := f6 (fun c hc => (h2 c (List.mem_cons_of_mem _ hc)).2)
    subst e7' f6'
    refine ⟨s3, l, b :: lead, tail, h1, h2, h3, ?_, k2, k3, k4, k5⟩
    have hr : Spec.renderBlks g.blocks ++ 0x3B :: junk =
        introducer b :: ((t1 ++ Spec.renderBlks lead) ++ (Spec.renderBlks tail ++ 0x3B :: junk)) := by
      rw [h1, renderBlks_append]
      simp only [Spec.renderBlks, List.flatMap_cons, e1, List.cons_append, List.append_assoc]
    rw [hr]
    refine upto_event (hfirst _) (not_quiet (by simp) (by simp)) rfl (by simp) ?_
    rw [List.drop_succ_cons, List.drop_zero, List.flatMap_cons]
    have hw := walk_upto (walk_trans e2 f1) (P := Decoder.isHeaderEnd) (by
      intro ev hev
      rcases List.mem_append.mp hev with hev | hev
      · exact ⟨(e6 ev hev).1, (e6 ev hev).2.2.1⟩
      · exact ⟨(f5 ev hev).1, (f5 ev hev).2.2.1⟩) k1
    rw [List.append_nil] at hw
    exact hw

/-! ## From image to image -/

/-- What `next_frame_info` meets. -/
def NextRes (o : DecodeOptions) (g : Spec.File) (junk : List UInt8) (xs : List (Spec.Graphic × Spec.Image)) (r : Res C) : Prop :=
  match xs with
  | [] => ∃ s', r = .event s' [] (.blockStart .trailer) junk ∧ s'.width = g.width ∧ s'.height = g.height
  | (gr, i) :: xs =>
    if o.checkFrameConsistency = true ∧ ¬ g.Contains i then r = .err (.format .frameOutOfBounds)
    else if i.minCode.toNat < 1 ∨ 11 < i.minCode.toNat then r = .err (.format .invalidMinCodeSize)
    else ∃ s' x subs bs, i.subs = x :: subs ∧ Between o g (gr) { s' with current := some (Spec.graphicFrame gr) } ∧
      s'.current = some (Spec.headFrame (gr, i)) ∧ s'.headerEndReached = true ∧ s'.state = .copySubBlock x.length ∧
      r = .event s' [] (.frameMetadata (.lzw i.minCode))
        (x ++ Spec.renderSubs subs ++ Spec.renderBlks bs ++ 0x3B :: junk) ∧
      xs = Spec.frames .default bs ∧ Todo o s' bs ∧ Spec.SubsOk i.subs

theorem upto_next {o : DecodeOptions} {g : Spec.File} {gr : Spec.Graphic} {s : SD C} (hb : Between o g gr s)
    (hh : s.headerEndReached = true) {junk l : List UInt8} {bs : List Spec.Blk} (hbs : Todo o s bs)
    (hl : Here junk s bs l) :
    ∃ evs r, Upto Decoder.isMetadata s l evs r ∧ NextRes o g junk (Spec.frames gr bs) r := by
  -- at an image whose introducer has been read
  have himg : ∀ (s : SD C) (gr : Spec.Graphic) (i : Spec.Image) (bs : List Spec.Blk), Between o g gr s →
      s.headerEndReached = true → s.state = .blockStart 0x2C → Todo o s (.image i :: bs) →
      ∃ evs r, Upto Decoder.isMetadata s (i.render.tail ++ Spec.renderBlks bs ++ 0x3B :: junk) evs r ∧
        NextRes o g junk (Spec.frames gr (.image i :: bs)) r := by
    intro s gr i bs hb hh hst hbs
    have hi : i.Ok := (hbs.1 _ List.mem_cons_self).1
    have hne : i.subs ≠ [] := (hbs.1 _ List.mem_cons_self).2
    have hrt : i.render.tail = descriptor i ++ i.table.getD [] ++ [i.minCode] ++ Spec.renderSubs i.subs := rfl
    have hrej : Rejected s g i ↔ (o.checkFrameConsistency = true ∧ ¬ g.Contains i) := by
      unfold Rejected; rw [hb.check]
    by_cases hr : Rejected s g i
    · refine ⟨[.blockStart .image], .err (.format .frameOutOfBounds), ?_, ?_⟩
      · rw [hrt]
        simp only [List.append_assoc]
        exact eval_rejected s g i hi gr hst hh hb.ibuf hb.frame hb.width hb.height hr _
      · simp only [Spec.frames, NextRes]
        rw [if_pos (hrej.1 hr)]
        trivial
    · obtain ⟨cap, hw⟩ := walk_image s g i hi gr hst hh hb.ibuf hb.frame hb.width hb.height hr
      obtain ⟨x, subs, hxs⟩ : ∃ x subs, i.subs = x :: subs := by
        cases hx : i.subs with
        | nil => exact absurd hx hne
        | cons x subs => exact ⟨x, subs, rfl⟩
      have hsub : Spec.renderSubs i.subs = UInt8.ofNat x.length :: (x ++ Spec.renderSubs subs) := by
        rw [hxs]; simp [Spec.renderSubs]
      have hx : 1 ≤ x.length ∧ x.length ≤ 255 := hi.2.2.2 x (by rw [hxs]; exact List.mem_cons_self)
      have hcode : LzwReader.codeSizeOk i.minCode = true ↔ ¬ (i.minCode.toNat < 1 ∨ 11 < i.minCode.toNat) := by
        unfold LzwReader.codeSizeOk
        simp only [Bool.not_eq_true', Bool.or_eq_false_iff, decide_eq_false_iff_not, GT.gt, UInt8.lt_iff_toNat_lt]
        have h1 : (11 : UInt8).toNat = 11 := rfl
        have h2 : (1 : UInt8).toNat = 1 := rfl
        omega
      have hstep : nextState { s with state := .lzwInit i.minCode, palCap := cap, current := some (Spec.headFrame (gr, i)) }
          [UInt8.ofNat x.length] .none =
          if LzwReader.codeSizeOk i.minCode = true then
            ({ s with state := .copySubBlock x.length, palCap := cap, current := some (Spec.headFrame (gr, i)) },
              .ok (1, .frameMetadata (.lzw i.minCode)))
          else ({ s with state := .lzwInit i.minCode, palCap := cap, current := some (Spec.headFrame (gr, i)) },
              .fmtErr .invalidMinCodeSize) := by
        simp only [nextState, onLzwInit, hb.skip, ofNat_toNat_of_le hx.2]
        rw [if_neg (by simp)]
        rfl
      have hlist : i.render.tail ++ Spec.renderBlks bs ++ 0x3B :: junk =
          (descriptor i ++ i.table.getD [] ++ [i.minCode]) ++
            (UInt8.ofNat x.length :: (x ++ Spec.renderSubs subs ++ Spec.renderBlks bs ++ 0x3B :: junk)) := by
        rw [hrt, hsub]
        simp only [List.append_assoc, List.cons_append]
      rw [hlist]
      have hP : ∀ ev ∈ [Decoded.blockStart .image], Decoder.isMetadata ev = false ∧ ev ≠ .blockStart .trailer := by
        intro ev hev
        simp only [List.mem_singleton] at hev
        subst hev
        exact ⟨rfl, by simp⟩
      by_cases hc : LzwReader.codeSizeOk i.minCode = true
      · rw [if_pos hc] at hstep
        refine ⟨_, _, walk_upto hw hP (upto_found hstep (not_quiet (by simp) (by simp)) (.inl rfl)), ?_⟩
        simp only [Spec.frames, NextRes]
        rw [if_neg (fun h => hr (hrej.2 h)), if_neg (hcode.1 hc)]
        exact ⟨{ s with state := .copySubBlock x.length, palCap := cap, current := some (Spec.headFrame (gr, i)) },
          x, subs, bs, hxs, ⟨hb.ibuf, hb.skip, hb.check, hb.limit, hb.allow, hb.width, hb.height, rfl⟩, rfl, hh, rfl, rfl, rfl,
          ⟨fun b hb => hbs.1 b (List.mem_cons_of_mem _ hb), hbs.2⟩, hi.2.2.2⟩
      · rw [if_neg hc] at hstep
        refine ⟨_, _, walk_upto hw hP (.stop (.err _ hstep) (by intro _ _ _ _ h; cases h)), ?_⟩
        simp only [Spec.frames, NextRes]
        rw [if_neg (fun h => hr (hrej.2 h)), if_pos (by
          exact Decidable.byContradiction fun h => hc (hcode.2 h))]
        trivial
  have htrail : ∀ (s : SD C) (gr : Spec.Graphic), Between o g gr s → s.headerEndReached = true → s.state = .blockStart 0x3B →
      ∃ evs r, Upto Decoder.isMetadata s (0x3B :: junk) evs r ∧ NextRes o g junk (Spec.frames gr []) r := by
    intro s gr hb hh hst
    have : nextState s [0x3B] .none = ({ s with state := .trailer }, .ok (1, .blockStart .trailer)) := by
      simp only [nextState, hst]
      unfold onBlockStart
      rw [if_neg (by simp [hh])]
      rfl
    exact ⟨_, _, upto_found this (not_quiet (by simp) (by simp)) (.inr rfl), _, rfl, hb.width, hb.height⟩
  have hblocks : ∀ (s : SD C) (gr : Spec.Graphic) (bs : List Spec.Blk), Between o g gr s → s.headerEndReached = true →
      s.state = .blockEnd → Todo o s bs →
      ∃ evs r, Upto Decoder.isMetadata s (Spec.renderBlks bs ++ 0x3B :: junk) evs r ∧ NextRes o g junk (Spec.frames gr bs) r := by
    intro s gr bs hb hh h hbs
    obtain ⟨lead, tail, h1, h2, h3⟩ := split_blocks bs
    subst h1
    obtain ⟨s1, evs1, f1, f2, f3, f4, f5, _, f7⟩ := walk_blocks tail lead hb h hbs h2 (fun _ _ _ => hh)
    rw [frames_lead lead tail gr h2, renderBlks_append, List.append_assoc]
    have hP : ∀ ev ∈ evs1, Decoder.isMetadata ev = false ∧ ev ≠ .blockStart .trailer := fun ev hev =>
      ⟨(f5 ev hev).2.1, (f5 ev hev).2.2.1⟩
    rcases h3 with rfl | ⟨i, t, rfl⟩
    · obtain ⟨evs, r, k1, k2⟩ := htrail { s1 with state := .blockStart 0x3B } (lead.foldl graphicOf gr)
        (between_start f2 _) (f4.trans hh) rfl
      refine ⟨_, r, walk_upto f1 hP (upto_quiet (s' := { s1 with state := .blockStart 0x3B }) (n := 0) ?_ k1), k2⟩
      simp only [nextState, f3]
      rfl
    · obtain ⟨evs, r, k1, k2⟩ := himg { s1 with state := .blockStart 0x2C } (lead.foldl graphicOf gr) i t
        (between_start f2 _) (f4.trans hh) rfl f7
      have hr : Spec.renderBlks (.image i :: t) ++ 0x3B :: junk =
          0x2C :: (i.render.tail ++ Spec.renderBlks t ++ 0x3B :: junk) := by
        simp only [Spec.renderBlks, List.flatMap_cons, Spec.Blk.render]
        rw [render_image_tail]
        rfl
      rw [hr]
      exact ⟨_, r, walk_upto f1 hP (upto_quiet (enter f3 0x2C (by decide)) k1), k2⟩
  cases hl with
  | image i bs h => exact himg s gr i bs hb hh h hbs
  | trailer h => exact htrail s gr hb hh h
  | blocks bs h => exact hblocks s gr bs hb hh h hbs
  | unknown t subs bs h =>
    obtain ⟨s1, t1, evs1, e1, e2, e3, e4, e5, e6, _, e8⟩ := walk_block hb (.unknown t subs) h bs hbs id (fun _ => hh)
    obtain ⟨evs, r, k1, k2⟩ := hblocks s1 gr bs e3 (e5.trans hh) e4 e8
    have ht1 : t1 = Spec.renderSubs subs := by
      simp only [Spec.Blk.render, introducer, List.cons.injEq, true_and] at e1
      exact e1.symm
    subst ht1
    rw [List.append_assoc]
    exact ⟨_, r, walk_upto e2 (fun ev hev => ⟨(e6 ev hev).2.1, (e6 ev hev).2.2.1⟩) k1, k2⟩

end SD

end Gif
