import Verif.Model.Build
import Verif.Props.Damage
import Verif.Props.EncoderFile
import Verif.Ref.Lawful
/-!
C74: release builds.
-/

namespace Gif

open Spec Encoder

variable {C : Codec}

/-! ## C74 -/

/-- A debug build with memory is what the rest of the model describes. -/
theorem debug_build (C : Codec) (e : Encoder) (op : EncOp) : op.runOn true true C e = op.run C e := by
  cases op with
  | frame f =>
    show e.writeFrameOn true true C f = e.writeFrame C f
    unfold writeFrameOn writeFrame
    simp only [true_and]
    rfl
  | _ => rfl

/-- C74: a release build does what a debug build does, except for frames without area that have data. -/
theorem release_agrees (C : Codec) (e : Encoder) (op : EncOp)
    (h : ∀ f, op = .frame f → (f.width ≠ 0 ∧ f.height ≠ 0) ∨ f.buffer = []) : op.runOn false true C e = op.run C e := by
  cases op with
  | frame f =>
    show e.writeFrameOn false true C f = e.writeFrame C f
    have h0 : ∀ x : UInt16, x ≠ 0 → x > 0 := by
      intro x hx
      rw [gt_iff_lt, UInt16.lt_iff_toNat_lt]
      rw [ne_eq, ← UInt16.toNat_inj] at hx
      show 0 < x.toNat
      have : ¬ x.toNat = 0 := hx
      omega
    have hd : (f.width > 0 ∧ f.height > 0) ∨ f.buffer.isEmpty = true := by
      rcases h f rfl with h | h
      · exact .inl ⟨h0 _ h.1, h0 _ h.2⟩
      · exact .inr (by rw [h]; rfl)
    unfold writeFrameOn writeFrame
    rw [if_neg (c := _ ∧ _) (by simp), if_neg (c := ¬ _) (not_not_intro hd)]
    rfl
  | _ => rfl

/-- What `write_frame` does in either build, with or without memory. -/
def onChunks (room : Bool) (C : Codec) (g : Bool) : EncOp → List (List UInt8)
  | .frame f =>
    if room then opChunks C g (.frame f)
    else if f.buffer.length < f.width.toNat * f.height.toNat then []
    else if (paletteError g f).isSome then ctrlChunks f
    else ctrlChunks f ++ descChunks f
  | op => opChunks C g op

def onResult (room : Bool) (g : Bool) : EncOp → EOut Unit
  | .frame f =>
    if room then opResult g (.frame f)
    else match opResult g (.frame f) with
      | .ok () => .err (.io .outOfMemory)
      | r => r
  | op => opResult g op

theorem does_on (debug room : Bool) (C : Codec) (e : Encoder) (op : EncOp) (hw : e.w ≠ none) (hs : debug = true → op.Sane) :
    Does e (op.runOn debug room C e) (onChunks room C e.globalPalette op) (onResult room e.globalPalette op) := by
  cases op with
  | frame f =>
    show Does e (e.writeFrameOn debug room C f) _ _
    unfold writeFrameOn onChunks onResult opChunks opResult
    by_cases hb : f.buffer.length < f.width.toNat * f.height.toNat
    · simp only [if_pos hb]
      cases room <;> exact does_result e _
    · have hd : ¬ (debug = true ∧ ¬ ((f.width > 0 ∧ f.height > 0) ∨ f.buffer.isEmpty = true)) := by
        rintro ⟨h1, h2⟩
        apply h2
        rcases hs h1 with h | h
        · exact .inl h
        · exact .inr (by rw [h]; rfl)
      simp only [if_neg hb, if_neg hd]
      cases hp : paletteError e.globalPalette f with
      | some err =>
        simp only [Option.isSome_some, if_true, ite_self]
        have hr : (if room = true then EOut.err err else EOut.err err : EOut Unit) = .err err := by cases room <;> rfl
        obtain ⟨h1, h2, h3, h4⟩ := does_writeFrameHeader_err e f hw err hp
        rcases hx : e.writeFrameHeader f with ⟨e', out⟩
        rw [hx] at h1 h2 h3 h4
        obtain ⟨s, hsk⟩ := Option.ne_none_iff_exists'.1 hw
        obtain ⟨r1, r2⟩ := h1 s hsk
        have hne : ∀ a, out ≠ .ok a := by
          intro a ha
          simp only at r2
          rw [ha] at r2
          rcases runChunks_cases (ctrlChunks f) s with ⟨s', hc, _⟩ | ⟨s', code, pre, hc, _⟩ <;>
            simp [W.bind, hc, W.ofOut] at r2
        cases out with
        | ok a => exact absurd rfl (hne a)
        | err x => cases room <;> exact ⟨h1, h2, h3, h4⟩
        | panic => cases room <;> exact ⟨h1, h2, h3, h4⟩
      | none =>
        cases room with
        | true =>
          refine (does_writeFrameHeader_ok e f hw hp).andThen ?_ hw
          intro e' _ _ _
          have := does_withWriter { e' with buffer := lzwEncode C f.buffer [] } (emits_writeEncodedImageBlock (lzwEncode C f.buffer []))
          exact ⟨this.1, this.2, this.3, this.4⟩
        | false =>
          have key := (does_writeFrameHeader_ok e f hw hp).andThen (k := fun e () => e.writeImageBlockOn false C f.buffer)
            (c₂ := []) (r := .err (.io .outOfMemory)) (by
              intro e' _ _ _
              have := does_result { e' with buffer := [] } (.err (.io .outOfMemory) : EOut Unit)
              exact ⟨this.1, this.2, this.3, this.4⟩) hw
          rw [List.append_nil] at key
          exact key
  | setRepeat r => exact does_op C e (.setRepeat r) hw trivial
  | extension x => exact does_op C e (.extension x) hw trivial
  | rawExtension l d => exact does_op C e (.rawExtension l d) hw trivial
  | preEncoded f => exact does_op C e (.preEncoded f) hw trivial

/-- C74: what a release build makes of such a frame is what a debug build makes of the frame compressed beforehand: the same
effect on the writer, also one that fails, and the same result. -/
theorem release_zero_area (C : Codec) (e : Encoder) (f : Frame) (hw : e.w ≠ none) (h : f.width = 0 ∨ f.height = 0) :
    (e.writeFrameOn false true C f).1.w = (e.writeLzwPreEncodedFrame (f.makeLzwPreEncoded C)).1.w ∧
    (e.writeFrameOn false true C f).2 = (e.writeLzwPreEncodedFrame (f.makeLzwPreEncoded C)).2 := by
  have hb : ¬ f.buffer.length < f.width.toNat * f.height.toNat := by
    have : f.width.toNat * f.height.toNat = 0 := by
      rcases h with h | h <;> rw [h] <;> simp
    omega
  obtain ⟨s, hs⟩ := Option.ne_none_iff_exists'.1 hw
  have h1 := (does_on false true C e (.frame f) hw (by simp)).run s hs
  have h2 := (does_op C e (.preEncoded (f.makeLzwPreEncoded C)) hw trivial).run s hs
  have hgood : ¬ badCodeSize (f.makeLzwPreEncoded C) := by
    obtain ⟨m, hm, h2, h8, _⟩ := C20_code_size C f
    unfold badCodeSize
    rw [hm]
    simp only [not_or, UInt8.lt_iff_toNat_lt, gt_iff_lt]
    simp; omega
  have hpe : paletteError e.globalPalette (f.makeLzwPreEncoded C) = paletteError e.globalPalette f := rfl
  have hc : opChunks C e.globalPalette (.preEncoded (f.makeLzwPreEncoded C)) = onChunks true C e.globalPalette (.frame f) := by
    simp only [onChunks, if_true, opChunks, if_neg hgood, if_neg hb, hpe]
    rfl
  have hr : opResult e.globalPalette (.preEncoded (f.makeLzwPreEncoded C)) = onResult true e.globalPalette (.frame f) := by
    simp only [onResult, if_true, opResult, if_neg hgood, if_neg hb, hpe]
  rw [hc, hr] at h2
  exact ⟨h1.1.trans h2.1.symm, h1.2.trans h2.2.symm⟩

/-- A call of a release build as a call of a debug build. -/
def EncOp.tame (C : Codec) : EncOp → EncOp
  | .frame f => if (f.width = 0 ∨ f.height = 0) ∧ f.buffer ≠ [] then .preEncoded (f.makeLzwPreEncoded C) else .frame f
  | op => op

theorem tame_sane (C : Codec) (op : EncOp) : (op.tame C).Sane := by
  cases op with
  | frame f =>
    unfold EncOp.tame
    simp only
    split
    · trivial
    · rename_i h
      have h0 : ∀ x : UInt16, x ≠ 0 → x > 0 := by
        intro x hx
        rw [gt_iff_lt, UInt16.lt_iff_toNat_lt]
        rw [ne_eq, ← UInt16.toNat_inj] at hx
        show 0 < x.toNat
        have : ¬ x.toNat = 0 := hx
        omega
      by_cases hb : f.buffer = []
      · exact .inr hb
      · refine .inl ⟨h0 _ fun hw => h ⟨.inl hw, hb⟩, h0 _ fun hh => h ⟨.inr hh, hb⟩⟩
  | _ => trivial

theorem tame_compressed (C : Codec) (op : EncOp) : compressed C (op.tame C) = compressed C op ∧ isFrame (op.tame C) = isFrame op := by
  cases op with
  | frame f =>
    unfold EncOp.tame
    simp only
    split <;> exact ⟨rfl, rfl⟩
  | _ => exact ⟨rfl, rfl⟩

/-- One call of a release build and the call of a debug build. -/
theorem tame_op (C : Codec) (a b : Encoder) (op : EncOp) (hab : a.Same b) (hw : a.w ≠ none) :
    (op.runOn false true C a).1.Same ((op.tame C).run C b).1 ∧ (op.runOn false true C a).2 = ((op.tame C).run C b).2 ∧
      (op.runOn false true C a).1.w ≠ none := by
  obtain ⟨h1, h2, h3, h4⟩ := hab
  obtain ⟨s, hsk⟩ := Option.ne_none_iff_exists'.1 hw
  have hsb : b.w = some s := h1 ▸ hsk
  have da := does_on false true C a op hw (by simp)
  have db := does_op C b (op.tame C) (h1 ▸ hw) (tame_sane C op)
  have hsame : (op.runOn false true C a).1.w = ((op.tame C).run C a).1.w ∧
      (op.runOn false true C a).2 = ((op.tame C).run C a).2 := by
    cases op with
    | frame f =>
      unfold EncOp.tame
      simp only
      split
      · rename_i h
        exact release_zero_area C a f hw h.1
      · rename_i h
        rw [release_agrees C a (.frame f) (by
          rintro g hg
          cases hg
          by_cases hb : f.buffer = []
          · exact .inr hb
          · exact .inl ⟨fun hw => h ⟨.inl hw, hb⟩, fun hh => h ⟨.inr hh, hb⟩⟩)]
        exact ⟨rfl, rfl⟩
    | _ => exact ⟨rfl, rfl⟩
  have ra := (does_op C a (op.tame C) hw (tame_sane C op)).run s hsk
  have rb := db.run s hsb
  rw [h2] at ra
  refine ⟨⟨?_, ?_, ?_, ?_⟩, ?_, ?_⟩
  · rw [hsame.1, ra.1, rb.1]
  · rw [da.palette, db.palette, h2]
  · rw [da.width, db.width, h3]
  · rw [da.height, db.height, h4]
  · rw [hsame.2, ra.2, rb.2]
  · rw [hsame.1, ra.1]; simp

/-- C74 for sessions, on every writer: a release build gives the results and the output of a debug build whose frames without area
were compressed beforehand. -/
theorem release_session (C : Codec) : ∀ (ops : List EncOp) (a b : Encoder), a.Same b → a.w ≠ none →
    (runOpsOn false C a (ops.map (·, true))).1.Same (runOps C b (ops.map (EncOp.tame C))).1 ∧
    (runOpsOn false C a (ops.map (·, true))).2 = (runOps C b (ops.map (EncOp.tame C))).2
  | [], _, _, hab, _ => ⟨hab, rfl⟩
  | op :: ops, a, b, hab, hw => by
    obtain ⟨h1, h2, h3⟩ := tame_op C a b op hab hw
    obtain ⟨k1, k2⟩ := release_session C ops _ _ h1 h3
    exact ⟨k1, by simp only [List.map_cons, runOpsOn, runOps]; rw [h2, k2]⟩

/-- C74: no call panics in a release build, with memory or without. -/
theorem release_no_panic (room : Bool) (C : Codec) (e : Encoder) (op : EncOp) (hw : e.w ≠ none) : (op.runOn false room C e).2 ≠ .panic := by
  intro h
  obtain ⟨s, he⟩ := Option.ne_none_iff_exists'.1 hw
  have hnp : onResult room e.globalPalette op ≠ .panic := by
    have : opResult e.globalPalette op ≠ .panic := by
      intro h
      cases op with
      | frame f =>
        unfold opResult at h
        simp only at h
        split at h
        · cases h
        · split at h <;> cases h
      | preEncoded f =>
        unfold opResult at h
        simp only at h
        split at h
        · cases h
        · split at h <;> cases h
      | _ => cases h
    cases op with
    | frame f =>
      unfold onResult
      cases room with
      | true => exact this
      | false =>
        simp only [Bool.false_eq_true, if_false]
        generalize opResult e.globalPalette (.frame f) = r at this
        cases r with
        | ok u => simp
        | err x => simp
        | panic => exact absurd rfl this
    | _ => exact this
  rcases (does_on false room C e op hw (by simp)).cases he with ⟨_, _, _, _, h4⟩ | ⟨_, _, _, _, _, _, _, _, _, h4⟩
  · rw [h4] at h; exact hnp h
  · rw [h4] at h; cases h

/-- Whole files. -/
theorem release_encodeFile (C : Codec) (np : Bool) (w h : UInt16) (pal : List UInt8) (ops : List EncOp) :
    encodeFileOn false C np w h pal (ops.map (·, true)) = encodeFile C np w h pal (ops.map (EncOp.tame C)) := by
  unfold encodeFileOn encodeFile
  have hnew := new_written (s := { written := [], plan := [] }) np (w := w) (h := h) (pal := pal)
  rcases hx : Encoder.new np { written := [], plan := [] } w h pal with ⟨e, r⟩
  cases r with
  | ok u =>
    by_cases hpal : pal.length / 3 ≤ 256
    · obtain ⟨s, hs, _⟩ := hnew hpal hx []
      obtain ⟨⟨k1, k2, k3, k4⟩, k5⟩ := release_session C ops e e ⟨rfl, rfl, rfl, rfl⟩ (by rw [hs]; simp)
      simp only
      rcases hy : runOpsOn false C e (ops.map (·, true)) with ⟨a, ra⟩
      rcases hz : runOps C e (ops.map (EncOp.tame C)) with ⟨b, rb⟩
      rw [hy, hz] at k1 k2 k3 k4 k5
      simp only at k1 k2 k3 k4 k5
      subst k5
      have hinto : (a.intoInner np).2 = (b.intoInner np).2 := by
        have hdrop : ∀ x y : Encoder, x.w = y.w → (x.drop np).2 = (y.drop np).2 := by
          intro x y hxy
          unfold Encoder.drop Encoder.writeTrailer Encoder.withWriter
          rw [← hxy]
          cases hxw : x.w with
          | none => rfl
          | some s =>
            simp only [hxw]
            generalize W.writeU8 _ s = z
            obtain ⟨s', out⟩ := z
            cases out <;> cases np <;> rfl
        have hmatch : ∀ {α : Type} (x y : Encoder × EOut Unit) (r : EOut α), x.2 = y.2 →
            (match x with | (e, .panic) => (e, .panic) | (e, _) => (e, r) : Encoder × EOut α).2 =
            (match y with | (e, .panic) => (e, .panic) | (e, _) => (e, r) : Encoder × EOut α).2 := by
          rintro α ⟨x, ox⟩ ⟨y, oy⟩ r h
          simp only at h
          subst h
          cases ox <;> rfl
        unfold Encoder.intoInner Encoder.writeTrailer Encoder.withWriter
        rw [← k1]
        cases a.w with
        | none => exact hmatch _ _ _ (hdrop _ _ k1)
        | some s =>
          simp only
          generalize W.writeU8 _ s = y
          obtain ⟨s', out⟩ := y
          cases out with
          | ok u => rfl
          | err x => exact hmatch _ _ _ (hdrop _ _ rfl)
          | panic => rfl
      simp only
      rcases hia : a.intoInner np with ⟨a', oa⟩
      rcases hib : b.intoInner np with ⟨b', ob⟩
      rw [hia, hib] at hinto
      simp only at hinto
      subst hinto
      cases oa <;> rfl
    · obtain ⟨e', s', h1, _⟩ := C30_negation np { written := [], plan := [] } (by intro p hp; simp at hp) w h pal (by omega)
      rw [hx] at h1
      cases h1
  | err x => rfl
  | panic => rfl

/-! What is known of files holds for release builds, without a condition that excludes panics. -/

namespace Spec

theorem written_tame (C : Codec) : ∀ (ops : List EncOp) (rs : List (EOut Unit)),
    written (ops.map (EncOp.tame C)) rs = (written ops rs).map (EncOp.tame C)
  | [], _ => by simp [written]
  | op :: ops, [] => by simp [written]
  | op :: ops, r :: rs => by
    rw [List.map_cons, written, written, written_tame C ops rs, (tame_compressed C op).2]
    split <;> rfl

theorem repetitions_tame (C : Codec) : ∀ (ops : List EncOp) (rs : List (EOut Unit)) (cur : Repeat),
    repetitions (ops.map (EncOp.tame C)) rs cur = repetitions ops rs cur
  | [], _, _ => rfl
  | op :: ops, [], _ => by cases op <;> rfl
  | op :: ops, r :: rs, cur => by
    have h2 : repetitionOf (op.tame C) = repetitionOf op := by
      cases op with
      | frame f => unfold EncOp.tame; simp only; split <;> rfl
      | _ => rfl
    rw [List.map_cons, repetitions, repetitions, (tame_compressed C op).2, h2, repetitions_tame C ops rs]

end Spec

/-- C74: a release build writes files of the grammar; see `encoder_writes_gif`. -/
theorem release_writes_gif (np : Bool) (w h : UInt16) (pal : List UInt8) (ops : List EncOp) (file : List UInt8) (rs : List (EOut Unit))
    (henc : encodeFileOn false C np w h pal (ops.map (·, true)) = (some file, rs)) (hrs : ∀ r ∈ rs, Clean r)
    (hord : ∀ op ∈ ops, Ordinary op) :
    ∃ g : File, file = g.render ∧ g.Legal ∧ Ordered false g.blocks ∧ g.v89 = true ∧ g.width = w ∧ g.height = h ∧
      g.background = 0 ∧ g.aspect = 0 ∧
      (images g.blocks).map (fun i => (i.left, i.top, i.width, i.height, i.interlaced)) =
        (written ops rs).map (fun op =>
          ((compressed C op).left, (compressed C op).top, (compressed C op).width, (compressed C op).height, (compressed C op).interlaced)) ∧
      ∀ i ∈ images g.blocks, 2 ≤ i.minCode.toNat ∧ i.minCode.toNat ≤ 11 := by
  rw [release_encodeFile] at henc
  obtain ⟨g, h1, h2, h3, h4, h5, h6, h7, h8, h9, h10⟩ := encoder_writes_gif np w h pal _ file rs henc hrs (by
    intro op hop
    obtain ⟨x, hx, rfl⟩ := List.mem_map.1 hop
    have := hord x hx
    cases x with
    | frame f => unfold EncOp.tame; simp only; split <;> trivial
    | _ => exact this)
  refine ⟨g, h1, h2, h3, h4, h5, h6, h7, h8, ?_, h10⟩
  rw [h9, written_tame, List.map_map]
  refine List.map_congr_left fun op _ => ?_
  simp only [Function.comp, (tame_compressed C op).1]

/-- C74: the results of the calls of a release build; see `frames_accepted`. Nothing is excluded: no call panics. -/
theorem release_accepts (np : Bool) (w h : UInt16) (pal : List UInt8) (hpal : pal.length / 3 ≤ 256) (ops : List EncOp) :
    ∃ file rs, encodeFileOn false C np w h pal (ops.map (·, true)) = (some file, rs) ∧ rs.length = ops.length ∧
      ∀ (i : Nat) (hi : i < ops.length) (hr : i < rs.length), ∀ f, ops[i] = .frame f →
        (rs[i] = .err (.io .invalidInput) ↔ f.buffer.length < f.width.toNat * f.height.toNat) ∧
        (rs[i] = .err (.format .tooManyColors) ↔ f.width.toNat * f.height.toNat ≤ f.buffer.length ∧
          ∃ p, f.palette = some p ∧ 256 < p.length / 3) ∧
        (rs[i] = .err (.format .missingColorPalette) ↔ f.width.toNat * f.height.toNat ≤ f.buffer.length ∧
          f.palette = none ∧ pal.length < 3) ∧
        (rs[i] = .ok () ↔ f.width.toNat * f.height.toNat ≤ f.buffer.length ∧ (∀ p, f.palette = some p → p.length / 3 ≤ 256) ∧
          (f.palette = none → 3 ≤ pal.length)) := by
  rw [release_encodeFile, encodeFile_eq C np w h pal _ hpal (by
    intro op hop
    obtain ⟨x, _, rfl⟩ := List.mem_map.1 hop
    exact tame_sane C x)]
  refine ⟨_, _, rfl, by simp, fun i hi hr f hf => ?_⟩
  have hres : ∀ g : Bool, opResult g (EncOp.tame C (.frame f)) = opResult g (.frame f) := by
    intro g
    unfold EncOp.tame
    simp only
    split
    · rename_i hz
      have hb : ¬ f.buffer.length < f.width.toNat * f.height.toNat := by
        have : f.width.toNat * f.height.toNat = 0 := by
          rcases hz.1 with h | h <;> rw [h] <;> simp
        omega
      have hgood : ¬ badCodeSize (f.makeLzwPreEncoded C) := by
        obtain ⟨m, hm, h2, h8, _⟩ := C20_code_size C f
        unfold badCodeSize
        rw [hm]
        simp only [not_or, UInt8.lt_iff_toNat_lt, gt_iff_lt]
        simp; omega
      have hpe : paletteError g (f.makeLzwPreEncoded C) = paletteError g f := rfl
      simp only [opResult, if_neg hgood, if_neg hb, hpe]
    · rfl
  simp only [List.getElem_map]
  rw [hf, hres]
  simp only [opResult]
  by_cases hs : f.buffer.length < f.width.toNat * f.height.toNat
  · have hs' : ¬ f.width.toNat * f.height.toNat ≤ f.buffer.length := by omega
    simp [hs, hs']
  · have hs' : f.width.toNat * f.height.toNat ≤ f.buffer.length := by omega
    simp only [hs, hs', true_and]
    unfold paletteError
    cases hp : f.palette with
    | some p =>
      by_cases h6 : p.length / 3 ≤ 256
      · have h6' : ¬ 256 < p.length / 3 := by omega
        simp [h6, h6']
      · have h6' : 256 < p.length / 3 := by omega
        simp [h6, h6']
    | none =>
      by_cases h3 : 3 ≤ pal.length
      · have h3' : ¬ pal.length < 3 := by omega
        simp [h3, h3']
      · have h3' : pal.length < 3 := by omega
        simp [h3, h3']

/-- C74: what a release build writes is read back, with `skip_frame_decoding`; see `roundtrip_raw`. A frame without area comes back
with its compressed data, whatever they are. -/
theorem release_roundtrip (K : C.Contract) {o : DecodeOptions} (np : Bool) {w h : UInt16} {pal : List UInt8}
    (hpal : pal.length / 3 ≤ 256) {ops : List EncOp} (hpl : ∀ op ∈ ops, Plain o op)
    {file : List UInt8} {rs : List (EOut Unit)} (henc : encodeFileOn false C np w h pal (ops.map (·, true)) = (some file, rs))
    (had : ∀ op ∈ written ops rs, Admissible C o w h op)
    (hld : ∀ op ∈ written ops rs, Held C o op) (hne : written ops rs ≠ []) {junk : List UInt8} {r : Reader}
    (hr : r.Reliable) (hb : r.bytes = file ++ junk) (k : Nat) :
    Decoder.rawFilm C o r ((written ops rs).length + k) =
      projection w h pal (repetitions ops rs (.finite 0)) ((written ops rs).map fun op => readRaw (compressed C op)) k := by
  rw [release_encodeFile] at henc
  have hsane : ∀ op ∈ ops.map (EncOp.tame C), op.Sane := by
    intro op hop
    obtain ⟨x, _, rfl⟩ := List.mem_map.1 hop
    exact tame_sane C x
  have hne' : written (ops.map (EncOp.tame C)) rs ≠ [] := by rw [written_tame]; simpa using hne
  have h := roundtrip_raw K np hpal hsane (by
    intro op hop
    obtain ⟨x, hx, rfl⟩ := List.mem_map.1 hop
    have := hpl x hx
    cases x with
    | frame f => unfold EncOp.tame; simp only; split <;> exact this
    | _ => exact this) henc (by
    rw [written_tame]
    intro op hop
    obtain ⟨x, hx, rfl⟩ := List.mem_map.1 hop
    obtain ⟨a1, a3⟩ := had x hx
    unfold Admissible
    simp only [(tame_compressed C x).1]
    refine ⟨a1, fun g hg => ?_⟩
    cases x with
    | frame f =>
      unfold EncOp.tame at hg
      simp only at hg
      split at hg
      · cases hg
        obtain ⟨m, data, hm, hd, _⟩ := encode_ne K f
        rw [hm]
        cases data with
        | nil => exact absurd rfl hd
        | cons x xs => simp
      · cases hg
    | preEncoded f => exact a3 g hg
    | _ => cases hg) (by
    rw [written_tame]
    intro op hop
    obtain ⟨x, hx, rfl⟩ := List.mem_map.1 hop
    unfold Held
    rw [(tame_compressed C x).1]
    exact hld x hx) (made_changed np hpal hsane henc hne') hr hb k
  rw [written_tame, List.length_map, repetitions_tame, List.map_map] at h
  rw [h]
  congr 1
  refine List.map_congr_left fun op _ => ?_
  simp only [Function.comp, (tame_compressed C op).1]

/-! ## The assumptions are met -/

/-- A frame without area that has data. -/
def flatFrame : Frame := { Frame.default with width := 0, height := 1, buffer := [0, 1] }

def flatFile : List UInt8 :=
  [71, 73, 70, 56, 57, 97, 1, 0, 1, 0, 128, 0, 0, 1, 2, 3, 4, 5, 6, 33, 249, 4, 4, 0, 0, 0, 0, 44, 0, 0, 0, 0, 0, 0, 1, 0, 0,
    2, 2, 68, 10, 0, 59]

set_option maxRecDepth 100000 in
theorem flat_release : encodeFileOn false Ref.lzw true 1 1 [1, 2, 3, 4, 5, 6] [(.frame flatFrame, true)] = (some flatFile, [.ok ()]) := by
  decide +kernel

set_option maxRecDepth 100000 in
/-- The builds differ: the debug build panics. -/
example : (encodeFileOn true Ref.lzw true 1 1 [1, 2, 3, 4, 5, 6] [(.frame flatFrame, true)]).2 = [.panic] ∧
    (flatFrame.width = 0 ∨ flatFrame.height = 0) ∧ flatFrame.buffer ≠ [] := by
  decide +kernel

/-- The release build writes a file that is read back. -/
example : Decoder.rawFilm Ref.lzw DecodeOptions.new { buf := flatFile, src := [] } 2 =
    projection 1 1 [1, 2, 3, 4, 5, 6] (repetitions [.frame flatFrame] [.ok ()] (.finite 0))
      [readRaw (compressed Ref.lzw (.frame flatFrame))] 1 :=
  release_roundtrip Ref.lzwContract true (by decide) (ops := [.frame flatFrame]) (by intro op h; simp at h; subst h; exact rfl)
    flat_release (by
      intro op h
      simp [written, isFrame] at h
      subst h
      exact ⟨fun _ => by decide, fun g hg => by cases hg⟩)
    (by
      intro op h
      simp [written, isFrame] at h
      subst h
      exact (by decide +kernel : DecodeOptions.new.memoryLimit.sizeOk (compressed Ref.lzw (.frame flatFrame)).buffer.length = true))
    (by simp [written, isFrame]) (junk := []) (by intro ev h; cases h) (by simp [Reader.bytes]) 1

/-- It is one of the files of the grammar. -/
example : ∃ g : File, flatFile = g.render ∧ g.Legal := by
  obtain ⟨g, h1, h2, _⟩ := release_writes_gif true 1 1 [1, 2, 3, 4, 5, 6] [.frame flatFrame] flatFile [.ok ()] flat_release
    (by intro r h; simp at h; subst h; simp [Clean]) (by intro op h; simp at h; subst h; trivial)
  exact ⟨g, h1, h2⟩

end Gif
