import Verif.Model.Examples
import Verif.Props.Cost
import Verif.Props.EncoderFile
import Verif.Props.OwnStream
import Verif.Props.Transcode
/-!
# C69: `examples/explode.rs`
-/

namespace Gif

open Spec Encoder

variable {C : Codec}

namespace Decoder

theorem looped_steady (hS : C.Safe) {o : DecodeOptions} {w h : UInt16} {pal : Option (List UInt8)} {d : Decoder C} {fs : List Frame}
    {x : Outcome Unit} (hl : Looped d fs x) (hd : Steady o w h pal d) : ∀ f ∈ fs, Sound o w h pal f := by
  induction hl with
  | done _ => intro f hf; cases hf
  | err _ => intro f hf; cases hf
  | panic _ => intro f hf; cases hf
  | diverge _ => intro f hf; cases hf
  | frame h1 _ ih =>
    obtain ⟨k1, k2⟩ := readNextFrame_steady hS hd
    rw [h1] at k1 k2
    intro f hf
    rcases List.mem_cons.mp hf with rfl | hf
    · exact k2 _ rfl
    · exact ih k1 f hf

end Decoder

theorem sound_pal {gp : Option (List UInt8)} (h : ∀ t, gp = some t → TableLength t.length) : (gp.getD []).length / 3 ≤ 256 := by
  cases hv : gp with
  | none => simp
  | some t => exact (tableLength_padded (h t hv)).2.1

theorem sound_accepted {o : DecodeOptions} (ho : o.skipFrameDecoding = false) (hoc : o.colorOutput = .indexed) {w h : UInt16}
    {gp : Option (List UInt8)} (hp : ∀ t, gp = some t → TableLength t.length) {f : Frame} (hf : Sound o w h gp f) :
    opResult (3 ≤ (gp.getD []).length) (.frame f) = .ok () ∧ EncOp.Sane (.frame f) := by
  have hlen := (hf.pixels ho).2.1
  rw [hoc] at hlen
  simp only [Nat.one_mul] at hlen
  constructor
  · have hlt : ¬ f.buffer.length < f.width.toNat * f.height.toNat := by omega
    cases hq : f.palette with
    | some q => simp only [opResult, paletteError, if_neg hlt, hq, if_pos (tableLength_padded (hf.table q hq)).2.1]
    | none =>
      have h3 : 3 ≤ (gp.getD []).length := by
        rcases hf.coloured with h | h
        · exact absurd hq h
        · cases hv : gp with
          | none => exact absurd hv h
          | some t => exact (tableLength_padded (hp t hv)).2.2
      simp [opResult, paletteError, if_neg hlt, hq, h3]
  · by_cases hw : f.width = 0
    · right
      apply List.eq_nil_of_length_eq_zero
      rw [hlen, hw]; simp
    · by_cases hh : f.height = 0
      · right
        apply List.eq_nil_of_length_eq_zero
        rw [hlen, hh]; simp
      · left
        have h0 : ∀ x : UInt16, x ≠ 0 → x > 0 := by
          intro x hx
          rw [gt_iff_lt, UInt16.lt_iff_toNat_lt]
          have : x.toNat ≠ 0 := fun h => hx (UInt16.toNat.inj (by simpa using h))
          show 0 < x.toNat
          omega
        exact ⟨h0 _ hw, h0 _ hh⟩

namespace Examples

/-- Every file that is created is empty, and writing to it does not fail. -/
def Disk (create : Nat → Except Nat Sink) : Prop := ∀ n, ∃ s, create n = .ok s ∧ s.written = [] ∧ s.Working

theorem explodeFrame_working (np : Bool) {s : Sink} (hs : s.Working) {w h : UInt16} {pal : List UInt8} (hp : pal.length / 3 ≤ 256)
    {f : Frame} (hok : opResult (3 ≤ pal.length) (.frame f) = .ok ()) (hsane : EncOp.Sane (.frame f)) :
    ∃ s', explodeFrame C np s w h pal f = (s', .ok ()) ∧ s'.written = s.written ++ (madeFile C w h pal [.frame f]).render := by
  have d := does_writeGlobalPalette s w h pal hp
  obtain ⟨s1, a1, a2, a3, a4⟩ := d.working (s := s) rfl hs
  have hpal := d.palette
  have hnew : Encoder.new np s w h pal = (((fresh s w h false).writeGlobalPalette pal).1, .ok ()) := by
    have hx : (fresh s w h false).writeGlobalPalette pal = (((fresh s w h false).writeGlobalPalette pal).1, .ok ()) := by
      rw [← a4]
    unfold fresh at hx ⊢
    unfold Encoder.new
    rw [hx]
  unfold explodeFrame
  rw [hnew]
  simp only
  generalize ((fresh s w h false).writeGlobalPalette pal).1 = e at *
  have hg : e.globalPalette = decide (3 ≤ pal.length) := hpal
  obtain ⟨s2, b1, b2, b3, b4⟩ := (does_op C e (.frame f) (by simp [a1]) hsane).working a1 a3
  rw [hg] at b2 b4
  simp only [EncOp.run] at b1 b4
  generalize e.writeFrame C f = x at *
  obtain ⟨e2, out⟩ := x
  simp only at *
  rw [hok] at b4
  subst b4
  obtain ⟨s3, c1, c2, c3⟩ := C29_drop np e2 s2 b1 b3
  generalize e2.drop np = y at *
  obtain ⟨e3, out⟩ := y
  simp only at *
  subst c1
  refine ⟨s3, by simp [c2], ?_⟩
  rw [c3, b2, a2, headerChunks_flatten w h pal hp ([EncOp.frame f].flatMap (opBlks C (3 ≤ pal.length))), opChunks_flatten]
  simp only [madeFile, File.render, List.append_assoc, List.flatMap_cons, List.flatMap_nil, List.append_nil]
  rfl

/-- With a faulty file, under the default feature: the error is that of the file; or all is written, but maybe not the trailer. -/
theorem explodeFrame_any (s : Sink) {w h : UInt16} {pal : List UInt8} (hp : pal.length / 3 ≤ 256)
    {f : Frame} (hok : opResult (3 ≤ pal.length) (.frame f) = .ok ()) (hsane : EncOp.Sane (.frame f)) :
    ∃ s' r, explodeFrame C true s w h pal f = (s', r) ∧ (r = .ok () ∨ ∃ code, r = .err (.io (.writer code))) := by
  unfold explodeFrame
  obtain ⟨s1, s0, e0, h1, h2, h3, h4⟩ := C28_new_partial s w h pal hp (Encoder.new true s w h pal).1 (Encoder.new true s w h pal).2 rfl
  have hgp : ∀ e, Encoder.new true s w h pal = (e, .ok ()) → e.globalPalette = decide (3 ≤ pal.length) := by
    intro e he
    have d := does_writeGlobalPalette s w h pal hp
    have hpal := d.palette
    unfold Encoder.new at he
    unfold fresh at hpal
    generalize writeGlobalPalette _ pal = x at he hpal
    obtain ⟨e1, out⟩ := x
    cases out with
    | ok u =>
      simp only [Prod.mk.injEq, and_true] at he
      subst he
      exact hpal
    | err er =>
      simp only at he
      rcases hx : e1.drop true with ⟨e2, o2⟩
      rw [hx] at he
      cases o2 <;> simp at he
    | panic => simp at he
  generalize Encoder.new true s w h pal = x at *
  obtain ⟨e, out⟩ := x
  simp only at *
  rcases h4 with ⟨rfl, _⟩ | ⟨code, pre, rfl, _⟩
  · simp only
    have hg := hgp e rfl
    have hd := does_op C e (.frame f) (by simp [h1]) hsane
    rw [hg, hok] at hd
    have hr : (e.writeFrame C f).2 = .ok () ∨ ∃ code, (e.writeFrame C f).2 = .err (.io (.writer code)) := by
      rcases hd.cases h1 with ⟨_, _, _, _, k⟩ | ⟨_, code, _, _, _, _, _, _, _, k⟩
      · exact .inl k
      · exact .inr ⟨code, k⟩
    generalize e.writeFrame C f = y at *
    obtain ⟨e2, r⟩ := y
    simp only at *
    have hnp := drop_panics true e2
    generalize e2.drop true = z at *
    obtain ⟨e3, q⟩ := z
    cases q with
    | panic => cases (hnp rfl).1
    | ok u => exact ⟨_, _, rfl, hr⟩
    | err er => exact ⟨_, _, rfl, hr⟩
  · exact ⟨_, _, rfl, .inr ⟨code, rfl⟩⟩

theorem explodeLoop_files (np : Bool) {create : Nat → Except Nat Sink} (hc : Disk create) {w h : UInt16} {pal : List UInt8}
    (hp : pal.length / 3 ≤ 256) {d : Decoder C} {fs : List Frame} {x : Outcome Unit} (hl : Decoder.Looped d fs x)
    (hok : ∀ f ∈ fs, opResult (3 ≤ pal.length) (.frame f) = .ok () ∧ EncOp.Sane (.frame f)) :
    ∀ (fuel n : Nat), fs.length < fuel → ∃ ss, explodeLoop C np create w h pal fuel n d = (ss, .ofDecoding x) ∧
      ss.map (·.written) = fs.map fun f => (madeFile C w h pal [.frame f]).render := by
  induction hl with
  | done hx | err hx | panic hx | diverge hx =>
    intro fuel n hf
    obtain ⟨fuel, rfl⟩ : ∃ k, fuel = k + 1 := ⟨fuel - 1, by omega⟩
    refine ⟨[], ?_, rfl⟩
    rw [explodeLoop, hx]
    rfl
  | @frame d d1 f fs x hx _ ih =>
    intro fuel n hf
    obtain ⟨fuel, rfl⟩ : ∃ k, fuel = k + 1 := ⟨fuel - 1, by omega⟩
    obtain ⟨s, c1, c2, c3⟩ := hc n
    obtain ⟨o1, o2⟩ := hok f List.mem_cons_self
    obtain ⟨s', e1, e2⟩ := explodeFrame_working (C := C) np c3 (w := w) (h := h) hp o1 o2
    obtain ⟨ss, l1, l2⟩ := ih (fun g hg => hok g (List.mem_cons_of_mem _ hg)) fuel (n + 1) (by simp at hf; omega)
    refine ⟨s' :: ss, ?_, ?_⟩
    · rw [explodeLoop, hx]
      simp only [c1, e1, l1]
    · rw [List.map_cons, List.map_cons, l2, e2, c2, List.nil_append]

theorem explodeLoop_ends (create : Nat → Except Nat Sink) {w h : UInt16} {pal : List UInt8}
    (hp : pal.length / 3 ≤ 256) {d : Decoder C} {fs : List Frame} {x : Outcome Unit} (hl : Decoder.Looped d fs x)
    (hok : ∀ f ∈ fs, opResult (3 ≤ pal.length) (.frame f) = .ok () ∧ EncOp.Sane (.frame f)) :
    ∀ (fuel n : Nat), fs.length < fuel → ∃ ss y, explodeLoop C true create w h pal fuel n d = (ss, y) ∧
      (y = .ofDecoding x ∨ (∃ code k, create k = .error code ∧ y = .create code) ∨ ∃ code, y = .encoding (.io (.writer code))) := by
  induction hl with
  | done hx | err hx | panic hx | diverge hx =>
    intro fuel n hf
    obtain ⟨fuel, rfl⟩ : ∃ k, fuel = k + 1 := ⟨fuel - 1, by omega⟩
    refine ⟨[], _, ?_, .inl rfl⟩
    rw [explodeLoop, hx]
    rfl
  | @frame d d1 f fs x hx _ ih =>
    intro fuel n hf
    obtain ⟨fuel, rfl⟩ : ∃ k, fuel = k + 1 := ⟨fuel - 1, by omega⟩
    rw [explodeLoop, hx]
    simp only
    cases hcr : create n with
    | error code => exact ⟨_, _, rfl, .inr (.inl ⟨code, n, hcr, rfl⟩)⟩
    | ok s =>
      simp only
      obtain ⟨o1, o2⟩ := hok f List.mem_cons_self
      obtain ⟨s', r, e1, e2⟩ := explodeFrame_any (C := C) s (w := w) (h := h) hp o1 o2
      rw [e1]
      rcases e2 with rfl | ⟨code, rfl⟩
      · simp only
        obtain ⟨ss, y, l1, l2⟩ := ih (fun g hg => hok g (List.mem_cons_of_mem _ hg)) fuel (n + 1) (by simp at hf; omega)
        rw [l1]
        exact ⟨_, _, rfl, l2⟩
      · exact ⟨_, _, rfl, .inr (.inr ⟨code, rfl⟩)⟩

/-- The options of `explode.rs:15-16`. -/
abbrev explodeOptions : DecodeOptions := { DecodeOptions.new with colorOutput := .indexed }

theorem explode_frames (K : C.Contract) {r : Reader} {d : Decoder C} (ho : Decoder.readInfo C explodeOptions r = (d, .ok ())) :
    (∀ t, d.globalPalette = some t → TableLength t.length) ∧
    ∃ fs x, Decoder.Looped d fs x ∧ x.returns = true ∧ fs.length < r.bytes.length + 1 ∧
      ∀ f ∈ fs, Sound explodeOptions d.width d.height d.globalPalette f := by
  obtain ⟨h1, h2⟩ := Decoder.readInfo_steady K.safe explodeOptions r (by rw [ho])
  rw [ho] at h1 h2
  obtain ⟨fs, x, l1, l2, l3⟩ := Decoder.read_loop_ends K.safe ho
  refine ⟨h2, fs, x, l1, l2, ?_, Decoder.looped_steady K.safe l1 h1⟩
  by_cases hf : fs = []
  · subst hf; simp
  · have := l3 hf
    omega

/-- C69: `explode` ends, without panic, on every input and with every behaviour of the files: with success, with the error that
decoding the input ends with, or with an error of the files. -/
theorem explode_ends (K : C.Contract) (create : Nat → Except Nat Sink) (r : Reader) :
    ∃ ss y, explode C true create r = (ss, y) ∧ (y = .success ∨ (∃ e, y = .decoding e) ∨
      (∃ code k, create k = .error code ∧ y = .create code) ∨ ∃ code, y = .encoding (.io (.writer code))) := by
  have hret := (Decoder.inv_readInfo K.safe explodeOptions r).2
  unfold explode
  match ho : Decoder.readInfo C explodeOptions r with
  | (d, .ok ()) =>
    obtain ⟨hp, fs, x, l1, l2, l3, l4⟩ := explode_frames K ho
    obtain ⟨ss, y, k1, k2⟩ := explodeLoop_ends (C := C) create (w := d.width) (h := d.height) (sound_pal hp) l1
      (fun f hf => sound_accepted rfl rfl hp (l4 f hf)) (r.bytes.length + 1) 1 l3
    simp only
    refine ⟨ss, y, k1, ?_⟩
    rcases k2 with rfl | h | h
    · cases x with
      | ok u => exact .inl rfl
      | err e => exact .inr (.inl ⟨e, rfl⟩)
      | panic => cases l2
      | diverge => cases l2
    · exact .inr (.inr (.inl h))
    · exact .inr (.inr (.inr h))
  | (d, .err e) => exact ⟨_, _, rfl, .inr (.inl ⟨e, rfl⟩)⟩
  | (d, .panic) => rw [ho] at hret; cases hret
  | (d, .diverge) => rw [ho] at hret; cases hret

/-- C69: one file for every frame that `read_next_frame` returns, until the end or the first error, with which `explode` ends
too; and each file, read with any options and followed by anything, has the size of the input, its global palette, and this one
frame, with the same position, pixels, palette, delay, transparency and disposal. What is missing: frames without pixels. -/
theorem explode_files_partial (K : C.Contract) (np : Bool) {create : Nat → Except Nat Sink} (hc : Disk create) {r : Reader} {d : Decoder C}
    (ho : Decoder.readInfo C explodeOptions r = (d, .ok ())) {fs : List Frame} {x : Outcome Unit} (hl : Decoder.Looped d fs x) :
    ∃ ss, explode C np create r = (ss, .ofDecoding x) ∧ ss.length = fs.length ∧
      ∀ (i : Nat) (s : Sink) (f : Frame), ss[i]? = some s → fs[i]? = some f → 0 < f.width.toNat * f.height.toNat →
      ∀ (p : DecodeOptions), p.skipFrameDecoding = false → p.colorOutput = .indexed → p.checkForEndCode = false →
        p.checkFrameConsistency = false → p.memoryLimit.sizeOk 15 = true →
        p.memoryLimit.sizeOk f.buffer.length = true →
      ∃ v, v.width = d.width ∧ v.height = d.height ∧ v.repetition = .finite 0 ∧
        (d.globalPalette ≠ none → v.globalPalette = d.globalPalette) ∧
        ∀ (junk : List UInt8) (r' : Reader) (k : Nat), r'.Reliable → r'.bytes = s.written ++ junk →
          Decoder.sessionFrom C p r' (List.replicate (k + 1) .read) =
            .opened v :: .frame (some f) { v with currentFrame := f } :: List.replicate k (.frame none { v with currentFrame := f }) := by
  obtain ⟨hp, fs', x', l1, l2, l3, l4⟩ := explode_frames K ho
  obtain ⟨rfl, rfl⟩ := Decoder.looped_det l1 hl
  have hacc := fun f hf => sound_accepted rfl rfl hp (l4 f hf)
  obtain ⟨ss, k1, k2⟩ := explodeLoop_files (C := C) np hc (w := d.width) (h := d.height) (sound_pal hp) l1 hacc (r.bytes.length + 1) 1 l3
  refine ⟨ss, ?_, ?_, ?_⟩
  · unfold explode
    rw [ho]
    exact k1
  · have := congrArg List.length k2
    simpa using this
  · intro i s f hs hf hpx p p1 p2 p3 p4 p5 p6
    have hfm : f ∈ fs' := List.mem_of_getElem? hf
    have hw : s.written = (madeFile C d.width d.height (d.globalPalette.getD []) [.frame f]).render := by
      have := congrArg (·[i]?) k2
      simpa [List.getElem?_map, hs, hf] using this
    obtain ⟨file, v, h1, h2, h3, h4, h5, -, h6⟩ := sound_encode_decode K (o := explodeOptions) (p := p) rfl rfl p1 p2 p3
      (by rw [p4]; intro h; cases h) hp (gs := [f]) (by intro g hg; rw [List.mem_singleton.mp hg]; exact l4 f hfm) (by simp)
      (by intro g hg; rw [List.mem_singleton.mp hg]; exact hpx) np (.finite 0) p5
      (by intro g hg; rw [List.mem_singleton.mp hg]; exact p6)
    have hfile : file = s.written := by
      rw [encodeFile_eq C np d.width d.height _ _ (sound_pal hp) (by
        intro op hop
        rcases List.mem_cons.mp hop with rfl | hop
        · trivial
        · obtain ⟨g, hg, rfl⟩ := List.mem_map.mp hop
          rw [List.mem_singleton.mp hg]
          exact (hacc f hfm).2)] at h1
      simp only [Prod.mk.injEq, Option.some.injEq] at h1
      rw [hw, ← h1.1]
      rfl
    refine ⟨v, h2, h3, h4, h5, ?_⟩
    intro junk r' k hr' hb
    have := h6 junk r' k hr' (by rw [hfile]; exact hb)
    rw [show [f].length + k = k + 1 by simp; omega] at this
    exact this

end Examples

end Gif
