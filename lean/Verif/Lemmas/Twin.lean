import Verif.Lemmas.Gather
import Verif.Lemmas.Sim
import Verif.Props.Safety
import Verif.Props.Film
import Verif.Spec.Tint
/-!
Two decoders that differ in the colour mode run in step.
-/

namespace Gif.Decoder

open Spec

variable {C : Codec}

/-- The frame that `next_frame_info` finds has pixels to come unless frame decoding is skipped. -/
theorem frameRun_type (hS : C.Safe) {d d' : Decoder C} {out : Outcome Bool} (h : FrameRun d d' out) (hi : d.rd.Inv)
    (hk : d.rd.sd.skipFrameDecoding = false) (ho : out = .ok true) : d'.dataType = .pixels := by
  induction h with
  | @step d d' rd ev out hp hev hr ih =>
    refine ih (RD.pull_inv hS hp hi) ?_ ho
    have := RD.pull_opts hS hp hi
    simp only [SD.opts, Prod.mk.injEq] at this
    exact this.1.trans hk
  | @found d rd t f hp hc =>
    have hop := RD.pull_opts hS hp hi
    have hw := RD.pull_inv hS hp hi
    obtain ⟨s1, b, bs, n, w, _, _, htr, _⟩ := RD.pull_last hS hp hi rfl
    simp only [SD.opts, Prod.mk.injEq] at hop
    have hk' : rd.sd.skipFrameDecoding = false := hop.1.trans hk
    rcases (SD.tr_metadata htr w).2 with ⟨left, _, ht⟩ | ⟨left, m, hst, _⟩
    · exact ht
    · have w4 := hw.wf.st
      simp [SD.stOk, hst, hk'] at w4
  | eof => cases ho
  | err => cases ho

theorem nextFrameInfo_opts (hS : C.Safe) (d : Decoder C) (hi : d.Inv) : d.nextFrameInfo.1.rd.sd.opts = d.rd.sd.opts :=
  (frameRun_spec hS (nextFrameInfo_run hS d hi.rd) hi.rd).2.2.1

theorem perform_opts (hS : C.Safe) (d : Decoder C) (hi : d.Inv) (op : Op) :
    (d.perform op).1.rd.sd.opts = d.rd.sd.opts := by
  cases op with
  | nextFrameInfo =>
    have := nextFrameInfo_opts hS d hi
    simp only [perform]
    generalize d.nextFrameInfo = x at *
    obtain ⟨d', r⟩ := x
    cases r <;> exact this
  | readNextFrame =>
    have := readNextFrame_opts hS d hi
    simp only [perform]
    generalize d.readNextFrame = x at *
    obtain ⟨d', r⟩ := x
    cases r <;> exact this
  | readIntoBuffer buf =>
    exact (Converter.readIntoBuffer_good d.conv d.currentFrame (decodeNextBytes_opts hS d.rd.sd.opts) d.rd buf ⟨hi.rd, rfl⟩).1.2
  | fillBuffer buf =>
    have : (d.fillBuffer buf).1.rd.sd.opts = d.rd.sd.opts :=
      (Converter.fillBuffer_good d.conv d.currentFrame (decodeNextBytes_opts hS d.rd.sd.opts) d.rd buf ⟨hi.rd, rfl⟩).1.2
    simp only [perform]
    generalize d.fillBuffer buf = x at *
    obtain ⟨d', b, r⟩ := x
    cases r <;> exact this

theorem readInfo_opts (hS : C.Safe) (o : DecodeOptions) (r : Reader) :
    (readInfo C o r).1.rd.sd.opts = (SD.withOptions C o).opts := by
  have hr := initLoop_run hS _ (withNoInit C o r) (inv_withNoInit o r).rd (meas_lt_fuel _)
  obtain ⟨_, _, h3, _⟩ := initRun_spec hS hr (inv_withNoInit o r).rd
  have key : ∀ d : Decoder C, d.checkBg.rd = d.rd := by
    intro d
    unfold checkBg
    split
    · split <;> rfl
    · rfl
  unfold readInfo init
  generalize initLoop (withNoInit C o r).rd.eventFuel (withNoInit C o r) = x at *
  obtain ⟨d, out⟩ := x
  cases out with
  | ok u => cases u; simp only [key]; exact h3
  | err e => exact h3
  | panic => exact h3
  | diverge => exact h3

theorem readInfo_frame (hS : C.Safe) (o : DecodeOptions) (r : Reader) :
    (readInfo C o r).1.currentFrame = Frame.default := by
  have hr := initLoop_run hS _ (withNoInit C o r) (inv_withNoInit o r).rd (meas_lt_fuel _)
  obtain ⟨_, _, _, _, _, h3, _⟩ := initRun_spec hS hr (inv_withNoInit o r).rd
  have key : ∀ d : Decoder C, d.checkBg.currentFrame = d.currentFrame := by
    intro d
    unfold checkBg
    split
    · split <;> rfl
    · rfl
  unfold readInfo init
  generalize initLoop (withNoInit C o r).rd.eventFuel (withNoInit C o r) = x at *
  obtain ⟨d, out⟩ := x
  cases out with
  | ok u => cases u; simp only [key]; exact h3
  | err e => exact h3
  | panic => exact h3
  | diverge => exact h3

theorem reach_opts (hS : C.Safe) {o : DecodeOptions} {r : Reader} {d : Decoder C} (h : Reach o r d) :
    d.rd.sd.opts = (SD.withOptions C o).opts := by
  induction h with
  | opened h => exact readInfo_opts hS o r
  | @op d h op hr ih => exact (perform_opts hS d (reach_inv hS h).1 op).trans ih

theorem reach_skip (hS : C.Safe) {o : DecodeOptions} {r : Reader} {d : Decoder C} (h : Reach o r d) :
    d.rd.sd.skipFrameDecoding = o.skipFrameDecoding := by
  have := reach_opts hS h
  simp only [SD.opts, Prod.mk.injEq] at this
  exact this.1

/-- Two decoders that differ in the colour mode, and in what they made of the frames before. -/
structure Mates (a b : Decoder C) : Prop where
  rd : a.rd = b.rd
  global : a.conv.globalPalette = b.conv.globalPalette
  limit : a.conv.memoryLimit = b.conv.memoryLimit
  bg : a.bgColor = b.bgColor
  rep : a.repetition = b.repetition

theorem nextFrameLoop_mates : ∀ (fuel : Nat) (a b : Decoder C), Mates a b →
    (a.nextFrameLoop fuel).2 = (b.nextFrameLoop fuel).2 ∧ Mates (a.nextFrameLoop fuel).1 (b.nextFrameLoop fuel).1 ∧
    ((a.nextFrameLoop fuel).2 = .ok true → (a.nextFrameLoop fuel).1.currentFrame = (b.nextFrameLoop fuel).1.currentFrame ∧
      (a.nextFrameLoop fuel).1.dataType = (b.nextFrameLoop fuel).1.dataType) := by
  intro fuel
  induction fuel with
  | zero => intro a b h; exact ⟨rfl, h, fun h => by cases h⟩
  | succ fuel ih =>
    intro a b h
    obtain ⟨h1, h2, h3, h4, h5⟩ := h
    rw [nextFrameLoop, nextFrameLoop, h1]
    match hx : b.rd.decodeNext .none with
    | (rd, .ok none) => exact ⟨rfl, ⟨rfl, h2, h3, h4, h5⟩, fun h => by cases h⟩
    | (rd, .err e) => exact ⟨rfl, ⟨rfl, h2, h3, h4, h5⟩, fun h => by cases h⟩
    | (rd, .panic) => exact ⟨rfl, ⟨rfl, h2, h3, h4, h5⟩, fun h => by cases h⟩
    | (rd, .diverge) => exact ⟨rfl, ⟨rfl, h2, h3, h4, h5⟩, fun h => by cases h⟩
    | (rd, .ok (some ev)) =>
      cases ev with
      | frameMetadata t =>
        simp only
        cases hc : rd.sd.current with
        | none => exact ⟨rfl, ⟨rfl, h2, h3, h4, h5⟩, fun h => by cases h⟩
        | some f =>
          have same : ∀ (p q : Bool) (a' b' : Decoder C), p = q → Mates a' b' → a'.currentFrame = b'.currentFrame →
              a'.dataType = b'.dataType →
              let x : Decoder C × Outcome Bool := if a'.currentFrame.palette.isNone ∧ p then (a', .fmtErr .noColorTable)
                else (a', .ok true)
              let y : Decoder C × Outcome Bool := if b'.currentFrame.palette.isNone ∧ q then (b', .fmtErr .noColorTable)
                else (b', .ok true)
              x.2 = y.2 ∧ Mates x.1 y.1 ∧ (x.2 = .ok true → x.1.currentFrame = y.1.currentFrame ∧
                x.1.dataType = y.1.dataType) := by
            intro p q a' b' hpq h1 h2 h3
            subst hpq
            simp only [h2]
            by_cases hp : b'.currentFrame.palette.isNone ∧ p
            · simp only [if_pos hp]; exact ⟨trivial, h1, fun _ => ⟨h2, h3⟩⟩
            · simp only [if_neg hp]; exact ⟨trivial, h1, fun _ => ⟨h2, h3⟩⟩
          let rd' : RD C := { rd with sd := { rd.sd with current := some f.afterTake } }
          exact same _ _ { a with rd := rd', currentFrame := f.take, dataType := t }
            { b with rd := rd', currentFrame := f.take, dataType := t }
            (congrArg (fun c : Option (List UInt8) => c.isNone) h2) ⟨rfl, h2, h3, h4, h5⟩ rfl rfl
      | _ => exact ih { a with rd := rd } { b with rd := rd } ⟨rfl, h2, h3, h4, h5⟩

theorem initLoop_mates : ∀ (fuel : Nat) (a b : Decoder C), Mates a b →
    (a.initLoop fuel).2 = (b.initLoop fuel).2 ∧ Mates (a.initLoop fuel).1 (b.initLoop fuel).1 := by
  intro fuel
  induction fuel with
  | zero => intro a b h; exact ⟨rfl, h⟩
  | succ fuel ih =>
    intro a b h
    obtain ⟨h1, h2, h3, h4, h5⟩ := h
    rw [initLoop, initLoop, h1]
    match hx : b.rd.decodeNext .none with
    | (rd, .ok none) => exact ⟨rfl, ⟨rfl, h2, h3, h4, h5⟩⟩
    | (rd, .err e) => exact ⟨rfl, ⟨rfl, h2, h3, h4, h5⟩⟩
    | (rd, .panic) => exact ⟨rfl, ⟨rfl, h2, h3, h4, h5⟩⟩
    | (rd, .diverge) => exact ⟨rfl, ⟨rfl, h2, h3, h4, h5⟩⟩
    | (rd, .ok (some ev)) =>
      cases ev with
      | backgroundColor c => exact ih { a with rd := rd, bgColor := some c } { b with rd := rd, bgColor := some c } ⟨rfl, h2, h3, rfl, h5⟩
      | globalPalette p =>
        exact ih { a with rd := rd, conv := a.conv.setGlobalPalette p } { b with rd := rd, conv := b.conv.setGlobalPalette p }
          ⟨rfl, rfl, h3, h4, h5⟩
      | repetitions r => exact ih { a with rd := rd, repetition := r } { b with rd := rd, repetition := r } ⟨rfl, h2, h3, h4, rfl⟩
      | headerEnd => exact ⟨rfl, ⟨rfl, h2, h3, h4, h5⟩⟩
      | _ => exact ih { a with rd := rd } { b with rd := rd } ⟨rfl, h2, h3, h4, h5⟩

theorem checkBg_mates {a b : Decoder C} (h : Mates a b) : Mates a.checkBg b.checkBg := by
  obtain ⟨h1, h2, h3, h4, h5⟩ := h
  unfold checkBg
  rw [h2, h4]
  split
  · split
    · exact ⟨h1, h2, h3, rfl, h5⟩
    · exact ⟨h1, h2, h3, h4, h5⟩
  · exact ⟨h1, h2, h3, h4, h5⟩

theorem readInfo_mates (C : Codec) (o : DecodeOptions) (c : ColorOutput) (r : Reader) :
    (readInfo C o r).2 = (readInfo C { o with colorOutput := c } r).2 ∧
    Mates (readInfo C o r).1 (readInfo C { o with colorOutput := c } r).1 := by
  have h0 : Mates (withNoInit C o r) (withNoInit C { o with colorOutput := c } r) := ⟨rfl, rfl, rfl, rfl, rfl⟩
  obtain ⟨h1, h2⟩ := initLoop_mates (withNoInit C o r).rd.eventFuel _ _ h0
  unfold readInfo init
  have e : (withNoInit C { o with colorOutput := c } r).rd = (withNoInit C o r).rd := rfl
  rw [e]
  generalize initLoop (withNoInit C o r).rd.eventFuel (withNoInit C o r) = x at *
  generalize initLoop (withNoInit C o r).rd.eventFuel (withNoInit C { o with colorOutput := c } r) = y at *
  obtain ⟨a, ra⟩ := x
  obtain ⟨b, rb⟩ := y
  simp only at h1 h2
  subst h1
  cases ra with
  | ok u => cases u; exact ⟨rfl, checkBg_mates h2⟩
  | err e => exact ⟨rfl, h2⟩
  | panic => exact ⟨rfl, h2⟩
  | diverge => exact ⟨rfl, h2⟩

/-- An indexed and an RGBA decoder side by side. -/
structure Twins (a b : Decoder C) : Prop extends Mates a b where
  indexed : a.conv.colorOutput = .indexed
  rgba : b.conv.colorOutput = .rgba
  current : b.currentFrame = tint a.globalPalette a.currentFrame
  inv : a.Inv
  skip : a.rd.sd.skipFrameDecoding = false

theorem tint_empty (g : Option (List UInt8)) {f : Frame} (h1 : f.buffer = []) (h2 : f.ownedCap = none) : tint g f = f := by
  cases f
  simp only at h1 h2
  subst h1 h2
  rfl

theorem Twins.view {a b : Decoder C} (h : Twins a b) : b.view = tintView a.view := by
  unfold Decoder.view tintView width height globalPalette
  simp only
  rw [h.current, h.rd, h.global, h.bg, h.rep]
  unfold globalPalette
  rw [h.global]

theorem Twins.opts {a : Decoder C} {s : SD C} (h : s.opts = a.rd.sd.opts) (hk : a.rd.sd.skipFrameDecoding = false) :
    s.skipFrameDecoding = false := by
  simp only [SD.opts, Prod.mk.injEq] at h
  exact h.1.trans hk

theorem twins_info (hS : C.Safe) {a b : Decoder C} (h : Twins a b) :
    (∃ a' b' found, a.nextFrameInfo = (a', .ok found) ∧ b.nextFrameInfo = (b', .ok found) ∧ Twins a' b' ∧
      (found = true → a'.currentFrame = b'.currentFrame ∧ a'.currentFrame.buffer = [] ∧ a'.currentFrame.ownedCap = none ∧
        a'.dataType = .pixels ∧ b'.dataType = .pixels)) ∨
    (∃ a' b' e, a.nextFrameInfo = (a', .err e) ∧ b.nextFrameInfo = (b', .err e)) := by
  obtain ⟨k1, k2, k3⟩ := nextFrameLoop_mates a.rd.eventFuel a b h.toMates
  have hf : b.nextFrameInfo = b.nextFrameLoop a.rd.eventFuel := by unfold nextFrameInfo; rw [h.rd]
  have ha := nextFrameInfo_run hS a h.inv.rd
  have hbi : b.Inv := ⟨h.rd ▸ h.inv.rd, by rw [← h.rd, ← h.limit]; exact h.inv.limit⟩
  have hb := nextFrameInfo_run hS b hbi.rd
  obtain ⟨p1, p2, p3, p4, p5, p6, p7, p8⟩ := frameRun_spec hS ha h.inv.rd
  obtain ⟨q1, q2, q3, q4, q5, q6, q7, q8⟩ := frameRun_spec hS hb hbi.rd
  have ht := frameRun_type hS ha h.inv.rd h.skip
  have hinv := inv_nextFrameInfo hS a h.inv
  rw [hf] at q1 q2 q3 q4 q5 q6 q7 q8 ⊢
  change a.nextFrameInfo.2 = _ at k1
  change Mates a.nextFrameInfo.1 _ at k2
  change a.nextFrameInfo.2 = _ → a.nextFrameInfo.1.currentFrame = _ ∧ a.nextFrameInfo.1.dataType = _ at k3
  generalize a.nextFrameInfo = x at *
  generalize b.nextFrameLoop a.rd.eventFuel = y at *
  obtain ⟨a', ra⟩ := x
  obtain ⟨b', rb⟩ := y
  simp only at *
  subst k1
  cases ra with
  | ok found =>
    left
    refine ⟨a', b', found, rfl, rfl, ⟨k2, by rw [p4]; exact h.indexed, by rw [q4]; exact h.rgba, ?_, hinv.1, ?_⟩, ?_⟩
    · cases found with
      | true =>
        obtain ⟨c1, c2⟩ := k3 rfl
        obtain ⟨c3, c4, _⟩ := p7 rfl
        rw [tint_empty _ c3 c4, c1]
      | false =>
        rw [(q8 rfl).2, (p8 rfl).2, h.current]
        unfold globalPalette
        rw [p4]
    · exact Twins.opts p3 h.skip
    · intro hfound
      subst hfound
      obtain ⟨c1, c2⟩ := k3 rfl
      obtain ⟨c3, c4, _⟩ := p7 rfl
      exact ⟨c1, c3, c4, ht rfl, by rw [← c2]; exact ht rfl⟩
  | err e => right; exact ⟨a', b', e, rfl, rfl⟩
  | panic => cases p2
  | diverge => cases p2

theorem bufferSize_rgba (limit : MemoryLimit) (w h : UInt16) :
    limit.bufferSize .rgba w h = some (w.toNat * h.toNat * 4) ∨
    (limit.bufferSize .rgba w h = none ∧ limit ≠ .unlimited) := by
  unfold MemoryLimit.bufferSize MemoryLimit.bufferSizeOn
  simp only
  have := w.toNat_lt
  have := h.toNat_lt
  have hm : w.toNat * h.toNat ≤ 65535 * 65535 := Nat.mul_le_mul (by omega) (by omega)
  rw [if_pos (by omega)]
  cases limit with
  | unlimited => exact .inl rfl
  | bytes n hn =>
    simp only
    split
    · exact .inr ⟨rfl, by simp⟩
    · exact .inl rfl

theorem bufferSize_indexed {limit : MemoryLimit} {w h : UInt16} (hr : limit.bufferSize .rgba w h = some (w.toNat * h.toNat * 4)) :
    limit.bufferSize .indexed w h = some (w.toNat * h.toNat) := by
  unfold MemoryLimit.bufferSize MemoryLimit.bufferSizeOn at *
  simp only [Nat.mul_one] at *
  split at hr
  · rw [if_pos (by omega)]
    cases limit with
    | unlimited => rfl
    | bytes n hn =>
      simp only at hr ⊢
      split at hr
      · cases hr
      · rw [if_neg (by omega)]
  · cases hr

/-- A frame without pixels that is not read by rows of height 0 fails in both modes. -/
theorem readIntoBuffer_noPixels {τ : Type} (c : Converter) (f : Frame) (cb : Callback τ) (t : τ)
    (h0 : f.width.toNat * f.height.toNat = 0) (hi : f.interlaced = true → f.height.toNat ≠ 0) :
    (c.readIntoBuffer f cb t (List.replicate (c.bufferSize f) 0)).2.2 ≠ .ok () ∧
    (c.colorOutput = .rgba → (c.readIntoBuffer f cb t (List.replicate (c.bufferSize f) 0)).2.2 = .fmtErr .oddSizedBuffer) := by
  have hsz : c.bufferSize f = 0 := by rw [Converter.bufferSize_eq, h0, Nat.mul_zero]
  have hfill : ∀ t b, (c.fillBuffer f cb t []).2 ≠ (b, .ok true) := by
    intro t b hx
    have := Converter.fillBuffer_fetch c f cb t []
    generalize c.fillBuffer f cb t [] = x at *
    obtain ⟨t', b', r⟩ := x
    cases hx
    obtain ⟨px, g0, _, g2, _⟩ := this
    have := c.chan_pos
    have : 0 < px.length := List.length_pos_iff.2 g0
    have : 0 < c.chan * px.length := Nat.mul_pos ‹_› this
    simp only [List.length_nil] at g2
    omega
  have hodd : ∀ t, c.colorOutput = .rgba → c.fillBuffer f cb t [] = (t, [], .fmtErr .oddSizedBuffer) := by
    intro t hc
    unfold Converter.fillBuffer Converter.fillLoop
    rw [hc]
    simp
  rw [Converter.readIntoBuffer, hsz]
  by_cases hil : f.interlaced = true
  · rw [if_pos hil]
    have hh := hi hil
    have hw : f.width.toNat = 0 := by
      rcases Nat.mul_eq_zero.1 h0 with h | h
      · exact h
      · exact absurd h hh
    have hW : c.lineLength f = 0 := by rw [Converter.lineLength_eq, hw, Nat.mul_zero]
    obtain ⟨next', pass', he, _⟩ := InterlaceIter.nextRow_spec f.height.toNat 0 0 (by omega) (by omega)
    rw [Converter.readRows, he]
    simp only [hW, List.replicate_zero, Nat.mul_zero, List.length_nil, List.drop_nil, Nat.le_refl, and_self, if_true,
      List.take_nil]
    have h1 := hfill t
    have h2 := hodd t
    generalize c.fillBuffer f cb t [] = x at *
    obtain ⟨t', b', r⟩ := x
    constructor
    · cases r with
      | ok b =>
        cases b with
        | true => exact absurd rfl (h1 b')
        | false => simp
      | err e => simp
      | panic => simp
      | diverge => simp
    · intro hc
      have := h2 hc
      cases this
      rfl
  · rw [if_neg hil]
    simp only [hsz, List.replicate_zero, List.length_nil, Nat.le_refl, if_true, List.take_nil, List.drop_nil]
    have h1 := hfill t
    have h2 := hodd t
    generalize c.fillBuffer f cb t [] = x at *
    obtain ⟨t', b', r⟩ := x
    constructor
    · cases r with
      | ok b =>
        cases b with
        | true => exact absurd rfl (h1 b')
        | false => simp
      | err e => simp
      | panic => simp
      | diverge => simp
    · intro hc
      have := h2 hc
      cases this
      rfl

/-- `read_into_buffer` in both colour modes. -/
theorem twins_into {τ : Type} (a b : Converter) (f : Frame) (cb : Callback τ) (t : τ) (ha : a.colorOutput = .indexed)
    (hb : b.colorOutput = .rgba) (hg : a.globalPalette = b.globalPalette) :
    (∃ t' px r, a.readIntoBuffer f cb t (List.replicate (a.bufferSize f) 0) = (t', px, r) ∧
      ∃ px', b.readIntoBuffer f cb t (List.replicate (b.bufferSize f) 0) = (t', px', r) ∧
        (r = .ok () → px' = colours .rgba (paletteOf a.globalPalette f) f.transparent px)) ∨
    ((a.readIntoBuffer f cb t (List.replicate (a.bufferSize f) 0)).2.2 ≠ .ok () ∧
      (b.readIntoBuffer f cb t (List.replicate (b.bufferSize f) 0)).2.2 = .fmtErr .oddSizedBuffer) := by
  by_cases hpos : 0 < f.width.toNat * f.height.toNat
  · left
    obtain ⟨px, h1, h2, h3⟩ := Converter.readIntoBuffer_gather a f cb t hpos
    obtain ⟨px', h1', h2', h3'⟩ := Converter.readIntoBuffer_gather b f cb t hpos
    refine ⟨_, px, _, h1, px', h1', fun hok => ?_⟩
    rw [(h3' hok).2, (h3 hok).2, hb, ha, hg]
    rfl
  · have h0 : f.width.toNat * f.height.toNat = 0 := by omega
    by_cases hi : f.interlaced = true ∧ f.height.toNat = 0
    · left
      have key : ∀ c : Converter, c.readIntoBuffer f cb t (List.replicate (c.bufferSize f) 0) = (t, [], .ok ()) := by
        intro c
        have hsz : c.bufferSize f = 0 := by rw [Converter.bufferSize_eq, h0, Nat.mul_zero]
        rw [Converter.readIntoBuffer, if_pos hi.1, hi.2, Converter.readRows, hsz]
        rfl
      exact ⟨t, [], _, key a, [], key b, fun _ => rfl⟩
    · right
      have hi' : f.interlaced = true → f.height.toNat ≠ 0 := fun h h' => hi ⟨h, h'⟩
      exact ⟨(readIntoBuffer_noPixels a f cb t h0 hi').1, (readIntoBuffer_noPixels b f cb t h0 hi').2 hb⟩

end Gif.Decoder
