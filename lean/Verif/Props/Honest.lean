import Verif.Props.Port
import Verif.Props.EncoderIo
/-!
# C28, C87: the error that a call returns is the first one of the writer
-/

namespace Gif

/-- `r` is not an error of the writer. -/
def EOut.own {α : Type} (r : EOut α) : Prop := ∀ code, r ≠ .err (.io (.writer code))

/-- From the plan `plan` to the plan `plan'` with result `r`: the calls of the writer that were made succeeded, but
possibly for the last one; if that failed, its error is the result, and if not, the result is no error of the writer. -/
def Blame {α : Type} (plan plan' : List (Option (Nat × Nat))) (r : EOut α) : Prop :=
  ∃ before, (∀ x ∈ before, x = none) ∧
    (plan = before ++ plan' ∧ r.own ∨
      ∃ k code, plan = before ++ some (k, code) :: plan' ∧ r = .err (.io (.writer code)))

theorem Blame.nothing {α : Type} {plan : List (Option (Nat × Nat))} {r : EOut α} (h : r.own) : Blame plan plan r :=
  ⟨[], by simp, .inl ⟨rfl, h⟩⟩

/-- A computation that returns the first error of the writer and makes no call after it. -/
def W.Honest {α : Type} (m : W α) : Prop := ∀ s, Blame s.plan (m s).1.plan (m s).2

namespace W.Honest

variable {α β : Type}

theorem ok_own (a : α) : (EOut.ok a).own := fun _ h => nomatch h

theorem pure (a : α) : W.Honest (W.pure a) := fun _ => .nothing (ok_own a)

theorem ofOut {r : EOut α} (h : r.own) : W.Honest (W.ofOut r) := fun _ => .nothing h

theorem bind {m : W α} {k : α → W β} (h : m.Honest) (hk : ∀ a, (k a).Honest) : (m.bind k).Honest := by
  intro s
  obtain ⟨before, hb, h⟩ := h s
  rcases hm : m s with ⟨s1, r⟩
  rw [hm] at h
  simp only at h
  cases r with
  | ok a =>
    have e0 : m.bind k s = k a s1 := by simp [W.bind, hm]
    rw [e0]
    rcases h with ⟨hp, _⟩ | ⟨_, _, _, h⟩
    · obtain ⟨before2, hb2, h2⟩ := hk a s1
      refine ⟨before ++ before2, ?_, ?_⟩
      · intro x hx
        rcases List.mem_append.mp hx with h | h
        · exact hb x h
        · exact hb2 x h
      · rcases h2 with ⟨h2, h3⟩ | ⟨n, code, h2, h3⟩
        · exact .inl ⟨by rw [hp, h2, List.append_assoc], h3⟩
        · exact .inr ⟨n, code, by rw [hp, h2, List.append_assoc], h3⟩
    · cases h
  | err e =>
    have e0 : m.bind k s = (s1, .err e) := by simp [W.bind, hm]
    rw [e0]
    rcases h with ⟨hp, h⟩ | ⟨n, code, hp, h⟩
    · exact ⟨before, hb, .inl ⟨hp, fun code hc => h code (by cases hc; rfl)⟩⟩
    · exact ⟨before, hb, .inr ⟨n, code, hp, by cases h; rfl⟩⟩
  | panic =>
    have e0 : m.bind k s = (s1, .panic) := by simp [W.bind, hm]
    rw [e0]
    rcases h with ⟨hp, h⟩ | ⟨n, code, hp, h⟩
    · exact ⟨before, hb, .inl ⟨hp, fun code hc => nomatch hc⟩⟩
    · cases h

theorem writeAll (bs : List UInt8) : (W.writeAll bs).Honest := by
  rintro ⟨w, plan⟩
  unfold W.writeAll
  split
  · exact .nothing (ok_own ())
  · match plan with
    | [] => exact .nothing (ok_own ())
    | none :: plan => exact ⟨[none], by simp, .inl ⟨rfl, ok_own ()⟩⟩
    | some (k, code) :: plan => exact ⟨[], by simp, .inr ⟨k, code, rfl, rfl⟩⟩

theorem writeU8 (n : UInt8) : (W.writeU8 n).Honest := writeAll [n]

theorem bufParts_own (N : Nat) : ∀ (parts : List (List UInt8)) (acc : List UInt8), (bufParts N acc parts).own
  | [], acc => ok_own acc
  | p :: ps, acc => by
    unfold bufParts
    split
    · exact bufParts_own N ps _
    · exact fun _ h => nomatch h

theorem tmpBuf (N : Nat) (parts : List (List UInt8)) : (Gif.tmpBuf N parts).Honest := by
  refine bind (ofOut (bufParts_own N parts [])) fun b => ?_
  split
  · exact ofOut fun _ h => nomatch h
  · exact writeAll b

theorem writePadding : ∀ n, (Gif.writePadding n).Honest
  | 0 => pure ()
  | n + 1 => bind (writeAll _) fun _ => writePadding n

theorem writeColorTable (t : List UInt8) (n : Nat) : (Gif.writeColorTable t n).Honest :=
  bind (writeAll _) fun _ => writePadding n

theorem writeExtensionTo : ∀ x, (Gif.writeExtensionTo x).Honest
  | .control _ _ _ => bind (writeU8 _) fun _ => bind (tmpBuf _ _) fun _ => writeU8 _
  | .repetitions _ => bind (writeU8 _) fun _ => bind (tmpBuf _ _) fun _ => writeU8 _

theorem writeFullBlocks : ∀ k data, (Gif.writeFullBlocks k data).Honest
  | 0, data => pure data
  | k + 1, data => bind (writeU8 _) fun _ => bind (writeAll _) fun _ => writeFullBlocks k (data.drop 0xFF)

theorem writeEncodedImageBlock (data : List UInt8) : (Gif.writeEncodedImageBlock data).Honest := by
  cases data <;>
  · refine bind (writeU8 _) fun _ => bind (writeFullBlocks _ _) fun last => ?_
    split
    · exact writeU8 _
    · exact bind (writeU8 _) fun _ => bind (writeAll _) fun _ => writeU8 _

theorem writeChunks : ∀ k data, (Gif.writeChunks k data).Honest
  | 0, _ => pure ()
  | k + 1, data => bind (writeU8 _) fun _ => bind (writeAll _) fun _ => writeChunks k (data.drop 0xFF)

theorem writeRawBlocks : ∀ data, (Gif.writeRawBlocks data).Honest
  | [] => pure ()
  | _ :: bs => bind (writeChunks _ _) fun _ => writeRawBlocks bs

end W.Honest

namespace Encoder

/-- What the writer of the encoder will do. -/
def plan (e : Encoder) : List (Option (Nat × Nat)) :=
  match e.w with
  | none => []
  | some s => s.plan

variable {α β : Type}

/-- A call that returns the first error of the writer and does not use it afterwards. -/
def Frank (e : Encoder) (p : Encoder × EOut α) : Prop := Blame e.plan p.1.plan p.2

theorem frank_same (e : Encoder) {r : EOut α} (h : r.own) : e.Frank (e, r) := .nothing h

theorem frank_withWriter (e : Encoder) {m : W α} (h : m.Honest) : e.Frank (e.withWriter m) := by
  rcases e with ⟨w, g, wd, ht, b⟩
  cases w with
  | none => exact .nothing fun _ h => nomatch h
  | some s => exact h s

theorem frank_andThen {e : Encoder} {p : Encoder × EOut α} {k : Encoder → α → Encoder × EOut β} (h : e.Frank p)
    (hk : ∀ (e : Encoder) a, e.Frank (k e a)) : e.Frank (andThen p k) := by
  obtain ⟨before, hb, h⟩ := h
  rcases p with ⟨e1, r⟩
  cases r with
  | ok a =>
    rcases h with ⟨hp, _⟩ | ⟨_, _, _, h⟩
    · obtain ⟨before2, hb2, h2⟩ := hk e1 a
      refine ⟨before ++ before2, ?_, ?_⟩
      · intro x hx
        rcases List.mem_append.mp hx with h | h
        · exact hb x h
        · exact hb2 x h
      · simp only at hp
        rcases h2 with ⟨h2, h3⟩ | ⟨n, code, h2, h3⟩
        · exact .inl ⟨by rw [hp, h2, List.append_assoc]; rfl, h3⟩
        · exact .inr ⟨n, code, by rw [hp, h2, List.append_assoc]; rfl, h3⟩
    · cases h
  | err x =>
    rcases h with ⟨hp, h⟩ | ⟨n, code, hp, h⟩
    · exact ⟨before, hb, .inl ⟨hp, fun code hc => h code (by cases hc; rfl)⟩⟩
    · exact ⟨before, hb, .inr ⟨n, code, hp, by cases h; rfl⟩⟩
  | panic =>
    rcases h with ⟨hp, h⟩ | ⟨n, code, hp, h⟩
    · exact ⟨before, hb, .inl ⟨hp, fun code hc => nomatch hc⟩⟩
    · cases h

theorem frank_writeExtension (e : Encoder) (x : ExtensionData) : e.Frank (e.writeExtension x) := by
  unfold Encoder.writeExtension
  split
  · exact frank_same e fun _ h => nomatch h
  · exact frank_withWriter e (W.Honest.writeExtensionTo _)

theorem checkColorTable_own (t : List UInt8) : (checkColorTable t).own := by
  unfold checkColorTable
  simp only
  split
  · exact fun _ h => nomatch h
  · split
    · exact fun _ h => nomatch h
    · exact fun _ h => nomatch h

theorem framePalette_own (e : Encoder) (f : Frame) : (e.framePalette f).own := by
  unfold framePalette
  simp only
  split
  · next p _ =>
    have := checkColorTable_own p
    split
    · exact fun _ h => nomatch h
    · next x hx => exact fun code h => this code (by rw [hx]; cases h; rfl)
    · exact fun _ h => nomatch h
  · split
    · exact fun _ h => nomatch h
    · exact fun _ h => nomatch h

theorem frank_writeFrameHeader (e : Encoder) (f : Frame) : e.Frank (e.writeFrameHeader f) := by
  refine frank_andThen (frank_writeExtension e _) fun e _ => ?_
  have := framePalette_own e f
  split
  · next x hx => exact frank_same e fun code h => this code (by rw [hx]; cases h; rfl)
  · exact frank_same e fun _ h => nomatch h
  · next flags palette _ =>
    refine frank_withWriter e (W.Honest.bind (W.Honest.tmpBuf _ _) fun _ => ?_)
    cases palette with
    | none => exact W.Honest.pure ()
    | some t => exact W.Honest.writeColorTable _ _

/-- Each call returns the first error of the writer, and does not call it afterwards; if it returns something else, no
call of the writer failed. -/
theorem frank_op (C : Codec) (e : Encoder) (op : EncOp) : e.Frank (op.run C e) := by
  cases op with
  | setRepeat r => exact frank_writeExtension e _
  | extension x => exact frank_writeExtension e x
  | rawExtension l d =>
    exact frank_withWriter e (W.Honest.bind (W.Honest.writeU8 _) fun _ => W.Honest.bind (W.Honest.writeU8 _) fun _ =>
      W.Honest.bind (W.Honest.writeRawBlocks _) fun _ => W.Honest.writeU8 _)
  | frame f =>
    show e.Frank (e.writeFrame C f)
    unfold Encoder.writeFrame
    split
    · exact frank_same e fun _ h => nomatch h
    · split
      · exact frank_same e fun _ h => nomatch h
      · exact frank_andThen (frank_writeFrameHeader e f) fun e _ =>
          frank_withWriter { e with buffer := lzwEncode C f.buffer [] }
            (W.Honest.writeEncodedImageBlock (lzwEncode C f.buffer []))
  | preEncoded f =>
    show e.Frank (e.writeLzwPreEncodedFrame f)
    unfold Encoder.writeLzwPreEncodedFrame
    have hgo := frank_andThen (frank_writeFrameHeader e f) fun e (_ : Unit) =>
      frank_withWriter e (W.Honest.writeEncodedImageBlock f.buffer)
    simp only
    split
    · split
      · exact frank_same e fun _ h => nomatch h
      · exact hgo
    · exact hgo

end Encoder

/-- C28, which error: with a writer that follows `plan`, a call returns the error of the first call of the writer that
fails, and makes no further one; if it returns anything else, none of them failed. -/
theorem first_error_returned (C : Codec) (e : Encoder) (s : Sink) (op : EncOp) (hs : e.w = some s) :
    ∃ s', (op.run C e).1.w = some s' ∧ ∃ before, (∀ x ∈ before, x = none) ∧
      (s.plan = before ++ s'.plan ∧ (∀ code, (op.run C e).2 ≠ .err (.io (.writer code))) ∨
        ∃ k code, s.plan = before ++ some (k, code) :: s'.plan ∧ (op.run C e).2 = .err (.io (.writer code))) := by
  obtain ⟨s', _, h, _⟩ := C28_call C e s op hs
  refine ⟨s', h, ?_⟩
  have hf := Encoder.frank_op C e op
  unfold Encoder.Frank at hf
  have h1 : e.plan = s.plan := by simp only [Encoder.plan, hs]
  have h2 : (op.run C e).1.plan = s'.plan := by simp only [Encoder.plan, h]
  rw [h1, h2] at hf
  exact hf

/-- C87: whatever the writer answers to the calls of `write`, an encoder on it does what the encoder does with some
writer whose `write_all` fails or not: all results are the same, and so is what was written, after each stage.
Its `write_all` fails only with errors that `write` returned, or with the one for `Ok(0)`. -/
theorem any_portions (np : Bool) (C : Codec) (p : Port) (width height : UInt16) (palette : List UInt8)
    (ops : List EncOp) :
    ∃ plan, (∀ k code, some (k, code) ∈ plan → .err code ∈ p.evs ∨ (.took 0 ∈ p.evs ∧ code = wroteNothing)) ∧
      let a := Encoder.new np ⟨p.written, plan⟩ width height palette
      let b := PEncoder.new np p width height palette
      a.2 = b.2 ∧ a.1.w.map (·.written) = b.1.w.map (·.written) ∧
      let a := runOps C a.1 ops
      let b := runOpsP C b.1 ops
      a.2 = b.2 ∧ a.1.w.map (·.written) = b.1.w.map (·.written) ∧
      let a := a.1.intoInner np
      let b := b.1.intoInner np
      a.2.map (·.written) = b.2.map (·.written) ∧ a.1.w.map (·.written) = b.1.w.map (·.written) := by
  have hon : ∀ (e : PEncoder) plan, (e.on plan).w.map (·.written) = e.w.map (·.written) := by
    intro e plan; cases h : e.w <;> simp [PEncoder.on, h]
  obtain ⟨hs1, plan1, hp1, he1, _⟩ := port_new np p width height palette
  obtain ⟨hs2, plan2, hp2, he2, _⟩ := port_calls C ops (PEncoder.new np p width height palette).1
  obtain ⟨plan3, hp3, he3, _⟩ := port_into_inner np (runOpsP C (PEncoder.new np p width height palette).1 ops).1
  refine ⟨plan1 ++ (plan2 ++ plan3), ?_, ?_⟩
  · intro k code hm
    rcases List.mem_append.mp hm with h | h
    · exact hp1 _ h
    · rcases List.mem_append.mp h with h | h
      · exact (hp2 _ h).mono hs1
      · exact (hp3 _ h).mono (hs2.trans hs1)
  · have h3 := he3 []
    rw [List.append_nil] at h3
    dsimp only
    rw [he1, he2, h3]
    refine ⟨rfl, hon _ _, rfl, hon _ _, ?_, hon _ _⟩
    cases ((runOpsP C (PEncoder.new np p width height palette).1 ops).1.intoInner np).2 <;> rfl

/-- C87: if the writer takes at least one byte in each call that is not interrupted, everything is as with a writer that
takes all bytes at once: no portion and no interruption shows, neither in the results nor in the file. -/
theorem portions_do_not_show (np : Bool) (C : Codec) (p : Port) (width height : UInt16) (palette : List UInt8)
    (ops : List EncOp) (hp : ∀ ev ∈ p.evs, ev = .interrupted ∨ ∃ n, ev = .took (n + 1)) :
    let a := Encoder.new np ⟨p.written, []⟩ width height palette
    let b := PEncoder.new np p width height palette
    a.2 = b.2 ∧ a.1.w.map (·.written) = b.1.w.map (·.written) ∧
    let a := runOps C a.1 ops
    let b := runOpsP C b.1 ops
    a.2 = b.2 ∧ a.1.w.map (·.written) = b.1.w.map (·.written) ∧
    let a := a.1.intoInner np
    let b := b.1.intoInner np
    a.2.map (·.written) = b.2.map (·.written) ∧ a.1.w.map (·.written) = b.1.w.map (·.written) := by
  have hon : ∀ (e : PEncoder) plan, (e.on plan).w.map (·.written) = e.w.map (·.written) := by
    intro e plan; cases h : e.w <;> simp [PEncoder.on, h]
  obtain ⟨hs1, _, _, _, he1⟩ := port_new np p width height palette
  obtain ⟨hs2, _, _, _, he2⟩ := port_calls C ops (PEncoder.new np p width height palette).1
  obtain ⟨_, _, _, h3⟩ := port_into_inner np (runOpsP C (PEncoder.new np p width height palette).1 ops).1
  have hp : Smooth p.evs := hp
  dsimp only
  rw [he1 hp, he2 (hp.suffix hs1), h3 (hp.suffix (hs2.trans hs1))]
  refine ⟨rfl, hon _ _, rfl, hon _ _, ?_, hon _ _⟩
  cases ((runOpsP C (PEncoder.new np p width height palette).1 ops).1.intoInner np).2 <;> rfl

/-- C87: a call returns an error of the writer only if `write` returned it (`Interrupted` is never returned), or if
`write` took nothing; then what was written is a proper prefix of what the call writes with a writer that does not
fail. -/
theorem portions_error (C : Codec) (e : PEncoder) (p : Port) (op : EncOp) (he : e.w = some p) :
    ∃ p' s₀, (op.runP C e).1.w = some p' ∧ (op.run C (e.on [])).1.w = some s₀ ∧
      (p'.written = s₀.written ∧ (op.runP C e).2 = (op.run C (e.on [])).2 ∨
        p'.written <+: s₀.written ∧ p'.written ≠ s₀.written ∧
          ∃ code, (op.runP C e).2 = .err (.io (.writer code)) ∧
            (.err code ∈ p.evs ∨ .took 0 ∈ p.evs ∧ code = wroteNothing)) := by
  obtain ⟨hs, plan, hp, hf, _⟩ := SimE.op C e op
  have hf := hf []
  rw [List.append_nil] at hf
  dsimp only at hf
  have hw : (e.on plan).w = some ⟨p.written, plan⟩ := by simp [PEncoder.on, he]
  have hfl : (e.on plan).faultless = e.on [] := by
    simp [Encoder.faultless, PEncoder.on, he]
  obtain ⟨s', s₀, h1, h2, h3⟩ := C28_call C (e.on plan) _ op hw
  obtain ⟨s'', h4, before, hb, h5⟩ := first_error_returned C (e.on plan) _ op hw
  rw [hfl] at h2 h3
  rw [hf] at h1 h3 h4 h5
  have hpw : ∃ p', (op.runP C e).1.w = some p' := by
    cases hx : (op.runP C e).1.w with
    | none => simp [PEncoder.on, hx] at h1
    | some p' => exact ⟨p', rfl⟩
  obtain ⟨p', hp'⟩ := hpw
  have hs' : s' = ⟨p'.written, []⟩ := by
    simp [PEncoder.on, hp'] at h1; exact h1.symm
  have hs'' : s'' = ⟨p'.written, []⟩ := by
    simp [PEncoder.on, hp'] at h4; exact h4.symm
  subst hs' hs''
  refine ⟨p', s₀, hp', h2, ?_⟩
  rcases h3 with h3 | ⟨h3, h6, _, code, h7⟩
  · exact .inl h3
  · refine .inr ⟨h3, h6, code, h7, ?_⟩
    rcases h5 with ⟨_, h5⟩ | ⟨k, code', h5, h8⟩
    · exact absurd h7 (h5 code)
    · have hc : code' = code := by
        simp only at h7 h8
        rw [h7] at h8
        injection h8 with h8; injection h8 with h8; injection h8 with h8
        exact h8.symm
      subst hc
      have hm : some (k, code') ∈ plan := by simp only at h5; rw [h5]; simp
      have := hp _ hm
      simpa [WriteAnswers, PEncoder.evs, he] using this

end Gif
