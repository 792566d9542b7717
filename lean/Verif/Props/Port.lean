import Verif.Model.Port
/-!
# C87: writers that take bytes in portions
-/

namespace Gif

/-- What the writer with the events `evs` can make a call of `write_all` do: succeed, or fail with an error that it
returned, or with the one for `Ok(0)`. -/
def WriteAnswers (evs : List WriteEv) : Option (Nat × Nat) → Prop
  | none => True
  | some (_, code) => .err code ∈ evs ∨ (.took 0 ∈ evs ∧ code = wroteNothing)

theorem WriteAnswers.mono {evs evs' : List WriteEv} (h : evs <:+ evs') {x : Option (Nat × Nat)} (hx : WriteAnswers evs x) :
    WriteAnswers evs' x := by
  match x, hx with
  | none, _ => trivial
  | some (_, _), .inl h1 => exact .inl (h.subset h1)
  | some (_, _), .inr h1 => exact .inr ⟨h.subset h1.1, h1.2⟩

/-- A writer that neither fails nor takes nothing; it may take any part of a slice and be interrupted. -/
def Smooth (evs : List WriteEv) : Prop := ∀ ev ∈ evs, ev = .interrupted ∨ ∃ n, ev = .took (n + 1)

theorem Smooth.suffix {evs evs' : List WriteEv} (h : Smooth evs') (hs : evs <:+ evs') : Smooth evs :=
  fun ev hm => h ev (hs.subset hm)

theorem Smooth.no_failure {evs : List WriteEv} (h : Smooth evs) {x : Option (Nat × Nat)} (hx : WriteAnswers evs x) :
    x = none := by
  match x, hx with
  | none, _ => rfl
  | some (_, _), .inl h1 =>
    rcases h _ h1 with h | ⟨n, h⟩ <;> cases h
  | some (_, _), .inr h1 =>
    rcases h _ h1.1 with h | ⟨n, h⟩ <;> cases h

/-- The computation `m` on every writer that is called with `write` does what `m'` does on some writer that is called
with `write_all`; on a smooth writer, what `m'` does on one that never fails. -/
def Sim {α : Type} (m : PW α) (m' : W α) : Prop :=
  ∀ p : Port, (m p).1.evs <:+ p.evs ∧ ∃ plan, (∀ x ∈ plan, WriteAnswers p.evs x) ∧
    (∀ rest, m' ⟨p.written, plan ++ rest⟩ = (⟨(m p).1.written, rest⟩, (m p).2)) ∧
    (Smooth p.evs → m' ⟨p.written, []⟩ = (⟨(m p).1.written, []⟩, (m p).2))

namespace Sim

variable {α β : Type}

theorem pure (a : α) : Sim (PW.pure a) (W.pure a) := fun p =>
  ⟨List.suffix_refl _, [], by simp, fun _ => rfl, fun _ => rfl⟩

theorem ofOut (r : EOut α) : Sim (PW.ofOut r) (W.ofOut r) := fun p =>
  ⟨List.suffix_refl _, [], by simp, fun _ => rfl, fun _ => rfl⟩

theorem bind {m : PW α} {m' : W α} {k : α → PW β} {k' : α → W β} (h : Sim m m') (hk : ∀ a, Sim (k a) (k' a)) :
    Sim (m.bind k) (m'.bind k') := by
  intro p
  obtain ⟨hs, plan, hp, he, hc⟩ := h p
  rcases hm : m p with ⟨p1, r⟩
  rw [hm] at hs he hc
  cases r with
  | ok a =>
    obtain ⟨hs2, plan2, hp2, he2, hc2⟩ := hk a p1
    have e0 : m.bind k p = k a p1 := by simp [PW.bind, hm]
    rw [e0]
    refine ⟨hs2.trans hs, plan ++ plan2, ?_, fun rest => ?_, fun hsm => ?_⟩
    · intro x hx
      rcases List.mem_append.mp hx with h | h
      · exact hp x h
      · exact (hp2 x h).mono hs
    · have := he (plan2 ++ rest)
      simp only [W.bind, List.append_assoc, this]
      exact he2 rest
    · have := hc hsm
      simp only [W.bind, this]
      exact hc2 (hsm.suffix hs)
  | err e =>
    have e0 : m.bind k p = (p1, .err e) := by simp [PW.bind, hm]
    rw [e0]
    exact ⟨hs, plan, hp, fun rest => by simp only [W.bind, he rest], fun hsm => by simp only [W.bind, hc hsm]⟩
  | panic =>
    have e0 : m.bind k p = (p1, .panic) := by simp [PW.bind, hm]
    rw [e0]
    exact ⟨hs, plan, hp, fun rest => by simp only [W.bind, he rest], fun hsm => by simp only [W.bind, hc hsm]⟩

end Sim

/-- What the loop of `write_all` does: it writes everything, or a proper prefix before a failure. -/
theorem writeLoop_cases (evs : List WriteEv) : ∀ (written bs : List UInt8),
    (PW.writeLoop written evs bs).1.evs <:+ evs ∧
    ((PW.writeLoop written evs bs).2 = .ok () ∧ (PW.writeLoop written evs bs).1.written = written ++ bs ∨
      ∃ k code, k < bs.length ∧ (PW.writeLoop written evs bs).2 = .err (.io (.writer code)) ∧
        (PW.writeLoop written evs bs).1.written = written ++ bs.take k ∧ WriteAnswers evs (some (k, code))) := by
  induction evs with
  | nil =>
    intro written bs
    cases bs with
    | nil => simp [PW.writeLoop]
    | cons b bs => simp [PW.writeLoop]
  | cons ev evs ih =>
    intro written bs
    cases bs with
    | nil => simp [PW.writeLoop]
    | cons b bs =>
      cases ev with
      | took n =>
        cases n with
        | zero =>
          refine ⟨by simp [PW.writeLoop], .inr ⟨0, wroteNothing, by simp, by simp [PW.writeLoop], by simp [PW.writeLoop], .inr ⟨by simp, rfl⟩⟩⟩
        | succ n =>
          have e0 : PW.writeLoop written (.took (n + 1) :: evs) (b :: bs) =
              PW.writeLoop (written ++ (b :: bs).take (n + 1)) evs ((b :: bs).drop (n + 1)) := by
            rw [PW.writeLoop]; simp
          rw [e0]
          obtain ⟨h1, h2⟩ := ih (written ++ (b :: bs).take (n + 1)) ((b :: bs).drop (n + 1))
          refine ⟨h1.trans (List.suffix_cons _ _), ?_⟩
          rcases h2 with ⟨h2, h3⟩ | ⟨k, code, h2, h3, h4, h5⟩
          · exact .inl ⟨h2, by rw [h3, List.append_assoc, List.take_append_drop]⟩
          · refine .inr ⟨n + 1 + k, code, ?_, h3, ?_, ?_⟩
            · rw [List.length_drop] at h2; omega
            · rw [h4, List.append_assoc, ← List.take_add]
            · exact WriteAnswers.mono (x := some (k, code)) (List.suffix_cons _ _) h5
      | interrupted =>
        have e0 : PW.writeLoop written (.interrupted :: evs) (b :: bs) = PW.writeLoop written evs (b :: bs) := by
          rw [PW.writeLoop]; simp
        rw [e0]
        obtain ⟨h1, h2⟩ := ih written (b :: bs)
        refine ⟨h1.trans (List.suffix_cons _ _), ?_⟩
        rcases h2 with h2 | ⟨k, code, h2, h3, h4, h5⟩
        · exact .inl h2
        · exact .inr ⟨k, code, h2, h3, h4, WriteAnswers.mono (x := some (k, code)) (List.suffix_cons _ _) h5⟩
      | err code =>
        exact ⟨by simp [PW.writeLoop], .inr ⟨0, code, by simp, by simp [PW.writeLoop], by simp [PW.writeLoop], .inl (by simp)⟩⟩

namespace Sim

theorem writeAll (bs : List UInt8) : Sim (PW.writeAll bs) (W.writeAll bs) := by
  intro p
  obtain ⟨h1, h2⟩ := writeLoop_cases p.evs p.written bs
  refine ⟨h1, ?_⟩
  show ∃ plan, _ ∧ (∀ rest, W.writeAll bs ⟨p.written, plan ++ rest⟩ =
    (⟨(PW.writeLoop p.written p.evs bs).1.written, rest⟩, (PW.writeLoop p.written p.evs bs).2)) ∧
    (Smooth p.evs → W.writeAll bs ⟨p.written, []⟩ =
    (⟨(PW.writeLoop p.written p.evs bs).1.written, []⟩, (PW.writeLoop p.written p.evs bs).2))
  cases hb : bs with
  | nil =>
    subst hb
    refine ⟨[], by simp, fun rest => ?_, fun _ => ?_⟩ <;>
    · rw [PW.writeLoop]; rfl
  | cons b bs' =>
    rw [← hb]
    have hne : bs.isEmpty = false := by rw [hb]; rfl
    rcases h2 with ⟨h2, h3⟩ | ⟨k, code, h2, h3, h4, h5⟩
    · refine ⟨[none], by simp [WriteAnswers], fun rest => ?_, fun _ => ?_⟩ <;>
      · rw [h2, h3]
        simp [W.writeAll, hne]
    · refine ⟨[some (k, code)], by simpa using h5, fun rest => ?_, fun hsm => ?_⟩
      · rw [h3, h4]
        have : min k (bs.length - 1) = k := by omega
        simp [W.writeAll, hne, this]
      · exact nomatch hsm.no_failure h5

theorem writeU8 (n : UInt8) : Sim (PW.writeU8 n) (W.writeU8 n) := writeAll [n]

theorem tmpBuf (N : Nat) (parts : List (List UInt8)) : Sim (PW.tmpBuf N parts) (Gif.tmpBuf N parts) := by
  refine bind (ofOut _) fun b => ?_
  split
  · exact ofOut _
  · exact writeAll b

theorem writePadding : ∀ n, Sim (PW.writePadding n) (Gif.writePadding n)
  | 0 => pure ()
  | n + 1 => bind (writeAll _) fun _ => writePadding n

theorem writeColorTable (t : List UInt8) (n : Nat) : Sim (PW.writeColorTable t n) (Gif.writeColorTable t n) :=
  bind (writeAll _) fun _ => writePadding n

theorem writeExtensionTo : ∀ x, Sim (PW.writeExtensionTo x) (Gif.writeExtensionTo x)
  | .control _ _ _ => bind (writeU8 _) fun _ => bind (tmpBuf _ _) fun _ => writeU8 _
  | .repetitions _ => bind (writeU8 _) fun _ => bind (tmpBuf _ _) fun _ => writeU8 _

theorem writeFullBlocks : ∀ k data, Sim (PW.writeFullBlocks k data) (Gif.writeFullBlocks k data)
  | 0, data => pure data
  | k + 1, data => bind (writeU8 _) fun _ => bind (writeAll _) fun _ => writeFullBlocks k (data.drop 0xFF)

theorem writeEncodedImageBlock (data : List UInt8) :
    Sim (PW.writeEncodedImageBlock data) (Gif.writeEncodedImageBlock data) := by
  cases data <;>
  · refine bind (writeU8 _) fun _ => bind (writeFullBlocks _ _) fun last => ?_
    split
    · exact writeU8 _
    · exact bind (writeU8 _) fun _ => bind (writeAll _) fun _ => writeU8 _

theorem writeChunks : ∀ k data, Sim (PW.writeChunks k data) (Gif.writeChunks k data)
  | 0, _ => pure ()
  | k + 1, data => bind (writeU8 _) fun _ => bind (writeAll _) fun _ => writeChunks k (data.drop 0xFF)

theorem writeRawBlocks : ∀ data, Sim (PW.writeRawBlocks data) (Gif.writeRawBlocks data)
  | [] => pure ()
  | _ :: bs => bind (writeChunks _ _) fun _ => writeRawBlocks bs

end Sim

/-- The same encoder on a writer that is called with `write_all` and follows `plan`. -/
def PEncoder.on (e : PEncoder) (plan : List (Option (Nat × Nat))) : Encoder where
  w := e.w.map fun p => ⟨p.written, plan⟩
  globalPalette := e.globalPalette
  width := e.width
  height := e.height
  buffer := e.buffer

/-- What the writer of the encoder will answer. -/
def PEncoder.evs (e : PEncoder) : List WriteEv :=
  match e.w with
  | none => []
  | some p => p.evs

/-- The call `f` on this encoder does what `f'` does with some writer that is called with `write_all`. -/
def SimE {α : Type} (e : PEncoder) (f : PEncoder → PEncoder × EOut α) (f' : Encoder → Encoder × EOut α) : Prop :=
  (f e).1.evs <:+ e.evs ∧ ∃ plan, (∀ x ∈ plan, WriteAnswers e.evs x) ∧
    (∀ rest, f' (e.on (plan ++ rest)) = ((f e).1.on rest, (f e).2)) ∧
    (Smooth e.evs → f' (e.on []) = ((f e).1.on [], (f e).2))

namespace SimE

variable {α β : Type}

theorem const (e : PEncoder) (r : EOut α) : SimE e (fun e => (e, r)) (fun e => (e, r)) :=
  ⟨List.suffix_refl _, [], by simp, fun _ => rfl, fun _ => rfl⟩

theorem withWriter (e : PEncoder) {m : PW α} {m' : W α} (h : Sim m m') :
    SimE e (fun e => e.withWriter m) (fun e => e.withWriter m') := by
  rcases e with ⟨w, g, wd, ht, b⟩
  cases w with
  | none => exact ⟨List.suffix_refl _, [], by simp, fun _ => rfl, fun _ => rfl⟩
  | some p =>
    obtain ⟨hs, plan, hp, he, hc⟩ := h p
    refine ⟨hs, plan, hp, fun rest => ?_, fun hsm => ?_⟩
    · have := he rest
      simp only [PEncoder.on, Option.map, Encoder.withWriter, PEncoder.withWriter, this]
    · have := hc hsm
      simp only [PEncoder.on, Option.map, Encoder.withWriter, PEncoder.withWriter, this]

/-- One call after the other, whatever the first one returns. -/
theorem seq {e : PEncoder} {f : PEncoder → PEncoder × EOut α} {f' : Encoder → Encoder × EOut α}
    {k : PEncoder → EOut α → PEncoder × EOut β} {k' : Encoder → EOut α → Encoder × EOut β}
    (h : SimE e f f') (hk : ∀ e r, SimE e (fun e => k e r) (fun e => k' e r)) :
    SimE e (fun e => k (f e).1 (f e).2) (fun e => k' (f' e).1 (f' e).2) := by
  obtain ⟨hs, plan, hp, he, hc⟩ := h
  obtain ⟨hs2, plan2, hp2, he2, hc2⟩ := hk (f e).1 (f e).2
  refine ⟨hs2.trans hs, plan ++ plan2, ?_, fun rest => ?_, fun hsm => ?_⟩
  · intro x hx
    rcases List.mem_append.mp hx with h | h
    · exact hp x h
    · exact (hp2 x h).mono hs
  · have := he (plan2 ++ rest)
    simp only [List.append_assoc, this]
    exact he2 rest
  · have := hc hsm
    simp only [this]
    exact hc2 (hsm.suffix hs)

theorem andThen {e : PEncoder} {f : PEncoder → PEncoder × EOut α} {f' : Encoder → Encoder × EOut α}
    {k : PEncoder → α → PEncoder × EOut β} {k' : Encoder → α → Encoder × EOut β}
    (h : SimE e f f') (hk : ∀ e a, SimE e (fun e => k e a) (fun e => k' e a)) :
    SimE e (fun e => PEncoder.andThen (f e) k) (fun e => Encoder.andThen (f' e) k') :=
  seq (k := fun e r => PEncoder.andThen (e, r) k) (k' := fun e r => Encoder.andThen (e, r) k') h fun e r => by
    cases r with
    | ok a => exact hk e a
    | err x => exact const e _
    | panic => exact const e _

theorem writeExtension (e : PEncoder) (x : ExtensionData) :
    SimE e (fun e => e.writeExtension x) (fun e => e.writeExtension x) := by
  by_cases h : x = .repetitions (.finite 0)
  · subst h; exact const e _
  · have h1 : (fun e : PEncoder => e.writeExtension x) = fun e => e.withWriter (PW.writeExtensionTo x) := by
      funext e; unfold PEncoder.writeExtension; split
      · exact absurd rfl h
      · rfl
    have h2 : (fun e : Encoder => e.writeExtension x) = fun e => e.withWriter (Gif.writeExtensionTo x) := by
      funext e; unfold Encoder.writeExtension; split
      · exact absurd rfl h
      · rfl
    rw [h1, h2]
    exact withWriter e (Sim.writeExtensionTo x)

theorem writeRawExtension (e : PEncoder) (func : UInt8) (data : List (List UInt8)) :
    SimE e (fun e => e.writeRawExtension func data) (fun e => e.writeRawExtension func data) :=
  withWriter e (Sim.bind (Sim.writeU8 _) fun _ => Sim.bind (Sim.writeU8 _) fun _ =>
    Sim.bind (Sim.writeRawBlocks _) fun _ => Sim.writeU8 _)

theorem writeTrailer (e : PEncoder) : SimE e PEncoder.writeTrailer Encoder.writeTrailer :=
  withWriter e (Sim.writeU8 _)

theorem writeScreenDesc (e : PEncoder) (flags : UInt8) :
    SimE e (fun e => e.writeScreenDesc flags) (fun e => e.writeScreenDesc flags) :=
  withWriter e (Sim.tmpBuf 13
    [[0x47, 0x49, 0x46, 0x38, 0x39, 0x61], leBytes e.width, leBytes e.height, [flags], [0], [0]])

theorem writeFrameHeader (e : PEncoder) (f : Frame) :
    SimE e (fun e => e.writeFrameHeader f) (fun e => e.writeFrameHeader f) := by
  refine andThen (writeExtension e _) fun e _ => ?_
  have hf : ∀ plan, (e.on plan).framePalette f = e.framePalette f := fun _ => rfl
  cases hx : e.framePalette f with
  | ok p =>
    obtain ⟨flags, palette⟩ := p
    have h := withWriter e (m := do
        PW.tmpBuf 10 [[Block.image.toU8], leBytes f.left, leBytes f.top, leBytes f.width, leBytes f.height, [flags]]
        match palette with
        | some (table, padding) => PW.writeColorTable table padding
        | none => Pure.pure ()) (m' := do
        Gif.tmpBuf 10 [[Block.image.toU8], leBytes f.left, leBytes f.top, leBytes f.width, leBytes f.height, [flags]]
        match palette with
        | some (table, padding) => Gif.writeColorTable table padding
        | none => Pure.pure ()) (Sim.bind (Sim.tmpBuf _ _) fun _ => by
          cases palette with
          | none => exact Sim.pure ()
          | some t => exact Sim.writeColorTable _ _)
    simp only [SimE, hf, hx] at h ⊢
    exact h
  | err x =>
    simp only [SimE, hf, hx]
    exact ⟨List.suffix_refl _, [], by simp, fun _ => rfl, fun _ => trivial⟩
  | panic =>
    simp only [SimE, hf, hx]
    exact ⟨List.suffix_refl _, [], by simp, fun _ => rfl, fun _ => trivial⟩

theorem writeImageBlock (C : Codec) (e : PEncoder) (data : List UInt8) :
    SimE e (fun e => e.writeImageBlock C data) (fun e => e.writeImageBlock C data) :=
  withWriter { e with buffer := lzwEncode C data [] } (Sim.writeEncodedImageBlock (lzwEncode C data []))

theorem writeFrame (C : Codec) (e : PEncoder) (f : Frame) :
    SimE e (fun e => e.writeFrame C f) (fun e => e.writeFrame C f) := by
  unfold PEncoder.writeFrame Encoder.writeFrame
  split
  · exact const e _
  · split
    · exact const e _
    · exact andThen (writeFrameHeader e f) fun e _ => writeImageBlock C e f.buffer

theorem writeLzwPreEncodedFrame (e : PEncoder) (f : Frame) :
    SimE e (fun e => e.writeLzwPreEncodedFrame f) (fun e => e.writeLzwPreEncodedFrame f) := by
  have hgo := andThen (writeFrameHeader e f) fun e (_ : Unit) => withWriter e (Sim.writeEncodedImageBlock f.buffer)
  unfold PEncoder.writeLzwPreEncodedFrame Encoder.writeLzwPreEncodedFrame
  cases hb : f.buffer with
  | nil => rw [hb] at hgo; exact hgo
  | cons m data =>
    rw [hb] at hgo
    simp only
    by_cases hm : m > 11 ∨ m < 2
    · simp only [if_pos hm]; exact const e _
    · simp only [if_neg hm]; exact hgo

theorem drop (np : Bool) (e : PEncoder) : SimE e (fun e => e.drop np) (fun e => e.drop np) := by
  have h := seq (k := fun e r => match r with
      | .ok () => (e, .ok ())
      | .err _ => (e, if np then .ok () else .panic)
      | .panic => (e, .panic)) (k' := fun e r => match r with
      | .ok () => (e, .ok ())
      | .err _ => (e, if np then .ok () else .panic)
      | .panic => (e, .panic)) (writeTrailer e) fun e r => by
    cases r with
    | ok a => exact const e (.ok ())
    | err x => exact const e _
    | panic => exact const e _
  rcases e with ⟨w, g, wd, ht, b⟩
  cases w with
  | none => exact const _ _
  | some p =>
    have e1 : ∀ e : PEncoder, e.w.isSome → e.drop np = (fun e r => match r with
      | .ok () => (e, .ok ())
      | .err _ => (e, if np then .ok () else .panic)
      | .panic => (e, .panic)) e.writeTrailer.1 e.writeTrailer.2 := by
      intro e he
      unfold PEncoder.drop
      cases hw : e.w with
      | none => rw [hw] at he; cases he
      | some q =>
        rcases e.writeTrailer with ⟨e2, r⟩
        cases r <;> rfl
    have e2 : ∀ e : Encoder, e.w.isSome → e.drop np = (fun e r => match r with
      | .ok () => (e, .ok ())
      | .err _ => (e, if np then .ok () else .panic)
      | .panic => (e, .panic)) e.writeTrailer.1 e.writeTrailer.2 := by
      intro e he
      unfold Encoder.drop
      cases hw : e.w with
      | none => rw [hw] at he; cases he
      | some q =>
        rcases e.writeTrailer with ⟨e2, r⟩
        cases r <;> rfl
    unfold SimE at h ⊢
    dsimp only at h ⊢
    rw [e1 ⟨some p, g, wd, ht, b⟩ rfl]
    obtain ⟨h1, plan, h2, h3, h4⟩ := h
    exact ⟨h1, plan, h2, fun rest => (e2 _ rfl).trans (h3 rest), fun hsm => (e2 _ rfl).trans (h4 hsm)⟩

theorem op (C : Codec) (e : PEncoder) (o : EncOp) : SimE e (fun e => o.runP C e) (fun e => o.run C e) := by
  cases o with
  | setRepeat r => exact writeExtension e _
  | extension x => exact writeExtension e x
  | rawExtension l d => exact writeRawExtension e l d
  | frame f => exact writeFrame C e f
  | preEncoded f => exact writeLzwPreEncodedFrame e f

theorem writeGlobalPalette (e : PEncoder) (palette : List UInt8) :
    SimE e (fun e => e.writeGlobalPalette palette) (fun e => e.writeGlobalPalette palette) := by
  unfold PEncoder.writeGlobalPalette Encoder.writeGlobalPalette
  cases hx : checkColorTable palette with
  | err x => exact const e _
  | panic => exact const e _
  | ok t =>
    obtain ⟨table, padding, size⟩ := t
    exact andThen (writeScreenDesc { e with globalPalette := !table.isEmpty } _) fun e (_ : Unit) =>
      withWriter e (Sim.writeColorTable table padding)

end SimE

/-- The result with the value changed. -/
def EOut.map {α β : Type} (f : α → β) : EOut α → EOut β
  | .ok a => .ok (f a)
  | .err e => .err e
  | .panic => .panic

/-- `Encoder::new` on a writer that is called with `write`. -/
theorem port_new (np : Bool) (p : Port) (width height : UInt16) (palette : List UInt8) :
    (PEncoder.new np p width height palette).1.evs <:+ p.evs ∧ ∃ plan, (∀ x ∈ plan, WriteAnswers p.evs x) ∧
      (∀ rest, Encoder.new np ⟨p.written, plan ++ rest⟩ width height palette =
        ((PEncoder.new np p width height palette).1.on rest, (PEncoder.new np p width height palette).2)) ∧
      (Smooth p.evs → Encoder.new np ⟨p.written, []⟩ width height palette =
        ((PEncoder.new np p width height palette).1.on [], (PEncoder.new np p width height palette).2)) := by
  let e0 : PEncoder := { w := some p, globalPalette := false, width, height, buffer := [] }
  let k : PEncoder → EOut Unit → PEncoder × EOut Unit := fun e r => match r with
    | .ok () => (e, .ok ())
    | .err err => match (e.drop np).2 with
      | .panic => ((e.drop np).1, .panic)
      | _ => ((e.drop np).1, .err err)
    | .panic => (e, .panic)
  let k' : Encoder → EOut Unit → Encoder × EOut Unit := fun e r => match r with
    | .ok () => (e, .ok ())
    | .err err => match (e.drop np).2 with
      | .panic => ((e.drop np).1, .panic)
      | _ => ((e.drop np).1, .err err)
    | .panic => (e, .panic)
  have h := SimE.seq (k := k) (k' := k') (SimE.writeGlobalPalette e0 palette) fun e r => by
    cases r with
    | ok a => exact SimE.const e (.ok ())
    | panic => exact SimE.const e _
    | err x =>
      refine SimE.seq (k := fun e r => match r with
        | .panic => (e, .panic)
        | _ => (e, .err x)) (k' := fun e r => match r with
        | .panic => (e, .panic)
        | _ => (e, .err x)) (SimE.drop np e) fun e r => ?_
      cases r with
      | ok a => exact SimE.const e _
      | panic => exact SimE.const e _
      | err x => exact SimE.const e _
  have e1 : PEncoder.new np p width height palette =
      k (e0.writeGlobalPalette palette).1 (e0.writeGlobalPalette palette).2 := by
    show (match e0.writeGlobalPalette palette with
      | (e, .ok ()) => (e, .ok ())
      | (e, .err err) =>
        match e.drop np with
        | (e, .panic) => (e, .panic)
        | (e, _) => (e, .err err)
      | (e, .panic) => (e, .panic) : PEncoder × EOut Unit) = _
    rcases e0.writeGlobalPalette palette with ⟨e, r⟩
    cases r with
    | ok a => rfl
    | panic => rfl
    | err x =>
      show (match e.drop np with
        | (e, .panic) => (e, .panic)
        | (e, _) => (e, .err x) : PEncoder × EOut Unit) = match (e.drop np).2 with
        | .panic => ((e.drop np).1, .panic)
        | _ => ((e.drop np).1, .err x)
      rcases e.drop np with ⟨e, r⟩
      cases r <;> rfl
  have e2 : ∀ plan, Encoder.new np ⟨p.written, plan⟩ width height palette =
      k' ((e0.on plan).writeGlobalPalette palette).1 ((e0.on plan).writeGlobalPalette palette).2 := by
    intro plan
    show (match (e0.on plan).writeGlobalPalette palette with
      | (e, .ok ()) => (e, .ok ())
      | (e, .err err) =>
        match e.drop np with
        | (e, .panic) => (e, .panic)
        | (e, _) => (e, .err err)
      | (e, .panic) => (e, .panic) : Encoder × EOut Unit) = _
    rcases (e0.on plan).writeGlobalPalette palette with ⟨e, r⟩
    cases r with
    | ok a => rfl
    | panic => rfl
    | err x =>
      show (match e.drop np with
        | (e, .panic) => (e, .panic)
        | (e, _) => (e, .err x) : Encoder × EOut Unit) = match (e.drop np).2 with
        | .panic => ((e.drop np).1, .panic)
        | _ => ((e.drop np).1, .err x)
      rcases e.drop np with ⟨e, r⟩
      cases r <;> rfl
  rw [e1]
  obtain ⟨h1, plan, h2, h3, h4⟩ := h
  exact ⟨h1, plan, h2, fun rest => (e2 _).trans (h3 rest), fun hsm => (e2 _).trans (h4 hsm)⟩

/-- Any list of calls on a writer that is called with `write`. -/
theorem port_calls (C : Codec) (ops : List EncOp) (e : PEncoder) :
    (runOpsP C e ops).1.evs <:+ e.evs ∧ ∃ plan, (∀ x ∈ plan, WriteAnswers e.evs x) ∧
      (∀ rest, runOps C (e.on (plan ++ rest)) ops = ((runOpsP C e ops).1.on rest, (runOpsP C e ops).2)) ∧
      (Smooth e.evs → runOps C (e.on []) ops = ((runOpsP C e ops).1.on [], (runOpsP C e ops).2)) := by
  induction ops generalizing e with
  | nil => exact ⟨List.suffix_refl _, [], by simp, fun _ => rfl, fun _ => rfl⟩
  | cons op ops ih =>
    obtain ⟨hs, plan, hp, he, hc⟩ := SimE.op C e op
    dsimp only at hs he hc
    obtain ⟨hs2, plan2, hp2, he2, hc2⟩ := ih (op.runP C e).1
    refine ⟨hs2.trans hs, plan ++ plan2, ?_, fun rest => ?_, fun hsm => ?_⟩
    · intro x hx
      rcases List.mem_append.mp hx with h | h
      · exact hp x h
      · exact (hp2 x h).mono hs
    · have h1 := he (plan2 ++ rest)
      have h2 := he2 rest
      simp only [runOps, runOpsP, List.append_assoc, h1, h2]
    · have h1 := hc hsm
      have h2 := hc2 (hsm.suffix hs)
      simp only [runOps, runOpsP, h1, h2]

/-- `Encoder::into_inner` on a writer that is called with `write`. -/
theorem port_into_inner (np : Bool) (e : PEncoder) :
    ∃ plan, (∀ x ∈ plan, WriteAnswers e.evs x) ∧
      (∀ rest, (e.on (plan ++ rest)).intoInner np =
        ((e.intoInner np).1.on rest, (e.intoInner np).2.map fun p => ⟨p.written, rest⟩)) ∧
      (Smooth e.evs → (e.on []).intoInner np =
        ((e.intoInner np).1.on [], (e.intoInner np).2.map fun p => ⟨p.written, []⟩)) := by
  obtain ⟨hs, plan, hp, he, hc⟩ := SimE.writeTrailer e
  rcases hm : e.writeTrailer with ⟨e1, r⟩
  rw [hm] at hs he hc
  simp only at hs he hc
  cases r with
  | ok a =>
    have h0 : ∀ e : PEncoder, ({ e with w := none } : PEncoder).drop np = ({ e with w := none }, .ok ()) := fun _ => rfl
    have h0' : ∀ e : Encoder, ({ e with w := none } : Encoder).drop np = ({ e with w := none }, .ok ()) := fun _ => rfl
    refine ⟨plan, hp, fun rest => ?_, fun hsm => ?_⟩
    · have h1 := he rest
      unfold Encoder.intoInner PEncoder.intoInner
      rw [hm, h1]
      rcases e1 with ⟨w, g, wd, ht, b⟩
      cases w with
      | none => rfl
      | some q => rfl
    · have h1 := hc hsm
      unfold Encoder.intoInner PEncoder.intoInner
      rw [hm, h1]
      rcases e1 with ⟨w, g, wd, ht, b⟩
      cases w with
      | none => rfl
      | some q => rfl
  | panic =>
    refine ⟨plan, hp, fun rest => ?_, fun hsm => ?_⟩
    · have h1 := he rest
      unfold Encoder.intoInner PEncoder.intoInner
      rw [hm, h1]
      rfl
    · have h1 := hc hsm
      unfold Encoder.intoInner PEncoder.intoInner
      rw [hm, h1]
      rfl
  | err x =>
    obtain ⟨hs2, plan2, hp2, he2, hc2⟩ := SimE.drop np e1
    rcases hm2 : e1.drop np with ⟨e2, r2⟩
    dsimp only at hs2 he2 hc2
    rw [hm2] at hs2 he2 hc2
    refine ⟨plan ++ plan2, ?_, fun rest => ?_, fun hsm => ?_⟩
    · intro x hx
      rcases List.mem_append.mp hx with h | h
      · exact hp x h
      · exact (hp2 x h).mono hs
    · have h1 := he (plan2 ++ rest)
      have h2 := he2 rest
      unfold Encoder.intoInner PEncoder.intoInner
      rw [hm, List.append_assoc, h1]
      simp only [h2, hm2]
      cases r2 <;> rfl
    · have h1 := hc hsm
      have h2 := hc2 (hsm.suffix hs)
      unfold Encoder.intoInner PEncoder.intoInner
      rw [hm, h1]
      simp only [h2, hm2]
      cases r2 <;> rfl

end Gif
