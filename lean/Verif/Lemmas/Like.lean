import Verif.Lemmas.Feed
/-!
A decoder that expands frames and one that copies their compressed data, outside of image data: they do the same.
-/

namespace Gif

open Spec (blocks)

namespace SD

variable {C : Codec}

/-- The decoder with the option `skip_frame_decoding` and another LZW state. -/
def raw (z : LzwReader C) (s : SD C) : SD C := { s with lzw := z, skipFrameDecoding := true }

/-- Not in image data. -/
def outside : State → Bool
  | .decodeSubBlock _ => false
  | .copySubBlock _ => false
  | .frameDecoded => false
  | _ => true

/-- The states in which the option makes no difference. -/
def neutral : State → Bool
  | .lzwInit _ => false
  | .decodeSubBlock _ => false
  | .copySubBlock _ => false
  | .frameDecoded => false
  | _ => true

/-- The result of a step, with the option. -/
def rawRes (z : LzwReader C) (p : StepResult C) : StepResult C := (raw z p.1, p.2)

theorem ite_raw {z : LzwReader C} {P Q : Prop} {hP : Decidable P} {hQ : Decidable Q} {a b a' b' : StepResult C} (h : P ↔ Q)
    (ha : P → a = rawRes z a') (hb : ¬ P → b = rawRes z b') :
    @ite _ P hP a b = rawRes z (@ite _ Q hQ a' b') := by
  by_cases hp : P
  · rw [if_pos hp, if_pos (h.1 hp)]; exact ha hp
  · rw [if_neg hp, if_neg (fun x => hp (h.2 x))]; exact hb hp

theorem ite_raw' {z : LzwReader C} {P Q : Prop} {hP : Decidable P} {hQ : Decidable Q} {a b a' b' : SD C} (h : P ↔ Q)
    (ha : P → a = raw z a') (hb : ¬ P → b = raw z b') :
    @ite _ P hP a b = raw z (@ite _ Q hQ a' b') := by
  by_cases hp : P
  · rw [if_pos hp, if_pos (h.1 hp)]; exact ha hp
  · rw [if_neg hp, if_neg (fun x => hp (h.2 x))]; exact hb hp

theorem addFrame_raw (z : LzwReader C) (s : SD C) : addFrame (raw z s) = raw z (addFrame s) := by
  obtain ⟨⟩ := s
  unfold addFrame raw
  simp only
  split <;> rfl

theorem ensureMin_raw (z : LzwReader C) (s : SD C) (buf : List UInt8) (n : Nat) (k : SD C → Nat → List UInt8 → StepResult C)
    (hk : ∀ s m l, k (raw z s) m l = rawRes z (k s m l)) :
    ensureMin (raw z s) buf n k = rawRes z (ensureMin s buf n k) := by
  unfold ensureMin
  have e : (raw z s).ibuf = s.ibuf := rfl
  simp only [e]
  split
  · exact hk _ _ _
  · split
    · split
      · rfl
      · split
        · rfl
        · exact hk { s with ibuf := [] } _ _
    · exact hk _ _ _

theorem ensureMin_keeps (s : SD C) (buf : List UInt8) (n : Nat) (k : SD C → Nat → List UInt8 → StepResult C)
    (hk : ∀ s m l, (k s m l).1.lzw = s.lzw ∧ (k s m l).1.skipFrameDecoding = s.skipFrameDecoding) :
    (ensureMin s buf n k).1.lzw = s.lzw ∧ (ensureMin s buf n k).1.skipFrameDecoding = s.skipFrameDecoding := by
  unfold ensureMin
  simp only
  split
  · exact hk _ _ _
  · split
    · split
      · exact ⟨rfl, rfl⟩
      · split
        · exact ⟨rfl, rfl⟩
        · exact hk { s with ibuf := [] } _ _
    · exact hk _ _ _

theorem nextState_raw (z : LzwReader C) (s : SD C) (b : UInt8) (bs : List UInt8) (o : OutSpec) (h : neutral s.state = true) :
    nextState (raw z s) (b :: bs) o = rawRes z (nextState s (b :: bs) o) ∧
      (nextState s (b :: bs) o).1.lzw = s.lzw ∧
      (nextState s (b :: bs) o).1.skipFrameDecoding = s.skipFrameDecoding := by
  have hst : (raw z s).state = s.state := rfl
  unfold nextState
  rw [hst]
  match hs : s.state with
  | .magic =>
    refine ⟨ensureMin_raw _ _ _ _ _ ?_, ensureMin_keeps _ _ _ _ ?_⟩
    · intro s m l
      unfold onMagic goto
      repeat' (first | rfl | split | dsimp only)
    · intro s m l
      unfold onMagic goto
      repeat' (first | exact ⟨rfl, rfl⟩ | split | dsimp only)
  | .screenDescriptor =>
    refine ⟨ensureMin_raw _ _ _ _ _ ?_, ensureMin_keeps _ _ _ _ ?_⟩
    · intro s m l
      unfold onScreenDescriptor goto
      repeat' (first | rfl | split | dsimp only)
    · intro s m l
      unfold onScreenDescriptor goto
      repeat' (first | exact ⟨rfl, rfl⟩ | split | dsimp only)
  | .imageBlockStart =>
    refine ⟨ensureMin_raw _ _ _ _ _ ?_, ensureMin_keeps _ _ _ _ ?_⟩
    · intro s m l
      unfold onImageBlockStart goto
      split
      · rename_i l0 l1 t0 t1 w0 w1 h0 h1 flags
        have e : (raw z s).current = s.current := rfl
        rw [e]
        cases s.current with
        | none => rfl
        | some f =>
          refine ite_raw Iff.rfl (fun _ => rfl) (fun _ => ?_)
          exact ite_raw Iff.rfl (fun _ => rfl) (fun _ => rfl)
      · rfl
    · intro s m l
      unfold onImageBlockStart goto
      repeat' (first | exact ⟨rfl, rfl⟩ | split | dsimp only)
  | .globalPalette left =>
    simp only
    constructor
    · unfold onGlobalPalette goto
      refine ite_raw Iff.rfl (fun _ => ?_) (fun _ => rfl)
      have e := ite_raw' (z := z) (P := min left (b :: bs).length ≤ (raw z s).gctCap - (raw z s).gct.length)
        (Q := min left (b :: bs).length ≤ s.gctCap - s.gct.length) (hP := inferInstance) (hQ := inferInstance)
        (a := { raw z s with gct := (raw z s).gct ++ (b :: bs).take (min left (b :: bs).length) }) (b := raw z s)
        (a' := { s with gct := s.gct ++ (b :: bs).take (min left (b :: bs).length) }) (b' := s)
        Iff.rfl (fun _ => rfl) (fun _ => rfl)
      exact congrArg (fun s' => (({ s' with state := .globalPalette (left - min left (b :: bs).length) },
        .ok (min left (b :: bs).length, .nothing)) : StepResult C)) e
    · unfold onGlobalPalette goto
      repeat' (first | exact ⟨rfl, rfl⟩ | split | dsimp only)
  | .blockStart type =>
    simp only
    constructor
    · unfold onBlockStart goto
      refine ite_raw Iff.rfl (fun _ => rfl) (fun _ => ?_)
      cases Block.fromU8 type with
      | none => exact ite_raw Iff.rfl (fun _ => rfl) (fun _ => rfl)
      | some k =>
        cases k with
        | image => simp only [addFrame_raw]; rfl
        | extension => exact ite_raw Iff.rfl (fun _ => rfl) (fun _ => rfl)
        | trailer => rfl
    · unfold onBlockStart goto addFrame
      repeat' (first | exact ⟨rfl, rfl⟩ | split | dsimp only)
  | .blockEnd =>
    simp only
    constructor
    · unfold onBlockEnd goto
      repeat' (first | rfl | split | dsimp only)
    · unfold onBlockEnd goto
      repeat' (first | exact ⟨rfl, rfl⟩ | split | dsimp only)
  | .extensionBlockStart => exact ⟨rfl, rfl, rfl⟩
  | .extensionDataBlock left =>
    simp only
    constructor
    · unfold onExtensionDataBlock goto readControlExtension
      refine ite_raw Iff.rfl (fun _ => ite_raw Iff.rfl (fun _ => rfl) (fun _ => rfl)) (fun _ => ?_)
      refine ite_raw Iff.rfl (fun _ => ?_) (fun _ => rfl)
      have e : (raw z s).extId = s.extId := rfl
      have e2 : (raw z s).extData = s.extData := rfl
      simp only [e, e2]
      cases Extension.fromU8 s.extId with
      | none => rfl
      | some x =>
        cases x with
        | control =>
          simp only
          match s.extData with
          | [] => rfl
          | [_] => rfl
          | [_, _] => rfl
          | [_, _, _] => rfl
          | [_, _, _, _] => rfl
          | [_, _, _, _, _] => rfl
          | _ :: _ :: _ :: _ :: _ :: _ :: _ => rfl
        | _ => rfl
    · unfold onExtensionDataBlock goto readControlExtension
      simp only
      split
      · split <;> exact ⟨rfl, rfl⟩
      · split
        · cases Extension.fromU8 s.extId with
          | none => exact ⟨rfl, rfl⟩
          | some x =>
            cases x with
            | control =>
              simp only
              match s.extData with
              | [] => exact ⟨rfl, rfl⟩
              | [_] => exact ⟨rfl, rfl⟩
              | [_, _] => exact ⟨rfl, rfl⟩
              | [_, _, _] => exact ⟨rfl, rfl⟩
              | [_, _, _, _] => exact ⟨rfl, rfl⟩
              | [_, _, _, _, _] => exact ⟨rfl, rfl⟩
              | _ :: _ :: _ :: _ :: _ :: _ :: _ => exact ⟨rfl, rfl⟩
            | _ => exact ⟨rfl, rfl⟩
        · exact ⟨rfl, rfl⟩
  | .applicationExtension =>
    simp only
    constructor
    · unfold onApplicationExtension goto
      refine ite_raw Iff.rfl (fun _ => rfl) (fun _ => ?_)
      refine ite_raw Iff.rfl (fun _ => ?_) (fun _ => rfl)
      have e2 : (raw z s).extData = s.extData := rfl
      simp only [e2]
      match (s.extData.drop 13).take 2 with
      | [] => rfl
      | [_] => rfl
      | [_, _] => rfl
      | _ :: _ :: _ :: _ => rfl
    · unfold onApplicationExtension goto
      repeat' (first | exact ⟨rfl, rfl⟩ | split | dsimp only)
  | .localPalette left =>
    simp only
    constructor
    · unfold onLocalPalette goto
      refine ite_raw Iff.rfl (fun _ => ?_) (fun _ => rfl)
      have e : (raw z s).current = s.current := rfl
      simp only [e]
      cases s.current with
      | none => rfl
      | some f =>
        simp only
        cases f.palette with
        | none => rfl
        | some pal => exact ite_raw Iff.rfl (fun _ => rfl) (fun _ => rfl)
    · unfold onLocalPalette goto
      repeat' (first | exact ⟨rfl, rfl⟩ | split | dsimp only)
  | .trailer => exact ⟨rfl, rfl, rfl⟩
  | .lzwInit m => simp [hs, neutral] at h
  | .decodeSubBlock left => simp [hs, neutral] at h
  | .copySubBlock left => simp [hs, neutral] at h
  | .frameDecoded => simp [hs, neutral] at h

/-- Image data are entered with `FrameMetadata` only. -/
theorem tr_outside {o : OutSpec} {b : UInt8} {bs : List UInt8} {s s' : SD C} {n : Nat} {ev : Decoded}
    (h : Tr o b bs s s' n ev) (hs : neutral s.state = true) :
    outside s'.state = true ∧ ∀ t, ev ≠ .frameMetadata t := by
  cases h with
  | collect => refine ⟨?_, by intro t h; cases h⟩; cases h : s.state <;> simp_all [neutral, outside]
  | lzwPixels m lzw h => simp [h, neutral] at hs
  | lzwSkip m h => simp [h, neutral] at hs
  | copy l c k h => simp [h, neutral] at hs
  | copyNext h => simp [h, neutral] at hs
  | copyEnd h => simp [h, neutral] at hs
  | decodeSkip l h => simp [h, neutral] at hs
  | decode l c bb lz h => simp [h, neutral] at hs
  | decodeNext h => simp [h, neutral] at hs
  | decodeFlush c bb lz h => simp [h, neutral] at hs
  | decodeEnd c lz h => simp [h, neutral] at hs
  | frameDecoded h => simp [h, neutral] at hs
  | trailerLoop h => exact ⟨by simp [h, outside], by intro t h; cases h⟩
  | lctData left f h =>
    refine ⟨?_, by intro t h; cases h⟩
    cases f.palette with
    | none => rfl
    | some p => simp only; split <;> rfl
  | _ =>
    refine ⟨?_, ?_⟩
    · first
        | rfl
        | (split <;> first | rfl | (simp_all [neutral, outside]; done))
        | (simp_all [neutral, outside]; done)
    · intro t h
      first
        | cases h
        | (split at h <;> cases h)

/-- `LzwInit`. -/
theorem lzwInit_raw (z : LzwReader C) {s : SD C} {m : UInt8} (hs : s.state = .lzwInit m) (hk : s.skipFrameDecoding = false)
    (b : UInt8) (bs : List UInt8) (o : OutSpec) :
    (LzwReader.codeSizeOk m = true ∧
      nextState s (b :: bs) o = ({ s with lzw := (s.lzw.reset m).1, state := .decodeSubBlock b.toNat },
        .ok (1, .frameMetadata .pixels)) ∧
      nextState (raw z s) (b :: bs) o = ({ raw z s with state := .copySubBlock b.toNat },
        .ok (1, .frameMetadata (.lzw m)))) ∨
    (nextState s (b :: bs) o = (s, .fmtErr .invalidMinCodeSize) ∧
      nextState (raw z s) (b :: bs) o = (raw z s, .fmtErr .invalidMinCodeSize)) := by
  have hst : (raw z s).state = s.state := rfl
  unfold nextState
  simp only [hst, hs]
  unfold onLzwInit goto
  rw [if_pos (by simp [hk]), if_neg (by simp [raw])]
  by_cases hm : LzwReader.codeSizeOk m = true
  · rw [if_pos hm]
    refine .inl ⟨hm, ?_, rfl⟩
    have : (s.lzw.reset m).2 = .ok () := by
      unfold LzwReader.reset
      rw [if_pos hm]
      repeat' (first | rfl | split)
    generalize s.lzw.reset m = x at *
    obtain ⟨l, r⟩ := x
    simp only at this
    subst this
    rfl
  · rw [if_neg hm]
    refine .inr ⟨?_, rfl⟩
    have : s.lzw.reset m = (s.lzw, .fmtErr .invalidMinCodeSize) := by
      unfold LzwReader.reset
      rw [if_neg hm]
    rw [this]

/-- Entering the image data of a frame: the pixel decoder and the raw decoder. -/
def Enters (s s' s0' : SD C) (z : LzwReader C) (t0 : FrameDataType) : Prop :=
  ∃ m left, LzwReader.codeSizeOk m = true ∧ t0 = .lzw m ∧ s'.state = .decodeSubBlock left ∧
    s'.lzw = (s.lzw.reset m).1 ∧ s'.skipFrameDecoding = false ∧ s0' = { raw z s' with state := .copySubBlock left } ∧
    left ≤ 255

/-- How the runs of the two decoders relate. -/
def LikeRes (z : LzwReader C) (s : SD C) (acc l : List UInt8) (r : Res C) : Prop :=
  match r with
  | .more _ a => ∃ s0', Eval false (raw z s) acc l (.more s0' a)
  | .err e => Eval false (raw z s) acc l (.err e)
  | .event s' a ev rest =>
    ((∀ t, ev ≠ .frameMetadata t) ∧ outside s'.state = true ∧ s'.lzw = s.lzw ∧ s'.skipFrameDecoding = false ∧
      Eval false (raw z s) acc l (.event (raw z s') a ev rest)) ∨
    (ev = .frameMetadata .pixels ∧ ∃ s0' t0, Enters s s' s0' z t0 ∧
      Eval false (raw z s) acc l (.event s0' a (.frameMetadata t0) rest))

theorem outside_cases {st : State} (h : outside st = true) : neutral st = true ∨ ∃ m, st = .lzwInit m := by
  cases st <;> simp_all [outside, neutral]

theorem eval_like (hS : C.Safe) (z : LzwReader C) {s : SD C} {acc l : List UInt8} {r : Res C} (h : Eval false s acc l r) (hw : WF s)
    (ho : outside s.state = true) (hk : s.skipFrameDecoding = false) : LikeRes z s acc l r := by
  generalize hm : false = m at h
  induction h with
  | nil s acc => exact ⟨_, .nil _ _⟩
  | @quiet s s' acc l x b n ev r h hq ht ih =>
    subst hm
    rcases outside_cases ho with hn | ⟨m, hm⟩
    · obtain ⟨e1, e2, e3⟩ := nextState_raw z s b [] (spec false acc) hn
      rw [h] at e1 e2 e3
      have htr := tr_of_nextState hw.ibuf h
      have := ih (tr_wf hS hw htr).1 (tr_outside htr hn).1 (e3.trans hk)
      have key : ∀ r', Eval false (raw z s') (acc ++ x) ((b :: l).drop n) r' → Eval false (raw z s) acc (b :: l) r' :=
        fun r' hr' => .quiet e1 hq hr'
      cases r with
      | more s1 a => obtain ⟨s0, h0⟩ := this; exact ⟨s0, key _ h0⟩
      | err e => exact key _ this
      | event s1 a ev1 rest =>
        rcases this with ⟨h1, h2, h3, h4, h5⟩ | ⟨h1, s0, t0, ⟨m, left, g1, g2, g3, g4, g5⟩, h3⟩
        · exact .inl ⟨h1, h2, h3.trans e2, h4, key _ h5⟩
        · refine .inr ⟨h1, s0, t0, ⟨m, left, g1, g2, g3, ?_, g5⟩, key _ h3⟩
          rw [g4]; exact congrArg (fun r => (LzwReader.reset r m).1) e2
    · rcases lzwInit_raw z hm hk b [] (spec false acc) with ⟨_, e1, _⟩ | ⟨e1, _⟩
      · rw [h] at e1
        simp only [Prod.mk.injEq, Outcome.ok.injEq] at e1
        obtain ⟨-, -, rfl⟩ := e1
        cases hq
      · rw [h] at e1
        simp at e1
  | @event s s' acc b n ev l h hq =>
    subst hm
    rcases outside_cases ho with hn | ⟨m, hm⟩
    · obtain ⟨e1, e2, e3⟩ := nextState_raw z s b [] (spec false acc) hn
      rw [h] at e1 e2 e3
      have htr := tr_of_nextState hw.ibuf h
      exact .inl ⟨(tr_outside htr hn).2, (tr_outside htr hn).1, e2, e3.trans hk, .event _ e1 hq⟩
    · rcases lzwInit_raw z hm hk b [] (spec false acc) with ⟨hok, e1, e2⟩ | ⟨e1, _⟩
      · rw [h] at e1
        simp only [Prod.mk.injEq, Outcome.ok.injEq] at e1
        obtain ⟨rfl, rfl, rfl⟩ := e1
        refine .inr ⟨rfl, _, _, ⟨m, b.toNat, hok, rfl, rfl, rfl, hk, rfl, by have := b.toNat_lt; omega⟩, .event _ e2 ?_⟩
        intro x hx; cases hx
      · rw [h] at e1
        simp at e1
  | @err s s' acc b e l h =>
    subst hm
    rcases outside_cases ho with hn | ⟨m, hm⟩
    · obtain ⟨e1, -, -⟩ := nextState_raw z s b [] (spec false acc) hn
      rw [h] at e1
      exact .err _ e1
    · rcases lzwInit_raw z hm hk b [] (spec false acc) with ⟨_, e1, _⟩ | ⟨e1, e2⟩
      · rw [h] at e1; simp at e1
      · rw [h] at e1
        simp only [Prod.mk.injEq, Outcome.err.injEq] at e1
        obtain ⟨-, rfl⟩ := e1
        exact .err _ e2

open Decoder (isMetadata isHeaderEnd)

/-- How the runs to the next frame relate. -/
def LikeUpto (z : LzwReader C) (s : SD C) (l : List UInt8) (evs : List Decoded) (r : Res C) : Prop :=
  match r with
  | .more _ a => ∃ s0', Upto isMetadata (raw z s) l evs (.more s0' a)
  | .err e => Upto isMetadata (raw z s) l evs (.err e)
  | .event s' a ev rest =>
    (ev = .blockStart .trailer ∧ outside s'.state = true ∧ s'.lzw = s.lzw ∧ s'.skipFrameDecoding = false ∧
      Upto isMetadata (raw z s) l evs (.event (raw z s') a ev rest)) ∨
    (ev = .frameMetadata .pixels ∧ ∃ s0' t0, Enters s s' s0' z t0 ∧
      Upto isMetadata (raw z s) l evs (.event s0' a (.frameMetadata t0) rest))

theorem upto_like (hS : C.Safe) (z : LzwReader C) {s : SD C} {l : List UInt8} {evs : List Decoded} {r : Res C}
    (h : Upto isMetadata s l evs r) (hw : WF s) (ho : outside s.state = true) (hk : s.skipFrameDecoding = false) :
    LikeUpto z s l evs r := by
  induction h with
  | @step s s1 l rest ev evs r h hP ht hr ih =>
    rcases eval_like hS z h hw ho hk with ⟨h1, h2, h3, h4, h5⟩ | ⟨h1, _⟩
    · have := ih (eval_wf hS h rfl hw) h2 h4
      have key : ∀ r', Upto isMetadata (raw z s1) rest evs r' → Upto isMetadata (raw z s) l (ev :: evs) r' :=
        fun r' hr' => .step h5 hP ht hr'
      cases r with
      | more s1 a => obtain ⟨s0, h0⟩ := this; exact ⟨s0, key _ h0⟩
      | err e => exact key _ this
      | event s2 a ev1 rest =>
        rcases this with ⟨g1, g2, g3, g4, g5⟩ | ⟨g1, s0, t0, ⟨m, left, k1, k2, k3, k4, k5⟩, g3⟩
        · exact .inl ⟨g1, g2, g3.trans h3, g4, key _ g5⟩
        · exact .inr ⟨g1, s0, t0, ⟨m, left, k1, k2, k3, by rw [k4, h3], k5⟩, key _ g3⟩
    · subst h1; cases hP
  | @stop s l r h hr =>
    have := eval_like hS z h hw ho hk
    cases r with
    | more s1 a => obtain ⟨s0, h0⟩ := this; exact ⟨s0, .stop h0 (by intro _ _ _ _ h; cases h)⟩
    | err e => exact .stop this (by intro _ _ _ _ h; cases h)
    | event s1 a ev rest =>
      rcases this with ⟨h1, h2, h3, h4, h5⟩ | ⟨h1, s0, t0, h2, h3⟩
      · rcases hr _ _ _ _ rfl with h | h
        · cases ev <;> first | exact absurd rfl (h1 _) | cases h
        · exact .inl ⟨h, h2, h3, h4, .stop h5 (by intro _ _ _ _ h; cases h; exact .inr ‹_›)⟩
      · exact .inr ⟨h1, s0, t0, h2, .stop h3 (by intro _ _ _ _ h; cases h; exact .inl rfl)⟩

/-- Before `HeaderEnd` there is no frame. -/
theorem tr_header {o : OutSpec} {b : UInt8} {bs : List UInt8} {s s' : SD C} {n : Nat} {ev : Decoded}
    (h : Tr o b bs s s' n ev) (hw : WF s) (hh : s.headerEndReached = false) :
    (∀ t, ev ≠ .frameMetadata t) ∧ (ev ≠ .headerEnd → s'.headerEndReached = false) := by
  have hst := hw.st
  cases h with
  | lzwPixels m lzw h => simp [stOk, h, hh] at hst
  | lzwSkip m h => simp [stOk, h, hh] at hst
  | copy l c k h => simp [stOk, h, hh] at hst
  | copyNext h => simp [stOk, h, hh] at hst
  | copyEnd h => simp [stOk, h, hh] at hst
  | decodeSkip l h => simp [stOk, h, hh] at hst
  | decode l c bb lz h => simp [stOk, h, hh] at hst
  | decodeNext h => simp [stOk, h, hh] at hst
  | decodeFlush c bb lz h => simp [stOk, h, hh] at hst
  | decodeEnd c lz h => simp [stOk, h, hh] at hst
  | frameDecoded h => simp [stOk, h, hh] at hst
  | lctData left f h => simp [stOk, h, hh] at hst
  | _ =>
    refine ⟨?_, ?_⟩
    · intro t h
      first
        | cases h
        | (split at h <;> cases h)
    · intro hne
      first
        | exact hh
        | (split <;> exact hh)
        | exact absurd rfl hne
        | (unfold addFrame; split <;> exact hh)

theorem eval_header (hS : C.Safe) {m : Bool} {s s' : SD C} {acc a l rest : List UInt8} {ev : Decoded} {r : Res C}
    (h : Eval m s acc l r) (hr : r = .event s' a ev rest) (hw : WF s) (hh : s.headerEndReached = false) :
    (∀ t, ev ≠ .frameMetadata t) ∧ (ev ≠ .headerEnd → s'.headerEndReached = false) := by
  induction h with
  | nil => cases hr
  | quiet h hq ht ih =>
    have htr := tr_of_nextState hw.ibuf h
    exact ih hr (tr_wf hS hw htr).1 ((tr_header htr hw hh).2 (by intro h; subst h; cases hq))
  | event l h hq =>
    cases hr
    exact tr_header (tr_of_nextState hw.ibuf h) hw hh
  | err => cases hr

/-- How the runs to the end of the header relate. -/
def LikeInit (z : LzwReader C) (s : SD C) (l : List UInt8) (evs : List Decoded) (r : Res C) : Prop :=
  match r with
  | .more _ a => ∃ s0', Upto isHeaderEnd (raw z s) l evs (.more s0' a)
  | .err e => Upto isHeaderEnd (raw z s) l evs (.err e)
  | .event s' a ev rest =>
    outside s'.state = true ∧ s'.lzw = s.lzw ∧ s'.skipFrameDecoding = false ∧
      Upto isHeaderEnd (raw z s) l evs (.event (raw z s') a ev rest)

theorem upto_init (hS : C.Safe) (z : LzwReader C) {s : SD C} {l : List UInt8} {evs : List Decoded} {r : Res C}
    (h : Upto isHeaderEnd s l evs r) (hw : WF s) (ho : outside s.state = true) (hk : s.skipFrameDecoding = false)
    (hh : s.headerEndReached = false) : LikeInit z s l evs r := by
  induction h with
  | @step s s1 l rest ev evs r h hP ht hr ih =>
    have hev := eval_header hS h rfl hw hh
    rcases eval_like hS z h hw ho hk with ⟨h1, h2, h3, h4, h5⟩ | ⟨h1, _⟩
    · have := ih (eval_wf hS h rfl hw) h2 h4 (hev.2 (by intro h; subst h; simp [isHeaderEnd] at hP))
      have key : ∀ r', Upto isHeaderEnd (raw z s1) rest evs r' → Upto isHeaderEnd (raw z s) l (ev :: evs) r' :=
        fun r' hr' => .step h5 hP ht hr'
      cases r with
      | more s1 a => obtain ⟨s0, h0⟩ := this; exact ⟨s0, key _ h0⟩
      | err e => exact key _ this
      | event s2 a ev1 rest =>
        obtain ⟨g1, g2, g3, g4⟩ := this
        exact ⟨g1, g2.trans h3, g3, key _ g4⟩
    · exact absurd h1 (hev.1 _)
  | @stop s l r h hr =>
    have := eval_like hS z h hw ho hk
    cases r with
    | more s1 a => obtain ⟨s0, h0⟩ := this; exact ⟨s0, .stop h0 (by intro _ _ _ _ h; cases h)⟩
    | err e => exact .stop this (by intro _ _ _ _ h; cases h)
    | event s1 a ev rest =>
      have hev := eval_header hS h rfl hw hh
      rcases this with ⟨h1, h2, h3, h4, h5⟩ | ⟨h1, _⟩
      · exact ⟨h2, h3, h4, .stop h5 (by intro _ _ _ _ h; cases h; exact hr _ _ _ _ rfl)⟩
      · exact absurd h1 (hev.1 _)

/-! ### Image data that are passed over -/

/-- The decoder has not hit an invalid code. -/
def Sound (K : C.Contract) (r : LzwReader C) : Prop := ∀ st, r.decoder = some st → ∃ out e, K.Yields st [] out e ∧ e ≠ .invalid

/-- What passing over the rest of the image data does. With `check_lzw_end_code` it may fail, and if it does not then `fin`. -/
def SkipRes (K : C.Contract) (fin : Prop) (s : SD C) (l : List UInt8) (tail : Option (List UInt8)) : Prop :=
  match tail with
  | some rest =>
    ((s.lzw.checkForEndCode = true → fin) ∧
      ∃ s1, Kept K s s1 ∧ Eval false s [] l (.event { s1 with state := .blockEnd, current := none } [] .dataEnd rest)) ∨
    (s.lzw.checkForEndCode = true ∧ Eval false s [] l (.err (.io .noEndCode)))
  | none => ∃ s1, Eval false s [] l (.more s1 [])

theorem skip_sub (K : C.Contract) {fin : Prop} : ∀ (l : List UInt8) (s : SD C) (left : Nat) (st : C.σ),
    s.state = .decodeSubBlock left → s.lzw.decoder = some st → Sound K s.lzw →
    (C.hasEnded (C.decodeBytes st [] 0).st → fin) → s.skipFrameDecoding = false →
    SkipRes K fin s l (blocks left l).2 := by
  intro l
  induction l with
  | nil =>
    intro s left st hs hd hk hc hf
    rw [Spec.blocks_nil]
    exact ⟨s, .nil _ _⟩
  | cons b l ih =>
    intro s left st hs hd hk hc hf
    have lift : ∀ n tail, nextState s [b] .none = ({ s with state := .decodeSubBlock n }, .ok (1, .nothing)) →
        SkipRes K fin { s with state := .decodeSubBlock n } l tail → SkipRes K fin s (b :: l) tail := by
      intro n tail hn h
      cases tail with
      | none =>
        obtain ⟨s1, h1⟩ := h
        exact ⟨s1, .quiet hn .nothing (by simpa using h1)⟩
      | some rest =>
        rcases h with ⟨h0, s1, h1, h2⟩ | ⟨h1, h2⟩
        · exact .inl ⟨h0, s1, kept_trans (kept_state K s _) h1, .quiet hn .nothing (by simpa using h2)⟩
        · exact .inr ⟨h1, .quiet hn .nothing (by simpa using h2)⟩
    match left with
    | left + 1 =>
      refine lift left _ ?_ (ih _ left st rfl hd hk hc hf)
      unfold nextState
      simp only [hs]
      unfold onDecodeSubBlock
      rw [if_neg (by simp [hf]), if_pos (by omega)]
      simp only
      rw [if_pos (.inr trivial)]
      unfold goto
      rw [show min (left + 1) [b].length = 1 by simp]
      rfl
    | 0 =>
      by_cases hb : b = 0
      · subst hb
        rw [Spec.blocks_end]
        obtain ⟨out, e, hy, he⟩ := hk st hd
        have hno : (C.decodeBytes st [] 0).status ≠ .invalidCode := fun h => he (K.invalid 0 hy h)
        have hout : (C.decodeBytes st [] 0).out = [] := List.eq_nil_of_length_eq_zero (by have := K.safe.out_le st [] 0; omega)
        have hcons : (C.decodeBytes st [] 0).consumed = 0 := by have := K.safe.consumed_le st [] 0; simpa using this
        by_cases hbad : (C.decodeBytes st [] 0).status = .noProgress ∧ s.lzw.checkForEndCode = true
        · have hdec : s.lzw.decodeBytes [] .none = ({ s.lzw with decoder := some (C.decodeBytes st [] 0).st },
              .ioErr .noEndCode) := by
            rw [LzwReader.decodeBytes_none hd, LzwReader.decodeBytes_slice hd, hbad.1]
            simp only
            rw [if_pos hbad.2]
          refine .inr ⟨hbad.2, .err (s' := { s with lzw := { s.lzw with decoder := some (C.decodeBytes st [] 0).st } }) _ ?_⟩
          rw [spec_false]
          unfold nextState
          simp only [hs]
          unfold onDecodeSubBlock
          rw [if_neg (by simp [hf]), if_neg (by omega), if_neg (by simp)]
          rw [hdec]
          simp only [hs]
        · have hdec : s.lzw.decodeBytes [] .none = ({ s.lzw with decoder := some (C.decodeBytes st [] 0).st },
              .ok ((C.decodeBytes st [] 0).consumed, [])) := by
            rw [LzwReader.decodeBytes_none hd, LzwReader.decodeBytes_slice hd, hout]
            cases hs : (C.decodeBytes st [] 0).status with
            | done => rfl
            | ok => rfl
            | noProgress => simp only; rw [if_neg (fun h => hbad ⟨hs, h⟩)]
            | invalidCode => exact absurd hs hno
          refine .inl ⟨fun hce => ?_, _, kept_step K hd [] 0 .frameDecoded, ?_⟩
          · cases hs : (C.decodeBytes st [] 0).status with
            | done => exact hc (K.done hs)
            | ok => rcases K.ok hs with h | h
                    · exact absurd hcons h
                    · exact absurd hout h
            | noProgress => exact absurd ⟨hs, hce⟩ hbad
            | invalidCode => exact absurd hs hno
          refine .quiet (n := 0) (ev := .nothing) (x := [])
            (s' := { s with lzw := { s.lzw with decoder := some (C.decodeBytes st [] 0).st }, state := .frameDecoded }) ?_ .nothing ?_
          · rw [spec_false]
            unfold nextState
            simp only [hs]
            unfold onDecodeSubBlock
            rw [if_neg (by simp [hf]), if_neg (by omega), if_neg (by simp)]
            rw [hdec]
            rfl
          · refine .event (n := 1) _ ?_ ?_
            · unfold nextState; rfl
            · intro x hx; cases hx
      · rw [Spec.blocks_next hb]
        refine lift b.toNat _ ?_ (ih _ b.toNat st rfl hd hk hc hf)
        unfold nextState
        simp only [hs]
        unfold onDecodeSubBlock
        rw [if_neg (by simp [hf]), if_neg (by omega), if_pos hb]
        rfl

/-- Whatever was fetched before, the rest of the image data is passed over. With `check_lzw_end_code` this needs an end code. -/
theorem feed_skip (K : C.Contract) {s : SD C} {more l out : List UInt8} {e : LzwEnd} {tail : Option (List UInt8)}
    (h : Feed K more s l out e tail) (hw : WF s) (hk : Sound K s.lzw ∨ e ≠ .invalid) :
    SkipRes K (e = .ended) s l tail := by
  cases h with
  | @sub _ _ left st _ hst hd hy hm =>
    have hst' := hw.st
    simp only [stOk, hst] at hst'
    have hso : Sound K s.lzw := by
      rcases hk with hk | hk
      · exact hk
      · intro st' hd'
        rw [hd] at hd'
        cases hd'
        obtain ⟨o', e', hy', h | h⟩ := K.prefix_yields (p := []) hy
        · exact ⟨o', e', hy', by rw [h.1]; simp⟩
        · exact ⟨o', e', hy', by rw [h.2]; exact hk⟩
    refine skip_sub K l s left st hst hd hso ?_ hst'.2.2.1
    intro hend
    obtain ⟨out', e', hy', he'⟩ := hso st hd
    have hno : (C.decodeBytes st [] 0).status ≠ .invalidCode := fun h => he' (K.invalid 0 hy' h)
    obtain ⟨o2, -, hy2⟩ := K.step (inp := []) (rest := _) 0 hy hno
    exact (K.det hy2 (K.ended _ hend)).2
  | fin hst he hc =>
    refine .inl ⟨hc, s, kept_refl K s, .event (n := 1) _ ?_ ?_⟩
    · unfold nextState; simp only [hst]; rfl
    · intro x hx; cases hx

/-! ### Image data that are copied -/

/-- What copying the image data does. -/
def CopyEval (s : SD C) (acc l : List UInt8) (p : List UInt8 × Option (List UInt8)) (r : Res C) : Prop :=
  (s.memoryLimit ≠ .unlimited ∧ r = .err (.format .memoryLimit)) ∨
  match p.2 with
  | some rest => r = .event { s with state := .blockEnd, current := none } (acc ++ p.1) .dataEnd rest
  | none => ∃ s1 a, r = .more s1 a

theorem copy_eval : ∀ (l : List UInt8) (s : SD C) (left : Nat) (acc : List UInt8), s.state = .copySubBlock left →
    s.skipFrameDecoding = true → ∃ r, Eval true s acc l r ∧ CopyEval s acc l (blocks left l) r := by
  intro l
  induction l with
  | nil =>
    intro s left acc hs hf
    rw [Spec.blocks_nil]
    exact ⟨_, .nil _ _, .inr ⟨_, _, rfl⟩⟩
  | cons b l ih =>
    intro s left acc hs hf
    match left with
    | left + 1 =>
      by_cases hok : s.memoryLimit.sizeOk (acc.length + 1) = true
      · have hn : nextState s [b] (spec true acc) = ({ s with state := .copySubBlock left }, .ok (1, .lzwDataCopied [b])) := by
          rw [spec_true]
          unfold nextState
          simp only [hs]
          unfold onCopySubBlock
          rw [if_neg (by simp [hf]), if_pos (by omega)]
          unfold append
          simp only [List.length_singleton]
          rw [show min (left + 1) 1 = 1 by omega]
          simp only [List.take_succ_cons, List.take_nil, List.length_singleton]
          rw [if_pos hok]
          simp only
          rw [if_neg (by omega)]
          rfl
        obtain ⟨r, h1, h2⟩ := ih { s with state := .copySubBlock left } left (acc ++ [b]) rfl hf
        refine ⟨r, .quiet hn (.copied _) (by simpa using h1), ?_⟩
        rcases h2 with h2 | h2
        · exact .inl h2
        · refine .inr ?_
          simp only [Spec.blocks]
          cases hb : (blocks left l).2 with
          | none => simp only [hb] at h2; exact h2
          | some rest => simp only [hb, List.append_assoc, List.singleton_append] at h2; exact h2
      · refine ⟨_, .err (s' := s) _ ?_, .inl ⟨fun h => hok (by rw [h]; rfl), rfl⟩⟩
        rw [spec_true]
        unfold nextState
        simp only [hs]
        unfold onCopySubBlock
        rw [if_neg (by simp [hf]), if_pos (by omega)]
        unfold append
        simp only [List.length_singleton]
        rw [show min (left + 1) 1 = 1 by omega]
        simp only [List.take_succ_cons, List.take_nil, List.length_singleton]
        rw [if_neg hok]
    | 0 =>
      by_cases hb : b = 0
      · subst hb
        rw [Spec.blocks_end]
        refine ⟨.event { s with state := .blockEnd, current := none } acc .dataEnd l, ?_, .inr (by simp)⟩
        refine .quiet (n := 0) (ev := .nothing) (x := []) (s' := { s with state := .frameDecoded }) ?_ .nothing ?_
        · unfold nextState
          simp only [hs]
          unfold onCopySubBlock
          rw [if_neg (by simp [hf]), if_neg (by omega), if_neg (by simp)]
          rfl
        · rw [List.append_nil]
          refine .event (n := 1) _ ?_ ?_
          · unfold nextState; rfl
          · intro x hx; cases hx
      · rw [Spec.blocks_next hb]
        have hn : nextState s [b] (spec true acc) = ({ s with state := .copySubBlock b.toNat }, .ok (1, .nothing)) := by
          unfold nextState
          simp only [hs]
          unfold onCopySubBlock
          rw [if_neg (by simp [hf]), if_neg (by omega), if_pos hb]
          rfl
        obtain ⟨r, h1, h2⟩ := ih { s with state := .copySubBlock b.toNat } b.toNat acc rfl hf
        exact ⟨r, .quiet hn .nothing (by simpa using h1), h2⟩

end SD

end Gif
