import Verif.Spec.Agree
import Verif.Lemmas.DecRun
/-!
A decoder with laxer options (memory limit, checks, unknown blocks) does the same as a strict one, until the latter rejects
something.
-/

namespace Gif

/-- The options that can only make the decoder reject more. -/
structure Policy where
  memoryLimit : MemoryLimit
  checkForEndCode : Bool
  checkFrameConsistency : Bool
  allowUnknownBlocks : Bool

def DecodeOptions.policy (o : DecodeOptions) : Policy :=
  ⟨o.memoryLimit, o.checkForEndCode, o.checkFrameConsistency, o.allowUnknownBlocks⟩

/-- The same options with another policy. -/
def DecodeOptions.relax (m : Policy) (o : DecodeOptions) : DecodeOptions :=
  { o with
    memoryLimit := m.memoryLimit, checkForEndCode := m.checkForEndCode
    checkFrameConsistency := m.checkFrameConsistency, allowUnknownBlocks := m.allowUnknownBlocks }

/-- What `a` accepts, `b` accepts. -/
def MemoryLimit.Le (a b : MemoryLimit) : Prop := ∀ n, a.sizeOk n = true → b.sizeOk n = true

theorem MemoryLimit.le_unlimited (a : MemoryLimit) : a.Le .unlimited := fun _ _ => rfl

theorem MemoryLimit.le_refl (a : MemoryLimit) : a.Le a := fun _ h => h

theorem MemoryLimit.bufferSize_eq (c : ColorOutput) (w h : UInt16) :
    ∃ n, ∀ a : MemoryLimit, a.bufferSize c w h = if a.sizeOk n then some n else none := by
  have hw : w.toNat < 65536 := w.toNat_lt
  have hh : h.toNat < 65536 := h.toNat_lt
  have hp : w.toNat * h.toNat ≤ 65535 * 65535 := Nat.mul_le_mul (by omega) (by omega)
  have key : ∀ t, t ≤ 2 ^ 64 - 1 → ∀ a : MemoryLimit, (if t ≤ 2 ^ 64 - 1 then
      match a with
      | .unlimited => some t
      | .bytes limit _ => if t > limit then none else some t
    else none) = if a.sizeOk t then some t else none := by
    intro t ht a
    rw [if_pos ht]
    cases a with
    | unlimited => rfl
    | bytes l _ =>
      simp only [sizeOk, decide_eq_true_eq]
      by_cases hl : t ≤ l
      · rw [if_pos hl, if_neg (by omega)]
      · rw [if_neg hl, if_pos (by omega)]
  cases c with
  | indexed => exact ⟨w.toNat * h.toNat * 1, fun a => key _ (by simp only; omega) a⟩
  | rgba => exact ⟨w.toNat * h.toNat * 4, fun a => key _ (by simp only; omega) a⟩

theorem MemoryLimit.Le.bufferSize {a b : MemoryLimit} (h : a.Le b) (c : ColorOutput) (w k : UInt16) :
    a.bufferSize c w k = none ∨ b.bufferSize c w k = a.bufferSize c w k := by
  obtain ⟨n, hn⟩ := bufferSize_eq c w k
  rw [hn, hn]
  by_cases hs : a.sizeOk n = true
  · rw [if_pos hs, if_pos (h _ hs)]; exact .inr rfl
  · rw [if_neg hs]; exact .inl rfl

/-- `m` accepts whatever `l` accepts. -/
structure Policy.Le (l m : Policy) : Prop where
  memory : l.memoryLimit.Le m.memoryLimit
  endCode : m.checkForEndCode = true → l.checkForEndCode = true
  frame : m.checkFrameConsistency = true → l.checkFrameConsistency = true
  unknown : l.allowUnknownBlocks = true → m.allowUnknownBlocks = true

/-- The errors by which `l` can reject what `m` does not reject. -/
def Refusal (l m : Policy) : DecodingError → Prop
  | .format .memoryLimit => l.memoryLimit ≠ m.memoryLimit
  | .io .outOfMemory => l.memoryLimit ≠ m.memoryLimit
  | .io .noEndCode => l.checkForEndCode = true ∧ m.checkForEndCode = false
  | .format .frameOutOfBounds => l.checkFrameConsistency = true ∧ m.checkFrameConsistency = false
  | .format .unknownBlock => l.allowUnknownBlocks = false ∧ m.allowUnknownBlocks = true
  | _ => False

/-- The result is such an error. -/
def Refused (l m : Policy) {α : Type} (out : Outcome α) : Prop := ∃ e, out = .err e ∧ Refusal l m e

theorem sizeOk_cases {l m : MemoryLimit} (h : l.Le m) (n : Nat) : (l.sizeOk n = m.sizeOk n) ∨ (l.sizeOk n = false ∧ l ≠ m) := by
  cases hl : l.sizeOk n with
  | true => exact .inl (h n hl).symm
  | false =>
    cases hm : m.sizeOk n with
    | false => exact .inl rfl
    | true => exact .inr ⟨rfl, fun e => by rw [e, hm] at hl; cases hl⟩

namespace LzwReader

variable {C : Codec}

theorem reset_check (r : LzwReader C) (k : UInt8) (c : Bool) :
    (r.reset k).1.checkForEndCode = r.checkForEndCode ∧
    ({ r with checkForEndCode := c } : LzwReader C).reset k = ({ (r.reset k).1 with checkForEndCode := c }, (r.reset k).2) := by
  unfold reset
  split
  · cases r.decoder with
    | none => exact ⟨rfl, rfl⟩
    | some d =>
      simp only
      split <;> exact ⟨rfl, rfl⟩
  · exact ⟨rfl, rfl⟩

theorem decodeBytes_check (r : LzwReader C) (c : Bool) (hc : c = true → r.checkForEndCode = true) (data : List UInt8) (o : OutSpec) :
    (r.decodeBytes data o).1.checkForEndCode = r.checkForEndCode ∧
    (({ r with checkForEndCode := c } : LzwReader C).decodeBytes data o =
        ({ (r.decodeBytes data o).1 with checkForEndCode := c }, (r.decodeBytes data o).2) ∨
      (r.decodeBytes data o).2 = .err (.io .noEndCode) ∧ r.checkForEndCode = true ∧ c = false) := by
  obtain ⟨dec, mcs, chk⟩ := r
  unfold decodeBytes
  cases dec with
  | none => exact ⟨rfl, .inl rfl⟩
  | some d =>
    cases o with
    | vec n => exact ⟨rfl, .inl rfl⟩
    | slice cap =>
      simp only
      cases (C.decodeBytes d data cap).status with
      | noProgress =>
        simp only at hc ⊢
        cases chk with
        | false =>
          cases c with
          | false => exact ⟨rfl, .inl rfl⟩
          | true => cases hc rfl
        | true =>
          cases c with
          | true => exact ⟨rfl, .inl rfl⟩
          | false => exact ⟨rfl, .inr ⟨rfl, rfl, rfl⟩⟩
      | _ => exact ⟨rfl, .inl rfl⟩
    | none =>
      simp only
      cases (C.decodeBytes d data 0).status with
      | noProgress =>
        simp only at hc ⊢
        cases chk with
        | false =>
          cases c with
          | false => exact ⟨rfl, .inl rfl⟩
          | true => cases hc rfl
        | true =>
          cases c with
          | true => exact ⟨rfl, .inl rfl⟩
          | false => exact ⟨rfl, .inr ⟨rfl, rfl, rfl⟩⟩
      | _ => exact ⟨rfl, .inl rfl⟩

end LzwReader

namespace SD

variable {C : Codec}

/-- The policy of the decoder. -/
def policy (s : SD C) : Policy := ⟨s.memoryLimit, s.lzw.checkForEndCode, s.checkFrameConsistency, s.allowUnknownBlocks⟩

/-- The same decoder with another policy. -/
def relax (m : Policy) (s : SD C) : SD C :=
  { s with
    memoryLimit := m.memoryLimit, lzw := { s.lzw with checkForEndCode := m.checkForEndCode }
    checkFrameConsistency := m.checkFrameConsistency, allowUnknownBlocks := m.allowUnknownBlocks }

/-- `q` is the same as `p` with the policy `m`, unless `p` was refused. -/
def RelaxRes (l m : Policy) (p q : StepResult C) : Prop :=
  p.1.policy = l ∧ (q = (p.1.relax m, p.2) ∨ Refused l m p.2)

theorem ite_relax {l m : Policy} {P Q : Prop} [Decidable P] [Decidable Q] {a a' b b' : StepResult C} (h : P ↔ Q)
    (ht : P → RelaxRes l m a a') (hf : ¬ P → RelaxRes l m b b') : RelaxRes l m (if P then a else b) (if Q then a' else b') := by
  by_cases hp : P
  · rw [if_pos hp, if_pos (h.mp hp)]; exact ht hp
  · rw [if_neg hp, if_neg fun hq => hp (h.mpr hq)]; exact hf hp

theorem ite_refuse {l m : Policy} {P Q : Prop} [Decidable P] [Decidable Q] {a a' b b' : StepResult C} (h : Q → P)
    (ht : P → RelaxRes l m a a') (hr : P → ¬ Q → a.1.policy = l ∧ Refused l m a.2) (hf : ¬ P → RelaxRes l m b b') :
    RelaxRes l m (if P then a else b) (if Q then a' else b') := by
  by_cases hp : P
  · rw [if_pos hp]
    by_cases hq : Q
    · rw [if_pos hq]; exact ht hp
    · exact ⟨(hr hp hq).1, .inr (hr hp hq).2⟩
  · rw [if_neg hp, if_neg fun hq => hp (h hq)]; exact hf hp

theorem ensureMin_relax {l m : Policy} (s : SD C) (hl : s.policy = l) (buf : List UInt8) (n : Nat)
    (k : SD C → Nat → List UInt8 → StepResult C)
    (hk : ∀ s i x, s.policy = l → RelaxRes l m (k s i x) (k (s.relax m) i x)) :
    RelaxRes l m (ensureMin s buf n k) (ensureMin (s.relax m) buf n k) := by
  have e : (s.relax m).ibuf = s.ibuf := rfl
  unfold ensureMin
  simp only [e]
  split
  · exact hk _ _ _ hl
  · split
    · split
      · exact ⟨hl, .inl rfl⟩
      · split
        · exact ⟨hl, .inl rfl⟩
        · exact hk { s with ibuf := [] } _ _ hl
    · exact hk _ _ _ hl

theorem append_relax {l m : MemoryLimit} (h : l.Le m) (o : OutSpec) (buf : List UInt8) :
    append o buf m = append o buf l ∨ append o buf l = .err (.format .memoryLimit) ∧ l ≠ m := by
  cases o with
  | slice c => exact .inl rfl
  | none => exact .inl rfl
  | vec n =>
    simp only [append]
    rcases sizeOk_cases h (n + buf.length) with hs | ⟨hs, hne⟩
    · rw [hs]; exact .inl rfl
    · simp only [hs]; exact .inr ⟨rfl, hne⟩

theorem nextState_relax {l m : Policy} (hlm : l.Le m) (s : SD C) (hl : s.policy = l) (buf : List UInt8) (o : OutSpec) :
    RelaxRes l m (nextState s buf o) (nextState (s.relax m) buf o) := by
  have hst : (s.relax m).state = s.state := rfl
  cases buf with
  | nil => exact ⟨hl, .inl rfl⟩
  | cons b bs =>
  unfold nextState
  simp only
  rw [hst]
  match hs : s.state with
  | .magic =>
    refine ensureMin_relax s hl _ _ _ fun s i x hl => ?_
    unfold onMagic goto
    repeat' (first | exact ⟨hl, .inl rfl⟩ | split | dsimp only)
  | .screenDescriptor =>
    refine ensureMin_relax s hl _ _ _ fun s i x hl => ?_
    unfold onScreenDescriptor goto
    repeat' (first | exact ⟨hl, .inl rfl⟩ | split | dsimp only)
  | .imageBlockStart =>
    refine ensureMin_relax s hl _ _ _ fun s i x hl => ?_
    unfold onImageBlockStart goto
    split
    · have e : (s.relax m).current = s.current := rfl
      rw [e]
      cases s.current with
      | none => exact ⟨hl, .inl rfl⟩
      | some f =>
        refine ite_refuse (fun h => ⟨?_, h.2⟩) (fun _ => ⟨hl, .inl rfl⟩) (fun h1 h2 => ⟨hl, _, rfl, ?_⟩) (fun _ => ?_)
        · subst hl; exact hlm.frame h.1
        · subst hl
          refine ⟨h1.1, ?_⟩
          cases hm : m.checkFrameConsistency with
          | false => rfl
          | true => exact absurd ⟨hm, h1.2⟩ h2
        · exact ite_relax Iff.rfl (fun _ => ⟨hl, .inl rfl⟩) (fun _ => ⟨hl, .inl rfl⟩)
    · exact ⟨hl, .inl rfl⟩
  | .globalPalette left =>
    simp only
    unfold onGlobalPalette goto
    refine ite_relax Iff.rfl (fun _ => ?_) (fun _ => ⟨hl, .inl rfl⟩)
    by_cases hg : min left (b :: bs).length ≤ s.gctCap - s.gct.length
    · have hg' : min left (b :: bs).length ≤ (s.relax m).gctCap - (s.relax m).gct.length := hg
      simp only [if_pos hg, if_pos hg']
      exact ⟨hl, .inl rfl⟩
    · have hg' : ¬ min left (b :: bs).length ≤ (s.relax m).gctCap - (s.relax m).gct.length := hg
      simp only [if_neg hg, if_neg hg']
      exact ⟨hl, .inl rfl⟩
  | .blockStart t =>
    simp only
    unfold onBlockStart goto
    refine ite_relax Iff.rfl (fun _ => ⟨hl, .inl rfl⟩) (fun _ => ?_)
    split
    · have ha : (s.relax m).addFrame = s.addFrame.relax m ∧ s.addFrame.policy = l := by
        unfold addFrame
        have e : (s.relax m).current = s.current := rfl
        rw [e]
        cases s.current <;> exact ⟨rfl, hl⟩
      rw [ha.1]
      exact ⟨ha.2, .inl rfl⟩
    · exact ite_relax Iff.rfl (fun _ => ⟨hl, .inl rfl⟩) (fun _ => ⟨hl, .inl rfl⟩)
    · exact ⟨hl, .inl rfl⟩
    · have e : (s.relax m).allowUnknownBlocks = m.allowUnknownBlocks := rfl
      rw [e]
      have hu : s.allowUnknownBlocks = true → m.allowUnknownBlocks = true := by subst hl; exact hlm.unknown
      cases hs : s.allowUnknownBlocks with
      | true =>
        rw [hu hs, if_pos rfl, if_pos rfl]
        refine ⟨?_, .inl ?_⟩
        · subst hl; simp only [policy, hs]
        · simp only [relax, hu hs]
      | false =>
        cases hm : m.allowUnknownBlocks with
        | false => exact ⟨hl, .inl rfl⟩
        | true => refine ⟨hl, .inr ⟨_, rfl, ?_⟩⟩; subst hl; exact ⟨hs, hm⟩
  | .blockEnd =>
    simp only
    unfold onBlockEnd goto
    split <;> exact ⟨hl, .inl rfl⟩
  | .extensionBlockStart => exact ⟨hl, .inl rfl⟩
  | .extensionDataBlock left =>
    simp only
    unfold onExtensionDataBlock goto
    refine ite_relax Iff.rfl (fun _ => ?_) (fun _ => ?_)
    · have e1 : (s.relax m).extData = s.extData := rfl
      have e2 : (s.relax m).memoryLimit = m.memoryLimit := rfl
      have hmem : s.memoryLimit.Le m.memoryLimit := by subst hl; exact hlm.memory
      simp only [e1, e2]
      rcases sizeOk_cases hmem (s.extData.length + min left (b :: bs).length) with hok | ⟨hok, hne⟩
      · rw [hok]
        exact ite_relax Iff.rfl (fun _ => ⟨hl, .inl rfl⟩) (fun _ => ⟨hl, .inl rfl⟩)
      · simp only [hok]
        refine ⟨hl, .inr ⟨_, rfl, ?_⟩⟩
        subst hl
        exact hne
    · refine ite_relax Iff.rfl (fun _ => ?_) (fun _ => ⟨hl, .inl rfl⟩)
      have e : (s.relax m).extId = s.extId := rfl
      simp only [e]
      cases Extension.fromU8 s.extId with
      | none => exact ⟨hl, .inl rfl⟩
      | some x =>
        cases x with
        | application => exact ⟨hl, .inl rfl⟩
        | control =>
          simp only
          unfold readControlExtension
          have e : (s.relax m).extData = s.extData := rfl
          simp only [e]
          match s.extData with
          | [_, _, _, _, _] => exact ⟨hl, .inl rfl⟩
          | [] => exact ⟨hl, .inl rfl⟩
          | [_] => exact ⟨hl, .inl rfl⟩
          | [_, _] => exact ⟨hl, .inl rfl⟩
          | [_, _, _] => exact ⟨hl, .inl rfl⟩
          | [_, _, _, _] => exact ⟨hl, .inl rfl⟩
          | _ :: _ :: _ :: _ :: _ :: _ :: _ => exact ⟨hl, .inl rfl⟩
        | _ => exact ⟨hl, .inl rfl⟩
  | .applicationExtension =>
    simp only
    unfold onApplicationExtension goto
    refine ite_relax Iff.rfl (fun _ => ⟨hl, .inl rfl⟩) (fun _ => ?_)
    refine ite_relax Iff.rfl (fun _ => ?_) (fun _ => ⟨hl, .inl rfl⟩)
    have e : (s.relax m).extData = s.extData := rfl
    rw [e]
    split <;> exact ⟨hl, .inl rfl⟩
  | .localPalette left =>
    simp only
    unfold onLocalPalette goto
    have e : (s.relax m).current = s.current := rfl
    simp only [e]
    refine ite_relax Iff.rfl (fun _ => ?_) (fun _ => ⟨hl, .inl rfl⟩)
    cases s.current with
    | none => exact ⟨hl, .inl rfl⟩
    | some f =>
      simp only
      cases f.palette with
      | none => exact ⟨hl, .inl rfl⟩
      | some p => exact ite_relax Iff.rfl (fun _ => ⟨hl, .inl rfl⟩) (fun _ => ⟨hl, .inl rfl⟩)
  | .lzwInit k =>
    simp only
    unfold onLzwInit goto
    refine ite_relax Iff.rfl (fun _ => ?_) (fun _ => ?_)
    · have e : (s.relax m).lzw = { s.lzw with checkForEndCode := m.checkForEndCode } := rfl
      obtain ⟨h1, h2⟩ := s.lzw.reset_check k m.checkForEndCode
      rw [e, h2]
      generalize s.lzw.reset k = x at *
      obtain ⟨z, out⟩ := x
      simp only at h1
      subst hl
      cases out <;> refine ⟨?_, .inl rfl⟩ <;> simp only [policy, h1]
    · exact ite_relax Iff.rfl (fun _ => ⟨hl, .inl rfl⟩) (fun _ => ⟨hl, .inl rfl⟩)
  | .copySubBlock left =>
    simp only
    unfold onCopySubBlock goto
    refine ite_relax Iff.rfl (fun _ => ⟨hl, .inl rfl⟩) (fun _ => ?_)
    · refine ite_relax Iff.rfl (fun _ => ?_) (fun _ => ?_)
      · subst hl
        have e : (s.relax m).memoryLimit = m.memoryLimit := rfl
        rw [e]
        simp only
        have hmem : s.memoryLimit.Le m.memoryLimit := hlm.memory
        rcases append_relax hmem o ((b :: bs).take (min left (b :: bs).length)) with h | h
        · rw [h]
          cases append o ((b :: bs).take (min left (b :: bs).length)) s.memoryLimit with
          | ok x =>
            obtain ⟨n, x⟩ := x
            simp only
            split <;> exact ⟨rfl, .inl rfl⟩
          | err e => exact ⟨rfl, .inl rfl⟩
          | panic => exact ⟨rfl, .inl rfl⟩
          | diverge => exact ⟨rfl, .inl rfl⟩
        · rw [h.1]; exact ⟨rfl, .inr ⟨_, rfl, h.2⟩⟩
      · exact ite_relax Iff.rfl (fun _ => ⟨hl, .inl rfl⟩) (fun _ => ⟨hl, .inl rfl⟩)
  | .decodeSubBlock left =>
    simp only
    unfold onDecodeSubBlock goto
    refine ite_relax Iff.rfl (fun _ => ⟨hl, .inl rfl⟩) (fun _ => ?_)
    · have e : (s.relax m).lzw = { s.lzw with checkForEndCode := m.checkForEndCode } := rfl
      have hc : m.checkForEndCode = true → s.lzw.checkForEndCode = true := by subst hl; exact hlm.endCode
      rw [e]
      refine ite_relax Iff.rfl (fun _ => ?_) (fun _ => ?_)
      · refine ite_relax Iff.rfl (fun _ => ⟨hl, .inl rfl⟩) (fun _ => ?_)
        · obtain ⟨h1, h2⟩ := s.lzw.decodeBytes_check m.checkForEndCode hc ((b :: bs).take (min left (b :: bs).length)) o
          subst hl
          rcases h2 with h2 | ⟨h2, h3, h4⟩
          · rw [h2]
            generalize s.lzw.decodeBytes ((b :: bs).take (min left (b :: bs).length)) o = x at *
            obtain ⟨z, out⟩ := x
            simp only at h1
            cases out with
            | ok x =>
              simp only
              generalize (if x.1 = 0 ∧ x.2.length = 0 then min left (b :: bs).length else x.1) = c
              split <;> refine ⟨?_, .inl rfl⟩ <;> simp only [policy, h1]
            | err e => refine ⟨?_, .inl rfl⟩; simp only [policy, h1]
            | panic => refine ⟨?_, .inl rfl⟩; simp only [policy, h1]
            | diverge => refine ⟨?_, .inl rfl⟩; simp only [policy, h1]
          · generalize s.lzw.decodeBytes ((b :: bs).take (min left (b :: bs).length)) o = x at *
            obtain ⟨z, out⟩ := x
            simp only at h1 h2
            subst h2
            refine ⟨?_, .inr ⟨_, rfl, h3, h4⟩⟩
            simp only [policy, h1]
      · refine ite_relax Iff.rfl (fun _ => ⟨hl, .inl rfl⟩) (fun _ => ?_)
        · obtain ⟨h1, h2⟩ := s.lzw.decodeBytes_check m.checkForEndCode hc [] o
          subst hl
          rcases h2 with h2 | ⟨h2, h3, h4⟩
          · rw [h2]
            generalize s.lzw.decodeBytes [] o = x at *
            obtain ⟨z, out⟩ := x
            simp only at h1
            cases out with
            | ok x =>
              simp only
              split <;> refine ⟨?_, .inl rfl⟩ <;> simp only [policy, h1]
            | err e => refine ⟨?_, .inl rfl⟩; simp only [policy, h1]
            | panic => refine ⟨?_, .inl rfl⟩; simp only [policy, h1]
            | diverge => refine ⟨?_, .inl rfl⟩; simp only [policy, h1]
          · generalize s.lzw.decodeBytes [] o = x at *
            obtain ⟨z, out⟩ := x
            simp only at h1 h2
            subst h2
            refine ⟨?_, .inr ⟨_, rfl, h3, h4⟩⟩
            simp only [policy, h1]
  | .frameDecoded =>
    simp only
    unfold onFrameDecoded goto
    exact ite_relax Iff.rfl (fun _ => ⟨hl, .inl rfl⟩) (fun _ => ⟨hl, .inl rfl⟩)
  | .trailer => exact ⟨hl, .inl rfl⟩

theorem updateLoop_relax {l m : Policy} (hlm : l.Le m) (len : Nat) (o : OutSpec) : ∀ (n : Nat) (s : SD C) (buf : List UInt8),
    s.policy = l → RelaxRes l m (updateLoop len o n s buf) (updateLoop len o n (s.relax m) buf) := by
  intro n
  induction n with
  | zero => intro s buf hl; cases buf <;> exact ⟨hl, .inl rfl⟩
  | succ n ih =>
    intro s buf hl
    cases buf with
    | nil => exact ⟨hl, .inl rfl⟩
    | cons b bs =>
      simp only [updateLoop]
      obtain ⟨h1, h2⟩ := nextState_relax hlm s hl (b :: bs) o
      rcases h2 with h2 | h2
      · rw [h2]
        generalize nextState s (b :: bs) o = x at *
        obtain ⟨s', out⟩ := x
        simp only at h1 ⊢
        cases out with
        | ok y =>
          obtain ⟨i, ev⟩ := y
          cases ev <;> first | exact ih s' _ h1 | exact ⟨h1, .inl rfl⟩
        | err e => exact ⟨h1, .inl rfl⟩
        | panic => exact ⟨h1, .inl rfl⟩
        | diverge => exact ⟨h1, .inl rfl⟩
      · generalize nextState s (b :: bs) o = x at *
        obtain ⟨s', out⟩ := x
        simp only at h1 h2
        obtain ⟨e, rfl, he⟩ := h2
        exact ⟨h1, .inr ⟨e, rfl, he⟩⟩

theorem update_relax {l m : Policy} (hlm : l.Le m) (s : SD C) (hl : s.policy = l) (buf : List UInt8) (o : OutSpec) :
    RelaxRes l m (update s buf o) (update (s.relax m) buf o) :=
  updateLoop_relax hlm _ _ _ _ _ hl

end SD

namespace RD

variable {C : Codec}

def relax (m : Policy) (d : RD C) : RD C := { d with sd := d.sd.relax m }

def RelaxRes {α : Type} (l m : Policy) (p q : RD C × Outcome α) : Prop :=
  p.1.sd.policy = l ∧ (q = (p.1.relax m, p.2) ∨ Refused l m p.2)

theorem ite_relax {α : Type} {l m : Policy} {P Q : Prop} [Decidable P] [Decidable Q] {a a' b b' : RD C × Outcome α} (h : P ↔ Q)
    (ht : P → RelaxRes l m a a') (hf : ¬ P → RelaxRes l m b b') : RelaxRes l m (if P then a else b) (if Q then a' else b') := by
  by_cases hp : P
  · rw [if_pos hp, if_pos (h.mp hp)]; exact ht hp
  · rw [if_neg hp, if_neg fun hq => hp (h.mpr hq)]; exact hf hp

theorem decodeNextLoop_relax {l m : Policy} (hlm : l.Le m) (o : OutSpec) : ∀ (n : Nat) (d : RD C), d.sd.policy = l →
    RelaxRes l m (decodeNextLoop o n d) (decodeNextLoop o n (d.relax m)) := by
  intro n
  induction n with
  | zero => intro d hl; exact ⟨hl, .inl rfl⟩
  | succ n ih =>
    intro d hl
    unfold decodeNextLoop
    refine ite_relax Iff.rfl (fun _ => ⟨hl, .inl rfl⟩) (fun _ => ?_)
    · have e : (d.relax m).reader = d.reader := rfl
      rw [e]
      obtain ⟨r, x⟩ := d.reader.fillBuf
      cases x with
      | error e => exact ⟨hl, .inl rfl⟩
      | ok buf =>
        simp only
        refine ite_relax Iff.rfl (fun _ => ⟨hl, .inl rfl⟩) (fun _ => ?_)
        have es : (d.relax m).sd = d.sd.relax m := rfl
        rw [es]
        · obtain ⟨h1, h2⟩ := SD.update_relax hlm d.sd hl buf o
          rcases h2 with h2 | h2
          · rw [h2]
            generalize d.sd.update buf o = x at *
            obtain ⟨s', out⟩ := x
            simp only at h1 ⊢
            cases out with
            | ok y =>
              obtain ⟨i, ev⟩ := y
              have hn := ih { d with reader := r.consume i, sd := s' } h1
              have ht := ih { d with reader := r.consume i, sd := s', atEof := true } h1
              cases ev with
              | nothing => exact hn
              | blockStart b => cases b <;> first | exact ht | exact ⟨h1, .inl rfl⟩
              | _ => exact ⟨h1, .inl rfl⟩
            | err e => exact ⟨h1, .inl rfl⟩
            | panic => exact ⟨h1, .inl rfl⟩
            | diverge => exact ⟨h1, .inl rfl⟩
          · generalize d.sd.update buf o = x at *
            obtain ⟨s', out⟩ := x
            simp only at h1 h2
            obtain ⟨e, rfl, he⟩ := h2
            exact ⟨h1, .inr ⟨e, rfl, he⟩⟩

theorem decodeNext_relax {l m : Policy} (hlm : l.Le m) (o : OutSpec) (d : RD C) (hl : d.sd.policy = l) :
    RelaxRes l m (decodeNext o d) (decodeNext o (d.relax m)) :=
  decodeNextLoop_relax hlm _ _ _ hl

theorem decodeNextBytes_relax {l m : Policy} (hlm : l.Le m) (n : Nat) (d : RD C) (hl : d.sd.policy = l) :
    RelaxRes l m (decodeNextBytes d n) (decodeNextBytes (d.relax m) n) := by
  unfold decodeNextBytes
  obtain ⟨h1, h2⟩ := decodeNext_relax hlm (.slice n) d hl
  rcases h2 with h2 | h2
  · rw [h2]
    generalize decodeNext (.slice n) d = x at *
    obtain ⟨d', out⟩ := x
    simp only at h1 ⊢
    cases out with
    | ok y =>
      cases y with
      | none => exact ⟨h1, .inl rfl⟩
      | some ev => cases ev <;> exact ⟨h1, .inl rfl⟩
    | err e => exact ⟨h1, .inl rfl⟩
    | panic => exact ⟨h1, .inl rfl⟩
    | diverge => exact ⟨h1, .inl rfl⟩
  · generalize decodeNext (.slice n) d = x at *
    obtain ⟨d', out⟩ := x
    simp only at h1 h2
    obtain ⟨e, rfl, he⟩ := h2
    exact ⟨h1, .inr ⟨e, rfl, he⟩⟩

end RD

namespace Converter

/-- Callbacks that do the same up to `g`, or else fail with an error of `R`. -/
def Caps {τ : Type} (R : DecodingError → Prop) (P : τ → Prop) (g : τ → τ) (cb : Callback τ) : Prop :=
  ∀ t n, P t → P (cb t n).1 ∧ (cb (g t) n = (g (cb t n).1, (cb t n).2) ∨ (∃ e, (cb t n).2 = .err e ∧ R e))

theorem fillLoop_relax {τ : Type} {R : DecodingError → Prop} {P : τ → Prop} {g : τ → τ} {cb : Callback τ} (hcb : Caps R P g cb)
    (c c' : Converter) (hc : c'.colorOutput = c.colorOutput ∧ c'.globalPalette = c.globalPalette) (f : Frame) :
    ∀ (n : Nat) (t : τ) (buf : List UInt8), P t →
      P (fillLoop c f cb n t buf).1 ∧
      (fillLoop c' f cb n (g t) buf = (g (fillLoop c f cb n t buf).1, (fillLoop c f cb n t buf).2) ∨
        (∃ e, (fillLoop c f cb n t buf).2.2 = .err e ∧ R e)) := by
  have hp : c'.effectivePalette f = c.effectivePalette f := by unfold effectivePalette; rw [hc.2]
  intro n
  induction n with
  | zero => intro t buf h; exact ⟨h, .inl rfl⟩
  | succ n ih =>
    intro t buf h
    unfold fillLoop
    rw [hc.1]
    cases c.colorOutput with
    | indexed =>
      simp only
      obtain ⟨h1, h2⟩ := hcb t buf.length h
      rcases h2 with h2 | h2
      · rw [h2]
        generalize cb t buf.length = x at *
        obtain ⟨t', out⟩ := x
        cases out with
        | ok bytes =>
          simp only at h1 ⊢
          split
          · exact ⟨h1, .inl rfl⟩
          · split
            · exact ⟨h1, .inl rfl⟩
            · split
              · exact ⟨h1, .inl rfl⟩
              · obtain ⟨h3, h4⟩ := ih t' (buf.drop bytes.length) h1
                refine ⟨h3, h4.imp (fun h4 => ?_) id⟩
                rw [h4]
        | err e => exact ⟨h1, .inl rfl⟩
        | panic => exact ⟨h1, .inl rfl⟩
        | diverge => exact ⟨h1, .inl rfl⟩
      · generalize cb t buf.length = x at *
        obtain ⟨t', out⟩ := x
        simp only at h1 h2
        obtain ⟨e, rfl, he⟩ := h2
        exact ⟨h1, .inr ⟨e, rfl, he⟩⟩
    | rgba =>
      simp only
      split
      · exact ⟨h, .inl rfl⟩
      obtain ⟨h1, h2⟩ := hcb t (buf.length / 4) h
      rcases h2 with h2 | h2
      · rw [h2]
        generalize cb t (buf.length / 4) = x at *
        obtain ⟨t', out⟩ := x
        cases out with
        | ok bytes =>
          simp only [hp] at h1 ⊢
          split
          · exact ⟨h1, .inl rfl⟩
          · split
            · exact ⟨h1, .inl rfl⟩
            · split
              · exact ⟨h1, .inl rfl⟩
              · obtain ⟨h3, h4⟩ := ih t' (buf.drop (bytes.length * 4)) h1
                refine ⟨h3, h4.imp (fun h4 => ?_) id⟩
                rw [h4]
        | err e => exact ⟨h1, .inl rfl⟩
        | panic => exact ⟨h1, .inl rfl⟩
        | diverge => exact ⟨h1, .inl rfl⟩
      · generalize cb t (buf.length / 4) = x at *
        obtain ⟨t', out⟩ := x
        simp only at h1 h2
        obtain ⟨e, rfl, he⟩ := h2
        exact ⟨h1, .inr ⟨e, rfl, he⟩⟩

theorem fillBuffer_relax {τ : Type} {R : DecodingError → Prop} {P : τ → Prop} {g : τ → τ} {cb : Callback τ} (hcb : Caps R P g cb)
    (c c' : Converter) (hc : c'.colorOutput = c.colorOutput ∧ c'.globalPalette = c.globalPalette) (f : Frame)
    (t : τ) (buf : List UInt8) (h : P t) :
      P (fillBuffer c f cb t buf).1 ∧
      (fillBuffer c' f cb (g t) buf = (g (fillBuffer c f cb t buf).1, (fillBuffer c f cb t buf).2) ∨
        (∃ e, (fillBuffer c f cb t buf).2.2 = .err e ∧ R e)) :=
  fillLoop_relax hcb c c' hc f _ t buf h

theorem readRows_relax {τ : Type} {R : DecodingError → Prop} {P : τ → Prop} {g : τ → τ} {cb : Callback τ} (hcb : Caps R P g cb)
    (c c' : Converter) (hc : c'.colorOutput = c.colorOutput ∧ c'.globalPalette = c.globalPalette) (f : Frame) :
    ∀ (n : Nat) (it : InterlaceIter) (t : τ) (buf : List UInt8), P t →
      P (readRows c f cb n it t buf).1 ∧
      (readRows c' f cb n it (g t) buf = (g (readRows c f cb n it t buf).1, (readRows c f cb n it t buf).2) ∨
        (∃ e, (readRows c f cb n it t buf).2.2 = .err e ∧ R e)) := by
  have hw : c'.lineLength f = c.lineLength f := by unfold lineLength; rw [hc.1]
  intro n
  induction n with
  | zero => intro it t buf h; exact ⟨h, .inl rfl⟩
  | succ n ih =>
    intro it t buf h
    unfold readRows
    rw [hw]
    obtain ⟨it', row⟩ := it.nextRow
    cases row with
    | none => exact ⟨h, .inl rfl⟩
    | some row =>
      simp only
      split
      · obtain ⟨h1, h2⟩ := fillBuffer_relax hcb c c' hc f t ((buf.drop (row * c.lineLength f)).take (c.lineLength f)) h
        rcases h2 with h2 | h2
        · rw [h2]
          generalize fillBuffer c f cb t ((buf.drop (row * c.lineLength f)).take (c.lineLength f)) = x at *
          obtain ⟨t', line, out⟩ := x
          cases out with
          | ok b =>
            cases b with
            | true => exact ih it' t' _ h1
            | false => exact ⟨h1, .inl rfl⟩
          | err e => exact ⟨h1, .inl rfl⟩
          | panic => exact ⟨h1, .inl rfl⟩
          | diverge => exact ⟨h1, .inl rfl⟩
        · generalize fillBuffer c f cb t ((buf.drop (row * c.lineLength f)).take (c.lineLength f)) = x at *
          obtain ⟨t', line, out⟩ := x
          simp only at h1 h2
          obtain ⟨e, rfl, he⟩ := h2
          exact ⟨h1, .inr ⟨e, rfl, he⟩⟩
      · exact ⟨h, .inl rfl⟩

theorem readIntoBuffer_relax {τ : Type} {R : DecodingError → Prop} {P : τ → Prop} {g : τ → τ} {cb : Callback τ} (hcb : Caps R P g cb)
    (c c' : Converter) (hc : c'.colorOutput = c.colorOutput ∧ c'.globalPalette = c.globalPalette) (f : Frame)
    (t : τ) (buf : List UInt8) (h : P t) :
      P (readIntoBuffer c f cb t buf).1 ∧
      (readIntoBuffer c' f cb (g t) buf = (g (readIntoBuffer c f cb t buf).1, (readIntoBuffer c f cb t buf).2) ∨
        (∃ e, (readIntoBuffer c f cb t buf).2.2 = .err e ∧ R e)) := by
  have hw : c'.bufferSize f = c.bufferSize f := by unfold bufferSize lineLength; rw [hc.1]
  unfold readIntoBuffer
  simp only [hw]
  split
  · exact readRows_relax hcb c c' hc f _ _ _ _ h
  · split
    · obtain ⟨h1, h2⟩ := fillBuffer_relax hcb c c' hc f t (buf.take (c.bufferSize f)) h
      rcases h2 with h2 | h2
      · rw [h2]
        generalize fillBuffer c f cb t (buf.take (c.bufferSize f)) = x at *
        obtain ⟨t', line, out⟩ := x
        cases out with
        | ok b => cases b <;> exact ⟨h1, .inl rfl⟩
        | err e => exact ⟨h1, .inl rfl⟩
        | panic => exact ⟨h1, .inl rfl⟩
        | diverge => exact ⟨h1, .inl rfl⟩
      · generalize fillBuffer c f cb t (buf.take (c.bufferSize f)) = x at *
        obtain ⟨t', line, out⟩ := x
        simp only at h1 h2
        obtain ⟨e, rfl, he⟩ := h2
        exact ⟨h1, .inr ⟨e, rfl, he⟩⟩
    · exact ⟨h, .inl rfl⟩

end Converter

namespace Decoder

variable {C : Codec}

/-- The same decoder with another policy. -/
def relax (m : Policy) (d : Decoder C) : Decoder C := 
  { d with rd := d.rd.relax m, conv := { d.conv with memoryLimit := m.memoryLimit } }

/-- The policy of the whole decoder. -/
def Limited (l : Policy) (d : Decoder C) : Prop := d.rd.sd.policy = l ∧ d.conv.memoryLimit = l.memoryLimit

def RelaxRes {α : Type} (l m : Policy) (p q : Decoder C × Outcome α) : Prop :=
  p.1.Limited l ∧ (q = (p.1.relax m, p.2) ∨ Refused l m p.2)

theorem ite_relax {α : Type} {l m : Policy} {P Q : Prop} [Decidable P] [Decidable Q] {a a' b b' : Decoder C × Outcome α}
    (h : P ↔ Q) (ht : P → RelaxRes l m a a') (hf : ¬ P → RelaxRes l m b b') :
    RelaxRes l m (if P then a else b) (if Q then a' else b') := by
  by_cases hp : P
  · rw [if_pos hp, if_pos (h.mp hp)]; exact ht hp
  · rw [if_neg hp, if_neg fun hq => hp (h.mpr hq)]; exact hf hp

theorem initLoop_relax {l m : Policy} (hlm : l.Le m) : ∀ (n : Nat) (d : Decoder C), d.Limited l →
    RelaxRes l m (initLoop n d) (initLoop n (d.relax m)) := by
  intro n
  induction n with
  | zero => intro d hl; exact ⟨hl, .inl rfl⟩
  | succ n ih =>
    intro d hl
    unfold initLoop
    obtain ⟨h1, h2⟩ := RD.decodeNext_relax hlm .none d.rd hl.1
    have e : (d.relax m).rd = d.rd.relax m := rfl
    rw [e]
    rcases h2 with h2 | h2
    · rw [h2]
      generalize d.rd.decodeNext .none = x at *
      obtain ⟨rd, out⟩ := x
      simp only at h1 ⊢
      cases out with
      | ok y =>
        cases y with
        | none => exact ⟨⟨h1, hl.2⟩, .inl rfl⟩
        | some ev =>
          cases ev with
          | backgroundColor b => exact ih { d with rd := rd, bgColor := some b } ⟨h1, hl.2⟩
          | globalPalette p => exact ih { d with rd := rd, conv := d.conv.setGlobalPalette p } ⟨h1, hl.2⟩
          | repetitions r => exact ih { d with rd := rd, repetition := r } ⟨h1, hl.2⟩
          | headerEnd => exact ⟨⟨h1, hl.2⟩, .inl rfl⟩
          | _ => exact ih { d with rd := rd } ⟨h1, hl.2⟩
      | err e => exact ⟨⟨h1, hl.2⟩, .inl rfl⟩
      | panic => exact ⟨⟨h1, hl.2⟩, .inl rfl⟩
      | diverge => exact ⟨⟨h1, hl.2⟩, .inl rfl⟩
    · generalize d.rd.decodeNext .none = x at *
      obtain ⟨rd, out⟩ := x
      simp only at h1 h2
      obtain ⟨e, rfl, he⟩ := h2
      exact ⟨⟨h1, hl.2⟩, .inr ⟨e, rfl, he⟩⟩

theorem readInfo_relax (o : DecodeOptions) {m : Policy} (hlm : o.policy.Le m) (r : Reader) :
    RelaxRes o.policy m (readInfo C o r) (readInfo C (o.relax m) r) := by
  have e : withNoInit C (o.relax m) r = (withNoInit C o r).relax m := rfl
  unfold readInfo init
  rw [e]
  have ef : ((withNoInit C o r).relax m).rd.eventFuel = (withNoInit C o r).rd.eventFuel := rfl
  rw [ef]
  obtain ⟨h1, h2⟩ := initLoop_relax hlm (withNoInit C o r).rd.eventFuel (withNoInit C o r) ⟨rfl, rfl⟩
  rcases h2 with h2 | h2
  · rw [h2]
    generalize initLoop (withNoInit C o r).rd.eventFuel (withNoInit C o r) = x at *
    obtain ⟨d, out⟩ := x
    cases out with
    | ok u =>
      have hb : (d.relax m).checkBg = d.checkBg.relax m := by
        unfold checkBg
        have : (d.relax m).conv.globalPalette = d.conv.globalPalette := rfl
        rw [this]
        cases d.conv.globalPalette with
        | none => rfl
        | some p =>
          simp only
          have : (d.relax m).bgColor = d.bgColor := rfl
          rw [this]
          split <;> rfl
      refine ⟨?_, .inl ?_⟩
      · unfold checkBg
        simp only
        split
        · split <;> exact h1
        · exact h1
      · simp only [hb]
    | err e => exact ⟨h1, .inl rfl⟩
    | panic => exact ⟨h1, .inl rfl⟩
    | diverge => exact ⟨h1, .inl rfl⟩
  · generalize initLoop (withNoInit C o r).rd.eventFuel (withNoInit C o r) = x at *
    obtain ⟨d, out⟩ := x
    simp only at h1 h2
    obtain ⟨e, rfl, he⟩ := h2
    exact ⟨h1, .inr ⟨e, rfl, he⟩⟩

theorem nextFrameLoop_relax {l m : Policy} (hlm : l.Le m) : ∀ (n : Nat) (d : Decoder C), d.Limited l →
    RelaxRes l m (nextFrameLoop n d) (nextFrameLoop n (d.relax m)) := by
  intro n
  induction n with
  | zero => intro d hl; exact ⟨hl, .inl rfl⟩
  | succ n ih =>
    intro d hl
    unfold nextFrameLoop
    obtain ⟨h1, h2⟩ := RD.decodeNext_relax hlm .none d.rd hl.1
    have e : (d.relax m).rd = d.rd.relax m := rfl
    rw [e]
    rcases h2 with h2 | h2
    · rw [h2]
      generalize d.rd.decodeNext .none = x at *
      obtain ⟨rd, out⟩ := x
      simp only at h1 ⊢
      cases out with
      | ok y =>
        cases y with
        | none => exact ⟨⟨h1, hl.2⟩, .inl rfl⟩
        | some ev =>
          cases ev with
          | frameMetadata t =>
            simp only
            have ec : (rd.relax m).sd.current = rd.sd.current := rfl
            rw [ec]
            cases rd.sd.current with
            | none => exact ⟨⟨h1, hl.2⟩, .inl rfl⟩
            | some f =>
              simp only
              exact ite_relax Iff.rfl (fun _ => ⟨⟨h1, hl.2⟩, .inl rfl⟩) (fun _ => ⟨⟨h1, hl.2⟩, .inl rfl⟩)
          | _ => exact ih { d with rd := rd } ⟨h1, hl.2⟩
      | err e => exact ⟨⟨h1, hl.2⟩, .inl rfl⟩
      | panic => exact ⟨⟨h1, hl.2⟩, .inl rfl⟩
      | diverge => exact ⟨⟨h1, hl.2⟩, .inl rfl⟩
    · generalize d.rd.decodeNext .none = x at *
      obtain ⟨rd, out⟩ := x
      simp only at h1 h2
      obtain ⟨e, rfl, he⟩ := h2
      exact ⟨⟨h1, hl.2⟩, .inr ⟨e, rfl, he⟩⟩

theorem nextFrameInfo_relax {l m : Policy} (hlm : l.Le m) (d : Decoder C) (hl : d.Limited l) :
    RelaxRes l m d.nextFrameInfo (d.relax m).nextFrameInfo :=
  nextFrameLoop_relax hlm _ _ hl

theorem caps_bytes {l m : Policy} (hlm : l.Le m) :
    Converter.Caps (Refusal l m) (fun d : RD C => d.sd.policy = l) (RD.relax m) RD.decodeNextBytes :=
  fun d n h => RD.decodeNextBytes_relax hlm n d h

theorem copyLoop_relax {l m : Policy} (hlm : l.Le m) : ∀ (n : Nat) (d : RD C) (vec : List UInt8), d.sd.policy = l →
    (copyLoop n d vec).1.sd.policy = l ∧
    (copyLoop n (d.relax m) vec = ((copyLoop n d vec).1.relax m, (copyLoop n d vec).2) ∨
      Refused l m (copyLoop n d vec).2.2) := by
  intro n
  induction n with
  | zero => intro d vec hl; exact ⟨hl, .inl rfl⟩
  | succ n ih =>
    intro d vec hl
    unfold copyLoop
    obtain ⟨h1, h2⟩ := RD.decodeNext_relax hlm (.vec vec.length) d hl
    rcases h2 with h2 | h2
    · rw [h2]
      generalize d.decodeNext (.vec vec.length) = x at *
      obtain ⟨rd, out⟩ := x
      simp only at h1 ⊢
      cases out with
      | ok y =>
        cases y with
        | none => exact ⟨h1, .inl rfl⟩
        | some ev =>
          cases ev with
          | lzwDataCopied bytes => exact ih rd _ h1
          | _ => exact ⟨h1, .inl rfl⟩
      | err e => exact ⟨h1, .inl rfl⟩
      | panic => exact ⟨h1, .inl rfl⟩
      | diverge => exact ⟨h1, .inl rfl⟩
    · generalize d.decodeNext (.vec vec.length) = x at *
      obtain ⟨rd, out⟩ := x
      simp only at h1 h2
      obtain ⟨e, rfl, he⟩ := h2
      exact ⟨h1, .inr ⟨e, rfl, he⟩⟩

theorem checkBufferSize_relax {l m : Policy} (hlm : l.Le m) (c : Converter) (hc : c.memoryLimit = l.memoryLimit) (f : Frame) :
    Converter.checkBufferSize { c with memoryLimit := m.memoryLimit } f = c.checkBufferSize f ∨
      c.checkBufferSize f = .err (.io .outOfMemory) ∧ l.memoryLimit ≠ m.memoryLimit := by
  unfold Converter.checkBufferSize
  rw [hc]
  by_cases he : l.memoryLimit = m.memoryLimit
  · rw [he]; exact .inl rfl
  rcases hlm.memory.bufferSize c.colorOutput f.width f.height with h | h
  · rw [h]; exact .inr ⟨rfl, he⟩
  · simp only [h]; exact .inl rfl

theorem readNextFrame_relax {l m : Policy} (hlm : l.Le m) (d : Decoder C) (hl : d.Limited l) :
    RelaxRes l m d.readNextFrame (d.relax m).readNextFrame := by
  unfold readNextFrame
  obtain ⟨h1, h2⟩ := nextFrameInfo_relax hlm d hl
  rcases h2 with h2 | h2
  · rw [h2]
    generalize d.nextFrameInfo = x at *
    obtain ⟨d', out⟩ := x
    simp only at h1 ⊢
    cases out with
    | ok b =>
      cases b with
      | false => exact ⟨h1, .inl rfl⟩
      | true =>
        simp only
        have ed : (d'.relax m).dataType = d'.dataType := rfl
        have ef : (d'.relax m).currentFrame = d'.currentFrame := rfl
        have er : (d'.relax m).rd = d'.rd.relax m := rfl
        have ec : (d'.relax m).conv = { d'.conv with memoryLimit := m.memoryLimit } := rfl
        rw [ed, ef, er, ec]
        cases d'.dataType with
        | pixels =>
          simp only
          unfold Converter.readFrame
          rcases checkBufferSize_relax hlm d'.conv h1.2 d'.currentFrame with hs | hs
          · rw [hs]
            cases d'.conv.checkBufferSize d'.currentFrame with
            | ok k =>
              simp only
              obtain ⟨h3, h4⟩ := Converter.readIntoBuffer_relax (caps_bytes hlm) d'.conv { d'.conv with memoryLimit := m.memoryLimit } ⟨rfl, rfl⟩
                { d'.currentFrame with buffer := [], ownedCap := none } d'.rd (Converter.frameBuffer d'.currentFrame k) h1.1
              rcases h4 with h4 | h4
              · rw [h4]
                generalize d'.conv.readIntoBuffer { d'.currentFrame with buffer := [], ownedCap := none } RD.decodeNextBytes d'.rd
                  (Converter.frameBuffer d'.currentFrame k) = y at *
                obtain ⟨rd, vec, out⟩ := y
                cases out <;> exact ⟨⟨h3, h1.2⟩, .inl rfl⟩
              · generalize d'.conv.readIntoBuffer { d'.currentFrame with buffer := [], ownedCap := none } RD.decodeNextBytes d'.rd
                  (Converter.frameBuffer d'.currentFrame k) = y at *
                obtain ⟨rd, vec, out⟩ := y
                simp only at h4
                obtain ⟨e, rfl, he⟩ := h4
                exact ⟨⟨h3, h1.2⟩, .inr ⟨e, rfl, he⟩⟩
            | err e => exact ⟨h1, .inl rfl⟩
            | panic => exact ⟨h1, .inl rfl⟩
            | diverge => exact ⟨h1, .inl rfl⟩
          · rw [hs.1]; exact ⟨h1, .inr ⟨_, rfl, hs.2⟩⟩
        | lzw k =>
          simp only
          obtain ⟨h3, h4⟩ := copyLoop_relax hlm d'.rd.eventFuel d'.rd [k] h1.1
          unfold copyLzw
          have efu : (d'.rd.relax m).eventFuel = d'.rd.eventFuel := rfl
          rw [efu]
          rcases h4 with h4 | h4
          · rw [h4]
            generalize copyLoop d'.rd.eventFuel d'.rd [k] = y at *
            obtain ⟨rd, vec, out⟩ := y
            cases out <;> exact ⟨⟨h3, h1.2⟩, .inl rfl⟩
          · generalize copyLoop d'.rd.eventFuel d'.rd [k] = y at *
            obtain ⟨rd, vec, out⟩ := y
            simp only at h4
            obtain ⟨e, rfl, he⟩ := h4
            exact ⟨⟨h3, h1.2⟩, .inr ⟨e, rfl, he⟩⟩
    | err e => exact ⟨h1, .inl rfl⟩
    | panic => exact ⟨h1, .inl rfl⟩
    | diverge => exact ⟨h1, .inl rfl⟩
  · generalize d.nextFrameInfo = x at *
    obtain ⟨d', out⟩ := x
    simp only at h1 h2
    obtain ⟨e, rfl, he⟩ := h2
    exact ⟨h1, .inr ⟨e, rfl, he⟩⟩

end Decoder

namespace Spec

/-- `a` is `b`, or a part of it and then an error of `R`. -/
def Within (R : DecodingError → Prop) (a b : List Got) : Prop :=
  a = b ∨ ∃ k e, R e ∧ k < b.length ∧ a = b.take k ++ [.seen (.failed e)]

theorem Within.cons {R : DecodingError → Prop} {a b : List Got} (x : Got) (h : Within R a b) : Within R (x :: a) (x :: b) := by
  rcases h with rfl | ⟨k, e, he, hk, rfl⟩
  · exact .inl rfl
  · exact .inr ⟨k + 1, e, he, by simpa using hk, rfl⟩

theorem Within.upheld {R : DecodingError → Prop} {a b : List Got} (h : Within R a b) : Upheld a b := by
  rcases h with rfl | ⟨k, e, _, hk, rfl⟩
  · exact .inl rfl
  · exact .inr ⟨k, e, hk, rfl⟩

end Spec

namespace Decoder

variable {C : Codec}

/-- What one call gives with the laxer policy. -/
theorem act_relax {l m : Policy} (hlm : l.Le m) (d : Decoder C) (hl : d.Limited l) (live : Bool) (a : Act) :
    (∀ d' live', (d.act live a).2 = some (d', live') → d'.Limited l) ∧
    ((d.relax m).act live a = ((d.act live a).1, (d.act live a).2.map fun x => (x.1.relax m, x.2)) ∨
      ∃ e, Refusal l m e ∧ d.act live a = ([.seen (.failed e)], none) ∧
        ((d.relax m).act live a).1 ≠ []) := by
  cases a with
  | info =>
    simp only [act]
    obtain ⟨h1, h2⟩ := nextFrameInfo_relax hlm d hl
    rcases h2 with h2 | h2
    · rw [h2]
      generalize d.nextFrameInfo = x at *
      obtain ⟨d1, out⟩ := x
      cases out with
      | ok b => exact ⟨(fun d' live' h => by cases h; exact h1), .inl rfl⟩
      | err e => exact ⟨(fun d' live' h => by cases h), .inl rfl⟩
      | panic => exact ⟨(fun d' live' h => by cases h), .inl rfl⟩
      | diverge => exact ⟨(fun d' live' h => by cases h), .inl rfl⟩
    · obtain ⟨e, h3, he⟩ := h2
      generalize d.nextFrameInfo = x at *
      obtain ⟨d1, out⟩ := x
      simp only at h3
      subst h3
      refine ⟨(fun d' live' h => by cases h), .inr ⟨e, he, rfl, ?_⟩⟩
      generalize (d.relax m).nextFrameInfo = y
      obtain ⟨d2, out⟩ := y
      cases out <;> simp
  | read =>
    simp only [act]
    obtain ⟨h1, h2⟩ := readNextFrame_relax hlm d hl
    rcases h2 with h2 | h2
    · rw [h2]
      generalize d.readNextFrame = x at *
      obtain ⟨d1, out⟩ := x
      cases out with
      | ok b => exact ⟨(fun d' live' h => by cases h; exact h1), .inl rfl⟩
      | err e => exact ⟨(fun d' live' h => by cases h), .inl rfl⟩
      | panic => exact ⟨(fun d' live' h => by cases h), .inl rfl⟩
      | diverge => exact ⟨(fun d' live' h => by cases h), .inl rfl⟩
    · obtain ⟨e, h3, he⟩ := h2
      generalize d.readNextFrame = x at *
      obtain ⟨d1, out⟩ := x
      simp only at h3
      subst h3
      refine ⟨(fun d' live' h => by cases h), .inr ⟨e, he, rfl, ?_⟩⟩
      generalize (d.relax m).readNextFrame = y
      obtain ⟨d2, out⟩ := y
      cases out <;> simp
  | fill n =>
    simp only [act]
    cases live with
    | false => exact ⟨(fun d' live' h => by cases h; exact hl), .inl rfl⟩
    | true =>
      simp only [if_true, fillBuffer]
      have er : (d.relax m).rd = d.rd.relax m := rfl
      have ec : (d.relax m).conv = { d.conv with memoryLimit := m.memoryLimit } := rfl
      have ef : (d.relax m).currentFrame = d.currentFrame := rfl
      have eo : (d.relax m).conv.colorOutput = d.conv.colorOutput := rfl
      rw [eo, er, ec, ef]
      generalize List.replicate ((n + 1) * Spec.channels d.conv.colorOutput) (0 : UInt8) = buf
      obtain ⟨h1, h2⟩ := Converter.fillBuffer_relax (caps_bytes hlm) d.conv { d.conv with memoryLimit := m.memoryLimit } ⟨rfl, rfl⟩
        d.currentFrame d.rd buf hl.1
      rcases h2 with h2 | h2
      · rw [h2]
        generalize d.conv.fillBuffer d.currentFrame RD.decodeNextBytes d.rd buf = x at *
        obtain ⟨rd, b, out⟩ := x
        cases out with
        | ok b => exact ⟨(fun d' live' h => by cases h; exact ⟨h1, hl.2⟩), .inl rfl⟩
        | err e => exact ⟨(fun d' live' h => by cases h), .inl rfl⟩
        | panic => exact ⟨(fun d' live' h => by cases h), .inl rfl⟩
        | diverge => exact ⟨(fun d' live' h => by cases h), .inl rfl⟩
      · generalize d.conv.fillBuffer d.currentFrame RD.decodeNextBytes d.rd buf = x at *
        obtain ⟨rd, b, out⟩ := x
        simp only at h2
        obtain ⟨e, rfl, he⟩ := h2
        refine ⟨(fun d' live' h => by cases h), .inr ⟨e, he, rfl, ?_⟩⟩
        generalize Converter.fillBuffer _ _ _ _ _ = y
        obtain ⟨d2, b2, out⟩ := y
        cases out <;> simp
  | into =>
    simp only [act]
    cases live with
    | false => exact ⟨(fun d' live' h => by cases h; exact hl), .inl rfl⟩
    | true =>
      simp only [if_true, readIntoBuffer]
      have er : (d.relax m).rd = d.rd.relax m := rfl
      have ec : (d.relax m).conv = { d.conv with memoryLimit := m.memoryLimit } := rfl
      have ef : (d.relax m).currentFrame = d.currentFrame := rfl
      have eo : (d.relax m).bufferSize = d.bufferSize := rfl
      rw [eo, er, ec, ef]
      generalize List.replicate d.bufferSize (0 : UInt8) = buf
      obtain ⟨h1, h2⟩ := Converter.readIntoBuffer_relax (caps_bytes hlm) d.conv { d.conv with memoryLimit := m.memoryLimit } ⟨rfl, rfl⟩
        d.currentFrame d.rd buf hl.1
      rcases h2 with h2 | h2
      · rw [h2]
        generalize d.conv.readIntoBuffer d.currentFrame RD.decodeNextBytes d.rd buf = x at *
        obtain ⟨rd, b, out⟩ := x
        cases out with
        | ok b => exact ⟨(fun d' live' h => by cases h; exact ⟨h1, hl.2⟩), .inl rfl⟩
        | err e => exact ⟨(fun d' live' h => by cases h), .inl rfl⟩
        | panic => exact ⟨(fun d' live' h => by cases h), .inl rfl⟩
        | diverge => exact ⟨(fun d' live' h => by cases h), .inl rfl⟩
      · generalize d.conv.readIntoBuffer d.currentFrame RD.decodeNextBytes d.rd buf = x at *
        obtain ⟨rd, b, out⟩ := x
        simp only at h2
        obtain ⟨e, rfl, he⟩ := h2
        refine ⟨(fun d' live' h => by cases h), .inr ⟨e, he, rfl, ?_⟩⟩
        generalize Converter.readIntoBuffer _ _ _ _ _ = y
        obtain ⟨d2, b2, out⟩ := y
        cases out <;> simp

theorem within_append {R : DecodingError → Prop} {x a b : List Got} (h : Spec.Within R a b) : Spec.Within R (x ++ a) (x ++ b) := by
  induction x with
  | nil => exact h
  | cons y x ih => exact ih.cons y

theorem film_relax {l m : Policy} (hlm : l.Le m) : ∀ (acts : List Act) (d : Decoder C) (live : Bool), d.Limited l →
    Spec.Within (Refusal l m) (film acts d live) (film acts (d.relax m) live) := by
  intro acts
  induction acts with
  | nil => intro d live hl; exact .inl rfl
  | cons a acts ih =>
    intro d live hl
    obtain ⟨h1, h2⟩ := act_relax hlm d hl live a
    simp only [film]
    rcases h2 with h2 | ⟨e, he, h2, h3⟩
    · rw [h2]
      generalize d.act live a = x at *
      obtain ⟨got, next⟩ := x
      cases next with
      | none => exact .inl rfl
      | some y => exact within_append (ih _ _ (h1 _ _ rfl))
    · rw [h2]
      refine .inr ⟨0, e, he, ?_, rfl⟩
      generalize (d.relax m).act live a = y at *
      obtain ⟨got, next⟩ := y
      have := List.length_pos_iff.mpr h3
      cases next with
      | none => exact this
      | some z => simp only [List.length_append]; simp only at this; omega

/-- A stricter policy only adds its own errors. -/
theorem filmFrom_relax (o : DecodeOptions) {m : Policy} (hlm : o.policy.Le m) (r : Reader) (acts : List Act) :
    Spec.Within (Refusal o.policy m) (filmFrom C o r acts) (filmFrom C (o.relax m) r acts) := by
  obtain ⟨h1, h2⟩ := readInfo_relax (C := C) o hlm r
  unfold filmFrom
  rcases h2 with h2 | h2
  · rw [h2]
    generalize readInfo C o r = x at *
    obtain ⟨d, out⟩ := x
    cases out with
    | ok u => exact (film_relax hlm acts d false h1).cons _
    | err e => exact .inl rfl
    | panic => exact .inl rfl
    | diverge => exact .inl rfl
  · obtain ⟨e, h3, he⟩ := h2
    generalize readInfo C o r = x at *
    obtain ⟨d, out⟩ := x
    simp only at h3
    subst h3
    refine .inr ⟨0, e, he, ?_, rfl⟩
    generalize readInfo C (o.relax m) r = y
    obtain ⟨d', out⟩ := y
    cases out <;> simp

end Decoder

end Gif
