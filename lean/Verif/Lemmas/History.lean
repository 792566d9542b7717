import Verif.Lemmas.DecInv
import Verif.Spec.History
import Verif.Spec.Protocol
/-!
`update` on arbitrary slices, and what holds along a history of `update` calls.
-/

namespace Gif.SD

variable {C : Codec}

theorem update_nil (s : SD C) (o : OutSpec) : update s [] o = (s, .ok (0, .nothing)) := rfl

/-- A byte other than zero after a state that has peeked at a zero violates a debug assertion. -/
theorem update_peek {s : SD C} {b : UInt8} {bs : List UInt8} (o : OutSpec) (hp : peeks s.state = true) (hb : b ≠ 0) :
    (update s (b :: bs) o).2 = .panic := by
  unfold update
  rw [show 2 * (b :: bs).length + 2 = (2 * (b :: bs).length + 1) + 1 from rfl, updateLoop]
  have : (nextState s (b :: bs) o).2 = .panic := by
    unfold nextState
    simp only
    match hs : s.state, hp with
    | .applicationExtension, _ => simp only [onApplicationExtension, if_pos hb]
    | .frameDecoded, _ => simp only [onFrameDecoded, if_pos hb]
  generalize nextState s (b :: bs) o = x at this ⊢
  obtain ⟨s', r⟩ := x
  simp only at this
  subst this
  rfl

/-- In the `Trailer` state the loop does not end for any number of iterations. -/
theorem updateLoop_trailer (len : Nat) (o : OutSpec) (b : UInt8) (bs : List UInt8) :
    ∀ (fuel : Nat) (s : SD C), s.state = .trailer → (updateLoop len o fuel s (b :: bs)).2 = .diverge := by
  intro fuel
  induction fuel with
  | zero => intro s _; rfl
  | succ fuel ih =>
    intro s hs
    rw [updateLoop]
    have : nextState s (b :: bs) o = (s, .ok (0, .nothing)) := by
      unfold nextState goto
      simp only [hs]
      rcases s with ⟨⟩
      simp_all
    rw [this]
    exact ih s hs

/-- All outcomes of `update` on any slice. -/
theorem update_any (hS : C.Safe) (o : OutSpec) (s : SD C) (b : UInt8) (bs : List UInt8) (hw : WF s) :
    (s.state = .trailer ∧ (update s (b :: bs) o).2 = .diverge) ∨
    ((update s (b :: bs) o).2 = .panic ∧ peeks s.state = true ∧ b ≠ 0) ∨
    (s.state ≠ .trailer ∧ Look s (b :: bs) ∧ ∃ s1 l1, Steps o s (b :: bs) s1 l1 ∧
      UpdEnd (b :: bs).length o s1 l1 (update s (b :: bs) o).1 (update s (b :: bs) o).2) := by
  by_cases ht : s.state = .trailer
  · exact .inl ⟨ht, updateLoop_trailer _ _ _ _ _ _ ht⟩
  · by_cases hp : peeks s.state = true ∧ b ≠ 0
    · exact .inr (.inl ⟨update_peek o hp.1 hp.2, hp.1, hp.2⟩)
    · have hl : Look s (b :: bs) := by
        intro h
        have hb : b = 0 := by
          by_cases hb : b = 0
          · exact hb
          · exact absurd ⟨h, hb⟩ hp
        exact ⟨bs, by rw [hb]⟩
      exact .inr (.inr ⟨ht, hl, update_cases hS o s (b :: bs) hw hl ht⟩)

/-- The bytes an event carries. -/
def produced : Decoded → Nat
  | .bytesDecoded bytes => bytes.length
  | .lzwDataCopied bytes => bytes.length
  | _ => 0

/-- Every step consumes, produces, or moves forward, unless the output buffer is an empty slice. -/
theorem tr_progress (hS : C.Safe) {o : OutSpec} {b : UInt8} {bs : List UInt8} {s s' : SD C} {n : Nat} {ev : Decoded}
    (h : Tr o b bs s s' n ev) (ht : s.state ≠ .trailer) (ho : o ≠ .slice 0 ∨ s.skipFrameDecoding = false) :
    rank s' + 1 ≤ rank s + 4 * n + produced ev := by
  have key : 0 < n ∨ rank s' < rank s ∨ (rank s' ≤ rank s ∧ 0 < produced ev) := by
    by_cases hsl : ∀ c, o ≠ .slice c
    · rcases tr_rank hS h ht hsl with h | h
      · exact .inl h
      · exact .inr (.inl h)
    · cases h with
      | copy left consumed copied hs hk hl ha hc =>
        left
        cases o with
        | slice c =>
          unfold append at ha
          simp only at ha
          cases ha
          simp only [List.length_take, List.length_cons]
          have : c ≠ 0 := fun h => ho.elim (fun ho => ho (by rw [h])) (fun ho => by rw [hk] at ho; cases ho)
          omega
        | vec l => exact absurd (by intro c; simp) hsl
        | none => exact absurd (by intro c; simp) hsl
      | decode left consumed bytes lzw hs hk hl he hon hd n1 hn hc =>
        by_cases hb : bytes.length = 0
        · left
          rw [hn]
          split
          · simp only [List.length_cons]; omega
          · rename_i hx; exact Nat.pos_of_ne_zero fun h0 => hx ⟨h0, hb⟩
        · right; right
          rw [if_neg hb]
          exact ⟨by simp [rank, hs], by simp only [produced]; omega⟩
      | decodeFlush consumed bytes lzw hs hk hb hd hne =>
        right; right
        exact ⟨by simp [rank, hs], by simp only [produced]; exact List.length_pos_iff.2 hne⟩
      | collect h0 h => exact .inl (by simp)
      | magic v hs hi hl hv => exact .inl (by omega)
      | screen w0 w1 h0 h1 flags bg asp hs hi hl hv => exact .inl (by omega)
      | imageHeader f l0 l1 t0 t1 w0 w1 h0 h1 flags hs hi hl hv => exact .inl (by omega)
      | gctData left hs hl => exact .inl (by simp only [List.length_cons]; omega)
      | headerEnd t hs hh => exact .inr (.inl (by simp [rank, hs, hh]))
      | image hs hh => exact .inr (.inl (by simp [rank, hs, hh]))
      | blockEndTrailer hs hb => exact .inr (.inl (by simp only [rank, hs]; split <;> omega))
      | extData left hs hl => exact .inl (by simp only [List.length_cons]; omega)
      | extEndApp hs => exact .inr (.inl (by simp [rank, hs]))
      | lctData left f hs hl => exact .inl (by simp only [List.length_cons]; omega)
      | copyEnd hs => exact .inr (.inl (by simp [rank, hs]))
      | decodeSkip left hs hk hl => exact .inl (by simp only [List.length_cons]; omega)
      | decodeEnd consumed lzw hs => exact .inr (.inl (by simp [rank, hs]))
      | trailerLoop hs => exact absurd hs ht
      | _ => exact .inl (by omega)
  have := rank_le s'
  rcases key with h | h | h <;> omega

theorem steps_progress (hS : C.Safe) {o : OutSpec} {s s' : SD C} {l l' : List UInt8} (h : Steps o s l s' l') (hw : WF s)
    (hl : Look s l) (ht : s.state ≠ .trailer) (ho : o ≠ .slice 0 ∨ s.skipFrameDecoding = false) :
    rank s' + 4 * l'.length ≤ rank s + 4 * l.length := by
  induction h with
  | refl => exact Nat.le_refl _
  | @step s s1 s' b bs l' n h hst ih =>
    have htr := tr_of_nextState hw.ibuf h
    obtain ⟨x1, x2, x3⟩ := tr_wf hS hw htr
    have h1 := tr_progress hS htr ht ho
    have ho' := tr_opts htr
    simp only [opts, Prod.mk.injEq] at ho'
    have h2 := ih x1 x2 (fun hc => by have := (tr_trailer htr ht).1 hc; simp at this) (by rw [ho'.1]; exact ho)
    rw [List.length_drop] at h2
    simp only [produced] at h1
    omega

/-! ## The event protocol -/

open Spec (Phase)

/-- The phases that a decoder state corresponds to. -/
def InPhase (s : SD C) (p : Phase) : Prop :=
  match s.state with
  | .magic => p = .start
  | .screenDescriptor => p = .start
  | .globalPalette _ => p = .afterBackground
  | .blockStart _ => ∃ a, p = .blocks s.headerEndReached a
  | .blockEnd => ∃ a, p = .blocks s.headerEndReached a
  | .applicationExtension => p = .blocks s.headerEndReached true
  | .extensionBlockStart => p = .extension s.headerEndReached none
  | .extensionDataBlock _ => p = .extension s.headerEndReached none ∨ p = .extension s.headerEndReached (some s.extId) ∨
      ((∃ a, p = .blocks true a) ∧ s.headerEndReached = true ∧ s.allowUnknownBlocks = true)
  | .imageBlockStart => p = .image
  | .localPalette _ => p = .image
  | .lzwInit _ => p = .image
  | .decodeSubBlock _ => p = .data .pixels
  | .copySubBlock _ => ∃ m, p = .data (.lzw m)
  | .frameDecoded => ∃ t, p = .data t
  | .trailer => p = .done

theorem tr_phase {o : OutSpec} {b : UInt8} {bs : List UInt8} {s s' : SD C} {n : Nat} {ev : Decoded} {p : Phase}
    (h : Tr o b bs s s' n ev) (hw : WF s) (hp : InPhase s p) :
    ∃ p', p.next s.allowUnknownBlocks ev = some p' ∧ InPhase s' p' := by
  have hst := hw.st
  cases h with
  | collect h0 h =>
    refine ⟨p, by cases p <;> rfl, ?_⟩
    simp only [InPhase] at hp ⊢
    exact hp
  | magic v hs => simp only [InPhase, hs] at hp; subst hp; exact ⟨.start, rfl, rfl⟩
  | screen w0 w1 h0 h1 flags bg asp hs =>
    simp only [InPhase, hs] at hp; subst hp
    refine ⟨.afterBackground, rfl, ?_⟩
    split <;> rfl
  | imageHeader f l0 l1 t0 t1 w0 w1 h0 h1 flags hs =>
    simp only [InPhase, hs] at hp; subst hp
    refine ⟨.image, rfl, ?_⟩
    split <;> rfl
  | gctData left hs =>
    simp only [InPhase, hs] at hp; subst hp
    refine ⟨.afterBackground, rfl, ?_⟩
    split <;> rfl
  | gctEnd hs =>
    simp only [InPhase, hs] at hp; subst hp
    simp only [stOk, hs] at hst
    exact ⟨.blocks false false, rfl, false, by simp [hst.2.2]⟩
  | headerEnd t hs hh =>
    simp only [InPhase, hs] at hp
    obtain ⟨a, rfl⟩ := hp
    rw [hh]
    exact ⟨.blocks true false, by cases a <;> rfl, false, rfl⟩
  | image hs hh =>
    simp only [InPhase, hs] at hp
    obtain ⟨a, rfl⟩ := hp
    rw [hh]
    exact ⟨.image, by cases a <;> rfl, rfl⟩
  | extension hs hb =>
    simp only [InPhase, hs] at hp
    obtain ⟨a, rfl⟩ := hp
    refine ⟨.extension s.headerEndReached none, ?_, rfl⟩
    cases s.headerEndReached <;> cases a <;> rfl
  | trailer hs hh =>
    simp only [InPhase, hs] at hp
    obtain ⟨a, rfl⟩ := hp
    rw [hh]
    exact ⟨.done, by cases a <;> rfl, rfl⟩
  | unknown t hs hh ht ha =>
    simp only [InPhase, hs] at hp
    obtain ⟨a, rfl⟩ := hp
    refine ⟨_, by rfl, ?_⟩
    simp only [InPhase]
    exact .inr (.inr ⟨⟨a, by rw [hh]⟩, hh, ha⟩)
  | blockEndTrailer hs hb =>
    simp only [InPhase, hs] at hp
    obtain ⟨a, rfl⟩ := hp
    exact ⟨_, rfl, a, rfl⟩
  | blockEnd hs hb =>
    simp only [InPhase, hs] at hp
    obtain ⟨a, rfl⟩ := hp
    exact ⟨_, rfl, a, rfl⟩
  | extFirst hs =>
    simp only [InPhase, hs] at hp
    subst hp
    exact ⟨_, rfl, .inl rfl⟩
  | extData left hs =>
    refine ⟨p, by cases p <;> rfl, ?_⟩
    simp only [InPhase, hs] at hp ⊢
    exact hp
  | extEndApp hs hb he =>
    simp only [InPhase, hs] at hp
    refine ⟨.blocks s.headerEndReached true, ?_, rfl⟩
    rcases hp with rfl | rfl | ⟨⟨a, rfl⟩, h1, h2⟩
    · rw [he]; rfl
    · rw [he]; rfl
    · rw [he, h1, h2]; cases a <;> rfl
  | extEndControl len flags d0 d1 trns hs hb he =>
    simp only [InPhase, hs] at hp
    refine ⟨.blocks s.headerEndReached false, ?_, false, rfl⟩
    rcases hp with rfl | rfl | ⟨⟨a, rfl⟩, h1, h2⟩
    · rw [he]; rfl
    · rw [he]; rfl
    · rw [he, h1, h2]; cases a <;> rfl
  | extEndOther hs hb he he' =>
    simp only [InPhase, hs] at hp
    have : (s.extId == 0xFF) = false := by simpa using he'
    refine ⟨.blocks s.headerEndReached false, ?_, false, rfl⟩
    rcases hp with rfl | rfl | ⟨⟨a, rfl⟩, h1, h2⟩
    · simp [Phase.next, Phase.closed, this]
    · simp [Phase.next, Phase.closed, this]
    · rw [h1, h2]; cases a <;> simp [Phase.next, Phase.closed, this]
  | extSub hs hb =>
    simp only [InPhase, hs] at hp
    refine ⟨.extension s.headerEndReached (some s.extId), ?_, .inr (.inl rfl)⟩
    rcases hp with rfl | rfl | ⟨⟨a, rfl⟩, h1, h2⟩
    · rfl
    · simp [Phase.next]
    · rw [h1, h2]; cases a <;> rfl
  | appRepeat r0 r1 hs =>
    simp only [InPhase, hs] at hp
    subst hp
    refine ⟨.blocks s.headerEndReached false, ?_, false, rfl⟩
    cases s.headerEndReached <;> rfl
  | appOther hs =>
    simp only [InPhase, hs] at hp
    subst hp
    exact ⟨_, rfl, true, rfl⟩
  | lctData left f hs hl hc =>
    simp only [InPhase, hs] at hp
    subst hp
    refine ⟨.image, rfl, ?_⟩
    split <;> (try split) <;> rfl
  | lctEnd hs => simp only [InPhase, hs] at hp; subst hp; exact ⟨_, rfl, rfl⟩
  | lzwPixels m lzw hs => simp only [InPhase, hs] at hp; subst hp; exact ⟨_, rfl, rfl⟩
  | lzwSkip m hs => simp only [InPhase, hs] at hp; subst hp; exact ⟨_, rfl, m, rfl⟩
  | copy left consumed copied hs =>
    simp only [InPhase, hs] at hp; obtain ⟨m, rfl⟩ := hp; exact ⟨_, rfl, m, rfl⟩
  | copyNext hs => simp only [InPhase, hs] at hp; obtain ⟨m, rfl⟩ := hp; exact ⟨_, rfl, m, rfl⟩
  | copyEnd hs => simp only [InPhase, hs] at hp; obtain ⟨m, rfl⟩ := hp; exact ⟨_, rfl, _, rfl⟩
  | decodeSkip left hs => simp only [InPhase, hs] at hp; subst hp; exact ⟨_, rfl, rfl⟩
  | decode left consumed bytes lzw hs =>
    simp only [InPhase, hs] at hp; subst hp
    refine ⟨.data .pixels, ?_, rfl⟩
    split
    · rfl
    · rename_i hb
      simp only [Phase.next]
      rw [if_neg (by intro h; rw [h] at hb; exact hb rfl)]
  | decodeNext hs => simp only [InPhase, hs] at hp; subst hp; exact ⟨_, rfl, rfl⟩
  | decodeFlush consumed bytes lzw hs hk hb hd hne =>
    simp only [InPhase, hs] at hp; subst hp
    exact ⟨_, by simp only [Phase.next]; rw [if_neg hne], rfl⟩
  | decodeEnd consumed lzw hs => simp only [InPhase, hs] at hp; subst hp; exact ⟨_, rfl, _, rfl⟩
  | frameDecoded hs =>
    simp only [InPhase, hs] at hp
    simp only [stOk, hs] at hst
    obtain ⟨t, rfl⟩ := hp
    refine ⟨.blocks true false, by cases t <;> rfl, false, by simp [hst.1]⟩
  | trailerLoop hs => simp only [InPhase, hs] at hp ⊢; subst hp; exact ⟨_, rfl, by simp only [hs]⟩

theorem next_nothing (u : Bool) (p : Phase) : p.next u .nothing = some p := by cases p <;> rfl

theorem steps_phase (hS : C.Safe) {o : OutSpec} {s s' : SD C} {l l' : List UInt8} (h : Steps o s l s' l') (hw : WF s)
    (hl : Look s l) {p : Phase} (hp : InPhase s p) : InPhase s' p := by
  induction h with
  | refl => exact hp
  | @step s s1 s' b bs l' n h hst ih =>
    have htr := tr_of_nextState hw.ibuf h
    obtain ⟨x1, x2, x3⟩ := tr_wf hS hw htr
    obtain ⟨p', h1, h2⟩ := tr_phase htr hw hp
    rw [next_nothing] at h1
    cases h1
    exact ih x1 x2 h2

/-- What the protocol needs about errors. -/
theorem nextState_err_ext {o : OutSpec} {b : UInt8} {bs : List UInt8} {s s' : SD C} {e : DecodingError}
    (h : nextState s (b :: bs) o = (s', .err e)) (hi : ibufOk s) :
    s'.headerEndReached = s.headerEndReached ∧ ((∃ left, s.state = .extensionDataBlock left) → s'.extId = s.extId) ∧
    (s'.current.isSome = s.current.isSome) := by
  unfold nextState at h
  simp only at h
  match hs : s.state with
  | .magic =>
    simp only [hs] at h
    simp only [ibufOk, hs, required] at hi
    rw [ensureMin_eq _ _ _ _ (by simpa using hi) (by decide)] at h
    split at h
    · cases h
    · unfold onMagic goto at h
      split at h
      · cases h
      · split at h
        · cases h
        · cases h; exact ⟨rfl, fun _ => rfl, rfl⟩
  | .screenDescriptor =>
    simp only [hs] at h
    simp only [ibufOk, hs, required] at hi
    rw [ensureMin_eq _ _ _ _ (by simpa using hi) (by decide)] at h
    split at h
    · cases h
    · unfold onScreenDescriptor goto at h
      split at h
      · split at h <;> cases h
      · cases h
  | .imageBlockStart =>
    simp only [hs] at h
    simp only [ibufOk, hs, required] at hi
    rw [ensureMin_eq _ _ _ _ (by simpa using hi) (by decide)] at h
    split at h
    · cases h
    · unfold onImageBlockStart goto at h
      split at h
      · split at h
        · cases h; exact ⟨rfl, fun _ => rfl, rfl⟩
        · rename_i hc
          simp only at h hc
          split at h
          · cases h; exact ⟨rfl, fun _ => rfl, by simp [hc]⟩
          · split at h <;> cases h
      · cases h
  | .globalPalette left =>
    simp only [hs] at h
    unfold onGlobalPalette goto at h
    split at h
    · simp only at h; cases h
    · cases h
  | .blockStart t =>
    simp only [hs] at h
    unfold onBlockStart goto at h
    split at h
    · cases h
    · split at h
      · cases h
      · simp only at h
        split at h
        · cases h; exact ⟨rfl, fun ⟨_, h⟩ => (by cases h), rfl⟩
        · cases h
      · cases h
      · split at h
        · cases h
        · cases h; exact ⟨rfl, fun _ => rfl, rfl⟩
  | .blockEnd =>
    simp only [hs] at h
    unfold onBlockEnd goto at h
    split at h <;> cases h
  | .extensionBlockStart =>
    simp only [hs, goto] at h
    cases h
  | .extensionDataBlock left =>
    simp only [hs] at h
    unfold onExtensionDataBlock goto at h
    split at h
    · simp only at h
      split at h
      · cases h
      · cases h; exact ⟨rfl, fun _ => rfl, rfl⟩
    · split at h
      · simp only at h
        split at h
        · cases h
        · unfold readControlExtension at h
          split at h
          · cases h
          · rename_i hx
            cases h
            split at hx
            · cases hx
            · cases hx; exact ⟨rfl, fun _ => rfl, rfl⟩
          · cases h
          · cases h
        · cases h
      · cases h
  | .applicationExtension =>
    simp only [hs] at h
    unfold onApplicationExtension goto at h
    split at h
    · cases h
    · split at h
      · split at h <;> cases h
      · cases h
  | .localPalette left =>
    simp only [hs] at h
    unfold onLocalPalette goto at h
    split at h
    · simp only at h
      split at h
      · cases h; exact ⟨rfl, fun _ => rfl, rfl⟩
      · split at h
        · split at h <;> cases h
        · cases h
    · cases h
  | .lzwInit m =>
    simp only [hs] at h
    unfold onLzwInit goto at h
    split at h
    · split at h
      · cases h
      · cases h; exact ⟨rfl, fun _ => rfl, rfl⟩
      · cases h
      · cases h
    · split at h
      · cases h
      · cases h; exact ⟨rfl, fun _ => rfl, rfl⟩
  | .copySubBlock left =>
    simp only [hs] at h
    unfold onCopySubBlock goto at h
    split at h
    · cases h
    · split at h
      · simp only at h
        split at h
        · split at h <;> cases h
        · cases h; exact ⟨rfl, fun _ => rfl, rfl⟩
        · cases h
        · cases h
      · split at h <;> cases h
  | .decodeSubBlock left =>
    simp only [hs] at h
    unfold onDecodeSubBlock goto at h
    split at h
    · cases h
    · split at h
      · simp only at h
        split at h
        · cases h
        · split at h
          · split at h <;> (try split at h) <;> cases h
          · cases h; exact ⟨rfl, fun _ => rfl, rfl⟩
          · cases h
          · cases h
      · split at h
        · cases h
        · split at h
          · simp only at h; split at h <;> cases h
          · cases h; exact ⟨rfl, fun _ => rfl, rfl⟩
          · cases h
          · cases h
  | .frameDecoded =>
    simp only [hs] at h
    unfold onFrameDecoded goto at h
    simp only at h
    split at h <;> cases h
  | .trailer => simp only [hs, goto] at h; cases h

theorem err_phase {o : OutSpec} {b : UInt8} {bs : List UInt8} {s s' : SD C} {e : DecodingError} {p : Phase}
    (h : nextState s (b :: bs) o = (s', .err e)) (hw : WF s) (hst : s'.state = s.state) (hp : InPhase s p) :
    InPhase s' p := by
  obtain ⟨h1, h2, h3⟩ := nextState_err_ext h hw.ibuf
  have h4 := nextState_err_opts h hw.ibuf
  have h5 : s'.allowUnknownBlocks = s.allowUnknownBlocks := by
    simp only [opts, Prod.mk.injEq] at h4; exact h4.2.2.1
  unfold InPhase at hp ⊢
  rw [hst, h1, h5]
  cases hs : s.state with
  | extensionDataBlock left =>
    rw [hs] at hp
    simp only at hp ⊢
    rw [h2 ⟨left, hs⟩]
    exact hp
  | _ => rw [hs] at hp; exact hp

/-- Everything about one `update` call from a state of the invariant. -/
theorem update_spec (hS : C.Safe) (o : OutSpec) (s : SD C) (l : List UInt8) (hw : WF s)
    (hr : (update s l o).2.returns = true) :
    (∃ n ev, (update s l o).2 = .ok (n, ev) ∧ WF (update s l o).1 ∧ (update s l o).1.opts = s.opts ∧ n ≤ l.length ∧
      (ev = .nothing → n = l.length) ∧ (l = [] → (update s l o).1 = s ∧ ev = .nothing) ∧
      (o ≠ .slice 0 ∨ s.skipFrameDecoding = false → ev ≠ .nothing → rank (update s l o).1 + 1 ≤ rank s + 4 * n + produced ev) ∧
      (s.state ≠ .trailer → ((update s l o).1.state = .trailer ↔ ev = .blockStart .trailer)) ∧
      ∀ p, InPhase s p → ∃ p', p.next s.allowUnknownBlocks ev = some p' ∧ InPhase (update s l o).1 p') ∨
    (∃ e, (update s l o).2 = .err e ∧ WF (update s l o).1 ∧ (update s l o).1.opts = s.opts ∧
      (s.state ≠ .trailer → (update s l o).1.state ≠ .trailer) ∧ ∀ p, InPhase s p → InPhase (update s l o).1 p) := by
  match l with
  | [] =>
    rw [update_nil]
    refine .inl ⟨0, .nothing, rfl, hw, rfl, Nat.le_refl _, fun _ => rfl, fun _ => ⟨rfl, rfl⟩,
      fun _ h => absurd rfl h, fun h => ?_, fun p hp => ⟨p, next_nothing _ _, hp⟩⟩
    simp [h]
  | b :: bs =>
    rcases update_any hS o s b bs hw with ⟨_, h⟩ | ⟨h, _⟩ | ⟨ht, hl, s1, l1, hs, he⟩
    · rw [h] at hr; cases hr
    · rw [h] at hr; cases hr
    · generalize update s (b :: bs) o = u at *
      obtain ⟨s', r⟩ := u
      obtain ⟨w1, w2, w3, w4⟩ := steps_wf hS hs hw hl
      have ho := steps_opts hS hs hw hl
      have hlen : l1.length ≤ (b :: bs).length := w3.length_le
      have hu : s1.allowUnknownBlocks = s.allowUnknownBlocks := by
        simp only [opts, Prod.mk.injEq] at ho; exact ho.2.2.1
      have hk : s1.skipFrameDecoding = s.skipFrameDecoding := by
        simp only [opts, Prod.mk.injEq] at ho; exact ho.1
      simp only at he ⊢
      cases he with
      | all =>
        refine .inl ⟨_, _, rfl, w1, ho, Nat.le_refl _, fun _ => rfl, by simp,
          fun _ h => absurd rfl h, fun _ => ?_, fun p hp => ⟨p, next_nothing _ _, steps_phase hS hs hw hl hp⟩⟩
        simp [w4 ht]
      | @event b1 bs1 _ n ev hn hev =>
        have htr := tr_of_nextState w1.ibuf hn
        obtain ⟨x1, x2, x3⟩ := tr_wf hS w1 htr
        refine .inl ⟨_, _, rfl, x1, (tr_opts htr).trans ho, by omega, fun h => absurd h hev, by simp, ?_,
          fun _ => tr_trailer htr (w4 ht), ?_⟩
        · intro hsl _
          have h1 := tr_progress hS htr (w4 ht) (by rw [hk]; exact hsl)
          have h2 := steps_progress hS hs hw hl ht hsl
          rw [List.length_drop]
          omega
        · intro p hp
          have := tr_phase htr w1 (steps_phase hS hs hw hl hp)
          rw [hu] at this
          exact this
      | @err b1 bs1 _ e hn =>
        rcases nextState_cases hS w1 w2 hn with ⟨n, ev, h, _⟩ | ⟨_, x1, x2, x3⟩
        · cases h
        · refine .inr ⟨e, rfl, x1, (nextState_err_opts hn w1.ibuf).trans ho, fun _ => by rw [x3]; exact w4 ht, ?_⟩
          intro p hp
          exact err_phase hn w1 x3 (steps_phase hS hs hw hl hp)

end Gif.SD
