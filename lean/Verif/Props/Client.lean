import Verif.Model.Client
/-!
# C81: what a program does with the current frame does not affect decoding
-/

namespace Gif

namespace SD

variable {C : Codec} {k : Bool}

/-- What is seen of the current frame and of the capacity of its palette: everything (but the capacity of a palette that is not
there), or only that there is a frame. -/
def seen (k : Bool) (c : Option Frame) (p : Nat) : Option Frame × Nat :=
  match c with
  | none => (none, 0)
  | some f => if k then (some f, if f.palette.isSome then p else 0) else (some Frame.default, 0)

theorem seen_seen (k : Bool) (c : Option Frame) (p : Nat) : seen k (seen k c p).1 (seen k c p).2 = seen k c p := by
  cases c with
  | none => rfl
  | some f =>
    cases k with
    | false => rfl
    | true => simp only [seen, if_true]; split <;> rfl

/-- What is seen of the decoder. -/
def blur (s : SD C) (k : Bool) : SD C :=
  { s with current := (seen k s.current s.palCap).1, palCap := (seen k s.current s.palCap).2 }

/-- The same result, and the same decoder but for the contents of the current frame. -/
def Alike (k : Bool) (x y : StepResult C) : Prop := x.2 = y.2 ∧ x.1.blur k = y.1.blur k

theorem blur_blur (s : SD C) : (s.blur k).blur k = s.blur k := by
  simp [seen_seen, blur]

theorem ensureMin_blur (s : SD C) (buf : List UInt8) (n : Nat) (g : SD C → Nat → List UInt8 → StepResult C)
    (hk : ∀ s m b, Alike k (g s m b) (g (s.blur k) m b)) : Alike k (ensureMin s buf n g) (ensureMin (s.blur k) buf n g) := by
  unfold ensureMin
  simp only [show (s.blur k).ibuf = s.ibuf from rfl]
  split
  · exact hk _ _ _
  · split
    · split
      · exact ⟨rfl, (blur_blur s).symm⟩
      · split
        · exact ⟨rfl, by simp [seen_seen, blur]⟩
        · exact hk { s with ibuf := [] } _ _
    · exact hk _ _ _

theorem onMagic_blur (s : SD C) (n : Nat) (b : List UInt8) : Alike k (onMagic s n b) (onMagic (s.blur k) n b) := by
  unfold onMagic
  split
  · exact ⟨rfl, by simp [seen_seen, goto, blur]⟩
  · split
    · exact ⟨rfl, by simp [seen_seen, goto, blur]⟩
    · exact ⟨rfl, by simp [seen_seen, blur]⟩

theorem onScreenDescriptor_blur (s : SD C) (n : Nat) (b : List UInt8) :
    Alike k (onScreenDescriptor s n b) (onScreenDescriptor (s.blur k) n b) := by
  unfold onScreenDescriptor
  split
  · simp only
    split
    · exact ⟨rfl, by simp [seen_seen, goto, blur]⟩
    · exact ⟨rfl, by simp [seen_seen, goto, blur]⟩
  · exact ⟨rfl, by simp [seen_seen, blur]⟩

theorem onImageBlockStart_blur (s : SD C) (n : Nat) (b : List UInt8) :
    Alike k (onImageBlockStart s n b) (onImageBlockStart (s.blur k) n b) := by
  unfold onImageBlockStart
  split
  · cases hc : s.current with
    | none => simp only [blur, hc, seen]; exact ⟨rfl, by simp [blur, hc, seen]⟩
    | some f =>
      cases k with
      | false =>
        simp only [blur, hc, seen, Bool.false_eq_true, if_false]
        split
        · exact ⟨rfl, by simp [seen, blur]⟩
        · split <;> exact ⟨rfl, by simp [seen, goto, blur]⟩
      | true =>
        simp only [blur, hc, seen, if_true]
        split
        · exact ⟨rfl, by cases hp : f.palette <;> simp [seen, blur, hp]⟩
        · split <;> exact ⟨rfl, by cases hp : f.palette <;> simp [seen, goto, blur, hp]⟩
  · exact ⟨rfl, by simp [seen_seen, blur]⟩

theorem onGlobalPalette_blur (s : SD C) (left : Nat) (c : UInt8) (b : List UInt8) :
    Alike k (onGlobalPalette s left c b) (onGlobalPalette (s.blur k) left c b) := by
  unfold onGlobalPalette
  simp only [show (s.blur k).gct = s.gct from rfl, show (s.blur k).gctCap = s.gctCap from rfl]
  split
  · split
    · exact ⟨rfl, by simp [seen_seen, goto, blur]⟩
    · exact ⟨rfl, by simp [seen_seen, goto, blur]⟩
  · exact ⟨rfl, by simp [seen_seen, goto, blur]⟩

theorem addFrame_blur (s : SD C) : s.addFrame.blur k = (s.blur k).addFrame.blur k := by
  unfold addFrame
  cases hc : s.current with
  | none => simp [blur, hc, seen, Frame.default]
  | some f => cases k <;> cases hp : f.palette <;> simp [blur, hc, seen, hp]

theorem onBlockStart_blur (s : SD C) (type c : UInt8) : Alike k (onBlockStart s type c) (onBlockStart (s.blur k) type c) := by
  unfold onBlockStart
  simp only [show (s.blur k).headerEndReached = s.headerEndReached from rfl, show (s.blur k).allowUnknownBlocks = s.allowUnknownBlocks from rfl]
  split
  · exact ⟨rfl, by simp [seen_seen, goto, blur]⟩
  · split
    · refine ⟨rfl, ?_⟩
      have := addFrame_blur (k := k) s
      simp only [goto, blur] at this ⊢
      rw [SD.mk.injEq] at this ⊢
      simp only [this, and_self]
    · split
      · exact ⟨rfl, by simp [seen_seen, blur]⟩
      · exact ⟨rfl, by simp [seen_seen, goto, blur]⟩
    · exact ⟨rfl, by simp [seen_seen, goto, blur]⟩
    · split
      · exact ⟨rfl, by simp [seen_seen, goto, blur]⟩
      · exact ⟨rfl, by simp [seen_seen, blur]⟩

theorem onBlockEnd_blur (s : SD C) (c : UInt8) : Alike k (onBlockEnd s c) (onBlockEnd (s.blur k) c) := by
  unfold onBlockEnd
  split <;> exact ⟨rfl, by simp [seen_seen, goto, blur]⟩

theorem onExtensionDataBlock_blur (s : SD C) (left : Nat) (c : UInt8) (b : List UInt8) :
    Alike k (onExtensionDataBlock s left c b) (onExtensionDataBlock (s.blur k) left c b) := by
  unfold onExtensionDataBlock
  simp only [show (s.blur k).extData = s.extData from rfl, show (s.blur k).memoryLimit = s.memoryLimit from rfl, show (s.blur k).extId = s.extId from rfl]
  split
  · split
    · exact ⟨rfl, by simp [seen_seen, goto, blur]⟩
    · exact ⟨rfl, by simp [seen_seen, blur]⟩
  · split
    · split
      · exact ⟨rfl, by simp [seen_seen, goto, blur]⟩
      · unfold readControlExtension
        simp only [show (s.blur k).extData = s.extData from rfl]
        split
        · rename_i h
          split at h
          · cases h
            exact ⟨rfl, by
              cases hc : s.current with
              | none => cases k <;> simp [seen, goto, blur, hc, controlFrame, Frame.default]
              | some f => cases k <;> cases hp : f.palette <;> simp [seen, goto, blur, hc, hp, controlFrame, Frame.default]⟩
          · cases h
        · rename_i h
          split at h
          · cases h
          · cases h
            exact ⟨rfl, by simp [seen_seen, blur]⟩
        · rename_i h
          split at h <;> cases h
        · rename_i h
          split at h <;> cases h
      · exact ⟨rfl, by simp [seen_seen, goto, blur]⟩
    · exact ⟨rfl, by simp [seen_seen, goto, blur]⟩

theorem onApplicationExtension_blur (s : SD C) (c : UInt8) :
    Alike k (onApplicationExtension s c) (onApplicationExtension (s.blur k) c) := by
  unfold onApplicationExtension
  simp only [show (s.blur k).extData = s.extData from rfl]
  split
  · exact ⟨rfl, by simp [seen_seen, blur]⟩
  · split
    · split
      · exact ⟨rfl, by simp [seen_seen, goto, blur]⟩
      · exact ⟨rfl, by simp [seen_seen, blur]⟩
    · exact ⟨rfl, by simp [seen_seen, goto, blur]⟩

theorem onLocalPalette_blur (s : SD C) (left : Nat) (c : UInt8) (b : List UInt8) :
    Alike k (onLocalPalette s left c b) (onLocalPalette (s.blur k) left c b) := by
  unfold onLocalPalette
  split
  · cases hc : s.current with
    | none => simp only [blur, hc, seen]; exact ⟨rfl, by simp [blur, hc, seen]⟩
    | some f =>
      cases k with
      | false =>
        simp only [blur, hc, seen, Bool.false_eq_true, if_false, show Frame.default.palette = none from rfl]
        split
        · split <;> exact ⟨rfl, by simp [goto, blur, hc, seen]⟩
        · exact ⟨rfl, by simp [goto, blur, hc, seen]⟩
      | true =>
        simp only [blur, hc, seen, if_true]
        cases hp : f.palette with
        | none => exact ⟨rfl, by simp [goto, blur, hc, seen, hp]⟩
        | some pal =>
          simp only [Option.isSome_some, if_true]
          split <;> exact ⟨rfl, by simp [goto, blur, hc, seen, hp]⟩
  · exact ⟨rfl, by simp [seen_seen, goto, blur]⟩

theorem onLzwInit_blur (s : SD C) (m c : UInt8) : Alike k (onLzwInit s m c) (onLzwInit (s.blur k) m c) := by
  unfold onLzwInit
  simp only [show (s.blur k).skipFrameDecoding = s.skipFrameDecoding from rfl, show (s.blur k).lzw = s.lzw from rfl]
  split
  · split <;> exact ⟨rfl, by simp [seen_seen, goto, blur]⟩
  · split
    · exact ⟨rfl, by simp [seen_seen, goto, blur]⟩
    · exact ⟨rfl, by simp [seen_seen, blur]⟩

theorem onCopySubBlock_blur (s : SD C) (left : Nat) (c : UInt8) (b : List UInt8) (o : OutSpec) :
    Alike k (onCopySubBlock s left c b o) (onCopySubBlock (s.blur k) left c b o) := by
  unfold onCopySubBlock
  simp only [show (s.blur k).skipFrameDecoding = s.skipFrameDecoding from rfl, show (s.blur k).memoryLimit = s.memoryLimit from rfl]
  split
  · exact ⟨rfl, by simp [seen_seen, blur]⟩
  · split
    · split
      · split
        · exact ⟨rfl, by simp [seen_seen, blur]⟩
        · exact ⟨rfl, by simp [seen_seen, goto, blur]⟩
      all_goals exact ⟨rfl, by simp [seen_seen, blur]⟩
    · split <;> exact ⟨rfl, by simp [seen_seen, goto, blur]⟩

theorem onDecodeSubBlock_blur (s : SD C) (left : Nat) (c : UInt8) (b : List UInt8) (o : OutSpec) :
    Alike k (onDecodeSubBlock s left c b o) (onDecodeSubBlock (s.blur k) left c b o) := by
  unfold onDecodeSubBlock
  simp only [show (s.blur k).skipFrameDecoding = s.skipFrameDecoding from rfl, show (s.blur k).lzw = s.lzw from rfl]
  split
  · exact ⟨rfl, by simp [seen_seen, blur]⟩
  · split
    · split
      · exact ⟨rfl, by simp [seen_seen, goto, blur]⟩
      · split
        · rename_i consumed bytes _
          generalize (if consumed = 0 ∧ bytes.length = 0 then min left b.length else consumed) = m
          split
          · exact ⟨rfl, by simp [seen_seen, blur]⟩
          · exact ⟨rfl, by simp [seen_seen, goto, blur]⟩
        all_goals exact ⟨rfl, by simp [seen_seen, blur]⟩
    · split
      · exact ⟨rfl, by simp [seen_seen, goto, blur]⟩
      · split
        · split <;> exact ⟨rfl, by simp [seen_seen, goto, blur]⟩
        all_goals exact ⟨rfl, by simp [seen_seen, blur]⟩

theorem onFrameDecoded_blur (s : SD C) (c : UInt8) : Alike k (onFrameDecoded s c) (onFrameDecoded (s.blur k) c) := by
  unfold onFrameDecoded
  simp only
  split
  · exact ⟨rfl, by simp [blur, seen]⟩
  · exact ⟨rfl, by simp [goto, blur, seen]⟩

/-- A step does not look at the contents of the current frame. -/
theorem nextState_blur (s : SD C) (buf : List UInt8) (o : OutSpec) : Alike k (nextState s buf o) (nextState (s.blur k) buf o) := by
  unfold nextState
  cases buf with
  | nil => exact ⟨rfl, by simp [seen_seen, blur]⟩
  | cons c bs =>
    simp only [show (s.blur k).state = s.state from rfl]
    split
    · exact ensureMin_blur s _ _ _ onMagic_blur
    · exact ensureMin_blur s _ _ _ onScreenDescriptor_blur
    · exact ensureMin_blur s _ _ _ onImageBlockStart_blur
    · exact onGlobalPalette_blur s _ _ _
    · exact onBlockStart_blur s _ _
    · exact onBlockEnd_blur s _
    · exact ⟨rfl, by simp [seen_seen, goto, blur]⟩
    · exact onExtensionDataBlock_blur s _ _ _
    · exact onApplicationExtension_blur s _
    · exact onLocalPalette_blur s _ _ _
    · exact onLzwInit_blur s _ _
    · exact onCopySubBlock_blur s _ _ _ _
    · exact onDecodeSubBlock_blur s _ _ _ _
    · exact onFrameDecoded_blur s _
    · exact ⟨rfl, by simp [seen_seen, goto, blur]⟩

theorem nextState_alike {s s' : SD C} (h : (s.blur k) = (s'.blur k)) (buf : List UInt8) (o : OutSpec) :
    Alike k (nextState s buf o) (nextState s' buf o) := by
  obtain ⟨a1, a2⟩ := nextState_blur s buf o
  obtain ⟨b1, b2⟩ := nextState_blur s' buf o
  rw [h] at a1 a2
  exact ⟨a1.trans b1.symm, a2.trans b2.symm⟩

theorem updateLoop_alike (len : Nat) (o : OutSpec) : ∀ (fuel : Nat) {s s' : SD C} (buf : List UInt8), (s.blur k) = (s'.blur k) →
    Alike k (updateLoop len o fuel s buf) (updateLoop len o fuel s' buf)
  | fuel, s, s', [], h => by
    unfold updateLoop
    exact ⟨rfl, h⟩
  | 0, s, s', b :: bs, h => ⟨rfl, h⟩
  | fuel + 1, s, s', b :: bs, h => by
    obtain ⟨h1, h2⟩ := nextState_alike h (b :: bs) o
    unfold updateLoop
    generalize nextState s (b :: bs) o = x at *
    generalize nextState s' (b :: bs) o = y at *
    obtain ⟨s1, r1⟩ := x
    obtain ⟨s2, r2⟩ := y
    simp only at h1 h2
    subst h1
    cases r1 with
    | ok v =>
      obtain ⟨n, ev⟩ := v
      cases ev with
      | nothing => exact updateLoop_alike len o fuel _ h2
      | _ => exact ⟨rfl, h2⟩
    | _ => exact ⟨rfl, h2⟩

theorem update_alike {s s' : SD C} (h : (s.blur k) = (s'.blur k)) (buf : List UInt8) (o : OutSpec) :
    Alike k (s.update buf o) (s'.update buf o) := updateLoop_alike _ _ _ _ h

theorem currentFrameMut_blur (s : SD C) (f : Frame → Frame) (cap : Nat) :
    (s.currentFrameMut f cap).1.blur false = s.blur false := by
  unfold currentFrameMut
  cases hc : s.current <;> simp [blur, hc, seen]

/-- The calls of `update` of a program. -/
def Use.only : List Use → List Use := List.filter fun | .update _ _ => true | .change _ _ => false

theorem uses_alike : ∀ (us : List Use) {s s' : SD C}, s.blur false = s'.blur false →
    (uses s us).2 = (uses s' (Use.only us)).2 ∧ (uses s us).1.blur false = (uses s' (Use.only us)).1.blur false
  | [], _, _, h => ⟨rfl, h⟩
  | .update buf o :: us, s, s', h => by
    obtain ⟨h1, h2⟩ := update_alike h buf o
    obtain ⟨h3, h4⟩ := uses_alike us h2
    refine ⟨?_, h4⟩
    show _ :: _ = _ :: _
    exact List.cons_eq_cons.mpr ⟨h1, h3⟩
  | .change f cap :: us, s, s', h => uses_alike us ((currentFrameMut_blur s f cap).trans h)

theorem uses_alike_only : ∀ (us : List Use) {s s' : SD C}, s.blur k = s'.blur k →
    (uses s (Use.only us)).1.blur k = (uses s' (Use.only us)).1.blur k
  | [], _, _, h => h
  | .update buf o :: us, s, s', h => uses_alike_only us (update_alike h buf o).2
  | .change _ _ :: us, _, _, h => uses_alike_only us h

theorem uses_append : ∀ (us vs : List Use) (s : SD C),
    uses s (us ++ vs) = ((uses (uses s us).1 vs).1, (uses s us).2 ++ (uses (uses s us).1 vs).2)
  | [], _, _ => rfl
  | .update buf o :: us, vs, s => by
    show ((uses (s.update buf o).1 (us ++ vs)).1, _ :: (uses (s.update buf o).1 (us ++ vs)).2) = _
    rw [uses_append us vs]
    rfl
  | .change f cap :: us, vs, s => uses_append us vs _

/-! ## The theorems -/

/-- **C81.** Whatever a program does with the current frame, whenever it does, and however it calls `update` (with any slices and
buffers, and after errors too): every call returns what it would return had the frame been left alone, and the decoders are the
same but for the contents of the current frame. `current_frame_mut` is available at the same times. -/
theorem change_keeps_results (s : SD C) (us : List Use) :
    (uses s us).2 = (uses s (Use.only us)).2 ∧
    { (uses s us).1 with current := (uses s (Use.only us)).1.current, palCap := (uses s (Use.only us)).1.palCap } =
      (uses s (Use.only us)).1 ∧
    (uses s us).1.current.isSome = (uses s (Use.only us)).1.current.isSome := by
  obtain ⟨h1, h2⟩ := uses_alike us (rfl : s.blur false = s.blur false)
  refine ⟨h1, ?_, ?_⟩
  · exact congrArg (fun t : SD C =>
      { t with current := (uses s (Use.only us)).1.current, palCap := (uses s (Use.only us)).1.palCap }) h2
  · have := congrArg (fun t : SD C => t.current.isSome) h2
    simp only [blur] at this
    revert this
    cases (uses s us).1.current <;> cases (uses s (Use.only us)).1.current <;> simp [seen]

/-- The states from the size of the codes of an image to the end of its data. -/
def _root_.Gif.State.inData : State → Bool
  | .decodeSubBlock _ | .copySubBlock _ | .frameDecoded => true
  | _ => false

theorem nextState_inData {s s' : SD C} {buf : List UInt8} {o : OutSpec} {n : Nat} {ev : Decoded} (hd : s.state.inData = true)
    (h : nextState s buf o = (s', .ok (n, ev))) :
    ev = .dataEnd ∧ s'.current = none ∨ ev ≠ .dataEnd ∧ s'.current = s.current ∧ s'.state.inData = true := by
  unfold nextState at h
  cases buf with
  | nil => cases h
  | cons b bs =>
    simp only at h
    generalize b :: bs = buf at h
    cases hs : s.state <;> rw [hs] at hd <;> first | cases hd | skip
    · rw [hs] at h
      simp only [onDecodeSubBlock] at h
      split at h
      · cases h
      · split at h
        · split at h
          · cases h
            exact .inr ⟨by simp, rfl, rfl⟩
          · split at h
            · rename_i consumed bytes _
              generalize (if consumed = 0 ∧ bytes.length = 0 then _ else consumed) = m at h
              split at h
              · cases h
              · cases h
                exact .inr ⟨by split <;> simp, rfl, rfl⟩
            all_goals cases h
        · split at h
          · cases h
            exact .inr ⟨by simp, rfl, rfl⟩
          · split at h
            · split at h
              all_goals
                cases h
                exact .inr ⟨by simp, rfl, rfl⟩
            all_goals cases h
    · rw [hs] at h
      simp only [onCopySubBlock] at h
      split at h
      · cases h
      · split at h
        · split at h
          · split at h
            · cases h
            · cases h
              exact .inr ⟨by simp, rfl, rfl⟩
          all_goals cases h
        · split at h
          all_goals
            cases h
            exact .inr ⟨by simp, rfl, rfl⟩
    · rw [hs] at h
      simp only [onFrameDecoded] at h
      split at h
      · cases h
      · cases h
        exact .inl ⟨rfl, rfl⟩

theorem updateLoop_inData (len : Nat) (o : OutSpec) : ∀ (fuel : Nat) {s s' : SD C} (buf : List UInt8) {n : Nat} {ev : Decoded},
    s.state.inData = true → updateLoop len o fuel s buf = (s', .ok (n, ev)) →
    ev = .dataEnd ∧ s'.current = none ∨ ev ≠ .dataEnd ∧ s'.current = s.current ∧ s'.state.inData = true
  | fuel, s, s', [], n, ev, hd, h => by
    unfold updateLoop at h
    cases h
    exact .inr ⟨by simp, rfl, hd⟩
  | 0, s, s', b :: bs, n, ev, hd, h => by
    cases h
  | fuel + 1, s, s', b :: bs, n, ev, hd, h => by
    unfold updateLoop at h
    split at h
    · rename_i s1 m hn
      rcases nextState_inData hd hn with ⟨h1, _⟩ | ⟨_, h2, h3⟩
      · cases h1
      · rcases updateLoop_inData len o fuel _ h3 h with h4 | ⟨h4, h5, h6⟩
        · exact .inl h4
        · exact .inr ⟨h4, h5.trans h2, h6⟩
    · rename_i s1 m ev' _ hn
      cases h
      exact nextState_inData hd hn
    all_goals cases h

/-- What a step that ends the data of an image leaves, and one that begins it. -/
theorem nextState_marks {s s' : SD C} {buf : List UInt8} {o : OutSpec} {n : Nat} {ev : Decoded}
    (h : nextState s buf o = (s', .ok (n, ev))) :
    (ev = .dataEnd → s'.current = none) ∧ (∀ t, ev = .frameMetadata t → s'.state.inData = true) := by
  by_cases hd : s.state.inData = true
  · rcases nextState_inData hd h with ⟨_, h2⟩ | ⟨h1, _, h3⟩
    · exact ⟨fun _ => h2, fun t ht => by simp_all⟩
    · exact ⟨fun h => absurd h h1, fun _ _ => h3⟩
  · unfold nextState at h
    cases buf with
    | nil => cases h
    | cons b bs =>
      simp only at h
      generalize b :: bs = buf at h
      cases hs : s.state <;> rw [hs] at hd h <;> first | exact absurd rfl hd | skip
      all_goals
        simp only [ensureMin, onMagic, onScreenDescriptor, onImageBlockStart, onGlobalPalette, onBlockStart, onBlockEnd,
          onExtensionDataBlock, onApplicationExtension, onLocalPalette, onLzwInit, readControlExtension, goto] at h
        repeat' split at h
        all_goals
          first
          | (cases h; done)
          | (cases h; exact ⟨(by simp), (by simp [State.inData])⟩)

theorem updateLoop_marks (len : Nat) (o : OutSpec) : ∀ (fuel : Nat) {s s' : SD C} (buf : List UInt8) {n : Nat} {ev : Decoded},
    updateLoop len o fuel s buf = (s', .ok (n, ev)) →
    (ev = .dataEnd → s'.current = none) ∧ (∀ t, ev = .frameMetadata t → s'.state.inData = true)
  | fuel, s, s', [], n, ev, h => by
    unfold updateLoop at h
    cases h
    exact ⟨(by simp), (by simp)⟩
  | 0, s, s', b :: bs, n, ev, h => by
    cases h
  | fuel + 1, s, s', b :: bs, n, ev, h => by
    unfold updateLoop at h
    split at h
    · exact updateLoop_marks len o fuel _ h
    · rename_i s1 m ev' _ hn
      cases h
      exact nextState_marks hn
    all_goals cases h

theorem update_eq {s : SD C} {buf : List UInt8} {o : OutSpec} {r : Outcome (Nat × Decoded)} (h : (s.update buf o).2 = r) :
    s.update buf o = ((s.update buf o).1, r) := by
  rw [← h]

/-- What a program does with the current frame. -/
def Use.changes : List Use → List (Frame → Frame)
  | [] => []
  | .update _ _ :: us => changes us
  | .change f _ :: us => f :: changes us

theorem kept_in_data : ∀ (us : List Use) (s : SD C), s.state.inData = true →
    (∀ r ∈ (uses s us).2, ∃ n ev, r = .ok (n, ev) ∧ ev ≠ .dataEnd) →
    (uses s us).1.current = s.current.map fun frame => (Use.changes us).foldl (fun frame f => f frame) frame
  | [], s, _, _ => by simp [uses, Use.changes]
  | .update buf o :: us, s, hd, h => by
    obtain ⟨n, ev, h1, h2⟩ := h (s.update buf o).2 (List.mem_cons_self ..)
    have hu : s.update buf o = ((s.update buf o).1, .ok (n, ev)) := by rw [← h1]
    rcases updateLoop_inData _ _ _ _ hd hu with ⟨h3, _⟩ | ⟨_, h4, h5⟩
    · exact absurd h3 h2
    · have := kept_in_data us (s.update buf o).1 h5 fun r hr => h r (List.mem_cons_of_mem _ hr)
      rw [h4] at this
      exact this
  | .change f cap :: us, s, hd, h => by
    have hs : (s.currentFrameMut f cap).1.state = s.state ∧ (s.currentFrameMut f cap).1.current = s.current.map f := by
      unfold currentFrameMut
      cases hc : s.current <;> simp [hc]
    have := kept_in_data us (s.currentFrameMut f cap).1 (by rw [hs.1]; exact hd) h
    rw [hs.2] at this
    show (uses (s.currentFrameMut f cap).1 us).1.current = _
    rw [this, Option.map_map]
    rfl

theorem forgotten_without_frame (s : SD C) (us vs : List Use) (h : (uses s us).1.current = none) :
    (uses s (us ++ Use.only vs)).1.current = (uses s (Use.only (us ++ vs))).1.current := by
  obtain ⟨_, h2, h3⟩ := change_keeps_results s us
  rw [h] at h3
  have hc : (uses s (Use.only us)).1.current = none := by
    cases hx : (uses s (Use.only us)).1.current with
    | none => rfl
    | some f => rw [hx] at h3; cases h3
  have hb : (uses s us).1.blur true = (uses s (Use.only us)).1.blur true := by
    rw [← h2, hc]
    simp [blur, seen, h]
  have := uses_alike_only vs hb
  rw [show Use.only (us ++ vs) = Use.only us ++ Use.only vs from List.filter_append .., uses_append, uses_append]
  have := congrArg SD.current this
  revert this
  simp only [blur]
  cases (uses (uses s us).1 (Use.only vs)).1.current <;> cases (uses (uses s (Use.only us)).1 (Use.only vs)).1.current <;>
    simp [seen]

/-- **C81.** Changes are forgotten with the frame: after `DataEnd`, `update` goes on as if nothing had been changed. The frames
that follow are what they would have been. -/
theorem change_is_forgotten (s : SD C) (us vs : List Use) (buf : List UInt8) (o : OutSpec) (n : Nat)
    (h : ((uses s us).1.update buf o).2 = .ok (n, .dataEnd)) :
    (uses s (us ++ .update buf o :: Use.only vs)).1.current = (uses s (Use.only (us ++ .update buf o :: vs))).1.current := by
  have := forgotten_without_frame s (us ++ [.update buf o]) vs (by
    rw [uses_append]
    exact (updateLoop_marks _ _ _ _ (update_eq h)).1 rfl)
  simpa only [List.append_assoc, List.singleton_append] using this

/-- **C81.** From `FrameMetadata` to `DataEnd` the current frame belongs to the program: while the calls of `update` return
something other than `DataEnd`, it is what the program has made of it. -/
theorem change_is_kept (s : SD C) (buf : List UInt8) (o : OutSpec) (n : Nat) (t : FrameDataType)
    (h : (s.update buf o).2 = .ok (n, .frameMetadata t)) (us : List Use)
    (hus : ∀ r ∈ (uses (s.update buf o).1 us).2, ∃ n ev, r = .ok (n, ev) ∧ ev ≠ .dataEnd) :
    (uses s (.update buf o :: us)).1.current =
      (s.update buf o).1.current.map fun frame => (Use.changes us).foldl (fun frame f => f frame) frame :=
  kept_in_data us _ ((updateLoop_marks _ _ _ _ (update_eq h)).2 t rfl) hus

end SD

end Gif
