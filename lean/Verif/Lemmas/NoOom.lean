import Verif.Model.Decoder
/-!
Where the ordinary decoder reports `OutOfMemory`: only where the size of a frame is checked.
-/

namespace Gif

variable {C : Codec}

/-- Not that error. -/
abbrev Outcome.Roomy {α : Type} (out : Outcome α) : Prop := out ≠ .ioErr .outOfMemory

namespace SD

theorem goto_roomy (s : SD C) (n : Nat) (t : State) (ev : Decoded) : (goto s n t ev).2.Roomy := by
  intro h; cases h

theorem ensureMin_roomy (s : SD C) (buf : List UInt8) (n : Nat) (k : SD C → Nat → List UInt8 → StepResult C)
    (hk : ∀ s m b, (k s m b).2.Roomy) : (ensureMin s buf n k).2.Roomy := by
  unfold ensureMin
  split
  · exact hk _ _ _
  · split
    · simp only
      split
      · intro h; cases h
      · split
        · intro h; cases h
        · exact hk _ _ _
    · exact hk _ _ _

theorem reset_roomy (r : LzwReader C) (m : UInt8) : (r.reset m).2.Roomy := by
  unfold LzwReader.reset
  repeat' split
  all_goals intro h; cases h

theorem decodeBytes_roomy (r : LzwReader C) (b : List UInt8) (o : OutSpec) : (r.decodeBytes b o).2.Roomy := by
  unfold LzwReader.decodeBytes
  split
  · intro h; cases h
  · split
    all_goals first | (intro h; cases h; done) | skip
    all_goals simp only
    all_goals repeat' split
    all_goals intro h; cases h

theorem control_roomy (s : SD C) : s.readControlExtension.2.Roomy := by
  unfold readControlExtension
  repeat' split
  all_goals intro h; cases h

theorem append_roomy (o : OutSpec) (l : List UInt8) (m : MemoryLimit) : (append o l m).Roomy := by
  unfold append
  repeat' split
  all_goals intro h; cases h

theorem copy_roomy (s : SD C) (left : Nat) (b : UInt8) (buf : List UInt8) (o : OutSpec) :
    (onCopySubBlock s left b buf o).2.Roomy := by
  unfold onCopySubBlock
  split
  · intro h; cases h
  · split
    · simp only
      have hd := append_roomy o (buf.take (min left buf.length)) s.memoryLimit
      generalize append o (buf.take (min left buf.length)) s.memoryLimit = x at *
      cases x with
      | ok p => simp only [goto]; split <;> intro h <;> cases h
      | err e => intro h; cases h; exact hd rfl
      | panic => intro h; cases h
      | diverge => intro h; cases h
    · split <;> exact goto_roomy _ _ _ _

theorem decode_roomy (s : SD C) (left : Nat) (b : UInt8) (buf : List UInt8) (o : OutSpec) :
    (onDecodeSubBlock s left b buf o).2.Roomy := by
  unfold onDecodeSubBlock
  split
  · intro h; cases h
  · split
    · simp only
      split
      · exact goto_roomy _ _ _ _
      · have hd := decodeBytes_roomy s.lzw (buf.take (min left buf.length)) o
        generalize s.lzw.decodeBytes (buf.take (min left buf.length)) o = x at *
        obtain ⟨l, out⟩ := x
        cases out with
        | ok p => simp only [goto]; (repeat' split) <;> (intro h; cases h)
        | err e => intro h; cases h; exact hd rfl
        | panic => intro h; cases h
        | diverge => intro h; cases h
    · split
      · exact goto_roomy _ _ _ _
      · have hd := decodeBytes_roomy s.lzw [] o
        generalize s.lzw.decodeBytes [] o = x at *
        obtain ⟨l, out⟩ := x
        cases out with
        | ok p => simp only [goto]; split <;> intro h <;> cases h
        | err e => intro h; cases h; exact hd rfl
        | panic => intro h; cases h
        | diverge => intro h; cases h

theorem nextState_roomy (s : SD C) (buf : List UInt8) (o : OutSpec) : (nextState s buf o).2.Roomy := by
  unfold nextState
  split
  · intro h; cases h
  · split
    · apply ensureMin_roomy
      intro s m b
      unfold onMagic
      repeat' split
      all_goals intro h; cases h
    · apply ensureMin_roomy
      intro s m b
      unfold onScreenDescriptor goto
      repeat' split
      all_goals first | (intro h; cases h) | (simp only; split <;> intro h <;> cases h)
    · apply ensureMin_roomy
      intro s m b
      unfold onImageBlockStart goto
      repeat' split
      all_goals first | (intro h; cases h) | (simp only; repeat' split)
      all_goals intro h; cases h
    · unfold onGlobalPalette goto
      repeat' split
      all_goals first | (intro h; cases h) | (simp only; repeat' split)
      all_goals intro h; cases h
    · unfold onBlockStart goto
      repeat' split
      all_goals first | (intro h; cases h) | (simp only; repeat' split)
      all_goals intro h; cases h
    · unfold onBlockEnd goto
      repeat' split
      all_goals intro h; cases h
    · exact goto_roomy _ _ _ _
    · unfold onExtensionDataBlock goto
      have hc := control_roomy { s with extIsBlockEnd := true }
      split
      · simp only
        split <;> intro h <;> cases h
      · split
        · simp only
          split
          · intro h; cases h
          · generalize readControlExtension _ = x at *
            obtain ⟨s', out⟩ := x
            cases out with
            | err e => intro h; cases h; exact hc rfl
            | _ => intro h; cases h
          · intro h; cases h
        · intro h; cases h
    · unfold onApplicationExtension goto
      repeat' split
      all_goals first | (intro h; cases h) | (simp only; repeat' split)
      all_goals intro h; cases h
    · unfold onLocalPalette goto
      repeat' split
      all_goals first | (intro h; cases h) | (simp only; repeat' split)
      all_goals intro h; cases h
    · rename_i m _
      unfold onLzwInit goto
      have hr := reset_roomy s.lzw m
      split
      · generalize s.lzw.reset m = x at *
        obtain ⟨l, out⟩ := x
        cases out with
        | err e => intro h; cases h; exact hr rfl
        | _ => intro h; cases h
      · split <;> intro h <;> cases h
    · exact copy_roomy _ _ _ _ _
    · exact decode_roomy _ _ _ _ _
    · unfold onFrameDecoded goto
      simp only
      split <;> intro h <;> cases h
    · exact goto_roomy _ _ _ _

theorem updateLoop_roomy (len : Nat) (o : OutSpec) : ∀ (n : Nat) (s : SD C) (buf : List UInt8),
    (updateLoop len o n s buf).2.Roomy := by
  intro n
  induction n with
  | zero => intro s buf; cases buf <;> (intro h; cases h)
  | succ n ih =>
    intro s buf
    cases buf with
    | nil => intro h; cases h
    | cons b bs =>
      rw [updateLoop]
      have hr := nextState_roomy s (b :: bs) o
      generalize nextState s (b :: bs) o = x at *
      obtain ⟨s', out⟩ := x
      cases out with
      | ok p =>
        obtain ⟨k, ev⟩ := p
        cases ev with
        | nothing => exact ih _ _
        | _ => intro h; cases h
      | err e => intro h; cases h; exact hr rfl
      | panic => intro h; cases h
      | diverge => intro h; cases h

end SD

namespace RD

theorem decodeNextLoop_roomy (o : OutSpec) : ∀ (n : Nat) (d : RD C), (decodeNextLoop o n d).2.Roomy := by
  intro n
  induction n with
  | zero => intro d h; cases h
  | succ n ih =>
    intro d
    rw [decodeNextLoop]
    split
    · intro h; cases h
    · split
      · intro h; cases h
      · rename_i r buf _
        split
        · intro h; cases h
        · have hr := SD.updateLoop_roomy buf.length o (2 * buf.length + 2) d.sd buf
          unfold SD.update
          generalize SD.updateLoop buf.length o (2 * buf.length + 2) d.sd buf = x at *
          obtain ⟨s', out⟩ := x
          cases out with
          | ok p =>
            obtain ⟨k, ev⟩ := p
            simp only
            split
            · exact ih _
            · exact ih _
            · intro h; cases h
          | err e => intro h; cases h; exact hr rfl
          | panic => intro h; cases h
          | diverge => intro h; cases h

theorem decodeNext_roomy (o : OutSpec) (d : RD C) : (d.decodeNext o).2.Roomy := decodeNextLoop_roomy o _ d

theorem decodeNextBytes_roomy (d : RD C) (cap : Nat) : (decodeNextBytes d cap).2.Roomy := by
  unfold decodeNextBytes
  have hr := decodeNext_roomy (.slice cap) d
  generalize d.decodeNext (.slice cap) = x at *
  obtain ⟨s', out⟩ := x
  cases out with
  | ok ev =>
    cases ev with
    | none => intro h; cases h
    | some ev => cases ev <;> (intro h; cases h)
  | err e => intro h; cases h; exact hr rfl
  | panic => intro h; cases h
  | diverge => intro h; cases h

end RD

namespace Converter

variable {τ : Type} {cb : Callback τ}

theorem fillLoop_roomy (h : ∀ t cap, (cb t cap).2.Roomy) (c : Converter) (f : Frame) : ∀ (n : Nat) (t : τ) (buf : List UInt8),
    (fillLoop c f cb n t buf).2.2.Roomy := by
  intro n
  induction n with
  | zero => intro t buf h; cases h
  | succ n ih =>
    intro t buf
    rw [fillLoop]
    split
    · have hs := h t buf.length
      generalize cb t buf.length = x at *
      obtain ⟨t', out⟩ := x
      cases out with
      | ok bytes =>
        simp only
        split
        · intro h; cases h
        · split
          · intro h; cases h
          · split
            · intro h; cases h
            · exact ih _ _
      | err e => intro h; cases h; exact hs rfl
      | panic => intro h; cases h
      | diverge => intro h; cases h
    · split
      · intro h; cases h
      · have hs := h t (buf.length / 4)
        generalize cb t (buf.length / 4) = x at *
        obtain ⟨t', out⟩ := x
        cases out with
        | ok bytes =>
          simp only
          split
          · intro h; cases h
          · split
            · intro h; cases h
            · split
              · intro h; cases h
              · exact ih _ _
        | err e => intro h; cases h; exact hs rfl
        | panic => intro h; cases h
        | diverge => intro h; cases h

theorem readRows_roomy (h : ∀ t cap, (cb t cap).2.Roomy) (c : Converter) (f : Frame) : ∀ (n : Nat) (it : InterlaceIter) (t : τ)
    (buf : List UInt8), (readRows c f cb n it t buf).2.2.Roomy := by
  intro n
  induction n with
  | zero => intro it t buf h; cases h
  | succ n ih =>
    intro it t buf
    rw [readRows]
    generalize it.nextRow = nr
    obtain ⟨it', row⟩ := nr
    cases row with
    | none => intro h; cases h
    | some row =>
      simp only
      split
      · generalize (buf.drop (row * c.lineLength f)).take (c.lineLength f) = line
        have hs := fillLoop_roomy h c f (line.length + 1) t line
        unfold fillBuffer
        generalize fillLoop c f cb (line.length + 1) t line = x at *
        obtain ⟨t', l, out⟩ := x
        cases out with
        | ok b =>
          cases b with
          | true => exact ih _ _ _
          | false => intro h; cases h
        | err e => intro h; cases h; exact hs rfl
        | panic => intro h; cases h
        | diverge => intro h; cases h
      · intro h; cases h

theorem readIntoBuffer_roomy (h : ∀ t cap, (cb t cap).2.Roomy) (c : Converter) (f : Frame) (t : τ) (buf : List UInt8) :
    (readIntoBuffer c f cb t buf).2.2.Roomy := by
  unfold readIntoBuffer
  split
  · exact readRows_roomy h c f _ _ t buf
  · simp only
    split
    · have hs := fillLoop_roomy h c f ((buf.take (c.bufferSize f)).length + 1) t (buf.take (c.bufferSize f))
      unfold fillBuffer
      generalize fillLoop c f cb ((buf.take (c.bufferSize f)).length + 1) t (buf.take (c.bufferSize f)) = x at *
      obtain ⟨t', l, out⟩ := x
      cases out with
      | ok b => cases b <;> (intro h; cases h)
      | err e => intro h; cases h; exact hs rfl
      | panic => intro h; cases h
      | diverge => intro h; cases h
    · intro h; cases h

end Converter

namespace Decoder

theorem nextFrameLoop_roomy : ∀ (n : Nat) (d : Decoder C), (nextFrameLoop n d).2.Roomy := by
  intro n
  induction n with
  | zero => intro d h; cases h
  | succ n ih =>
    intro d
    rw [nextFrameLoop]
    have hr := RD.decodeNext_roomy .none d.rd
    generalize d.rd.decodeNext .none = x at *
    obtain ⟨rd, out⟩ := x
    cases out with
    | ok ev =>
      cases ev with
      | none => intro h; cases h
      | some ev =>
        cases ev with
        | frameMetadata t =>
          simp only
          cases rd.sd.current with
          | none => intro h; cases h
          | some f => simp only; split <;> (intro h; cases h)
        | _ => exact ih _
    | err e => intro h; cases h; exact hr rfl
    | panic => intro h; cases h
    | diverge => intro h; cases h

theorem nextFrameInfo_roomy (d : Decoder C) : d.nextFrameInfo.2.Roomy := nextFrameLoop_roomy _ d

end Decoder

end Gif
