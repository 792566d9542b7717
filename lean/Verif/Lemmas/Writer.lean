import Verif.Model.Encoder
/-!
Every encoder function is a list of `write_all` calls followed by a result. `Emits m chunks r` says that, for every
writer, faulty or not, `m` makes exactly the calls `chunks` and then ends with `r`.
-/

namespace Gif

/-- The `write_all` calls `chunks`, one after the other, stopping at the first error. -/
def runChunks : List (List UInt8) → W Unit
  | [] => W.pure ()
  | c :: cs => W.bind (W.writeAll c) fun _ => runChunks cs

def Emits {α : Type} (m : W α) (chunks : List (List UInt8)) (r : EOut α) : Prop :=
  m = W.bind (runChunks chunks) fun _ => W.ofOut r

@[simp] theorem W.bind_eq {α β : Type} (m : W α) (k : α → W β) : (m >>= k) = W.bind m k := rfl
@[simp] theorem W.pure_eq {α : Type} (a : α) : (Pure.pure a : W α) = W.pure a := rfl

theorem W.bind_assoc {α β γ : Type} (m : W α) (k : α → W β) (l : β → W γ) :
    W.bind (W.bind m k) l = W.bind m fun a => W.bind (k a) l := by
  funext s
  unfold W.bind
  rcases m s with ⟨s', r⟩
  cases r <;> rfl

theorem W.pure_bind {α β : Type} (a : α) (k : α → W β) : W.bind (W.pure a) k = k a := rfl
theorem W.ofOut_ok {α : Type} (a : α) : W.ofOut (.ok a) = W.pure a := rfl
theorem W.bind_pure {α : Type} (m : W α) : W.bind m W.pure = m := by
  funext s
  unfold W.bind
  rcases m s with ⟨s', r⟩
  cases r <;> rfl

theorem runChunks_append (a b : List (List UInt8)) :
    runChunks (a ++ b) = W.bind (runChunks a) fun _ => runChunks b := by
  induction a with
  | nil => rfl
  | cons c cs ih => simp only [List.cons_append, runChunks, ih, W.bind_assoc]

theorem emits_pure {α : Type} (a : α) : Emits (W.pure a) [] (.ok a) := rfl
theorem emits_ofOut {α : Type} (r : EOut α) : Emits (W.ofOut r) [] r := rfl

theorem emits_writeAll (bs : List UInt8) : Emits (W.writeAll bs) [bs] (.ok ()) := by
  unfold Emits
  simp only [runChunks, W.bind_assoc, W.pure_bind, W.ofOut_ok]
  exact (W.bind_pure _).symm

theorem emits_writeU8 (b : UInt8) : Emits (W.writeU8 b) [[b]] (.ok ()) := emits_writeAll _

theorem Emits.bind {α β : Type} {m : W α} {k : α → W β} {c₁ c₂ : List (List UInt8)} {a : α} {r : EOut β}
    (h₁ : Emits m c₁ (.ok a)) (h₂ : Emits (k a) c₂ r) : Emits (W.bind m k) (c₁ ++ c₂) r := by
  unfold Emits at *
  rw [h₁, runChunks_append]
  simp only [W.bind_assoc, W.ofOut_ok, W.pure_bind, h₂]

theorem Emits.congr {α : Type} {m : W α} {c c' : List (List UInt8)} {r : EOut α} (h : Emits m c r) (e : c = c') :
    Emits m c' r := e ▸ h

theorem bufParts_ok (N : Nat) : ∀ (acc : List UInt8) (parts : List (List UInt8)),
    acc.length + parts.flatten.length ≤ N → bufParts N acc parts = .ok (acc ++ parts.flatten) := by
  intro acc parts
  induction parts generalizing acc with
  | nil => intro _; simp [bufParts]
  | cons p ps ih =>
    intro h
    simp only [List.flatten_cons, List.length_append] at h
    rw [bufParts, if_pos (by omega), ih]
    · simp
    · simp only [List.length_append]; omega

theorem emits_tmpBuf {N : Nat} {parts : List (List UInt8)} (h : parts.flatten.length = N) :
    Emits (tmpBuf N parts) [parts.flatten] (.ok ()) := by
  unfold tmpBuf
  rw [bufParts_ok N [] parts (by simp [h])]
  simp only [W.bind_eq, W.ofOut_ok, W.pure_bind, List.nil_append]
  rw [if_neg (by simp [h])]
  exact emits_writeAll _

theorem emits_writePadding (n : Nat) : Emits (writePadding n) (List.replicate n [0, 0, 0]) (.ok ()) := by
  induction n with
  | zero => exact emits_pure ()
  | succ n ih => exact (emits_writeAll [0, 0, 0]).bind ih

theorem emits_writeColorTable (t : List UInt8) (n : Nat) :
    Emits (writeColorTable t n) (t :: List.replicate n [0, 0, 0]) (.ok ()) :=
  (emits_writeAll t).bind (emits_writePadding n)

/-- Calls of `writeExtensionTo`. -/
def extChunks : ExtensionData → List (List UInt8)
  | .control flags delay trns => [[0x21], [0xF9, 4, flags, lo8 delay, hi8 delay, trns], [0]]
  | .repetitions r =>
    let n : UInt16 := match r with
      | .finite n => n
      | .infinite => 0
    [[0x21], [0xFF, 11] ++ netscapeName ++ [3, 1, lo8 n, hi8 n], [0]]

theorem emits_writeExtensionTo (x : ExtensionData) : Emits (writeExtensionTo x) (extChunks x) (.ok ()) := by
  cases x with
  | control flags delay trns =>
    exact (emits_writeU8 _).bind ((emits_tmpBuf (N := 6) (by simp [leBytes])).bind (emits_writeU8 _))
  | repetitions r =>
    exact (emits_writeU8 _).bind ((emits_tmpBuf (N := 17) (by simp [leBytes, netscapeName])).bind (emits_writeU8 _))

/-- Calls of `writeFullBlocks`. -/
def fullChunks : Nat → List UInt8 → List (List UInt8)
  | 0, _ => []
  | k + 1, data => [0xFF] :: data.take 0xFF :: fullChunks k (data.drop 0xFF)

theorem emits_writeFullBlocks (k : Nat) (data : List UInt8) :
    Emits (writeFullBlocks k data) (fullChunks k data) (.ok (data.drop (255 * k))) := by
  induction k generalizing data with
  | zero => exact emits_pure data
  | succ k ih =>
    have h := (emits_writeU8 0xFF).bind (k := fun _ => _) ((emits_writeAll (data.take 0xFF)).bind
      (k := fun _ => writeFullBlocks k (data.drop 0xFF)) (ih (data.drop 0xFF)))
    rw [List.drop_drop, show 255 + 255 * k = 255 * (k + 1) by omega] at h
    exact h

/-- The last sub-block, if any, and the terminator. -/
def lastChunks (last : List UInt8) : List (List UInt8) :=
  if last.isEmpty then [[0]] else [[UInt8.ofNat last.length], last, [0]]

/-- Sub-blocks with terminator. -/
def blockChunks (data : List UInt8) : List (List UInt8) :=
  fullChunks (data.length / 255) data ++ lastChunks (data.drop (255 * (data.length / 255)))

/-- Calls of `writeEncodedImageBlock`. -/
def imageChunks : List UInt8 → List (List UInt8)
  | [] => [2] :: blockChunks []
  | m :: data => [m] :: blockChunks data

theorem emits_last (last : List UInt8) :
    Emits (if last.isEmpty then W.writeU8 0
      else W.bind (W.writeU8 (UInt8.ofNat last.length)) fun _ => W.bind (W.writeAll last) fun _ => W.writeU8 0)
      (lastChunks last) (.ok ()) := by
  unfold lastChunks
  by_cases h : last.isEmpty = true
  · rw [if_pos h, if_pos h]
    exact emits_writeU8 0
  · rw [if_neg h, if_neg h]
    exact (emits_writeU8 _).bind (k := fun _ => _) ((emits_writeAll _).bind (k := fun _ => _) (emits_writeU8 0))

theorem emits_writeEncodedImageBlock (d : List UInt8) :
    Emits (writeEncodedImageBlock d) (imageChunks d) (.ok ()) := by
  have key : ∀ (m : UInt8) (data : List UInt8),
      Emits (W.bind (W.writeU8 m) fun _ => W.bind (writeFullBlocks (data.length / 0xFF) data) fun last =>
        if last.isEmpty then W.writeU8 0
        else W.bind (W.writeU8 (UInt8.ofNat last.length)) fun _ => W.bind (W.writeAll last) fun _ => W.writeU8 0)
      ([m] :: blockChunks data) (.ok ()) := by
    intro m data
    exact (emits_writeU8 m).bind ((emits_writeFullBlocks _ data).bind (emits_last _))
  cases d with
  | nil => exact key 2 []
  | cons m data => exact key m data

/-- Calls of `writeChunks`. -/
def subChunks : Nat → List UInt8 → List (List UInt8)
  | 0, _ => []
  | k + 1, data => [UInt8.ofNat (data.take 0xFF).length] :: data.take 0xFF :: subChunks k (data.drop 0xFF)

theorem emits_writeChunks (k : Nat) (data : List UInt8) : Emits (writeChunks k data) (subChunks k data) (.ok ()) := by
  induction k generalizing data with
  | zero => exact emits_pure ()
  | succ k ih =>
    exact (emits_writeU8 _).bind (k := fun _ => _) ((emits_writeAll _).bind (k := fun _ => _) (ih _))

/-- Calls of `writeRawBlocks`. -/
def rawChunks : List (List UInt8) → List (List UInt8)
  | [] => []
  | b :: bs => subChunks ((b.length + 0xFE) / 0xFF) b ++ rawChunks bs

theorem emits_writeRawBlocks (bs : List (List UInt8)) : Emits (writeRawBlocks bs) (rawChunks bs) (.ok ()) := by
  induction bs with
  | nil => exact emits_pure ()
  | cons b bs ih => exact (emits_writeChunks _ b).bind (k := fun _ => _) ih

/-! ## What a writer sees -/

/-- A writer that accepts everything. -/
def Sink.Working (s : Sink) : Prop := ∀ p ∈ s.plan, p = none

theorem writeAll_working (bs : List UInt8) (s : Sink) (h : s.Working) :
    ∃ s', W.writeAll bs s = (s', .ok ()) ∧ s'.written = s.written ++ bs ∧ s'.Working := by
  unfold W.writeAll
  by_cases hb : bs.isEmpty
  · rw [if_pos hb]
    exact ⟨s, rfl, by simp [List.isEmpty_iff.1 hb], h⟩
  · rw [if_neg hb]
    match hp : s.plan with
    | [] => exact ⟨_, rfl, rfl, by intro p hp'; simp at hp'⟩
    | none :: plan => exact ⟨_, rfl, rfl, fun p hp' => h p (by rw [hp]; exact List.mem_cons_of_mem _ hp')⟩
    | some x :: plan => exact absurd (h (some x) (by rw [hp]; exact List.mem_cons_self ..)) (by simp)

theorem runChunks_working (cs : List (List UInt8)) (s : Sink) (h : s.Working) :
    ∃ s', runChunks cs s = (s', .ok ()) ∧ s'.written = s.written ++ cs.flatten ∧ s'.Working := by
  induction cs generalizing s with
  | nil => exact ⟨s, rfl, by simp, h⟩
  | cons c cs ih =>
    obtain ⟨s₁, e₁, w₁, h₁⟩ := writeAll_working c s h
    obtain ⟨s₂, e₂, w₂, h₂⟩ := ih s₁ h₁
    refine ⟨s₂, ?_, by simp [w₂, w₁], h₂⟩
    simp [runChunks, W.bind, e₁, e₂]

theorem writeAll_cases (bs : List UInt8) (s : Sink) :
    (∃ s', W.writeAll bs s = (s', .ok ()) ∧ s'.written = s.written ++ bs) ∨
    (∃ s' code pre, W.writeAll bs s = (s', .err (.io (.writer code))) ∧ s'.written = s.written ++ pre ∧
      pre <+: bs ∧ pre ≠ bs ∧ ¬ s.Working) := by
  unfold W.writeAll
  by_cases hb : bs.isEmpty
  · rw [if_pos hb]
    exact .inl ⟨s, rfl, by simp [List.isEmpty_iff.1 hb]⟩
  · rw [if_neg hb]
    match hp : s.plan with
    | [] => exact .inl ⟨_, rfl, rfl⟩
    | none :: plan => exact .inl ⟨_, rfl, rfl⟩
    | some (k, code) :: plan =>
      refine .inr ⟨_, code, _, rfl, rfl, List.take_prefix _ _, ?_, ?_⟩
      · intro he
        have h1 := congrArg List.length he
        have : bs.length ≠ 0 := by simpa using hb
        simp only [List.length_take] at h1
        omega
      · intro hw
        have := hw (some (k, code)) (by rw [hp]; exact List.mem_cons_self ..)
        simp at this

/-- Whatever the writer does, it has received all calls, or a prefix of their bytes and its own error is returned. -/
theorem runChunks_cases (cs : List (List UInt8)) (s : Sink) :
    (∃ s', runChunks cs s = (s', .ok ()) ∧ s'.written = s.written ++ cs.flatten) ∨
    (∃ s' code pre, runChunks cs s = (s', .err (.io (.writer code))) ∧ s'.written = s.written ++ pre ∧
      pre <+: cs.flatten ∧ pre ≠ cs.flatten ∧ ¬ s.Working) := by
  induction cs generalizing s with
  | nil => exact .inl ⟨s, rfl, by simp⟩
  | cons c cs ih =>
    rcases writeAll_cases c s with ⟨s₁, e₁, w₁⟩ | ⟨s₁, code, pre, e₁, w₁, hp, hne, hw⟩
    · rcases ih s₁ with ⟨s₂, e₂, w₂⟩ | ⟨s₂, code, pre, e₂, w₂, hp, hne, hw⟩
      · exact .inl ⟨s₂, by simp [runChunks, W.bind, e₁, e₂], by simp [w₂, w₁]⟩
      · refine .inr ⟨s₂, code, c ++ pre, by simp [runChunks, W.bind, e₁, e₂], by simp [w₂, w₁], ?_, ?_, ?_⟩
        · obtain ⟨t, ht⟩ := hp
          exact ⟨t, by simp [← ht]⟩
        · intro h; exact hne (List.append_cancel_left h)
        · intro hs
          obtain ⟨s', e', _, hw'⟩ := writeAll_working c s hs
          rw [e₁] at e'
          cases e'
          exact hw hw'
    · refine .inr ⟨s₁, code, pre, by simp [runChunks, W.bind, e₁], w₁, hp.trans ⟨cs.flatten, rfl⟩, ?_, hw⟩
      intro h
      rw [List.flatten_cons] at h
      have h1 := hp.length_le
      have h2 := congrArg List.length h
      simp only [List.length_append] at h2
      have h3 : pre.length = c.length := by omega
      exact hne (hp.eq_of_length h3)

end Gif
