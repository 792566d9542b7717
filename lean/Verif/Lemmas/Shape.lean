import Verif.Lemmas.DecRun
import Verif.Spec.History
/-!
What holds of the palettes and frames that a decoder gives, whatever the file: the invariant behind C58.
-/

namespace Gif

namespace Spec

/-- The length of a colour table of the format. -/
def TableLength (n : Nat) : Prop := ∃ k, 1 ≤ k ∧ k ≤ 8 ∧ n = 3 * 2 ^ k

end Spec

namespace SD

variable {C : Codec}

theorem tableSize_length (flags : UInt8) : Spec.TableLength (tableSize flags) := by
  refine ⟨(flags &&& 0b111).toNat + 1, by omega, ?_, rfl⟩
  rw [UInt8.toNat_and]
  have : flags.toNat &&& (7 : UInt8).toNat ≤ 7 := Nat.and_le_right
  exact Nat.succ_le_succ this

/-- The frame lies within the canvas, if this is to be checked. -/
def Inside (s : SD C) (f : Frame) : Prop :=
  s.checkFrameConsistency = true → f.left.toNat + f.width.toNat ≤ s.width.toNat ∧ f.top.toNat + f.height.toNat ≤ s.height.toNat

/-- What holds of a frame of which the descriptor and the palette have been read. -/
def Framed (s : SD C) (f : Frame) : Prop := Inside s f ∧ ∀ p, f.palette = some p → Spec.TableLength p.length

/-- Per state: what holds of palettes and of the current frame. -/
def Shape (s : SD C) : Prop :=
  match s.state with
  | .globalPalette left => (s.gct = [] ∧ left = 0) ∨ Spec.TableLength (s.gct.length + left)
  | .imageBlockStart => ∀ f, s.current = some f → f.palette = none
  | .localPalette left => ∀ f, s.current = some f → Inside s f ∧
      ((f.palette = none ∧ left = 0) ∨ ∃ p, f.palette = some p ∧ Spec.TableLength (p.length + left))
  | .lzwInit _ => ∀ f, s.current = some f → Framed s f
  | .decodeSubBlock _ => ∀ f, s.current = some f → Framed s f
  | .copySubBlock _ => ∀ f, s.current = some f → Framed s f
  | .frameDecoded => ∀ f, s.current = some f → Framed s f
  | _ => True

theorem checkedSub_fits {a b c : UInt16} (h : checkedSubLt a b c = false) : c.toNat + b.toNat ≤ a.toNat := by
  unfold checkedSubLt at h
  split at h
  · rename_i hle
    have h2 : ¬ a - b < c := by simpa using h
    rw [UInt16.lt_iff_toNat_lt, UInt16.toNat_sub_of_le _ _ hle] at h2
    rw [UInt16.le_iff_toNat_le] at hle
    omega
  · cases h

theorem tr_shape {o : OutSpec} {b : UInt8} {bs : List UInt8} {s s' : SD C} {n : Nat} {ev : Decoded}
    (hw : WF s) (hsh : Shape s) (h : Tr o b bs s s' n ev) :
    Shape s' ∧ ∀ g, ev = .globalPalette g → g = [] ∨ Spec.TableLength g.length := by
  obtain ⟨_, _, _, w4⟩ := hw
  cases h with
  | collect h0 h => 
    refine ⟨?_, by simp⟩
    cases hs : s.state <;> simp [hs, required] at h0 <;> simp [Shape]
    simpa only [Shape, hs] using hsh
  | magic v hs hi hl hv => exact ⟨by simp [Shape], by simp⟩
  | screen w0 w1' h0 h1 flags bg asp hs hi hl hv =>
    simp only [stOk, hs] at w4
    obtain ⟨g1, g2, g3, g4⟩ := w4
    refine ⟨?_, by simp⟩
    split
    · right
      simp only [g1, List.length_nil, Nat.zero_add]
      exact tableSize_length flags
    · left
      exact ⟨g1, rfl⟩
  | imageHeader f l0 l1 t0 t1 w0 w1' h0 h1 flags hs hi hl hv hc hcons f' hf' =>
    simp only [stOk, hs] at w4
    simp only [Shape, hs] at hsh
    have g3 := hsh f hc
    refine ⟨?_, by simp⟩
    have hin : s.checkFrameConsistency = true → (u16le l0 l1).toNat + (u16le w0 w1').toNat ≤ s.width.toNat ∧
        (u16le t0 t1).toNat + (u16le h0 h1).toNat ≤ s.height.toNat := by
      intro hcc
      simp only [hcc, true_and, not_or, Bool.not_eq_true] at hcons
      exact ⟨checkedSub_fits hcons.1, checkedSub_fits hcons.2⟩
    split
    · simp only [Shape]
      intro g hg
      simp only [Option.some.injEq] at hg
      subst hg; subst hf'
      refine ⟨hin, .inr ⟨_, rfl, ?_⟩⟩
      simp only [g3, Option.getD_none, List.length_nil, Nat.zero_add]
      exact tableSize_length flags
    · simp only [Shape]
      intro g hg
      simp only [Option.some.injEq] at hg
      subst hg; subst hf'
      exact ⟨hin, .inl ⟨g3, trivial⟩⟩
  | gctData left hs hl =>
    simp only [stOk, hs] at w4
    simp only [Shape, hs] at hsh
    refine ⟨?_, by simp⟩
    rw [if_pos (by omega)]
    simp only [Shape]
    rcases hsh with ⟨_, h⟩ | h
    · omega
    · right
      rw [List.length_append, List.length_take, Nat.min_eq_left (Nat.min_le_right _ _), Nat.add_assoc,
        Nat.add_sub_cancel' (Nat.min_le_left _ _)]
      exact h
  | gctEnd hs =>
    simp only [Shape, hs] at hsh
    refine ⟨by simp [Shape], ?_⟩
    intro g hg
    cases hg
    rcases hsh with ⟨h, _⟩ | h
    · exact .inl h
    · exact .inr h
  | lctData left f hs hl hc =>
    simp only [stOk, hs] at w4
    simp only [Shape, hs] at hsh
    obtain ⟨g1, f0, g2, g3⟩ := w4
    rw [hc] at g2; cases g2
    obtain ⟨p, hp, hpl⟩ := g3 hl
    refine ⟨?_, by simp⟩
    obtain ⟨h1, h2⟩ := hsh f hc
    simp only [hp]
    rw [if_pos (by omega)]
    simp only [Shape]
    intro g hg
    simp only [Option.some.injEq] at hg
    subst hg
    refine ⟨h1, .inr ⟨_, rfl, ?_⟩⟩
    rcases h2 with ⟨_, h⟩ | ⟨q, hq, h⟩
    · omega
    · rw [hp] at hq; cases hq
      rw [List.length_append, List.length_take, Nat.min_eq_left (Nat.min_le_right _ _), Nat.add_assoc,
        Nat.add_sub_cancel' (Nat.min_le_left _ _)]
      exact h
  | lctEnd hs =>
    simp only [Shape, hs] at hsh
    refine ⟨?_, by simp⟩
    simp only [Shape]
    intro f hf
    obtain ⟨h1, h2⟩ := hsh f hf
    refine ⟨h1, ?_⟩
    intro p hp
    rcases h2 with ⟨h, _⟩ | ⟨q, hq, h⟩
    · rw [h] at hp; cases hp
    · rw [hp] at hq; cases hq; exact h
  | lzwPixels m lzw hs hk hr => simp only [Shape, hs] at hsh; exact ⟨hsh, by simp⟩
  | lzwSkip m hs hk hm => simp only [Shape, hs] at hsh; exact ⟨hsh, by simp⟩
  | copy left consumed copied hs hk hl ha hc => simp only [Shape, hs] at hsh; exact ⟨hsh, by simp⟩
  | copyNext hs hk hb => simp only [Shape, hs] at hsh; exact ⟨hsh, by simp⟩
  | copyEnd hs hk hb => simp only [Shape, hs] at hsh; exact ⟨hsh, by simp⟩
  | decodeSkip left hs hk hl he => simp only [Shape, hs] at hsh; exact ⟨hsh, by simp⟩
  | decode left consumed bytes lzw hs hk hl he ho hd n1 hn hc =>
    simp only [Shape, hs] at hsh
    refine ⟨hsh, ?_⟩
    intro g hg
    split at hg <;> cases hg
  | decodeNext hs hk hb => simp only [Shape, hs] at hsh; exact ⟨hsh, by simp⟩
  | decodeFlush consumed bytes lzw hs hk hb hd hne => simp only [Shape, hs] at hsh; exact ⟨hsh, by simp⟩
  | decodeEnd consumed lzw hs hk hb hd => simp only [Shape, hs] at hsh; exact ⟨hsh, by simp⟩
  | trailerLoop hs => exact ⟨hsh, by simp⟩
  | image hs hh =>
    simp only [stOk, hs] at w4
    refine ⟨?_, by simp⟩
    simp only [Shape]
    intro f hf
    unfold addFrame at hf
    cases hc : s.current with
    | none => simp [hc] at hf; subst hf; rfl
    | some g => simp [hc] at hf; subst hf; exact w4 g hc
  | _ => exact ⟨by simp [Shape], by simp⟩

theorem nextState_err_keep {o : OutSpec} {b : UInt8} {bs : List UInt8} {s s' : SD C} {e : DecodingError}
    (h : nextState s (b :: bs) o = (s', .err e)) (hi : ibufOk s) : 
    s'.width = s.width ∧ s'.height = s.height ∧ s'.gct = s.gct ∧ (s.state ≠ .imageBlockStart → s'.current = s.current) := by
  unfold nextState at h
  simp only at h
  match hs : s.state with
  | .magic =>
    simp only [hs] at h
    simp only [ibufOk, hs, required] at hi
    rw [ensureMin_eq _ _ _ _ (by simpa using hi) (by decide)] at h
    split at h
    · cases h
    · unfold onMagic goto at h
      split at h
      · cases h
      · split at h
        · cases h
        · cases h; exact ⟨rfl, rfl, rfl, fun _ => rfl⟩
  | .screenDescriptor =>
    simp only [hs] at h
    simp only [ibufOk, hs, required] at hi
    rw [ensureMin_eq _ _ _ _ (by simpa using hi) (by decide)] at h
    split at h
    · cases h
    · unfold onScreenDescriptor goto at h
      split at h
      · split at h <;> cases h
      · cases h
  | .imageBlockStart =>
    simp only [hs] at h
    simp only [ibufOk, hs, required] at hi
    rw [ensureMin_eq _ _ _ _ (by simpa using hi) (by decide)] at h
    split at h
    · cases h
    · unfold onImageBlockStart goto at h
      split at h
      · split at h
        · cases h; exact ⟨rfl, rfl, rfl, fun _ => rfl⟩
        · simp only at h
          split at h
          · cases h; exact ⟨rfl, rfl, rfl, fun hx => absurd rfl hx⟩
          · split at h <;> cases h
      · cases h
  | .globalPalette left =>
    simp only [hs] at h
    unfold onGlobalPalette goto at h
    split at h
    · simp only at h; cases h
    · cases h
  | .blockStart t =>
    simp only [hs] at h
    unfold onBlockStart goto at h
    split at h
    · cases h
    · split at h
      · cases h
      · simp only at h
        split at h
        · cases h; exact ⟨rfl, rfl, rfl, fun _ => rfl⟩
        · cases h
      · cases h
      · split at h
        · cases h
        · cases h; exact ⟨rfl, rfl, rfl, fun _ => rfl⟩
  | .blockEnd =>
    simp only [hs] at h
    unfold onBlockEnd goto at h
    split at h <;> cases h
  | .extensionBlockStart =>
    simp only [hs, goto] at h
    cases h
  | .extensionDataBlock left =>
    simp only [hs] at h
    unfold onExtensionDataBlock goto at h
    split at h
    · simp only at h
      split at h
      · cases h
      · cases h; exact ⟨rfl, rfl, rfl, fun _ => rfl⟩
    · split at h
      · simp only at h
        split at h
        · cases h
        · unfold readControlExtension at h
          split at h
          · cases h
          · rename_i hx
            cases h
            split at hx
            · cases hx
            · cases hx; exact ⟨rfl, rfl, rfl, fun _ => rfl⟩
          · cases h
          · cases h
        · cases h
      · cases h
  | .applicationExtension =>
    simp only [hs] at h
    unfold onApplicationExtension goto at h
    split at h
    · cases h
    · split at h
      · split at h <;> cases h
      · cases h
  | .localPalette left =>
    simp only [hs] at h
    unfold onLocalPalette goto at h
    split at h
    · simp only at h
      split at h
      · cases h; exact ⟨rfl, rfl, rfl, fun _ => rfl⟩
      · split at h
        · split at h <;> cases h
        · cases h
    · cases h
  | .lzwInit m =>
    simp only [hs] at h
    unfold onLzwInit goto at h
    split at h
    · split at h
      · cases h
      · rename_i hr
        cases h; exact ⟨rfl, rfl, rfl, fun _ => rfl⟩
      · cases h
      · cases h
    · split at h
      · cases h
      · cases h; exact ⟨rfl, rfl, rfl, fun _ => rfl⟩
  | .copySubBlock left =>
    simp only [hs] at h
    unfold onCopySubBlock goto at h
    split at h
    · cases h
    · split at h
      · simp only at h
        split at h
        · split at h <;> cases h
        · cases h; exact ⟨rfl, rfl, rfl, fun _ => rfl⟩
        · cases h
        · cases h
      · split at h <;> cases h
  | .decodeSubBlock left =>
    simp only [hs] at h
    unfold onDecodeSubBlock goto at h
    split at h
    · cases h
    · split at h
      · simp only at h
        split at h
        · cases h
        · split at h
          · rename_i lzw consumed bytes hd
            revert h
            generalize (if consumed = 0 ∧ bytes.length = 0 then min left (b :: bs).length else consumed) = x
            intro h
            split at h <;> cases h
          · rename_i hd
            cases h; exact ⟨rfl, rfl, rfl, fun _ => rfl⟩
          · cases h
          · cases h
      · split at h
        · cases h
        · split at h
          · simp only at h; split at h <;> cases h
          · rename_i hd
            cases h; exact ⟨rfl, rfl, rfl, fun _ => rfl⟩
          · cases h
          · cases h
  | .frameDecoded =>
    simp only [hs] at h
    unfold onFrameDecoded goto at h
    simp only at h
    split at h <;> cases h
  | .trailer =>
    simp only [hs, goto] at h
    cases h

/-- A refused image descriptor leaves the palette alone. -/
theorem image_err_palette {o : OutSpec} {b : UInt8} {bs : List UInt8} {s s' : SD C} {e : DecodingError}
    (hs : s.state = .imageBlockStart) (h : nextState s (b :: bs) o = (s', .err e)) (hi : ibufOk s) :
    ∀ g, s'.current = some g → ∃ f, s.current = some f ∧ g.palette = f.palette := by
  unfold nextState at h
  simp only [hs] at h
  simp only [ibufOk, hs, required] at hi
  rw [ensureMin_eq _ _ _ _ (by simpa using hi) (by decide)] at h
  split at h
  · cases h
  · unfold onImageBlockStart goto at h
    split at h
    · split at h
      · cases h; intro g hg; exact ⟨g, hg, rfl⟩
      · rename_i f hf
        simp only at h
        split at h
        · cases h
          intro g hg
          simp only [Option.some.injEq] at hg
          subst hg
          exact ⟨f, hf, rfl⟩
        · split at h <;> cases h
    · cases h

theorem err_shape {o : OutSpec} {b : UInt8} {bs : List UInt8} {s s' : SD C} {e : DecodingError} (hw : WF s) (hsh : Shape s)
    (hst : s'.state = s.state) (h : nextState s (b :: bs) o = (s', .err e)) : Shape s' := by
  obtain ⟨h1, h2, h3, h4⟩ := nextState_err_keep h hw.ibuf
  have h5 := nextState_err_opts h hw.ibuf
  have h6 : s'.checkFrameConsistency = s.checkFrameConsistency := by
    simp only [opts, Prod.mk.injEq] at h5; exact h5.2.1
  unfold Shape Framed Inside at *
  rw [hst, h1, h2, h3, h6]
  by_cases him : s.state = .imageBlockStart
  · simp only [him] at hsh ⊢
    intro g hg
    obtain ⟨f, hf, he⟩ := image_err_palette him h hw.ibuf g hg
    rw [he]; exact hsh f hf
  cases hs : s.state <;> simp only [hs] at hsh ⊢ <;> first | exact hsh | exact absurd hs him | (rw [h4 (by simp [hs])]; exact hsh)

/-- The screen descriptor has been read. -/
def Past (w h : UInt16) (s : SD C) : Prop :=
  s.state ≠ .magic ∧ s.state ≠ .screenDescriptor ∧ s.width = w ∧ s.height = h

theorem tr_past {w h : UInt16} {o : OutSpec} {b : UInt8} {bs : List UInt8} {s s' : SD C} {n : Nat} {ev : Decoded}
    (hp : Past w h s) (ht : Tr o b bs s s' n ev) : Past w h s' := by
  obtain ⟨h1, h2, h3, h4⟩ := hp
  cases ht with
  | collect => exact ⟨h1, h2, h3, h4⟩
  | magic v hs => exact absurd hs h1
  | screen w0 w1' h0 h1 flags bg asp hs => exact absurd hs h2
  | imageHeader => split <;> exact ⟨by simp, by simp, h3, h4⟩
  | gctData => split <;> exact ⟨by simp, by simp, h3, h4⟩
  | image => 
    refine ⟨by simp, by simp, ?_, ?_⟩ <;> simp only [addFrame] <;> split <;> assumption
  | lctData => split <;> (try split) <;> exact ⟨by simp, by simp, h3, h4⟩
  | trailerLoop => exact ⟨h1, h2, h3, h4⟩
  | _ => exact ⟨by simp, by simp, h3, h4⟩

theorem err_past {w h : UInt16} {o : OutSpec} {b : UInt8} {bs : List UInt8} {s s' : SD C} {e : DecodingError} (hw : WF s)
    (hp : Past w h s) (hst : s'.state = s.state) (he : nextState s (b :: bs) o = (s', .err e)) : Past w h s' := by
  obtain ⟨h1, h2, h3, h4⟩ := nextState_err_keep he hw.ibuf
  obtain ⟨p1, p2, p3, p4⟩ := hp
  exact ⟨by rw [hst]; exact p1, by rw [hst]; exact p2, h1.trans p3, h2.trans p4⟩

theorem tr_headerEnd {o : OutSpec} {b : UInt8} {bs : List UInt8} {s s' : SD C} {n : Nat} (h : Tr o b bs s s' n .headerEnd) :
    ∃ t, s'.state = .blockStart t := by
  generalize hev : Decoded.headerEnd = ev at h
  cases h with
  | headerEnd t hs hh ht => exact ⟨t, rfl⟩
  | decode => split at hev <;> cases hev
  | _ => cases hev

/-- A property of states that every step keeps. -/
structure Keeps (P : SD C → Prop) : Prop where
  tr : ∀ {o : OutSpec} {b : UInt8} {bs : List UInt8} {s s' : SD C} {n : Nat} {ev : Decoded}, WF s → P s → Tr o b bs s s' n ev → P s'
  err : ∀ {o : OutSpec} {b : UInt8} {bs : List UInt8} {s s' : SD C} {e : DecodingError}, WF s → P s → s'.state = s.state →
    nextState s (b :: bs) o = (s', .err e) → P s'

theorem keeps_shape : Keeps (C := C) Shape := ⟨fun hw hs h => (tr_shape hw hs h).1, fun hw hs hst h => err_shape hw hs hst h⟩

theorem keeps_past (w h : UInt16) : Keeps (C := C) (Past w h) := ⟨fun _ hs h => tr_past hs h, fun hw hs hst h => err_past hw hs hst h⟩

theorem Keeps.and {P Q : SD C → Prop} (hP : Keeps P) (hQ : Keeps Q) : Keeps fun s => P s ∧ Q s :=
  ⟨fun hw hs h => ⟨hP.tr hw hs.1 h, hQ.tr hw hs.2 h⟩, fun hw hs hst h => ⟨hP.err hw hs.1 hst h, hQ.err hw hs.2 hst h⟩⟩

theorem steps_keep (hS : C.Safe) {P : SD C → Prop} (hP : Keeps P) {o : OutSpec} {s s' : SD C} {l l' : List UInt8} (h : Steps o s l s' l')
    (hw : WF s) (hl : Look s l) (hs : P s) : P s' := by
  induction h with
  | refl => exact hs
  | @step s s1 s' b bs l' n h _ ih =>
    have htr := tr_of_nextState hw.ibuf h
    obtain ⟨x1, x2, x3⟩ := tr_wf hS hw htr
    exact ih x1 x2 (hP.tr hw hs htr)

end SD

namespace RD

variable {C : Codec}

theorem pull_keep (hS : C.Safe) {P : SD C → Prop} (hP : SD.Keeps P) {o : OutSpec} {d d' : RD C} {out : Outcome (Option Decoded)}
    (h : Pull o d d' out) (hi : Inv d) (hd : P d.sd) : P d'.sd := by
  induction h with
  | eof => exact hd
  | readErr => exact hd
  | eos => exact hd
  | @more d d' r b bs s1 out h hf hs hp ih =>
    have hlk := look_fill hi h hf
    obtain ⟨w1, w2, w3, w4⟩ := SD.steps_wf hS hs hi.wf hlk
    exact ih ⟨w1, fun _ => w2, fun _ => w4 (hi.live h)⟩ (SD.steps_keep hS hP hs hi.wf hlk hd)
  | @event d r b b1 bs bs1 s1 s' n ev h hf hs hn hev hev' =>
    have hlk := look_fill hi h hf
    obtain ⟨w1, w2, w3, w4⟩ := SD.steps_wf hS hs hi.wf hlk
    exact hP.tr w1 (SD.steps_keep hS hP hs hi.wf hlk hd) (SD.tr_of_nextState w1.ibuf hn)
  | @trailer d r b b1 bs bs1 s1 s' n h hf hs hn =>
    have hlk := look_fill hi h hf
    obtain ⟨w1, w2, w3, w4⟩ := SD.steps_wf hS hs hi.wf hlk
    exact hP.tr w1 (SD.steps_keep hS hP hs hi.wf hlk hd) (SD.tr_of_nextState w1.ibuf hn)
  | @err d r b b1 bs bs1 s1 s' e h hf hs hn =>
    have hlk := look_fill hi h hf
    obtain ⟨w1, w2, w3, w4⟩ := SD.steps_wf hS hs hi.wf hlk
    rcases SD.nextState_cases hS w1 w2 hn with ⟨_, _, h', _⟩ | ⟨_, x1, x2, x3⟩
    · cases h'
    · exact hP.err w1 (SD.steps_keep hS hP hs hi.wf hlk hd) x3 hn

/-- What an event says about the state before it. -/
theorem pull_last_keep (hS : C.Safe) {P : SD C → Prop} (hP : SD.Keeps P) {o : OutSpec} {d d' : RD C} {out : Outcome (Option Decoded)}
    {ev : Decoded} (h : Pull o d d' out) (hi : Inv d) (hd : P d.sd) (hout : out = .ok (some ev)) :
    ∃ s1 b bs n, SD.WF s1 ∧ P s1 ∧ SD.Tr o b bs s1 d'.sd n ev := by
  induction h with
  | eof => cases hout
  | readErr => cases hout
  | eos => cases hout
  | @more d d' r b bs s1 out h hf hs hp ih =>
    have hlk := look_fill hi h hf
    obtain ⟨w1, w2, w3, w4⟩ := SD.steps_wf hS hs hi.wf hlk
    exact ih ⟨w1, fun _ => w2, fun _ => w4 (hi.live h)⟩ (SD.steps_keep hS hP hs hi.wf hlk hd) hout
  | @event d r b b1 bs bs1 s1 s' n ev h hf hs hn hev hev' =>
    cases hout
    have hlk := look_fill hi h hf
    obtain ⟨w1, w2, w3, w4⟩ := SD.steps_wf hS hs hi.wf hlk
    exact ⟨s1, b1, bs1, n, w1, SD.steps_keep hS hP hs hi.wf hlk hd, SD.tr_of_nextState w1.ibuf hn⟩
  | trailer => cases hout
  | err => cases hout

theorem decodeNextBytes_keep (hS : C.Safe) {P : SD C → Prop} (hP : SD.Keeps P) :
    (decodeNextBytes (C := C)).Good fun d => Inv d ∧ P d.sd := by
  intro d cap hi
  obtain ⟨g1, g2, g3⟩ := decodeNextBytes_good hS d cap hi.1
  refine ⟨⟨g1, ?_⟩, g2, g3⟩
  have hp := decodeNext_pull hS (.slice cap) d hi.1
  have := pull_keep hS hP hp hi.1 hi.2
  unfold decodeNextBytes
  generalize hx : d.decodeNext (.slice cap) = x at *
  obtain ⟨d', out⟩ := x
  cases out with
  | ok ev =>
    cases ev with
    | none => exact this
    | some ev => cases ev <;> exact this
  | err e => exact this
  | panic => exact this
  | diverge => exact this

end RD

end Gif
