import Verif.Lemmas.Upto
/-!
Runs over a prefix of the bytes; errors that do not come from the reader.
-/

namespace Gif

namespace SD

variable {C : Codec}

/-- The result when more bytes follow. -/
def Res.app (q : List UInt8) : Res C → Res C
  | .event s acc ev rest => .event s acc ev (rest ++ q)
  | r => r

theorem eval_wf (hS : C.Safe) {m : Bool} {s s' : SD C} {acc acc' l rest : List UInt8} {ev : Decoded} {r : Res C}
    (h : Eval m s acc l r) (hr : r = .event s' acc' ev rest) (hw : WF s) : WF s' := by
  induction h with
  | nil => cases hr
  | quiet h hq ht ih => exact ih hr (tr_wf hS hw (tr_of_nextState hw.ibuf h)).1
  | event l h hq => cases hr; exact (tr_wf hS hw (tr_of_nextState hw.ibuf h)).1
  | err => cases hr

theorem eval_append (hS : C.Safe) {m : Bool} {s : SD C} {acc p : List UInt8} {r : Res C} (h : Eval m s acc p r) (hw : WF s)
    (q : List UInt8) (hr : ∀ s' acc', r ≠ .more s' acc') : Eval m s acc (p ++ q) (r.app q) := by
  induction h with
  | nil => exact absurd rfl (hr _ _)
  | @quiet s s' acc l x b n ev r h hq ht ih =>
    have hn := consumed_le hS hw h
    have := ih (tr_wf hS hw (tr_of_nextState hw.ibuf h)).1 hr
    refine .quiet h hq ?_
    rwa [← List.drop_append_of_le_length (by simp at hn ⊢; omega)] at this
  | @event s s' acc b n ev l h hq =>
    have hn := consumed_le hS hw h
    show Eval m s acc (b :: (l ++ q)) (.event s' acc ev ((b :: l).drop n ++ q))
    rw [← List.drop_append_of_le_length (by simp at hn ⊢; omega)]
    exact .event _ h hq
  | err l h => exact .err _ h

theorem upto_append (hS : C.Safe) {P : Decoded → Bool} {s : SD C} {p : List UInt8} {evs : List Decoded} {r : Res C}
    (h : Upto P s p evs r) (hw : WF s) (q : List UInt8) (hr : ∀ s' acc', r ≠ .more s' acc') :
    Upto P s (p ++ q) evs (r.app q) := by
  induction h with
  | step h hP ht _ ih =>
    exact .step (eval_append hS h hw q (by intro _ _ h; cases h)) hP ht (ih (eval_wf hS h rfl hw) hr)
  | @stop s l r h hP =>
    refine .stop (eval_append hS h hw q hr) ?_
    intro s1 a ev rest he
    cases r with
    | event => cases he; exact hP _ _ _ _ rfl
    | more => exact absurd rfl (hr _ _)
    | err => cases he

/-- Not a read error. -/
def _root_.Gif.Outcome.plain {α : Type} : Outcome α → Bool
  | .err (.io (.reader _)) => false
  | _ => true

theorem plain_err {α β : Type} {e : DecodingError} (h : (Outcome.err e : Outcome α).plain = true) :
    (Outcome.err e : Outcome β).plain = true := by
  cases e with
  | format => rfl
  | io e => cases e <;> first | rfl | cases h

theorem lzw_plain (r : LzwReader C) (inp : List UInt8) (o : OutSpec) : (r.decodeBytes inp o).2.plain = true := by
  unfold LzwReader.decodeBytes
  repeat' (first | rfl | split | dsimp only)

theorem lzw_plain' {r r' : LzwReader C} {inp : List UInt8} {o : OutSpec} {x : Outcome (Nat × List UInt8)}
    (h : r.decodeBytes inp o = (r', x)) : x.plain = true := by
  have := lzw_plain r inp o
  rwa [h] at this

theorem reset_plain (r : LzwReader C) (m : UInt8) : (r.reset m).2.plain = true := by
  unfold LzwReader.reset
  repeat' (first | rfl | split | dsimp only)

theorem control_plain (s : SD C) : (s.readControlExtension).2.plain = true := by
  unfold readControlExtension
  repeat' (first | rfl | split | dsimp only)

theorem append_plain (o : OutSpec) (l : List UInt8) (m : MemoryLimit) : (append o l m).plain = true := by
  unfold append
  repeat' (first | rfl | split | dsimp only)

theorem ensureMin_plain (s : SD C) (l : List UInt8) (n : Nat) (k : SD C → Nat → List UInt8 → StepResult C)
    (hk : ∀ s n l, (k s n l).2.plain = true) : (ensureMin s l n k).2.plain = true := by
  unfold ensureMin
  repeat' (first | rfl | exact hk _ _ _ | split | dsimp only)

/-- An error of the state machine is never a read error. -/
theorem nextState_plain (s : SD C) (l : List UInt8) (o : OutSpec) : (nextState s l o).2.plain = true := by
  unfold nextState
  split
  · rfl
  · split
    · apply ensureMin_plain
      intro s n l
      unfold onMagic goto
      repeat' (first | rfl | split | dsimp only)
    · apply ensureMin_plain
      intro s n l
      unfold onScreenDescriptor goto
      repeat' (first | rfl | split | dsimp only)
    · apply ensureMin_plain
      intro s n l
      unfold onImageBlockStart goto
      repeat' (first | rfl | split | dsimp only)
    · unfold onGlobalPalette goto
      repeat' (first | rfl | split | dsimp only)
    · unfold onBlockStart goto
      repeat' (first | rfl | split | dsimp only)
    · unfold onBlockEnd goto
      repeat' (first | rfl | split | dsimp only)
    · rfl
    · unfold onExtensionDataBlock goto
      repeat' (first | rfl | split | dsimp only)
      rename_i s1 e hx
      have := control_plain { s with extIsBlockEnd := true }
      rw [hx] at this
      exact plain_err this
    · unfold onApplicationExtension goto
      repeat' (first | rfl | split | dsimp only)
    · unfold onLocalPalette goto
      repeat' (first | rfl | split | dsimp only)
    · rename_i m _
      unfold onLzwInit goto
      repeat' (first | rfl | split | dsimp only)
      rename_i hx
      have := reset_plain s.lzw m
      rw [hx] at this
      exact plain_err this
    · unfold onCopySubBlock goto
      repeat' (first | rfl | split | dsimp only)
      rename_i hx
      exact plain_err (hx ▸ append_plain o _ s.memoryLimit)
    · unfold onDecodeSubBlock goto
      repeat' (first | rfl | split | dsimp only)
      · rename_i hx
        exact plain_err (lzw_plain' hx)
      · rename_i hx
        exact plain_err (lzw_plain' hx)
    · unfold onFrameDecoded goto
      repeat' (first | rfl | split | dsimp only)
    · rfl

theorem nextState_err_not_reader {s s' : SD C} {l : List UInt8} {o : OutSpec} {c : Nat}
    (h : nextState s l o = (s', .err (.io (.reader c)))) : False := by
  have := nextState_plain s l o
  rw [h] at this
  cases this

theorem eval_not_reader {m : Bool} {s : SD C} {acc l : List UInt8} {r : Res C} {c : Nat} (h : Eval m s acc l r)
    (hr : r = .err (.io (.reader c))) : False := by
  induction h with
  | nil => cases hr
  | quiet _ _ _ ih => exact ih hr
  | event => cases hr
  | err _ h => cases hr; exact nextState_err_not_reader h

theorem upto_not_reader {P : Decoded → Bool} {s : SD C} {l : List UInt8} {evs : List Decoded} {r : Res C} {c : Nat}
    (h : Upto P s l evs r) (hr : r = .err (.io (.reader c))) : False := by
  induction h with
  | step _ _ _ _ ih => exact ih hr
  | stop h => exact eval_not_reader h hr

end SD

namespace Reader

theorem reliable_clean {r : Reader} (h : r.Reliable) : r.Clean := by
  intro bs hb
  obtain ⟨bs', he, hne⟩ := h _ hb
  cases he
  exact hne

theorem reliable_fill {r r' : Reader} {x : Except Nat (List UInt8)} (h : r.fillBuf = (r', x)) (hr : r.Reliable)
    (buf : List UInt8) : ({ r' with buf := buf } : Reader).Reliable := by
  unfold fillBuf at h
  split at h
  · cases h; exact hr
  · split at h
    · cases h; exact hr
    · rename_i hs; cases h; exact fun b hb => hr b (by rw [hs]; exact List.mem_cons_of_mem _ hb)
    · rename_i hs; cases h; exact fun b hb => hr b (by rw [hs]; exact List.mem_cons_of_mem _ hb)

theorem reliable_no_error {r r' : Reader} {e : Nat} (hr : r.Reliable) : r.fillBuf ≠ (r', .error e) := by
  intro h
  unfold fillBuf at h
  split at h
  · cases h
  · split at h
    · cases h
    · cases h
    · rename_i hs
      obtain ⟨bs, he, _⟩ := hr _ (by rw [hs]; exact List.mem_cons_self)
      cases he

end Reader

namespace RD

variable {C : Codec}

theorem pull_reliable {o : OutSpec} {d d' : RD C} {out : Outcome (Option Decoded)} (h : Pull o d d' out)
    (hc : d.reader.Reliable) : d'.reader.Reliable := by
  have key : ∀ (r : Reader) , r = { r with buf := r.buf } := fun _ => rfl
  induction h with
  | eof => exact hc
  | readErr h hf => exact Reader.reliable_fill hf hc _
  | eos h hf => exact Reader.reliable_fill hf hc _
  | more h hf hs hp ih => exact ih (Reader.reliable_fill hf hc _)
  | event h hf => exact Reader.reliable_fill hf hc _
  | trailer h hf => exact Reader.reliable_fill hf hc _
  | err h hf => exact Reader.reliable_fill hf hc _

/-- With a reliable reader there are no read errors. -/
theorem pull_no_error {o : OutSpec} {d d' : RD C} {out : Outcome (Option Decoded)} (h : Pull o d d' out)
    (hc : d.reader.Reliable) (c : Nat) : out ≠ .err (.io (.reader c)) := by
  induction h with
  | readErr h hf => exact absurd hf (Reader.reliable_no_error hc)
  | more h hf hs hp ih => exact ih (Reader.reliable_fill hf hc _)
  | err h hf hs hn => intro he; cases he; exact SD.nextState_err_not_reader hn
  | _ => intro he; cases he

end RD

end Gif
