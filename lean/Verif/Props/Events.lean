import Verif.Lemmas.Trace
import Verif.Props.Streaming
import Verif.Props.Chunks
import Verif.Ref.Lawful
/-!
# C61, C62: what a streaming decoder tells does not depend on the slices; its accessors
-/

namespace Gif

variable {C : Codec}

namespace SD

/-- Of two runs over the same bytes one tells what the other tells, and maybe more. -/
theorem trace_order {s s1 s2 : SD C} {l l1 l2 : List UInt8} {e1 e2 : List Decoded} (h1 : Trace s l e1 s1 l1)
    (h2 : Trace s l e2 s2 l2) : e1 <+: e2 ∨ e2 <+: e1 := by
  induction h1 generalizing e2 with
  | quiet => exact .inl (List.nil_prefix)
  | @event s s1 s' l l1 l' ev evs h ht ih =>
    cases h2 with
    | quiet => exact .inr (List.nil_prefix)
    | @event _ s1' _ _ l1' _ ev' evs' h' ht' =>
      have := eval_det h h'
      simp only [Res.event.injEq] at this
      obtain ⟨rfl, _, rfl, rfl⟩ := this
      exact (ih ht').imp (fun h => by simpa using h) (fun h => by simpa using h)

/-- How a run ends if it cannot go on: at the end of the bytes, or with an error. -/
theorem trace_end {s s1 s2 : SD C} {l l1 l2 : List UInt8} {e1 e2 : List Decoded} {r1 r2 : Res C} (h1 : Trace s l e1 s1 l1)
    (h2 : Trace s l e2 s2 l2) (q1 : Eval false s1 [] l1 r1) (q2 : Eval false s2 [] l2 r2)
    (n1 : ∀ s acc ev l, r1 ≠ .event s acc ev l) (n2 : ∀ s acc ev l, r2 ≠ .event s acc ev l) :
    e1 = e2 ∧ r1 = r2 := by
  induction h1 generalizing e2 with
  | quiet h =>
    cases h2 with
    | quiet h' => exact ⟨rfl, eval_det (h _ q1) (h' _ q2)⟩
    | event h' ht' => exact absurd (eval_det (h _ q1) h') (n1 _ _ _ _)
  | @event s s1 s' l l1 l' ev evs h ht ih =>
    cases h2 with
    | quiet h' => exact absurd (eval_det (h' _ q2) h) (n2 _ _ _ _)
    | @event _ s1' _ _ l1' _ ev' evs' h' ht' =>
      have := eval_det h h'
      simp only [Res.event.injEq] at this
      obtain ⟨rfl, _, rfl, rfl⟩ := this
      obtain ⟨i1, i2⟩ := ih ht' q1
      exact ⟨by rw [i1], i2⟩

theorem hits_det {s s1 s2 : SD C} {l l1 l2 : List UInt8} {evs : List Decoded} (h1 : Hits s l evs s1 l1) (h2 : Hits s l evs s2 l2) :
    s1 = s2 ∧ l1 = l2 := by
  induction h1 with
  | nil => cases h2; exact ⟨rfl, rfl⟩
  | @event s s1 s' l l1 l' ev evs h ht ih =>
    cases h2 with
    | @event _ s1' _ _ l1' _ _ _ h' ht' =>
      have := eval_det h h'
      simp only [Res.event.injEq] at this
      obtain ⟨rfl, _, _, rfl⟩ := this
      exact ih ht'

end SD

namespace Props

open SD

/-- C61: two programs that feed the same bytes in different slices are told the same events in the same order, one of them
maybe more, if it has come further. -/
theorem events_slices (hS : C.Safe) (o : DecodeOptions) {l l1 l2 : List UInt8} {cs1 cs2 : List UpdateCall} {s1 s2 : SD C}
    (h1 : Reading (withOptions C o) l cs1 s1 l1) (h2 : Reading (withOptions C o) l cs2 s2 l2) :
    told cs1 <+: told cs2 ∨ told cs2 <+: told cs1 := by
  have hl : Look (withOptions C o) l := fun h => by cases h
  exact trace_order (reading_trace hS h1 (wf_withOptions o) hl).1 (reading_trace hS h2 (wf_withOptions o) hl).1

/-- How reading ends if it cannot go on, other than with the trailer: all bytes are consumed, or a call fails. -/
inductive Final (s : SD C) : List UInt8 → Option DecodingError → Prop
  | all : Final s [] none
  | fails {slice rest : List UInt8} {e : DecodingError} (hne : slice ≠ []) (h : (s.update slice .none).2 = .err e) :
      Final s (slice ++ rest) (some e)

/-- A call that fails, as part of a run. -/
theorem call_error (hS : C.Safe) {s : SD C} {slice rest : List UInt8} {e : DecodingError} (hw : WF s)
    (hl : Look s (slice ++ rest)) (hne : slice ≠ []) (ht : s.state ≠ .trailer)
    (h : (s.update slice .none).2 = .err e) : Eval false s [] (slice ++ rest) (.err e) := by
  have hlk : Look s slice := by
    intro hp
    obtain ⟨t, ht'⟩ := hl hp
    cases slice with
    | nil => exact absurd rfl hne
    | cons b bs => rw [List.cons_append, List.cons.injEq] at ht'; exact ⟨bs, by rw [ht'.1]⟩
  obtain ⟨s0, l0, hs, he⟩ := update_cases hS .none s slice hw hlk ht
  obtain ⟨w1, w2, w3, w4⟩ := steps_wf hS hs hw hlk
  rw [h] at he
  generalize (s.update slice .none).1 = u at he
  cases he with
  | @err b bs _ e hstep =>
    exact eval_steps hS (m := false) (acc := []) hs hw hlk rest
      ((eval_step hS false _ s0 [] b bs (Nat.le_refl _) w1 rest).2.2 _ _ hstep)

theorem trailer_no_error {s : SD C} (hs : s.state = .trailer) {slice : List UInt8} (hne : slice ≠ []) :
    (s.update slice .none).2 = .diverge := by
  have key : ∀ (len fuel : Nat) (s : SD C), s.state = .trailer → (updateLoop len .none fuel s slice).2 = .diverge := by
    intro len fuel
    induction fuel with
    | zero => intro s _; cases slice with
      | nil => exact absurd rfl hne
      | cons => rfl
    | succ fuel ih =>
      intro s hs
      cases slice with
      | nil => exact absurd rfl hne
      | cons b bs =>
        rw [updateLoop]
        have : nextState s (b :: bs) .none = (s, .ok (0, .nothing)) := by
          rcases s with ⟨⟩
          simp only at hs
          subst hs
          rfl
        rw [this]
        exact ih s hs
  exact key _ _ s hs

/-- C61: if both can go no further, they were told the same, and they got the same error or both had all bytes consumed. -/
theorem events_slices_final (hS : C.Safe) (o : DecodeOptions) {l l1 l2 : List UInt8} {cs1 cs2 : List UpdateCall} {s1 s2 : SD C}
    {e1 e2 : Option DecodingError} (h1 : Reading (withOptions C o) l cs1 s1 l1) (h2 : Reading (withOptions C o) l cs2 s2 l2)
    (f1 : Final s1 l1 e1) (f2 : Final s2 l2 e2) : told cs1 = told cs2 ∧ e1 = e2 := by
  have hl : Look (withOptions C o) l := fun h => by cases h
  have fin : ∀ {s' : SD C} {l' : List UInt8} {e : Option DecodingError}, WF s' → Look s' l' → Final s' l' e →
      ∃ r, Eval false s' [] l' r ∧ (∀ s acc ev l, r ≠ .event s acc ev l) ∧
        (match e with | none => ∃ s acc, r = .more s acc | some e => r = .err e) := by
    intro s' l' e hw hl hf
    cases hf with
    | all => exact ⟨_, .nil _ _, fun _ _ _ _ h => (by cases h), ⟨_, _, rfl⟩⟩
    | fails hne h =>
      have ht : s'.state ≠ .trailer := by
        intro ht
        rw [trailer_no_error ht hne] at h
        cases h
      exact ⟨_, call_error hS hw hl hne ht h, fun _ _ _ _ h => (by cases h), rfl⟩
  obtain ⟨t1, w1, k1, _⟩ := reading_trace hS h1 (wf_withOptions o) hl
  obtain ⟨t2, w2, k2, _⟩ := reading_trace hS h2 (wf_withOptions o) hl
  obtain ⟨r1, a1, a2, a3⟩ := fin w1 k1 f1
  obtain ⟨r2, b1, b2, b3⟩ := fin w2 k2 f2
  obtain ⟨ht, rfl⟩ := trace_end t1 t2 a1 b1 a2 b2
  refine ⟨ht, ?_⟩
  cases e1 with
  | none =>
    obtain ⟨s, acc, rfl⟩ := a3
    cases e2 with
    | none => rfl
    | some e => cases b3
  | some e =>
    simp only at a3
    subst a3
    cases e2 with
    | none => obtain ⟨_, _, h⟩ := b3; cases h
    | some e' => simp only [Res.err.injEq] at b3; rw [b3]

/-- C61: when both have just been told the same, everything they can ask the decoder for is the same: version, size, extension
data, and the current frame. And they have consumed the same bytes. -/
theorem state_slices (hS : C.Safe) (o : DecodeOptions) {l l1 l2 : List UInt8} {cs1 cs2 : List UpdateCall} {s1 s2 : SD C}
    (h1 : Reading (withOptions C o) l cs1 s1 l1) (h2 : Reading (withOptions C o) l cs2 s2 l2)
    (t1 : ∀ c ∈ cs1.getLast?, ∃ ev, c.event = some ev ∧ ev.telling = true)
    (t2 : ∀ c ∈ cs2.getLast?, ∃ ev, c.event = some ev ∧ ev.telling = true) (h : told cs1 = told cs2) :
    l1 = l2 ∧ s1.version = s2.version ∧ s1.width = s2.width ∧ s1.height = s2.height ∧ s1.lastExt = s2.lastExt ∧
      s1.current = s2.current := by
  have hl : Look (withOptions C o) l := fun h => by cases h
  have a := reading_hits hS h1 (wf_withOptions o) hl t1
  have b := reading_hits hS h2 (wf_withOptions o) hl t2
  rw [h] at a
  obtain ⟨rfl, rfl⟩ := hits_det a b
  exact ⟨rfl, rfl, rfl, rfl, rfl, rfl⟩

/-! ## C62: version and size -/

/-- The bytes that were consumed. -/
def used (calls : List UpdateCall) : List UInt8 := calls.flatMap fun c => c.slice.take c.consumed

/-- The version that a signature stands for. -/
def versionOf (sig : List UInt8) : Version := if sig = [0x47, 0x49, 0x46, 0x38, 0x39, 0x61] then .v89a else .v87a

/-- Width and height in the bytes of a file, as far as the screen descriptor is there. -/
def sizeIn : List UInt8 → UInt16 × UInt16
  | w0 :: w1 :: h0 :: h1 :: _ :: _ :: _ :: _ =>
    (UInt16.ofNat (w0.toNat + 256 * w1.toNat), UInt16.ofNat (h0.toNat + 256 * h1.toNat))
  | _ => (0, 0)

/-- What the accessors show after the bytes `u`. -/
def Shows (s : SD C) (u : List UInt8) : Prop :=
  match s.state with
  | .magic => u = s.ibuf ∧ u.length < 6 ∧ s.version = .v87a ∧ (s.width, s.height) = (0, 0)
  | .screenDescriptor => ∃ sig, (sig = magic87a ∨ sig = magic89a) ∧ u = sig ++ s.ibuf ∧ s.ibuf.length < 7 ∧
      s.version = versionOf sig ∧ (s.width, s.height) = (0, 0)
  | _ => ∃ sig t, (sig = magic87a ∨ sig = magic89a) ∧ u = sig ++ t ∧ 7 ≤ t.length ∧ s.version = versionOf sig ∧
      (s.width, s.height) = sizeIn t

theorem sizeIn_append (t x : List UInt8) (h : 7 ≤ t.length) : sizeIn (t ++ x) = sizeIn t := by
  match t, h with
  | [], h | [_], h | [_, _], h | [_, _, _], h | [_, _, _, _], h | [_, _, _, _, _], h | [_, _, _, _, _, _], h => simp at h
  | _ :: _ :: _ :: _ :: _ :: _ :: _ :: _, _ => rfl

theorem shows_step {o : OutSpec} {b : UInt8} {bs : List UInt8} {s s' : SD C} {n : Nat} {ev : Decoded} {u : List UInt8}
    (hs : Shows s u) (h : Tr o b bs s s' n ev) : Shows s' (u ++ (b :: bs).take n) := by
  have past : ∀ {s' : SD C}, s'.version = s.version → s'.width = s.width → s'.height = s.height →
      s.state ≠ .magic → s.state ≠ .screenDescriptor → s'.state ≠ .magic → s'.state ≠ .screenDescriptor →
      Shows s' (u ++ (b :: bs).take n) := by
    intro s' e1 e2 e3 n1 n2 n3 n4
    have hs' : ∃ sig t, (sig = magic87a ∨ sig = magic89a) ∧ u = sig ++ t ∧ 7 ≤ t.length ∧ s.version = versionOf sig ∧
        (s.width, s.height) = sizeIn t := by
      unfold Shows at hs
      split at hs
      · exact absurd ‹_› n1
      · exact absurd ‹_› n2
      · exact hs
    obtain ⟨sig, t, k1, k2, k3, k4, k5⟩ := hs'
    unfold Shows
    split
    · exact absurd ‹_› n3
    · exact absurd ‹_› n4
    · refine ⟨sig, t ++ (b :: bs).take n, k1, by rw [k2, List.append_assoc], by rw [List.length_append]; omega, by rw [e1, k4], ?_⟩
      rw [sizeIn_append _ _ k3, e2, e3, k5]
  cases h with
  | collect h0 h =>
    have hst := hs
    unfold Shows at hst
    rw [List.take_length]
    cases hstate : s.state with
    | magic =>
      rw [hstate] at hst h
      obtain ⟨k1, k2, k3⟩ := hst
      unfold Shows
      exact ⟨by rw [k1], by rw [k1, List.length_append]; exact h, k3⟩
    | screenDescriptor =>
      rw [hstate] at hst h
      obtain ⟨sig, k1, k2, k3, k4⟩ := hst
      unfold Shows
      exact ⟨sig, k1, by rw [k2, List.append_assoc], by rw [List.length_append]; exact h, k4⟩
    | imageBlockStart =>
      have := past (s' := { s with ibuf := s.ibuf ++ (b :: bs), state := .imageBlockStart }) rfl rfl rfl (by simp [hstate])
        (by simp [hstate]) (by simp) (by simp)
      rw [List.take_length] at this
      exact this
    | _ => rw [hstate] at h0; simp [required] at h0
  | magic v hst hi hl hv =>
    unfold Shows at hs
    rw [hst] at hs
    obtain ⟨k1, k2, k3, k4⟩ := hs
    unfold Shows
    cases v with
    | v87a => exact ⟨magic87a, .inl rfl, by rw [k1, List.append_nil]; exact hv, by simp, rfl, k4⟩
    | v89a => exact ⟨magic89a, .inr rfl, by rw [k1, List.append_nil]; exact hv, by simp, rfl, k4⟩
  | screen w0 w1 h0 h1 flags bg asp hst hi hl hv =>
    unfold Shows at hs
    rw [hst] at hs
    obtain ⟨sig, k1, k2, k3, k4, k5⟩ := hs
    have e1 : ∀ a b : UInt8, u16le a b = UInt16.ofNat (a.toNat + 256 * b.toNat) := by
      intro a b
      simp only [u16le]
    have key : ∃ sig t, (sig = magic87a ∨ sig = magic89a) ∧ u ++ (b :: bs).take (7 - s.ibuf.length) = sig ++ t ∧ 7 ≤ t.length ∧
        s.version = versionOf sig ∧ (u16le w0 w1, u16le h0 h1) = sizeIn t :=
      ⟨sig, [w0, w1, h0, h1, flags, bg, asp], k1, by rw [k2, List.append_assoc, hv], by simp, k4, by
        simp only [sizeIn, e1]⟩
    unfold Shows
    by_cases hf : flags &&& 0x80 ≠ 0
    · simp only [if_pos hf]; exact key
    · simp only [if_neg hf]; exact key
  | imageHeader f l0 l1 t0 t1 w0 w1 h0 h1 flags hst hi hl hv hc hcons f' hf' =>
    split <;> exact past rfl rfl rfl (by simp [hst]) (by simp [hst]) (by simp) (by simp)
  | gctData left hst hl => split <;> exact past rfl rfl rfl (by simp [hst]) (by simp [hst]) (by simp) (by simp)
  | lctData left f hst hl hc =>
    split
    · split <;> exact past rfl rfl rfl (by simp [hst]) (by simp [hst]) (by simp) (by simp)
    · exact past rfl rfl rfl (by simp [hst]) (by simp [hst]) (by simp) (by simp)
  | image hst hh =>
    refine past ?_ ?_ ?_ (by simp [hst]) (by simp [hst]) (by simp) (by simp) <;>
      (simp only [addFrame]; split <;> rfl)
  | trailerLoop hst => exact past rfl rfl rfl (by simp [hst]) (by simp [hst]) (by simp [hst]) (by simp [hst])
  | _ => exact past rfl rfl rfl (by simp [*]) (by simp [*]) (by simp) (by simp)

theorem shows_steps (hS : C.Safe) {o : OutSpec} {s s' : SD C} {l l' u : List UInt8} (h : Steps o s l s' l') (hw : WF s)
    (hs : Shows s u) : ∃ x, l = x ++ l' ∧ Shows s' (u ++ x) := by
  induction h generalizing u with
  | refl => exact ⟨[], rfl, by simpa using hs⟩
  | @step s s1 s' b bs l' n h ht ih =>
    have hx := tr_of_nextState hw.ibuf h
    obtain ⟨x, hx1, hx2⟩ := ih (tr_wf hS hw hx).1 (shows_step hs hx)
    refine ⟨(b :: bs).take n ++ x, ?_, by simpa using hx2⟩
    rw [List.append_assoc, ← hx1, List.take_append_drop]

theorem shows_update (hS : C.Safe) {o : OutSpec} {s s' : SD C} {slice u : List UInt8} {n : Nat} {ev : Decoded} (hw : WF s)
    (hl : Look s slice) (ht : s.state ≠ .trailer) (hs : Shows s u) (h : s.update slice o = (s', .ok (n, ev))) :
    Shows s' (u ++ slice.take n) := by
  obtain ⟨s0, l0, hst, he⟩ := update_cases hS o s slice hw hl ht
  obtain ⟨x, rfl, hx⟩ := shows_steps hS hst hw hs
  have hw0 := (steps_wf hS hst hw hl).1
  rw [h] at he
  simp only at he
  generalize hr : Outcome.ok (n, ev) = res at he
  cases he with
  | all =>
    simp only [Outcome.ok.injEq, Prod.mk.injEq] at hr
    obtain ⟨rfl, rfl⟩ := hr
    rw [List.append_nil] at *
    rw [List.take_length]
    exact hx
  | @event b bs _ n' ev' hstep hev =>
    simp only [Outcome.ok.injEq, Prod.mk.injEq] at hr
    obtain ⟨rfl, rfl⟩ := hr
    have := shows_step hx (tr_of_nextState hw0.ibuf hstep)
    rw [List.append_assoc] at this
    have hlen : (x ++ b :: bs).length - ((b :: bs).drop n').length = x.length + min n' (b :: bs).length := by
      rw [List.length_append, List.length_drop]
      omega
    rw [hlen, List.take_length_add_append]
    have htake : (b :: bs).take (min n' (b :: bs).length) = (b :: bs).take n' := by
      rw [← List.take_take, List.take_length]
    rw [htake]
    exact this
  | err => cases hr

theorem shows_calls (hS : C.Safe) {s s' : SD C} {calls : List UpdateCall} {u : List UInt8} (h : Calls s calls s') (hw : WF s)
    (hok : ∀ c ∈ calls, ∃ x, c.result = .ok x) (hs : Shows s u) : Shows s' (u ++ used calls) := by
  induction h generalizing u with
  | nil => simpa [used] using hs
  | @cons s s' calls slice out hr h ih =>
    obtain ⟨⟨n, ev⟩, hx⟩ := hok _ List.mem_cons_self
    simp only at hx
    have hw1 : WF (s.update slice out).1 := by
      rcases SD.update_spec hS out s slice hw hr with ⟨_, _, _, h2, _⟩ | ⟨_, _, h2, _⟩ <;> exact h2
    have key : Shows (s.update slice out).1 (u ++ slice.take n) := by
      match slice, hx with
      | [], hx => rw [SD.update_nil] at *; simpa using hs
      | b :: bs, hx =>
        rcases SD.update_any hS out s b bs hw with ⟨_, h'⟩ | ⟨h', _⟩ | ⟨ht, hl, _⟩
        · rw [h'] at hx; cases hx
        · rw [h'] at hx; cases hx
        · exact shows_update hS hw hl ht hs (Prod.ext rfl hx)
    have := ih hw1 (fun c hc => hok c (List.mem_cons_of_mem _ hc)) key
    rw [List.append_assoc] at this
    simpa [used, UpdateCall.consumed, hx] using this

/-- C62: after any calls that succeeded, `version`, `width` and `height` show what is written in the bytes consumed: the
version of the signature, GIF87a until it is read; the size in the screen descriptor, zero until it is read. And bytes that do
not begin with a signature are not consumed. -/
theorem header_accessors (hS : C.Safe) {o : DecodeOptions} {calls : List UpdateCall} {s : SD C} (h : History o calls s)
    (hok : ∀ c ∈ calls, ∃ x, c.result = .ok x) :
    s.version = versionOf ((used calls).take 6) ∧ (s.width, s.height) = sizeIn ((used calls).drop 6) ∧
    (6 ≤ (used calls).length → (used calls).take 6 = [0x47, 0x49, 0x46, 0x38, 0x37, 0x61] ∨
      (used calls).take 6 = [0x47, 0x49, 0x46, 0x38, 0x39, 0x61]) := by
  have hs := shows_calls hS h (wf_withOptions o) hok (u := []) ⟨rfl, by simp, rfl, rfl⟩
  rw [List.nil_append] at hs
  have short : ∀ t : List UInt8, t.length < 7 → sizeIn t = (0, 0) := by
    intro t ht
    unfold sizeIn
    split
    · simp only [List.length_cons] at ht; omega
    · rfl
  generalize used calls = u at *
  unfold Shows at hs
  split at hs
  · obtain ⟨_, h1, h2, h3⟩ := hs
    refine ⟨?_, ?_, fun h => by omega⟩
    · rw [h2, versionOf, if_neg]
      intro hc
      have := congrArg List.length hc
      rw [List.length_take] at this
      simp at this
      omega
    · rw [h3, short _ (by rw [List.length_drop]; omega)]
  · obtain ⟨sig, h1, rfl, h3, h4, h5⟩ := hs
    have hlen : sig.length = 6 := by rcases h1 with rfl | rfl <;> rfl
    rw [← hlen, List.take_left', List.drop_left']
    · exact ⟨h4, by rw [h5, short _ h3], fun _ => h1⟩
    · rfl
    · rfl
  · obtain ⟨sig, t, h1, rfl, h3, h4, h5⟩ := hs
    have hlen : sig.length = 6 := by rcases h1 with rfl | rfl <;> rfl
    rw [← hlen, List.take_left', List.drop_left']
    · exact ⟨h4, h5, fun _ => h1⟩
    · rfl
    · rfl

/-! ## Cases -/

/-- Feeds at most `k + 1` bytes at a time, up to the first call that fails. -/
def dribble (k : Nat) : Nat → SD C → List UInt8 → List UpdateCall × SD C × List UInt8
  | fuel + 1, s, b :: l =>
    match s.update ((b :: l).take (k + 1)) .none with
    | (s1, .ok (n, ev)) =>
      let rest := dribble k fuel s1 ((b :: l).drop n)
      (⟨(b :: l).take (k + 1), .none, .ok (n, ev)⟩ :: rest.1, rest.2)
    | _ => ([], s, b :: l)
  | _, s, l => ([], s, l)

theorem dribble_reading (k : Nat) : ∀ (fuel : Nat) (s : SD C) (l : List UInt8),
    Reading s l (dribble k fuel s l).1 (dribble k fuel s l).2.1 (dribble k fuel s l).2.2 := by
  intro fuel
  induction fuel with
  | zero => intro s l; cases l <;> exact .nil _ _
  | succ fuel ih =>
    intro s l
    cases l with
    | nil => exact .nil _ _
    | cons b l =>
      rw [dribble]
      split
      · rename_i s1 n ev hu
        have := Reading.cons (rest := (b :: l).drop (k + 1)) (by simp) hu (by rw [List.take_append_drop]; exact ih s1 ((b :: l).drop n))
        rw [List.take_append_drop] at this
        exact this
      · exact .nil _ _

open Decoder in
set_option maxRecDepth 100000 in
/-- An animation without its trailer, byte by byte and seven bytes at a time: all bytes are consumed by a different number of
calls, and 13 events are told. -/
example :
    let a := dribble (C := Ref.lzw) 0 200 (withOptions Ref.lzw rawOptions) (animation.bytes.take 69)
    let b := dribble (C := Ref.lzw) 6 200 (withOptions Ref.lzw rawOptions) (animation.bytes.take 69)
    Reading (withOptions Ref.lzw rawOptions) (animation.bytes.take 69) a.1 a.2.1 a.2.2 ∧ Final a.2.1 a.2.2 none ∧
    Reading (withOptions Ref.lzw rawOptions) (animation.bytes.take 69) b.1 b.2.1 b.2.2 ∧ Final b.2.1 b.2.2 none ∧
    a.1.length ≠ b.1.length ∧ (told a.1).length = 13 := by
  refine ⟨dribble_reading _ _ _ _, ?_, dribble_reading _ _ _ _, ?_, by decide +kernel, by decide +kernel⟩
  · have : (dribble (C := Ref.lzw) 0 200 (withOptions Ref.lzw rawOptions) (animation.bytes.take 69)).2.2 = [] := by decide +kernel
    rw [this]; exact .all
  · have : (dribble (C := Ref.lzw) 6 200 (withOptions Ref.lzw rawOptions) (animation.bytes.take 69)).2.2 = [] := by decide +kernel
    rw [this]; exact .all

open Decoder in
set_option maxRecDepth 100000 in
/-- The animation with a graphic control extension of the wrong length: both readers fail, with the same error, at different
places. -/
example :
    let l := animation.bytes.set 42 3
    let a := dribble (C := Ref.lzw) 0 200 (withOptions Ref.lzw rawOptions) l
    let b := dribble (C := Ref.lzw) 6 200 (withOptions Ref.lzw rawOptions) l
    (∃ e, Final a.2.1 a.2.2 (some e)) ∧ (∃ e, Final b.2.1 b.2.2 (some e)) ∧ a.2.2 ≠ b.2.2 ∧ (told a.1).length = 9 := by
  have fin : ∀ {s : SD Ref.lzw} {l : List UInt8} (k : Nat), l ≠ [] →
      (match (s.update (l.take (k + 1)) .none).2 with | .err e => some e | _ => none) = some (.format .controlWrongLength) →
      ∃ e, Final s l (some e) := by
    intro s l k hl h
    split at h
    · rename_i e he
      have := Final.fails (rest := l.drop (k + 1)) (by cases l <;> simp at hl ⊢) he
      rw [List.take_append_drop] at this
      exact ⟨e, this⟩
    · cases h
  exact ⟨fin 0 (by decide +kernel) (by decide +kernel), fin 6 (by decide +kernel) (by decide +kernel),
    by decide +kernel, by decide +kernel⟩

open Decoder in
set_option maxRecDepth 100000 in
/-- Two readers that have just been told of the second frame. -/
example :
    let a := dribble (C := Ref.lzw) 0 69 (withOptions Ref.lzw rawOptions) animation.bytes
    let b := dribble (C := Ref.lzw) 6 17 (withOptions Ref.lzw rawOptions) animation.bytes
    (a.1.getLast?.bind UpdateCall.event).map Decoded.telling = some true ∧
    (b.1.getLast?.bind UpdateCall.event).map Decoded.telling = some true ∧ told a.1 = told b.1 ∧ (told a.1).length = 12 := by
  decide +kernel

open Decoder in
set_option maxRecDepth 100000 in
/-- The hypotheses of `header_accessors` are met by a decoder that has read all of an animation, and by one that has read seven
bytes; what they show. -/
example :
    History rawOptions (feed .none 60 (withOptions Ref.lzw rawOptions) (animation.bytes.take 69)).1
      (feed .none 60 (withOptions Ref.lzw rawOptions) (animation.bytes.take 69)).2 ∧
    (feed .none 60 (withOptions Ref.lzw rawOptions) (animation.bytes.take 69)).1.all (fun c => c.event.isSome) = true ∧
    (feed .none 60 (withOptions Ref.lzw rawOptions) (animation.bytes.take 69)).2.version = .v89a ∧
    (feed .none 60 (withOptions Ref.lzw rawOptions) (animation.bytes.take 69)).2.width = 2 ∧
    (feed .none 60 (withOptions Ref.lzw rawOptions) (animation.bytes.take 7)).2.version = .v89a ∧
    (feed .none 60 (withOptions Ref.lzw rawOptions) (animation.bytes.take 7)).2.width = 0 :=
  ⟨feed_calls _ _ _ _ (by decide +kernel), by decide +kernel, by decide +kernel, by decide +kernel, by decide +kernel,
    by decide +kernel⟩

end Props

end Gif
