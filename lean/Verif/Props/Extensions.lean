import Verif.Lemmas.Trace
import Verif.Lemmas.Grammar
import Verif.Props.Streaming
import Verif.Props.EncoderIo
/-!
# Extensions and unknown blocks seen through `StreamingDecoder` (C36, C37)
-/

namespace Gif.Props

open Spec (SubsOk renderSubs)

variable {C : Codec}

/-! ## Where blocks begin -/

/-- Events after which the next byte belongs to the next block. -/
def endsBlock : Decoded → Bool
  | .dataEnd => true
  | .repetitions _ => true
  | .blockFinished label => label != 0xFF
  | _ => false

theorem updateLoop_last (hS : C.Safe) (len : Nat) (o : OutSpec) : ∀ (fuel : Nat) (s : SD C) (l : List UInt8) {s' : SD C} {n : Nat}
    {ev : Decoded}, s.WF → SD.updateLoop len o fuel s l = (s', .ok (n, ev)) → ev ≠ .nothing →
    ∃ (s1 : SD C) (b : UInt8) (bs : List UInt8) (m : Nat), s1.WF ∧ SD.Tr o b bs s1 s' m ev := by
  intro fuel
  induction fuel with
  | zero =>
    intro s l s' n ev hw h hev
    cases l with
    | nil => rw [SD.updateLoop] at h; cases h; exact absurd rfl hev
    | cons => rw [SD.updateLoop] at h; cases h
  | succ fuel ih =>
    intro s l s' n ev hw h hev
    cases l with
    | nil => rw [SD.updateLoop] at h; cases h; exact absurd rfl hev
    | cons b bs =>
      rw [SD.updateLoop] at h
      generalize hx : s.nextState (b :: bs) o = x at h
      obtain ⟨s1, out⟩ := x
      cases out with
      | ok p =>
        obtain ⟨m, ev1⟩ := p
        have htr := SD.tr_of_nextState hw.ibuf hx
        by_cases h1 : ev1 = .nothing
        · subst h1
          exact ih _ _ (SD.tr_wf hS hw htr).1 h hev
        · have h2 : (s1, Outcome.ok (len - ((b :: bs).drop m).length, ev1)) = (s', Outcome.ok (n, ev)) := by
            cases ev1 <;> first | exact absurd rfl h1 | exact h
          simp only [Prod.mk.injEq, Outcome.ok.injEq] at h2
          obtain ⟨rfl, rfl, rfl⟩ := h2
          exact ⟨s, b, bs, m, hw, htr⟩
      | err e => cases h
      | panic => cases h
      | diverge => cases h

/-- After `DataEnd`, `Repetitions` and the `BlockFinished` of everything but application extensions, the decoder expects the
next block. -/
theorem block_boundary (hS : C.Safe) {o : DecodeOptions} {calls : List UpdateCall} {s s' : SD C} (h : History o calls s)
    {slice : List UInt8} {out : OutSpec} {n : Nat} {ev : Decoded} (hu : s.update slice out = (s', .ok (n, ev)))
    (hev : endsBlock ev = true) : s'.state = .blockEnd := by
  obtain ⟨hw, -⟩ := history_inv hS h
  obtain ⟨s1, b, bs, m, hw1, htr⟩ := updateLoop_last hS _ _ _ _ _ hw hu (by rintro rfl; cases hev)
  cases htr with
  | extEndApp hs hb he => rw [he] at hev; cases hev
  | extEndControl => rfl
  | extEndOther => rfl
  | appRepeat => rfl
  | frameDecoded => rfl
  | decode => split at hev <;> cases hev
  | _ => cases hev

/-! ## C36: raw extensions -/

/-- The terminator of an extension. -/
theorem finish_ext (s : SD C) (label b0 : UInt8) (payload : List UInt8) (hst : s.state = .extensionDataBlock 0)
    (hid : s.extId = label) (hd : s.extData = b0 :: payload) (hl : (Extension.fromU8 label).isSome)
    (hc : label = 0xF9 → payload.length = 4) :
    ∃ s' n, s.nextState [0] .none = (s', .ok (n, .blockFinished label)) ∧ s'.lastExt = (label, b0 :: payload, true) ∧
      (label ≠ 0xFF → n = 1 ∧ s'.state = .blockEnd) ∧ (label = 0xFF → n = 0 ∧ s'.state = .applicationExtension) := by
  have hlab : label = 0x01 ∨ label = 0xF9 ∨ label = 0xFE ∨ label = 0xFF := by
    revert hl
    unfold Extension.fromU8
    repeat' split
    all_goals simp_all
  cases s
  simp only at hst hid hd
  rcases hlab with rfl | rfl | rfl | rfl
  · subst hst hid hd; exact ⟨_, 1, rfl, rfl, fun _ => ⟨rfl, rfl⟩, fun h => by cases h⟩
  · have := hc rfl
    match payload, this with
    | [a, b, c, d], _ =>
      subst hst hid hd; exact ⟨_, 1, rfl, rfl, fun _ => ⟨rfl, rfl⟩, fun h => by cases h⟩
  · subst hst hid hd; exact ⟨_, 1, rfl, rfl, fun _ => ⟨rfl, rfl⟩, fun h => by cases h⟩
  · subst hst hid hd; exact ⟨_, 0, rfl, rfl, fun h => absurd rfl h, fun _ => ⟨rfl, rfl⟩⟩

/-- The terminator of an application extension. -/
theorem finish_app (s : SD C) (hst : s.state = .applicationExtension) :
    ∃ s2 ev, s.update [0] .none = (s2, .ok (1, ev)) ∧ (ev = .nothing ∨ ∃ r, ev = .repetitions r) ∧ s2.state = .blockEnd ∧
      s2.lastExt = s.lastExt := by
  have hstep : s.nextState [0] .none = SD.onApplicationExtension s 0 := by simp only [SD.nextState, hst]
  have hx : ∃ ev, s.nextState [0] .none = ({ s with state := .blockEnd }, .ok (1, ev)) ∧
      (ev = .nothing ∨ ∃ r, ev = .repetitions r) := by
    rw [hstep]
    unfold SD.onApplicationExtension
    rw [if_neg (by simp)]
    split
    · rename_i hc
      match hdr : (s.extData.drop 13).take 2 with
      | [] => have := congrArg List.length hdr; simp at this; omega
      | [_] => have := congrArg List.length hdr; simp at this; omega
      | [r0, r1] => exact ⟨_, rfl, .inr ⟨_, rfl⟩⟩
      | _ :: _ :: _ :: _ => have := congrArg List.length hdr; simp at this; omega
    · exact ⟨_, rfl, .inl rfl⟩
  obtain ⟨ev, h1, h2⟩ := hx
  refine ⟨{ s with state := .blockEnd }, ev, ?_, h2, rfl, rfl⟩
  unfold SD.update
  show SD.updateLoop 1 .none (3 + 1) s [0] = _
  rw [SD.updateLoop, h1]
  rcases h2 with rfl | ⟨r, rfl⟩
  · rfl
  · rfl

/-- An extension from its introducer to `BlockFinished`. -/
theorem ext_walkTo (s : SD C) (label : UInt8) (subs : List (List UInt8)) (hst : s.state = .blockEnd)
    (hl : (Extension.fromU8 label).isSome) (hne : subs ≠ []) (hs : SubsOk subs)
    (hc : label = 0xF9 → subs.flatten.length = 4) (hm : s.memoryLimit.sizeOk (1 + subs.flatten.length) = true) :
    ∃ (s' : SD C) (w : List UInt8) (b0 : UInt8) (n : Nat), [0x21, label] ++ renderSubs subs = w ++ [0] ∧
      SD.WalkTo s w (.blockStart .extension :: List.replicate (subs.length - 1) (.subBlockFinished label))
        (.blockFinished label) 0 n s' ∧ s'.lastExt = (label, b0 :: subs.flatten, true) ∧
      (label ≠ 0xFF → n = 1 ∧ s'.state = .blockEnd) ∧ (label = 0xFF → n = 0 ∧ s'.state = .applicationExtension) := by
  obtain ⟨x, subs, rfl⟩ : ∃ x l, subs = x :: l := by
    cases subs with
    | nil => exact absurd rfl hne
    | cons x l => exact ⟨x, l, rfl⟩
  obtain ⟨e, h2⟩ := SD.walk_ext_body { s with state := .blockStart 0x21 } label x subs rfl hl hs hm
  obtain ⟨s', n, h3, h4, h5, h6⟩ := finish_ext (C := C) { s with
        state := .extensionDataBlock 0, extId := label, extIsBlockEnd := e
        extData := UInt8.ofNat x.length :: (x :: subs).flatten } label _ _ rfl rfl rfl hl hc
  refine ⟨s', 0x21 :: ([label] ++ (x :: subs).flatMap (fun b => UInt8.ofNat b.length :: b)), _, n, ?_,
    ⟨_, SD.walk_quiet (SD.enter hst 0x21 (by decide)) h2, h3, rfl⟩, h4, h5, h6⟩
  simp [renderSubs]

/-- C36 (partial): an extension with data that was written with `write_raw_extension` is reported by `StreamingDecoder`.

The decoder may have any history and expects a block (`block_boundary`); it is fed with what was written and whatever
follows, in slices of any size. Then, for every sequence of calls that did not fail:
* the calls report `BlockStart(Extension)`, `SubBlockFinished` after all sub-blocks but the last, `BlockFinished`, in this
  order and with the label;
* until `BlockFinished` is reported, no call with one or more of the next bytes fails;
* when `BlockFinished` is reported, `last_ext` has the label and the data, after one byte that is not part of it;
* then the decoder is at the next block, or, in an application extension, at the terminator before it.

Missing from C36: `last_ext` does not have the same payload but one byte more (`raw_extension_fails`), and an extension
without data is misread (`empty_extension_fails`). A graphic control extension must have 4 bytes of data, and the
extension must fit into the memory limit. -/
theorem raw_extension_partial (hS : C.Safe) {o : DecodeOptions} {calls : List UpdateCall} {s : SD C} (h : History o calls s)
    (hb : s.state = .blockEnd) (e : Encoder) (k : Sink) (hk : e.w = some k) (hw : k.Working) (label : UInt8)
    (data : List (List UInt8)) (hl : (Extension.fromU8 label).isSome) (hne : data.flatten ≠ [])
    (hc : label = 0xF9 → data.flatten.length = 4) (hm : o.memoryLimit.sizeOk (1 + data.flatten.length) = true) :
    ∃ (k' : Sink) (block : List UInt8) (n : Nat), e.writeRawExtension label data = ({ e with w := some k' }, .ok ()) ∧
      k'.written = k.written ++ block ∧
      ∀ (rest : List UInt8) (cs : List UpdateCall) (s' : SD C) (l' : List UInt8), Reading s (block ++ rest) cs s' l' →
        let expected := .blockStart .extension :: List.replicate n (.subBlockFinished label) ++ [.blockFinished label]
        (told cs <+: expected ∨ expected <+: told cs) ∧
        ((told cs).length < expected.length → ∀ slice rest', slice ≠ [] → l' = slice ++ rest' →
          ∃ m ev, (s'.update slice .none).2 = .ok (m, ev)) ∧
        (told cs = expected → cs.getLast?.bind UpdateCall.event = some (.blockFinished label) →
          s'.lastExt.1 = label ∧ s'.lastExt.2.1.tail = data.flatten ∧ s'.lastExt.2.1.length = 1 + data.flatten.length ∧
          s'.lastExt.2.2 = true ∧
          (label ≠ 0xFF → l' = rest ∧ s'.state = .blockEnd) ∧
          (label = 0xFF → l' = 0 :: rest ∧ ∃ s2 ev, s'.update [0] .none = (s2, .ok (1, ev)) ∧
            (ev = .nothing ∨ ∃ r, ev = .repetitions r) ∧ s2.state = .blockEnd ∧ s2.lastExt = s'.lastExt)) := by
  obtain ⟨k', subs, h1, h2, h3, h4⟩ := C25_raw_extension e k label data hk hw
  obtain ⟨hwf, hop, -⟩ := history_inv hS h
  have hlim : s.memoryLimit = o.memoryLimit := by
    simp only [SD.opts, Prod.mk.injEq] at hop; exact hop.2.2.2.1
  have hsne : subs ≠ [] := by rintro rfl; exact hne (by rw [← h4]; rfl)
  obtain ⟨sF, w, b0, n, g1, g2, g3, g4, g5⟩ := ext_walkTo s label subs hb hl hsne h3 (by rw [h4]; exact hc)
    (by rw [h4, hlim]; exact hm)
  refine ⟨k', [0x21, label] ++ renderSubs subs, subs.length - 1, h1, by rw [h2]; simp, ?_⟩
  intro rest cs s' l' hr
  simp only
  have hlook : s.Look ([0x21, label] ++ renderSubs subs ++ rest) := by
    intro hp; rw [hb] at hp; cases hp
  obtain ⟨r1, r2, r3, r4⟩ := SD.reading_trace hS hr hwf hlook
  have hbytes : [0x21, label] ++ renderSubs subs ++ rest = w ++ 0 :: rest := by rw [g1]; simp
  rw [hbytes] at r1 hr
  have key := SD.trace_walk g2 r1
  refine ⟨?_, ?_, ?_⟩
  · rcases key with ⟨k1, -⟩ | ⟨evs2, k1, -⟩
    · exact .inl (k1.trans (List.prefix_append _ _))
    · exact .inr ⟨evs2, by rw [k1]; simp⟩
  · intro hlen slice rest' hsl hl'
    rcases key with ⟨k1, k2⟩ | ⟨evs2, k1, -⟩
    · have htr : s'.state ≠ .trailer := by
        intro hc'
        have hmem := r4 (by rw [hb]; simp) hc'
        have := k1.subset hmem
        simp at this
      have hnot : ¬ ∀ m ev, (s'.update slice .none).2 ≠ .ok (m, ev) := by
        intro hno
        obtain ⟨er, her⟩ := SD.call_fails hS r2 (by rw [← hl']; exact r3) hsl htr hno
        rw [← hl'] at her
        exact k2 _ her
      exact Classical.byContradiction fun hno => hnot fun m ev he => hno ⟨m, ev, he⟩
    · rw [k1] at hlen
      simp at hlen
  · intro htold hlast
    -- the last call
    have hh := SD.reading_hits hS hr hwf (by rw [← hbytes]; exact hlook) (by
      intro c hc
      rw [Option.mem_def] at hc
      rw [hc] at hlast
      exact ⟨_, hlast, rfl⟩)
    rw [htold] at hh
    obtain ⟨t1, t2⟩ := SD.hits_walk g2 (by simpa using hh)
    subst t1 t2
    rw [g3]
    refine ⟨rfl, h4, by simp [h4]; omega, rfl, ?_, ?_⟩
    · intro hne; obtain ⟨rfl, hst⟩ := g4 hne; exact ⟨rfl, hst⟩
    · intro heq
      obtain ⟨rfl, hst⟩ := g5 heq
      refine ⟨rfl, ?_⟩
      obtain ⟨s2, ev, q1, q2, q3, q4⟩ := finish_app s' hst
      rw [← g3]
      exact ⟨s2, ev, q1, q2, q3, q4⟩

/-! ## C37: unknown blocks -/

/-- The label changes with `BlockStart(Extension)` only. -/
theorem tr_label {o : OutSpec} {b : UInt8} {bs : List UInt8} {s s' : SD C} {n : Nat} {ev : Decoded} (h : SD.Tr o b bs s s' n ev)
    (hev : ev ≠ .blockStart .extension) : s'.extId = s.extId := by
  cases h with
  | extension => exact absurd rfl hev
  | image => simp only [SD.addFrame]; split <;> rfl
  | decode => repeat' split
              all_goals rfl
  | lctData => split
               · split <;> rfl
               · rfl
  | _ => first | rfl | (split <;> rfl)

theorem updateLoop_label (hS : C.Safe) (len : Nat) (o : OutSpec) : ∀ (fuel : Nat) (s : SD C) (l : List UInt8) {s' : SD C} {n : Nat}
    {ev : Decoded}, s.WF → SD.updateLoop len o fuel s l = (s', .ok (n, ev)) → ev ≠ .blockStart .extension →
    s'.extId = s.extId := by
  intro fuel
  induction fuel with
  | zero =>
    intro s l s' n ev hw h hev
    cases l with
    | nil => rw [SD.updateLoop] at h; cases h; rfl
    | cons => rw [SD.updateLoop] at h; cases h
  | succ fuel ih =>
    intro s l s' n ev hw h hev
    cases l with
    | nil => rw [SD.updateLoop] at h; cases h; rfl
    | cons b bs =>
      rw [SD.updateLoop] at h
      generalize hx : s.nextState (b :: bs) o = x at h
      obtain ⟨s1, out⟩ := x
      cases out with
      | ok p =>
        obtain ⟨m, ev1⟩ := p
        have htr := SD.tr_of_nextState hw.ibuf hx
        by_cases h1 : ev1 = .nothing
        · subst h1
          rw [ih _ _ (SD.tr_wf hS hw htr).1 h hev]
          exact tr_label htr (by simp)
        · have h2 : (s1, Outcome.ok (len - ((b :: bs).drop m).length, ev1)) = (s', Outcome.ok (n, ev)) := by
            cases ev1 <;> first | exact absurd rfl h1 | exact h
          simp only [Prod.mk.injEq, Outcome.ok.injEq] at h2
          obtain ⟨rfl, rfl, rfl⟩ := h2
          exact tr_label htr hev
      | err e => cases h
      | panic => cases h
      | diverge => cases h

/-- As long as no call failed and none reported an extension, the label is 0. -/
theorem label_zero (hS : C.Safe) {o : DecodeOptions} {calls : List UpdateCall} {s : SD C} (h : History o calls s)
    (hc : ∀ c ∈ calls, ∃ ev, c.event = some ev ∧ ev ≠ .blockStart .extension) : s.lastExt.1 = 0 := by
  have key : ∀ (calls : List UpdateCall) (s s' : SD C), s.WF → Calls s calls s' →
      (∀ c ∈ calls, ∃ ev, c.event = some ev ∧ ev ≠ .blockStart .extension) → s'.extId = s.extId := by
    intro calls
    induction calls with
    | nil => intro s s' hw h _; cases h; rfl
    | cons c calls ih =>
      intro s s' hw h hc
      cases h with
      | cons slice out hr h =>
        obtain ⟨ev, h1, h2⟩ := hc _ List.mem_cons_self
        have hw' := (calls_inv hS (Calls.cons slice out hr (.nil _)) hw).1
        rw [ih _ _ hw' h (fun c hc' => hc c (List.mem_cons_of_mem _ hc'))]
        simp only [UpdateCall.event] at h1
        generalize hu : s.update slice out = x at *
        obtain ⟨s1, r⟩ := x
        cases r with
        | ok p =>
          obtain ⟨n, ev1⟩ := p
          simp only [Option.some.injEq] at h1
          subst h1
          exact updateLoop_label hS _ _ _ _ _ hw hu h2
        | err e => cases h1
        | panic => cases h1
        | diverge => cases h1
  exact key calls _ _ (SD.wf_withOptions o) h hc

/-- C37 (partial), what `StreamingDecoder` reports. The decoder may have any history and expects a block
(`block_boundary`); it is fed with an unknown block and whatever follows, in slices of any size. Then, for every sequence of
calls that did not fail: the calls report `HeaderEnd` (if the header has not ended before), `SubBlockFinished` after all
sub-blocks but the last, and `BlockFinished`, in this order; until then no call with one or more of the next bytes fails; then
the decoder is at the next block, or, if the last extension was an application extension, at the terminator before it.

Missing from C37: the label that is reported is that of the last extension. It is 0 only if there was none (`label_zero`);
otherwise the claim is false (`unknown_label_fails`). -/
theorem unknown_events_partial (hS : C.Safe) {o : DecodeOptions} {calls : List UpdateCall} {s : SD C} (h : History o calls s)
    (hb : s.state = .blockEnd) (ha : o.allowUnknownBlocks = true) (t : UInt8) (ht : t ≠ 0x21 ∧ t ≠ 0x2C ∧ t ≠ 0x3B)
    (subs : List (List UInt8)) (hne : subs ≠ []) (hs : SubsOk subs) (hid : s.lastExt.1 ≠ 0xF9)
    (hm : o.memoryLimit.sizeOk (s.lastExt.2.1.length + subs.flatten.length) = true) :
    ∃ pre, (pre = [] ∨ pre = [Decoded.headerEnd]) ∧
      ∀ (rest : List UInt8) (cs : List UpdateCall) (s' : SD C) (l' : List UInt8),
        Reading s (t :: renderSubs subs ++ rest) cs s' l' →
        let expected := pre ++ List.replicate (subs.length - 1) (.subBlockFinished s.lastExt.1) ++ [.blockFinished s.lastExt.1]
        (told cs <+: expected ∨ expected <+: told cs) ∧
        ((told cs).length < expected.length → ∀ slice rest', slice ≠ [] → l' = slice ++ rest' →
          ∃ m ev, (s'.update slice .none).2 = .ok (m, ev)) ∧
        (told cs = expected → cs.getLast?.bind UpdateCall.event = some (.blockFinished s.lastExt.1) →
          s'.lastExt = (s.lastExt.1, s.lastExt.2.1 ++ subs.flatten, true) ∧
          (s.lastExt.1 ≠ 0xFF → l' = rest ∧ s'.state = .blockEnd) ∧
          (s.lastExt.1 = 0xFF → l' = 0 :: rest ∧ ∃ s2 ev, s'.update [0] .none = (s2, .ok (1, ev)) ∧
            (ev = .nothing ∨ ∃ r, ev = .repetitions r) ∧ s2.state = .blockEnd)) := by
  obtain ⟨hwf, hop, -⟩ := history_inv hS h
  simp only [SD.opts, Prod.mk.injEq] at hop
  have hlim : s.memoryLimit = o.memoryLimit := hop.2.2.2.1
  have hall : s.allowUnknownBlocks = true := hop.2.2.1.trans ha
  have hn : Block.fromU8 t = none := by
    unfold Block.fromU8
    rw [if_neg ht.2.1, if_neg ht.1, if_neg ht.2.2]
  obtain ⟨e, h1⟩ := SD.walk_unknown_body { s with state := .blockStart t } t subs rfl hn hall hne hs (by
    simp only; rw [hlim]; exact hm)
  have hWT : ∃ (s' : SD C) (n : Nat), SD.WalkTo s (t :: subs.flatMap (fun b => UInt8.ofNat b.length :: b))
      ((if s.headerEndReached then [] else [.headerEnd]) ++ List.replicate (subs.length - 1) (.subBlockFinished s.extId))
      (.blockFinished s.extId) 0 n s' ∧ s'.lastExt = (s.extId, s.extData ++ subs.flatten, true) ∧
      (s.extId ≠ 0xFF → n = 1 ∧ s'.state = .blockEnd) ∧ (s.extId = 0xFF → n = 0 ∧ s'.state = .applicationExtension) := by
    have h2 := SD.walk_quiet (SD.enter hb t ht.2.2) h1
    by_cases hf : s.extId = 0xFF
    · refine ⟨{ s with
          state := .applicationExtension, headerEndReached := true, extIsBlockEnd := true, extData := s.extData ++ subs.flatten },
        0, ⟨_, h2, ?_, rfl⟩, rfl, fun hne => absurd hf hne, fun _ => ⟨rfl, rfl⟩⟩
      simp only [SD.nextState, SD.onExtensionDataBlock]
      rw [if_neg (by omega), if_pos trivial, hf]
      rfl
    · refine ⟨{ s with
          state := .blockEnd, headerEndReached := true, extIsBlockEnd := true, extData := s.extData ++ subs.flatten },
        1, ⟨_, h2, ?_, rfl⟩, rfl, fun _ => ⟨rfl, rfl⟩, fun h => absurd h hf⟩
      simp only [SD.nextState, SD.onExtensionDataBlock]
      rw [if_neg (by omega), if_pos trivial]
      have : Extension.fromU8 s.extId = none ∨ Extension.fromU8 s.extId = some .text ∨
          Extension.fromU8 s.extId = some .comment := by
        unfold Extension.fromU8
        rw [if_neg (show s.extId ≠ 0xF9 from hid), if_neg hf]
        repeat' split
        all_goals simp
      rcases this with h | h | h <;> rw [h] <;> rfl
  obtain ⟨sF, n, g2, g3, g4, g5⟩ := hWT
  refine ⟨if s.headerEndReached then [] else [.headerEnd], by cases s.headerEndReached <;> simp, ?_⟩
  intro rest cs s' l' hr
  simp only
  have hlook : s.Look (t :: renderSubs subs ++ rest) := by
    intro hp; rw [hb] at hp; cases hp
  obtain ⟨r1, r2, r3, r4⟩ := SD.reading_trace hS hr hwf hlook
  have hbytes : t :: renderSubs subs ++ rest = (t :: subs.flatMap (fun b => UInt8.ofNat b.length :: b)) ++ 0 :: rest := by
    simp [renderSubs]
  rw [hbytes] at r1 hr
  have key := SD.trace_walk g2 r1
  refine ⟨?_, ?_, ?_⟩
  · rcases key with ⟨k1, -⟩ | ⟨evs2, k1, -⟩
    · exact .inl (k1.trans (List.prefix_append _ _))
    · exact .inr ⟨evs2, by rw [k1]; simp [SD.lastExt]⟩
  · intro hlen slice rest' hsl hl'
    rcases key with ⟨k1, k2⟩ | ⟨evs2, k1, -⟩
    · have htr : s'.state ≠ .trailer := by
        intro hc'
        have hmem := r4 (by rw [hb]; simp) hc'
        have := k1.subset hmem
        cases hh : s.headerEndReached <;> rw [hh] at this <;> simp at this
      have hnot : ¬ ∀ m ev, (s'.update slice .none).2 ≠ .ok (m, ev) := by
        intro hno
        obtain ⟨er, her⟩ := SD.call_fails hS r2 (by rw [← hl']; exact r3) hsl htr hno
        rw [← hl'] at her
        exact k2 _ her
      exact Classical.byContradiction fun hno => hnot fun m ev he => hno ⟨m, ev, he⟩
    · rw [k1] at hlen
      simp [SD.lastExt] at hlen
  · intro htold hlast
    have hh := SD.reading_hits hS hr hwf (by rw [← hbytes]; exact hlook) (by
      intro c hc
      rw [Option.mem_def] at hc
      rw [hc] at hlast
      exact ⟨_, hlast, rfl⟩)
    rw [htold] at hh
    obtain ⟨t1, t2⟩ := SD.hits_walk g2 (by simpa [SD.lastExt] using hh)
    subst t1 t2
    rw [g3]
    refine ⟨rfl, ?_, ?_⟩
    · intro hne; obtain ⟨rfl, hst⟩ := g4 hne; exact ⟨rfl, hst⟩
    · intro heq
      obtain ⟨rfl, hst⟩ := g5 heq
      refine ⟨rfl, ?_⟩
      obtain ⟨s2, ev, q1, q2, q3, -⟩ := finish_app s' hst
      exact ⟨s2, ev, q1, q2, q3⟩

/-- **C36**, the labels: the number that a named kind of extension is written with is the number that the reader knows by this
name, and no other number is. -/
theorem known_labels (n : UInt8) (k : Extension) : Extension.fromU8 n = some k ↔ n = k.toU8 := by
  constructor
  · intro h
    unfold Extension.fromU8 at h
    split at h
    · cases h; assumption
    · split at h
      · cases h; assumption
      · split at h
        · cases h; assumption
        · split at h
          · cases h; assumption
          · cases h
  · rintro rfl
    cases k <;> rfl

end Gif.Props
