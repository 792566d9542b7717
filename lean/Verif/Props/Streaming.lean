import Verif.Lemmas.History
import Verif.Ref.Lzw
/-!
# Properties of `StreamingDecoder`: C09, C10, C14, C35

All of them quantify over every history of `update` calls: any options, any slices (they need not continue where the
last call stopped), any output buffers, errors anywhere.
-/

namespace Gif.Props

open Spec (Phase)

variable {C : Codec}

/-- What holds along every sequence of calls. -/
theorem calls_inv (hS : C.Safe) {s s' : SD C} {calls : List UpdateCall} (h : Calls s calls s') (hw : s.WF) :
    s'.WF ∧ s'.opts = s.opts ∧
    (s.state ≠ .trailer → (s'.state = .trailer ↔ ∃ c ∈ calls, c.event = some (.blockStart .trailer))) ∧
    ∀ p, s.InPhase p → ∃ p', p.run s.allowUnknownBlocks (calls.filterMap UpdateCall.event) = some p' ∧ s'.InPhase p' := by
  have nil : ∀ {s s' : SD C} {calls : List UpdateCall}, Calls s calls s' → s.state = .trailer → s'.state = .trailer := by
    intro s s' calls h ht
    induction h with
    | nil => exact ht
    | @cons s s' calls slice out hr h ih =>
      apply ih
      match slice with
      | [] => exact ht
      | b :: bs =>
        have := SD.updateLoop_trailer (b :: bs).length out b bs (2 * (b :: bs).length + 2) s ht
        unfold SD.update at hr
        rw [this] at hr
        cases hr
  induction h with
  | nil s => exact ⟨hw, rfl, fun h => by simp [h], fun p hp => ⟨p, rfl, hp⟩⟩
  | @cons s s' calls slice out hr h ih =>
    rcases SD.update_spec hS out s slice hw hr with
      ⟨n, ev, h1, h2, h3, h4, h5, h6, h7, h8, h9⟩ | ⟨e, h1, h2, h3, h4, h5⟩
    · obtain ⟨i1, i2, i3, i4⟩ := ih h2
      refine ⟨i1, i2.trans h3, ?_, ?_⟩
      · intro ht
        by_cases hst : (s.update slice out).1.state = .trailer
        · have hev := (h8 ht).1 hst
          exact ⟨fun _ => ⟨_, List.mem_cons_self, by simp [UpdateCall.event, h1, hev]⟩, fun _ => nil h hst⟩
        · rw [i3 hst]
          have hev : ev ≠ .blockStart .trailer := fun h => hst ((h8 ht).2 h)
          constructor
          · rintro ⟨c, hc, hce⟩; exact ⟨c, List.mem_cons_of_mem _ hc, hce⟩
          · rintro ⟨c, hc, hce⟩
            rcases List.mem_cons.1 hc with rfl | hc
            · simp only [UpdateCall.event, h1, Option.some.injEq] at hce; exact absurd hce hev
            · exact ⟨c, hc, hce⟩
      · intro p hp
        obtain ⟨p1, q1, q2⟩ := h9 p hp
        obtain ⟨p2, q3, q4⟩ := i4 p1 q2
        have hu : (s.update slice out).1.allowUnknownBlocks = s.allowUnknownBlocks := by
          simp only [SD.opts, Prod.mk.injEq] at h3; exact h3.2.2.1
        rw [hu] at q3
        refine ⟨p2, ?_, q4⟩
        rw [List.filterMap_cons_some (by simp only [UpdateCall.event, h1]; rfl), Phase.run, q1]
        exact q3
    · obtain ⟨i1, i2, i3, i4⟩ := ih h2
      refine ⟨i1, i2.trans h3, ?_, ?_⟩
      · intro ht
        rw [i3 (h4 ht)]
        constructor
        · rintro ⟨c, hc, hce⟩; exact ⟨c, List.mem_cons_of_mem _ hc, hce⟩
        · rintro ⟨c, hc, hce⟩
          rcases List.mem_cons.1 hc with rfl | hc
          · simp [UpdateCall.event, h1] at hce
          · exact ⟨c, hc, hce⟩
      · intro p hp
        obtain ⟨p2, q3, q4⟩ := i4 p (h5 p hp)
        have hu : (s.update slice out).1.allowUnknownBlocks = s.allowUnknownBlocks := by
          simp only [SD.opts, Prod.mk.injEq] at h3; exact h3.2.2.1
        rw [hu] at q3
        refine ⟨p2, ?_, q4⟩
        rw [List.filterMap_cons_none (by simp only [UpdateCall.event, h1])]
        exact q3

theorem history_inv (hS : C.Safe) {o : DecodeOptions} {calls : List UpdateCall} {s : SD C} (h : History o calls s) :
    s.WF ∧ s.opts = (SD.withOptions C o).opts ∧
    (s.state = .trailer ↔ ∃ c ∈ calls, c.event = some (.blockStart .trailer)) ∧
    ∃ p, Phase.start.run o.allowUnknownBlocks (calls.filterMap UpdateCall.event) = some p ∧ s.InPhase p := by
  obtain ⟨h1, h2, h3, h4⟩ := calls_inv hS h (SD.wf_withOptions o)
  exact ⟨h1, h2, h3 (by simp [SD.withOptions]), h4 .start rfl⟩

/-! ## C09: termination of `update` -/

/-- C09 (partial): until the trailer has been reported, `update` returns (or stops at a debug assertion, if the caller
did not present the unconsumed byte again) for every slice and every output buffer.

Missing from C09: after the trailer the claim is false, see `update_hangs_after_trailer`. -/
theorem update_terminates_partial (hS : C.Safe) {o : DecodeOptions} {calls : List UpdateCall} {s : SD C}
    (h : History o calls s) (ht : ∀ c ∈ calls, c.event ≠ some (.blockStart .trailer)) (slice : List UInt8) (out : OutSpec) :
    (s.update slice out).2 ≠ .diverge := by
  obtain ⟨hw, _, h2, _⟩ := history_inv hS h
  have hs : s.state ≠ .trailer := fun hs => by
    obtain ⟨c, hc, hce⟩ := h2.1 hs
    exact ht c hc hce
  match slice with
  | [] => rw [SD.update_nil]; simp
  | b :: bs =>
    rcases SD.update_any hS out s b bs hw with ⟨h, _⟩ | ⟨h, _⟩ | ⟨_, _, s1, l1, _, he⟩
    · exact absurd h hs
    · rw [h]; simp
    · generalize SD.update s (b :: bs) out = u at he ⊢
      obtain ⟨s', r⟩ := u
      cases he <;> simp

/-- C09, the rest is false: once the trailer has been reported, `update` on any non-empty slice does not return: its loop
is still running after every number of iterations. -/
theorem update_hangs_after_trailer (hS : C.Safe) {o : DecodeOptions} {calls : List UpdateCall} {s : SD C}
    (h : History o calls s) (ht : ∃ c ∈ calls, c.event = some (.blockStart .trailer)) (b : UInt8) (bs : List UInt8)
    (out : OutSpec) (iterations : Nat) :
    (SD.updateLoop (b :: bs).length out iterations s (b :: bs)).2 = .diverge :=
  SD.updateLoop_trailer _ _ _ _ _ _ ((history_inv hS h).2.2.1.2 ht)

/-! ## C10: consumption and progress -/

/-- C10, first part: what `update` reports as consumed. -/
theorem update_consumed (hS : C.Safe) {o : DecodeOptions} {calls : List UpdateCall} {s : SD C} (h : History o calls s)
    (slice : List UInt8) (out : OutSpec) {n : Nat} {ev : Decoded} (hr : (s.update slice out).2 = .ok (n, ev)) :
    n ≤ slice.length ∧ (ev = .nothing → n = slice.length) := by
  obtain ⟨hw, _⟩ := history_inv hS h
  rcases SD.update_spec hS out s slice hw (by rw [hr]; rfl) with ⟨n', ev', h1, _, _, h4, h5, _⟩ | ⟨e, h1, _⟩
  · rw [h1] at hr; cases hr; exact ⟨h4, h5⟩
  · rw [h1] at hr; cases hr

theorem calls_progress (hS : C.Safe) {s s' : SD C} {cs : List UpdateCall} (h : Calls s cs s') (hw : s.WF)
    (hev : ∀ c ∈ cs, ∃ n ev, c.result = .ok (n, ev) ∧ ev ≠ .nothing)
    (hout : ∀ c ∈ cs, c.out ≠ .slice 0 ∨ s.skipFrameDecoding = false) :
    cs.length + SD.rank s' ≤ 4 * (cs.map UpdateCall.consumed).sum + (cs.map UpdateCall.produced).sum + SD.rank s := by
  induction h with
  | nil => simp
  | @cons s s' calls slice out hr h ih =>
    obtain ⟨n0, ev0, h0, hne⟩ := hev _ List.mem_cons_self
    simp only at h0
    rcases SD.update_spec hS out s slice hw hr with ⟨n, ev, h1, h2, h3, h4, h5, h6, h7, _⟩ | ⟨e, h1, _⟩
    · have he : n0 = n ∧ ev0 = ev := by
        rw [h1] at h0
        simp only [Outcome.ok.injEq, Prod.mk.injEq] at h0
        exact ⟨h0.1.symm, h0.2.symm⟩
      have hne : ev ≠ .nothing := he.2 ▸ hne
      have hk : (s.update slice out).1.skipFrameDecoding = s.skipFrameDecoding := by
        simp only [SD.opts, Prod.mk.injEq] at h3; exact h3.1
      have hi := ih h2 (fun c hc => hev c (List.mem_cons_of_mem _ hc))
        (fun c hc => by rw [hk]; exact hout c (List.mem_cons_of_mem _ hc))
      have hp := h7 (hout _ List.mem_cons_self) hne
      have hc : UpdateCall.consumed ⟨slice, out, (s.update slice out).2⟩ = n := by simp [UpdateCall.consumed, h1]
      have hpr : UpdateCall.produced ⟨slice, out, (s.update slice out).2⟩ = SD.produced ev := by
        simp only [UpdateCall.produced, h1]
        cases ev <;> rfl
      simp only [List.length_cons, List.map_cons, List.sum_cons, hc, hpr]
      omega
    · rw [h1] at h0; cases h0

/-- C10, second part (partial): a run of calls that return events is bounded by what it consumes and produces, as long as
the output buffer is not an empty slice in `skip_frame_decoding` mode. So events cannot go on without consuming or
producing: at most three in a row can.

Missing from C10: an empty slice in `skip_frame_decoding` mode, see `update_stuck_on_empty_slice`. -/
theorem update_progress_partial (hS : C.Safe) {o : DecodeOptions} {calls cs : List UpdateCall} {s s' : SD C}
    (h : History o calls s) (h' : Calls s cs s') (hev : ∀ c ∈ cs, ∃ n ev, c.result = .ok (n, ev) ∧ ev ≠ .nothing)
    (hout : ∀ c ∈ cs, c.out ≠ .slice 0 ∨ o.skipFrameDecoding = false) :
    cs.length ≤ 4 * (cs.map UpdateCall.consumed).sum + (cs.map UpdateCall.produced).sum + 3 := by
  obtain ⟨hw, ho, _⟩ := history_inv hS h
  have hk : s.skipFrameDecoding = o.skipFrameDecoding := by
    simp only [SD.opts, Prod.mk.injEq] at ho; exact ho.1
  have h1 := calls_progress hS h' hw hev (by rw [hk]; exact hout)
  have h2 := SD.rank_le s
  omega

/-- Feeds a decoder like `ReadDecoder` does, presenting unconsumed bytes again, for at most `fuel` calls. -/
def feed (out : OutSpec) : Nat → SD C → List UInt8 → List UpdateCall × SD C
  | 0, s, _ => ([], s)
  | fuel + 1, s, l =>
    if l.isEmpty then ([], s)
    else
      let u := s.update l out
      let rest := feed out fuel u.1 (l.drop (UpdateCall.consumed ⟨l, out, u.2⟩))
      (⟨l, out, u.2⟩ :: rest.1, rest.2)

theorem feed_calls (out : OutSpec) : ∀ (fuel : Nat) (s : SD C) (l : List UInt8),
    (feed out fuel s l).1.all (fun c => c.result.returns) = true → Calls s (feed out fuel s l).1 (feed out fuel s l).2 := by
  intro fuel
  induction fuel with
  | zero => intro s l _; exact .nil s
  | succ fuel ih =>
    intro s l h
    rw [feed] at h ⊢
    by_cases hl : l.isEmpty
    · rw [if_pos hl]; exact .nil s
    · rw [if_neg hl] at h ⊢
      simp only [List.all_cons, Bool.and_eq_true] at h ⊢
      exact .cons _ _ h.1 (ih _ _ h.2)

/-- The first bytes of a GIF up to the length of its first data sub-block. -/
def upToData : List UInt8 :=
  [0x47, 0x49, 0x46, 0x38, 0x39, 0x61, 1, 0, 1, 0, 0, 0, 0, 0x2C, 0, 0, 0, 0, 1, 0, 1, 0, 0, 2, 2]

/-- `skip_frame_decoding(true)` -/
def skipOptions : DecodeOptions := { DecodeOptions.new with skipFrameDecoding := true }

/-- C10, the rest is false: with `skip_frame_decoding(true)` there is a reachable state in which `update` with an empty
output slice returns `LzwDataCopied(0)`, consumes nothing and stays in the same state, so it does so forever. -/
theorem update_stuck_on_empty_slice : ∃ (calls : List UpdateCall) (s : SD Ref.lzw), History skipOptions calls s ∧
    s.update [0x44, 0x01, 0x00] (.slice 0) = (s, .ok (0, .lzwDataCopied [])) := by
  refine ⟨(feed .none 9 (SD.withOptions Ref.lzw skipOptions) upToData).1,
    (feed .none 9 (SD.withOptions Ref.lzw skipOptions) upToData).2, feed_calls _ _ _ _ (by decide +kernel), ?_⟩
  have h1 : (feed .none 9 (SD.withOptions Ref.lzw skipOptions) upToData).2.state = .copySubBlock 2 := by decide +kernel
  have h2 : (feed .none 9 (SD.withOptions Ref.lzw skipOptions) upToData).2.skipFrameDecoding = true := by decide +kernel
  generalize (feed .none 9 (SD.withOptions Ref.lzw skipOptions) upToData).2 = s at h1 h2 ⊢
  have h3 : s.nextState [0x44, 0x01, 0x00] (.slice 0) = (s, .ok (0, .lzwDataCopied [])) := by
    rcases s with ⟨⟩
    simp only at h1 h2
    subst h1 h2
    rfl
  unfold SD.update
  rw [show 2 * [(0x44 : UInt8), 0x01, 0x00].length + 2 = 7 + 1 from rfl, SD.updateLoop, h3]
  rfl

/-! ## C14: the memory limit bounds stored extension data -/

/-- C14: with `MemoryLimit::Bytes(n)` the data of `last_ext` never exceeds `n` bytes, at no point of any history. -/
theorem last_ext_within_limit (hS : C.Safe) {o : DecodeOptions} {calls : List UpdateCall} {s : SD C} (h : History o calls s)
    {n : Nat} {hn : 0 < n} (hl : o.memoryLimit = .bytes n hn) : s.lastExt.2.1.length ≤ n := by
  obtain ⟨hw, ho, _⟩ := history_inv hS h
  have hm : s.memoryLimit = o.memoryLimit := by
    simp only [SD.opts, Prod.mk.injEq] at ho; exact ho.2.2.2.1
  have := hw.ext
  rw [hm, hl] at this
  simpa [MemoryLimit.sizeOk, SD.lastExt] using this

/-! ## C35: the event protocol -/

/-- C35: the events of every history follow the protocol of `Verif/Spec/Protocol.lean`, and `current_frame()` is available
from `BlockStart(Image)` until `DataEnd`. -/
theorem events_follow_protocol (hS : C.Safe) {o : DecodeOptions} {calls : List UpdateCall} {s : SD C}
    (h : History o calls s) :
    ∃ p, Phase.start.run o.allowUnknownBlocks (calls.filterMap UpdateCall.event) = some p ∧
      ((p = .image ∨ ∃ t, p = .data t) → s.current.isSome) := by
  obtain ⟨hw, _, _, p, hp, hi⟩ := history_inv hS h
  refine ⟨p, hp, fun hx => ?_⟩
  have hst := hw.st
  unfold SD.InPhase at hi
  unfold SD.stOk at hst
  cases hs : s.state with
  | imageBlockStart => rw [hs] at hst; obtain ⟨_, f, h, _⟩ := hst; simp [h]
  | localPalette left => rw [hs] at hst; obtain ⟨_, f, h, _⟩ := hst; simp [h]
  | lzwInit m => rw [hs] at hst; exact hst.2
  | decodeSubBlock left => rw [hs] at hst; exact hst.2.1
  | copySubBlock left => rw [hs] at hst; exact hst.2.1
  | frameDecoded => rw [hs] at hst; exact hst.2
  | extensionDataBlock left =>
    rw [hs] at hi
    rcases hi with rfl | rfl | ⟨⟨a, rfl⟩, _⟩ <;> simp at hx
  | _ =>
    rw [hs] at hi
    first
      | (obtain ⟨a, rfl⟩ := hi; simp at hx)
      | (cases hi; simp at hx)

/-- Is `HeaderEnd` behind us? -/
def pastHeader : Phase → Bool
  | .start => false
  | .afterBackground => false
  | .blocks h _ => h
  | .extension h _ => h
  | .image => true
  | .data _ => true
  | .done => true

theorem next_header {u : Bool} {p p' : Phase} {ev : Decoded} (h : p.next u ev = some p') :
    (ev = .headerEnd → pastHeader p = false ∧ pastHeader p' = true) ∧
    (ev ≠ .headerEnd → pastHeader p' = pastHeader p) ∧
    (ev = .blockStart .image ∨ ev = .blockStart .trailer → pastHeader p = true) ∧
    (p = .done → ev = .nothing ∧ p' = .done) := by
  unfold Phase.next at h
  split at h <;> first
    | (cases h; simp [pastHeader, Phase.closed]; done)
    | (split at h <;> cases h <;> simp [pastHeader, Phase.closed]; done)
    | (cases h; done)

theorem run_header {u : Bool} : ∀ {evs : List Decoded} {p p' : Phase}, p.run u evs = some p' →
    evs.count .headerEnd = (if pastHeader p' then 1 else 0) - (if pastHeader p then 1 else 0) ∧
    (pastHeader p = true → pastHeader p' = true) ∧ (p = .done → ∀ ev ∈ evs, ev = .nothing) := by
  intro evs
  induction evs with
  | nil => intro p p' h; cases h; simp
  | cons ev evs ih =>
    intro p p' h
    rw [Phase.run] at h
    cases hn : p.next u ev with
    | none => rw [hn] at h; cases h
    | some p1 =>
      rw [hn] at h
      obtain ⟨h1, h2, h3, h4⟩ := next_header hn
      obtain ⟨i1, i2, i3⟩ := ih h
      refine ⟨?_, ?_, ?_⟩
      · by_cases he : ev = .headerEnd
        · obtain ⟨a, b⟩ := h1 he
          subst he
          have := i2 b
          rw [List.count_cons_self, i1, a, b, this]; rfl
        · rw [List.count_cons_of_ne he, i1, h2 he]
      · intro hp
        apply i2
        by_cases he : ev = .headerEnd
        · exact (h1 he).2
        · rw [h2 he]; exact hp
      · intro hp e hmem
        obtain ⟨a, b⟩ := h4 hp
        rcases List.mem_cons.1 hmem with rfl | hmem
        · exact a
        · exact i3 b e hmem

/-- C35, consequences in plain words: `HeaderEnd` is reported at most once. -/
theorem headerEnd_at_most_once (hS : C.Safe) {o : DecodeOptions} {calls : List UpdateCall} {s : SD C}
    (h : History o calls s) : (calls.filterMap UpdateCall.event).count .headerEnd ≤ 1 := by
  obtain ⟨p, hp, _⟩ := events_follow_protocol hS h
  rw [(run_header hp).1]
  split <;> split <;> omega

theorem run_append {u : Bool} : ∀ (a b : List Decoded) (p : Phase),
    p.run u (a ++ b) = (p.run u a).bind fun q => q.run u b := by
  intro a
  induction a with
  | nil => intro b p; rfl
  | cons ev a ih =>
    intro b p
    rw [List.cons_append, Phase.run, Phase.run]
    cases p.next u ev with
    | none => rfl
    | some q => exact ih b q

/-- C35: `HeaderEnd` comes before the first image. -/
theorem headerEnd_before_image (hS : C.Safe) {o : DecodeOptions} {calls : List UpdateCall} {s : SD C}
    (h : History o calls s) {before after : List Decoded}
    (he : calls.filterMap UpdateCall.event = before ++ .blockStart .image :: after) : .headerEnd ∈ before := by
  obtain ⟨p, hp, _⟩ := events_follow_protocol hS h
  rw [he, run_append] at hp
  cases hb : Phase.start.run o.allowUnknownBlocks before with
  | none => rw [hb] at hp; cases hp
  | some q =>
    rw [hb, Option.bind_some, Phase.run] at hp
    cases hn : q.next o.allowUnknownBlocks (.blockStart .image) with
    | none => rw [hn] at hp; cases hp
    | some q' =>
      have h1 := (next_header hn).2.2.1 (.inl rfl)
      have h2 := (run_header hb).1
      rw [h1] at h2
      exact List.count_pos_iff.1 (by rw [h2]; decide)

/-- C35: no event follows `BlockStart(Trailer)`. -/
theorem trailer_is_last (hS : C.Safe) {o : DecodeOptions} {calls : List UpdateCall} {s : SD C}
    (h : History o calls s) {before after : List Decoded}
    (he : calls.filterMap UpdateCall.event = before ++ .blockStart .trailer :: after) : ∀ ev ∈ after, ev = .nothing := by
  obtain ⟨p, hp, _⟩ := events_follow_protocol hS h
  rw [he, run_append] at hp
  cases hb : Phase.start.run o.allowUnknownBlocks before with
  | none => rw [hb] at hp; cases hp
  | some q =>
    rw [hb, Option.bind_some, Phase.run] at hp
    have hd : q.next o.allowUnknownBlocks (.blockStart .trailer) = some .done ∨
        q.next o.allowUnknownBlocks (.blockStart .trailer) = none := by
      cases q with
      | blocks h a => cases h <;> cases a <;> simp [Phase.next]
      | extension h l => cases l <;> simp [Phase.next]
      | data t => cases t <;> simp [Phase.next]
      | _ => simp [Phase.next]
    rcases hd with hd | hd
    · rw [hd, Option.bind_some] at hp
      exact (run_header hp).2.2 rfl
    · rw [hd] at hp; cases hp

/-! ## Concrete histories that meet the hypotheses -/

/-- A small file: 1x1 canvas, global palette, loop extension, one image of one data sub-block, trailer, one more byte. -/
def smallFile : List UInt8 :=
  [0x47, 0x49, 0x46, 0x38, 0x39, 0x61, 1, 0, 1, 0, 0x80, 0, 0, 10, 20, 30, 40, 50, 60,
   0x21, 0xFF, 0x0B, 0x4E, 0x45, 0x54, 0x53, 0x43, 0x41, 0x50, 0x45, 0x32, 0x2E, 0x30, 0x03, 0x01, 0x05, 0x00, 0x00,
   0x2C, 0, 0, 0, 0, 1, 0, 1, 0, 0, 2, 2, 0x44, 0x01, 0, 0x3B]

/-- The whole file is a history that reports the trailer (hypotheses of C09's negation, C10, C14, C35). -/
example : History (C := Ref.lzw) skipOptions (feed .none 30 (SD.withOptions Ref.lzw skipOptions) smallFile).1
      (feed .none 30 (SD.withOptions Ref.lzw skipOptions) smallFile).2 ∧
    (feed .none 30 (SD.withOptions Ref.lzw skipOptions) smallFile).1.filterMap UpdateCall.event =
      [.backgroundColor 0, .globalPalette [10, 20, 30, 40, 50, 60], .blockStart .extension, .subBlockFinished 0xFF,
       .blockFinished 0xFF, .repetitions (.finite 5), .headerEnd, .blockStart .image, .frameMetadata (.lzw 2),
       .lzwDataCopied [], .dataEnd, .blockStart .trailer] :=
  ⟨feed_calls _ _ _ _ (by decide +kernel), by decide +kernel⟩

/-- Up to the image data no trailer is reported (hypothesis of `update_terminates_partial`), and all calls return events
(hypothesis of `update_progress_partial`). -/
example : (feed (.slice 10) 9 (SD.withOptions Ref.lzw DecodeOptions.new) upToData).1.filterMap UpdateCall.event =
    [.backgroundColor 0, .globalPalette [], .headerEnd, .blockStart .image, .frameMetadata .pixels] := by decide +kernel

end Gif.Props
