import Verif.Lemmas.Micro
/-!
# C95: what a program collects that drives a streaming decoder itself
-/

namespace Gif.Draw

variable {C : Codec}

open Spec SD

theorem glide_feed (K : C.Contract) {cap : Nat} (hcap : 0 < cap) {s s' : SD C} {l l' out : List UInt8} {e : LzwEnd}
    {tail : Option (List UInt8)} (h : Glide (.slice cap) s l s' l') (hf : Feed K [] s l out e tail) :
    Kept K s s' ∧ Feed K [] s' l' out e tail := by
  induction h with
  | refl => exact ⟨kept_refl K _, hf⟩
  | step h _ ih =>
    obtain ⟨b, bs, rest, n, rfl, h1, rfl, hw⟩ := h
    obtain ⟨k1, f1⟩ := feed_step K hw hf hcap h1
    obtain ⟨k2, f2⟩ := ih f1
    exact ⟨kept_trans k1 k2, f2⟩

/-- One call within image data. -/
theorem feed_call (K : C.Contract) {cap : Nat} (hcap : 0 < cap) {s s1 : SD C} {slice rest out : List UInt8} {e : LzwEnd}
    {tail : Option (List UInt8)} {r : Outcome (Nat × Decoded)} (hw : WF s) (hl : Look s (slice ++ rest)) (hne : slice ≠ [])
    (hf : Feed K [] s (slice ++ rest) out e tail) (h : s.update slice (.slice cap) = (s1, r)) :
    PixelCall out e s.lzw.checkForEndCode tail cap (slice ++ rest) r ∧
    ∀ n ev, r = .ok (n, ev) → ev.within = true → WF s1 ∧ Look s1 ((slice ++ rest).drop n) ∧
      s1.lzw.checkForEndCode = s.lzw.checkForEndCode ∧
      ∃ out', out = UpdateCall.bytes ⟨slice, .slice cap, r⟩ ++ out' ∧ Feed K [] s1 ((slice ++ rest).drop n) out' e tail := by
  have ht : s.state ≠ .trailer := by
    generalize slice ++ rest = l at hf
    cases hf with
    | sub hst => rw [hst]; simp
    | fin hst => rw [hst]; simp
  obtain ⟨s0, l0, g, w0, h1⟩ := call_micro K.safe hw hl hne ht h
  obtain ⟨k0, f0⟩ := glide_feed K hcap g hf
  rcases h1 with ⟨n, ev, rfl, w1, w2, h2⟩ | ⟨b, bs, x, e', rfl, h2, rfl⟩
  · rcases h2 with ⟨rfl, rfl, rfl⟩ | ⟨hev, b, bs, x, n', rfl, h2, h3, _⟩
    · refine ⟨trivial, fun n ev h _ => ?_⟩
      cases h
      exact ⟨w1, w2, k0.check, out, rfl, f0⟩
    · have hr := feed_step K w0 f0 hcap h2
      unfold SD.FeedRes at hr
      cases ev with
      | nothing => exact absurd rfl hev
      | bytesDecoded p =>
        obtain ⟨k1, q1, q2, out', rfl, f1⟩ := hr
        refine ⟨⟨q1, q2, List.prefix_append _ _⟩, fun n ev h _ => ?_⟩
        cases h
        exact ⟨w1, w2, k1.check.trans k0.check, out', rfl, by rw [h3]; exact f1⟩
      | dataEnd =>
        obtain ⟨q1, q2, q3, q4, _⟩ := hr
        refine ⟨⟨q1, q2, fun h => q3 (k0.check.trans h), by rw [h3]; exact q4⟩, fun n ev h hv => ?_⟩
        cases h
        cases hv
      | _ => exact hr.elim
  · have hr := feed_step K w0 f0 hcap h2
    unfold SD.FeedRes at hr
    simp only [k0.check] at hr
    exact ⟨hr, fun _ _ h => by cases h⟩

theorem feed_calls (K : C.Contract) {s s' : SD C} {l l' : List UInt8} {cs : List UpdateCall} (h : Drawing s l cs s' l') :
    ∀ {out : List UInt8} {e : LzwEnd} {tail : Option (List UInt8)}, WF s → Look s l → Feed K [] s l out e tail →
    (∀ c ∈ cs, c.roomy) → (∀ c ∈ cs, ∀ ev, c.event = some ev → ev.within = true) →
    WF s' ∧ Look s' l' ∧ s'.lzw.checkForEndCode = s.lzw.checkForEndCode ∧
      ∃ out', out = collected cs ++ out' ∧ Feed K [] s' l' out' e tail := by
  induction h with
  | nil => exact fun hw hl hf _ _ => ⟨hw, hl, rfl, _, rfl, hf⟩
  | @cons s s1 s' slice rest l' out cs n ev hne h _ ih =>
    intro px e tail hw hl hf hroom hin
    obtain ⟨cap, hc⟩ := hroom _ List.mem_cons_self
    simp only at hc
    subst hc
    obtain ⟨-, h1⟩ := feed_call K (Nat.succ_pos cap) hw hl hne hf h
    obtain ⟨w1, l1, c1, px', rfl, f1⟩ := h1 n ev rfl (hin _ List.mem_cons_self _ rfl)
    obtain ⟨w2, l2, c2, px'', rfl, f2⟩ := ih w1 l1 f1 (fun c hc => hroom c (List.mem_cons_of_mem _ hc))
      (fun c hc => hin c (List.mem_cons_of_mem _ hc))
    refine ⟨w2, l2, c2.trans c1, px'', ?_, f2⟩
    rw [← List.append_assoc]
    rfl

/-- What is known at every point of a drawing. -/
def Known (K : C.Contract) (o : DecodeOptions) (bytes : List UInt8) (s : SD C) (l : List UInt8) : Prop :=
  Sized bytes s l ∧ K.Fit s.lzw ∧ s.opts = (SD.withOptions C o).opts

theorem known_micro (K : C.Contract) {o : DecodeOptions} {bytes : List UInt8} {out : OutSpec} {s s' : SD C} {l l' : List UInt8}
    {ev : Decoded} (h : Known K o bytes s l) (hm : Micro out s l s' l' ev) : Known K o bytes s' l' := by
  obtain ⟨h1, h2, h3⟩ := h
  refine ⟨micro_sized h1 hm, ?_⟩
  obtain ⟨b, bs, rest, n, rfl, hst, rfl, hw⟩ := hm
  have htr := tr_of_nextState hw.ibuf hst
  exact ⟨tr_fit K htr h2, (tr_opts htr).trans h3⟩

theorem known_start (K : C.Contract) (o : DecodeOptions) (bytes : List UInt8) : Known K o bytes (SD.withOptions C o) bytes :=
  ⟨⟨[], rfl, fun m h => by cases h⟩, (by intro st h; cases h), rfl⟩

/-- Where the decoder is after it has announced the data of an image. -/
theorem image_found (K : C.Contract) {o : DecodeOptions} {bytes l : List UInt8} {cs : List UpdateCall} {c : UpdateCall} {s : SD C}
    {t : FrameDataType} (h : Drawing (SD.withOptions C o) bytes (cs ++ [c]) s l) (hc : c.event = some (.frameMetadata t)) :
    WF s ∧ Look s l ∧ s.opts = (SD.withOptions C o).opts ∧ ∃ pre m b, bytes = pre ++ m :: b :: l ∧ LzwReader.codeSizeOk m = true ∧
      (o.skipFrameDecoding = false ∧ t = .pixels ∧ s.state = .decodeSubBlock b.toNat ∧
          (∃ st, s.lzw.decoder = some st ∧ ∀ data px e, K.Yields (C.new m) data px e → K.Yields st data px e) ∨
        o.skipFrameDecoding = true ∧ t = .lzw m ∧ s.state = .copySubBlock b.toNat) := by
  obtain ⟨s1, l1, h1, h2⟩ := drawing_append h
  have hl0 : Look (SD.withOptions C o) bytes := by intro hp; cases hp
  obtain ⟨k1, w1, lk1⟩ := drawing_keep K.safe (known_micro K) h1 (SD.wf_withOptions o) hl0 (known_start K o bytes)
  cases h2 with
  | @cons _ s2 _ slice rest _ out _ n ev hne hu ht =>
    generalize hl2 : (slice ++ rest).drop n = l2 at ht
    cases ht
    cases hc
    subst hl2
    obtain ⟨s0, l0, g, w0, hr⟩ := call_micro K.safe w1 lk1 hne (trailer_stuck hne hu) hu
    have k0 := glide_keep (known_micro K) g k1
    rcases hr with ⟨n', ev', he, w2, lk2, hm⟩ | ⟨_, _, _, _, _, _, he⟩
    · cases he
      rcases hm with ⟨he, _⟩ | ⟨_, hm⟩
      · cases he
      · refine ⟨w2, lk2, (known_micro K k0 hm).2.2, ?_⟩
        obtain ⟨⟨pre, hpre, hp⟩, hfit, hopt⟩ := k0
        obtain ⟨b, bs, x, n', rfl, hst, hd, _⟩ := hm
        have htr := tr_of_nextState w0.ibuf hst
        generalize hx : Decoded.frameMetadata t = ev at htr
        have hskip : s0.skipFrameDecoding = o.skipFrameDecoding := by
          simp only [SD.opts, Prod.mk.injEq] at hopt
          exact hopt.1
        have hlast : ∀ m, s0.state = .lzwInit m → ∃ pre', pre = pre' ++ [m] := fun m hm =>
          List.getLast?_eq_some_iff.mp (hp m hm)
        cases htr with
        | lzwPixels m lzw hs hk hr =>
          cases hx
          obtain ⟨pre', rfl⟩ := hlast m hs
          have hok : LzwReader.codeSizeOk m = true := by
            unfold LzwReader.reset at hr
            split at hr
            · assumption
            · cases hr
          have hy := (reset_yields K hfit hok).2.2.2
          rw [hr] at hy
          refine ⟨pre', m, b, ?_, hok, .inl ⟨hskip.symm.trans hk, rfl, rfl, hy⟩⟩
          rw [hpre, hd]
          simp
        | lzwSkip m hs hk hok =>
          cases hx
          obtain ⟨pre', rfl⟩ := hlast m hs
          refine ⟨pre', m, b, ?_, hok, .inr ⟨hskip.symm.trans hk, rfl, rfl⟩⟩
          rw [hpre, hd]
          simp
        | decode => split at hx <;> cases hx
        | _ => cases hx
    · cases he

/-- **C95**, pixels. A program has been told `FrameMetadata` and goes on with output buffers that have room: what it has collected is
the beginning of what the data of this image expand to, and the next call gives more of it, or says that this was all and has consumed
the data, or fails because the data are wrong. -/
theorem pixels_drawn (K : C.Contract) {o : DecodeOptions} {bytes l l' : List UInt8} {cs ds : List UpdateCall} {c : UpdateCall}
    {s s' : SD C} (h : Drawing (SD.withOptions C o) bytes (cs ++ [c]) s l) (hc : c.event = some (.frameMetadata .pixels))
    (hd : Drawing s l ds s' l') (hroom : ∀ d ∈ ds, d.roomy) (hin : ∀ d ∈ ds, ∀ ev, d.event = some ev → ev.within = true) :
    ∃ pre m b px e, bytes = pre ++ m :: b :: l ∧ K.Yields (C.new m) (blocks b.toNat l).1 px e ∧
      ∃ px', px = collected ds ++ px' ∧ ∀ slice rest, slice ≠ [] → l' = slice ++ rest → ∀ room,
        PixelCall px' e o.checkForEndCode (blocks b.toNat l).2 (room + 1) l' (s'.update slice (.slice (room + 1))).2 := by
  obtain ⟨hw, hl, hopt, pre, m, b, hb, hok, hcase⟩ := image_found K h hc
  rcases hcase with ⟨_, _, hst, st, hdec, hy⟩ | ⟨_, ht, _⟩
  · obtain ⟨px, e, hpx⟩ := K.total m (blocks b.toNat l).1
    have hfeed : Feed K [] s l px e (blocks b.toNat l).2 :=
      .sub hst hdec (by rw [List.append_nil]; exact hy _ _ _ hpx) (.inl rfl)
    obtain ⟨w', lk', hck, px', rfl, hf⟩ := feed_calls K hd hw hl hfeed hroom hin
    have hck' : s'.lzw.checkForEndCode = o.checkForEndCode := by
      rw [hck]
      simp only [SD.opts, Prod.mk.injEq] at hopt
      exact hopt.2.2.2.2
    refine ⟨pre, m, b, _, e, hb, hpx, px', rfl, fun slice rest hne hl' room => ?_⟩
    subst hl'
    rw [← hck']
    exact (feed_call K (Nat.succ_pos room) w' lk' hne hf rfl).1
  · cases ht

/-- The decoder copies the data of an image: `data` is still to come, then `tail`. -/
inductive Copying : SD C → List UInt8 → List UInt8 → Option (List UInt8) → Prop
  | sub {s : SD C} {l : List UInt8} {left : Nat} (hst : s.state = .copySubBlock left) : Copying s l (blocks left l).1 (blocks left l).2
  | fin {s : SD C} {rest : List UInt8} (hst : s.state = .frameDecoded) : Copying s (0 :: rest) [] (some rest)

/-- The possible results of a step. -/
def CopyRes (s s' : SD C) (l rest data : List UInt8) (tail : Option (List UInt8)) (out : OutSpec) :
    Outcome (Nat × Decoded) → Prop
  | .ok (n, .nothing) => s' = { s with state := s'.state } ∧ Copying s' (l.drop n ++ rest) data tail
  | .ok (n, .lzwDataCopied p) => s' = { s with state := s'.state } ∧ p ≠ [] ∧ (∀ room, out = .slice room → p.length ≤ room) ∧
      ∃ data', data = p ++ data' ∧ Copying s' (l.drop n ++ rest) data' tail
  | .ok (n, .dataEnd) => data = [] ∧ tail = some (l.drop n ++ rest) ∧ s' = { s with state := .blockEnd, current := none }
  | .err e => e = .format .memoryLimit ∧ ∃ len k, out = .vec len ∧ k ≤ data.length ∧ s.memoryLimit.sizeOk (len + k) = false
  | _ => False

theorem copy_step {out : OutSpec} (ho : (∃ n, out = .slice (n + 1)) ∨ ∃ n, out = .vec n) {s s' : SD C} {b : UInt8}
    {bs rest data : List UInt8} {tail : Option (List UInt8)} {r : Outcome (Nat × Decoded)} (hw : WF s)
    (hf : Copying s (b :: bs ++ rest) data tail) (h : nextState s (b :: bs) out = (s', r)) :
    CopyRes s s' (b :: bs) rest data tail out r := by
  generalize hl : b :: bs ++ rest = l at hf
  cases hf with
  | @sub _ left hs =>
    subst hl
    have hk : s.skipFrameDecoding = true := by
      have := hw.st
      simp only [stOk, hs] at this
      exact this.2.2
    unfold nextState at h
    simp only [hs] at h
    unfold onCopySubBlock at h
    rw [if_neg (by simp [hk])] at h
    split at h
    · next hpos =>
      have htl : ((b :: bs).take (min left (b :: bs).length)).length = min left (b :: bs).length := by
        rw [List.length_take]; omega
      have hpos' : 0 < min left (b :: bs).length := by
        simp only [List.length_cons]; omega
      have part : ∀ k, k ≤ min left (b :: bs).length → blocks left (b :: bs ++ rest) =
          ((b :: bs).take k ++ (blocks (left - k) ((b :: bs).drop k ++ rest)).1, (blocks (left - k) ((b :: bs).drop k ++ rest)).2) := by
        intro k hk
        have hlen : ((b :: bs).take k).length = k := by rw [List.length_take]; omega
        have hb := blocks_append ((b :: bs).take k) ((b :: bs).drop k ++ rest) left (by omega)
        rwa [← List.append_assoc, List.take_append_drop, hlen] at hb
      have key : ∀ k, k ≤ min left (b :: bs).length → 0 < k → (∀ room, out = .slice room → k ≤ room) →
          CopyRes s { s with state := .copySubBlock (left - k) } (b :: bs) rest (blocks left (b :: bs ++ rest)).1
            (blocks left (b :: bs ++ rest)).2 out (.ok (k, .lzwDataCopied ((b :: bs).take k))) := by
        intro k hk hk0 h3
        have hlen : ((b :: bs).take k).length = k := by rw [List.length_take]; omega
        refine ⟨rfl, ?_, ?_, (blocks (left - k) ((b :: bs).drop k ++ rest)).1, by rw [part k hk], ?_⟩
        · intro h0
          rw [h0] at hlen
          simp at hlen
          omega
        · intro room hr
          rw [hlen]
          exact h3 room hr
        · rw [part k hk]
          exact .sub rfl
      unfold append at h
      rcases ho with ⟨room, rfl⟩ | ⟨len, rfl⟩
      · simp only [htl] at h
        rw [if_neg (by omega)] at h
        unfold goto at h
        rw [List.take_take, Nat.min_eq_left (Nat.min_le_left _ _)] at h
        cases h
        refine key _ (Nat.min_le_left _ _) (by omega) ?_
        intro room' hr
        cases hr
        omega
      · simp only [htl] at h
        by_cases hlim : s.memoryLimit.sizeOk (len + min left (b :: bs).length) = true
        · rw [if_pos hlim] at h
          simp only at h
          rw [if_neg (by omega)] at h
          unfold goto at h
          cases h
          exact key _ (Nat.le_refl _) hpos' (fun room hr => by cases hr)
        · rw [if_neg hlim] at h
          cases h
          refine ⟨rfl, len, min left (b :: bs).length, rfl, ?_, by simpa using hlim⟩
          rw [part _ (Nat.le_refl _)]
          simp only [List.length_append, htl]
          omega
    · next hz =>
      have hz : left = 0 := by omega
      subst hz
      split at h
      · next hb =>
        unfold goto at h
        cases h
        refine ⟨rfl, ?_⟩
        rw [List.cons_append, blocks_next hb]
        exact .sub rfl
      · next hb =>
        have hb : b = 0 := by simpa using hb
        subst hb
        unfold goto at h
        cases h
        refine ⟨rfl, ?_⟩
        rw [List.cons_append, blocks_end]
        exact .fin rfl
  | fin hs =>
    cases hl
    unfold nextState at h
    simp only [hs] at h
    unfold onFrameDecoded goto at h
    simp only [ne_eq, not_true_eq_false, if_false] at h
    cases h
    exact ⟨rfl, rfl, rfl⟩

theorem glide_copy {out : OutSpec} (ho : (∃ n, out = .slice (n + 1)) ∨ ∃ n, out = .vec n) {s s' : SD C}
    {l l' data : List UInt8} {tail : Option (List UInt8)} (h : Glide out s l s' l') (hf : Copying s l data tail) :
    Copying s' l' data tail ∧ s'.opts = s.opts := by
  induction h with
  | refl => exact ⟨hf, rfl⟩
  | step h _ ih =>
    obtain ⟨b, bs, rest, n, rfl, h1, rfl, hw⟩ := h
    obtain ⟨h2, h3⟩ := ih (copy_step ho hw hf h1).2
    exact ⟨h2, h3.trans (tr_opts (tr_of_nextState hw.ibuf h1))⟩

theorem limit_opts {s s' : SD C} (h : s.opts = s'.opts) : s.memoryLimit = s'.memoryLimit := by
  simp only [SD.opts, Prod.mk.injEq] at h
  exact h.2.2.2.1

/-- One call within image data that are copied. -/
theorem copy_call (hS : C.Safe) {out : OutSpec} (ho : (∃ n, out = .slice (n + 1)) ∨ ∃ n, out = .vec n) {s s1 : SD C}
    {slice rest data : List UInt8} {tail : Option (List UInt8)} {r : Outcome (Nat × Decoded)} (hw : WF s)
    (hl : Look s (slice ++ rest)) (hne : slice ≠ []) (hf : Copying s (slice ++ rest) data tail) (h : s.update slice out = (s1, r)) :
    DataCall data tail s.memoryLimit out (slice ++ rest) r ∧
    ∀ n ev, r = .ok (n, ev) → ev.within = true → WF s1 ∧ Look s1 ((slice ++ rest).drop n) ∧ s1.opts = s.opts ∧
      ∃ data', data = UpdateCall.bytes ⟨slice, out, r⟩ ++ data' ∧ Copying s1 ((slice ++ rest).drop n) data' tail := by
  have ht : s.state ≠ .trailer := by
    generalize slice ++ rest = l at hf
    cases hf with
    | sub hst => rw [hst]; simp
    | fin hst => rw [hst]; simp
  obtain ⟨s0, l0, g, w0, h1⟩ := call_micro hS hw hl hne ht h
  obtain ⟨f0, o0⟩ := glide_copy ho g hf
  rcases h1 with ⟨n, ev, rfl, w1, w2, h2⟩ | ⟨b, bs, x, e', rfl, h2, rfl⟩
  · rcases h2 with ⟨rfl, rfl, rfl⟩ | ⟨hev, b, bs, x, n', rfl, h2, h3, _⟩
    · refine ⟨trivial, fun n ev h _ => ?_⟩
      cases h
      exact ⟨w1, w2, o0, data, rfl, f0⟩
    · have hr := copy_step ho w0 f0 h2
      have o1 := (tr_opts (tr_of_nextState w0.ibuf h2)).trans o0
      unfold CopyRes at hr
      cases ev with
      | nothing => exact absurd rfl hev
      | lzwDataCopied p =>
        obtain ⟨-, q1, q2, data', rfl, f1⟩ := hr
        refine ⟨⟨q1, List.prefix_append _ _, q2⟩, fun n ev h _ => ?_⟩
        cases h
        exact ⟨w1, w2, o1, data', rfl, by rw [h3]; exact f1⟩
      | dataEnd =>
        obtain ⟨q1, q4, -⟩ := hr
        refine ⟨⟨q1, by rw [h3]; exact q4⟩, fun n ev h hv => ?_⟩
        cases h
        cases hv
      | _ => exact hr.elim
  · have hr := copy_step ho w0 f0 h2
    unfold CopyRes at hr
    rw [limit_opts o0] at hr
    exact ⟨hr, fun _ _ h => by cases h⟩

theorem copy_calls (hS : C.Safe) {s s' : SD C} {l l' : List UInt8} {cs : List UpdateCall} (h : Drawing s l cs s' l') :
    ∀ {data : List UInt8} {tail : Option (List UInt8)}, WF s → Look s l → Copying s l data tail →
    (∀ c ∈ cs, c.stores) → (∀ c ∈ cs, ∀ ev, c.event = some ev → ev.within = true) →
    WF s' ∧ Look s' l' ∧ s'.opts = s.opts ∧ ∃ data', data = collected cs ++ data' ∧ Copying s' l' data' tail := by
  induction h with
  | nil => exact fun hw hl hf _ _ => ⟨hw, hl, rfl, _, rfl, hf⟩
  | @cons s s1 s' slice rest l' out cs n ev hne h _ ih =>
    intro px tail hw hl hf hroom hin
    obtain ⟨-, h1⟩ := copy_call hS (hroom _ List.mem_cons_self) hw hl hne hf h
    obtain ⟨w1, l1, c1, px', rfl, f1⟩ := h1 n ev rfl (hin _ List.mem_cons_self _ rfl)
    obtain ⟨w2, l2, c2, px'', rfl, f2⟩ := ih w1 l1 f1 (fun c hc => hroom c (List.mem_cons_of_mem _ hc))
      (fun c hc => hin c (List.mem_cons_of_mem _ hc))
    refine ⟨w2, l2, c2.trans c1, px'', ?_, f2⟩
    rw [← List.append_assoc]
    rfl

/-- **C95**, compressed data. With `skip_frame_decoding`, a program that goes on after `FrameMetadata` with a vector, or with buffers
that have room, collects the data of this image, and the code size is the one it was told. -/
theorem data_drawn (K : C.Contract) {o : DecodeOptions} {bytes l l' : List UInt8} {cs ds : List UpdateCall} {c : UpdateCall} {m : UInt8}
    {s s' : SD C} (h : Drawing (SD.withOptions C o) bytes (cs ++ [c]) s l) (hc : c.event = some (.frameMetadata (.lzw m)))
    (hd : Drawing s l ds s' l') (hroom : ∀ d ∈ ds, d.stores) (hin : ∀ d ∈ ds, ∀ ev, d.event = some ev → ev.within = true) :
    ∃ pre b, bytes = pre ++ m :: b :: l ∧
      ∃ data, (blocks b.toNat l).1 = collected ds ++ data ∧ ∀ slice rest, slice ≠ [] → l' = slice ++ rest → ∀ out,
        UpdateCall.stores ⟨slice, out, .panic⟩ → DataCall data (blocks b.toNat l).2 o.memoryLimit out l' (s'.update slice out).2 := by
  obtain ⟨hw, hl, hopt, pre, m', b, hb, hok, hcase⟩ := image_found K h hc
  rcases hcase with ⟨_, ht, _⟩ | ⟨_, ht, hst⟩
  · cases ht
  · cases ht
    obtain ⟨w', lk', hop, data, hdata, hf⟩ := copy_calls K.safe hd hw hl (.sub hst) hroom hin
    refine ⟨pre, b, hb, data, hdata, fun slice rest hne hl' out hout => ?_⟩
    subst hl'
    have := (copy_call K.safe hout w' lk' hne hf rfl).1
    rwa [limit_opts (hop.trans hopt)] at this

/-- **C95**, a complete image. A program that has been told `FrameMetadata` and later `DataEnd`, and whose output buffers had room, has
collected exactly what the data of this image expand to, and the decoder has consumed exactly these data. -/
theorem pixels_complete (K : C.Contract) {o : DecodeOptions} {bytes l l' : List UInt8} {cs ds : List UpdateCall} {c d : UpdateCall}
    {s s' : SD C} (h : Drawing (SD.withOptions C o) bytes (cs ++ [c]) s l) (hc : c.event = some (.frameMetadata .pixels))
    (hd : Drawing s l (ds ++ [d]) s' l') (hroom : ∀ d' ∈ ds ++ [d], d'.roomy)
    (hin : ∀ d ∈ ds, ∀ ev, d.event = some ev → ev.within = true) (he : d.event = some .dataEnd) :
    ∃ pre m b e, bytes = pre ++ m :: b :: l ∧ K.Yields (C.new m) (blocks b.toNat l).1 (collected ds) e ∧ e ≠ .invalid ∧
      (o.checkForEndCode = true → e = .ended) ∧ (blocks b.toNat l).2 = some l' := by
  obtain ⟨s1, l1, h1, h2⟩ := drawing_append hd
  obtain ⟨pre, m, b, px, e, hb, hy, px', rfl, hcall⟩ := pixels_drawn K h hc h1
    (fun d hd => hroom d (List.mem_append_left _ hd)) hin
  cases h2 with
  | @cons _ s2 _ slice rest _ out _ n ev hne hu ht =>
    generalize hl2 : (slice ++ rest).drop n = l2 at ht
    cases ht
    cases he
    obtain ⟨room, hr⟩ := hroom _ (List.mem_append_right _ List.mem_cons_self)
    simp only at hr
    subst hr
    have := hcall slice rest hne rfl room
    rw [hu] at this
    obtain ⟨rfl, q1, q2, q3⟩ := this
    rw [List.append_nil] at hy
    exact ⟨pre, m, b, e, hb, hy, q1, q2, by rw [q3, hl2]⟩

/-- **C95**, with `skip_frame_decoding`. -/
theorem data_complete (K : C.Contract) {o : DecodeOptions} {bytes l l' : List UInt8} {cs ds : List UpdateCall} {c d : UpdateCall}
    {m : UInt8} {s s' : SD C} (h : Drawing (SD.withOptions C o) bytes (cs ++ [c]) s l)
    (hc : c.event = some (.frameMetadata (.lzw m))) (hd : Drawing s l (ds ++ [d]) s' l') (hroom : ∀ d' ∈ ds ++ [d], d'.stores)
    (hin : ∀ d ∈ ds, ∀ ev, d.event = some ev → ev.within = true) (he : d.event = some .dataEnd) :
    ∃ pre b, bytes = pre ++ m :: b :: l ∧ blocks b.toNat l = (collected ds, some l') := by
  obtain ⟨s1, l1, h1, h2⟩ := drawing_append hd
  obtain ⟨pre, b, hb, data, hdata, hcall⟩ := data_drawn K h hc h1 (fun d hd => hroom d (List.mem_append_left _ hd)) hin
  cases h2 with
  | @cons _ s2 _ slice rest _ out _ n ev hne hu ht =>
    generalize hl2 : (slice ++ rest).drop n = l2 at ht
    cases ht
    cases he
    have hout := hroom _ (List.mem_append_right _ List.mem_cons_self)
    have := hcall slice rest hne rfl out hout
    rw [hu] at this
    obtain ⟨rfl, q⟩ := this
    rw [List.append_nil] at hdata
    exact ⟨pre, b, hb, by rw [← hdata, ← hl2, ← q]⟩

/-- **C95**, two programs. They cut the file into slices of their own, and have output buffers of their own; at an image at the same
place of the file, they collect the same pixels. -/
theorem pixels_alike (K : C.Contract) {o : DecodeOptions} {bytes l l1 l2 : List UInt8} {cs1 ds1 cs2 ds2 : List UpdateCall}
    {c1 d1 c2 d2 : UpdateCall} {s1 s1' s2 s2' : SD C}
    (h1 : Drawing (SD.withOptions C o) bytes (cs1 ++ [c1]) s1 l) (hc1 : c1.event = some (.frameMetadata .pixels))
    (hd1 : Drawing s1 l (ds1 ++ [d1]) s1' l1) (hroom1 : ∀ d ∈ ds1 ++ [d1], d.roomy)
    (hin1 : ∀ d ∈ ds1, ∀ ev, d.event = some ev → ev.within = true) (he1 : d1.event = some .dataEnd)
    (h2 : Drawing (SD.withOptions C o) bytes (cs2 ++ [c2]) s2 l) (hc2 : c2.event = some (.frameMetadata .pixels))
    (hd2 : Drawing s2 l (ds2 ++ [d2]) s2' l2) (hroom2 : ∀ d ∈ ds2 ++ [d2], d.roomy)
    (hin2 : ∀ d ∈ ds2, ∀ ev, d.event = some ev → ev.within = true) (he2 : d2.event = some .dataEnd) :
    collected ds1 = collected ds2 ∧ l1 = l2 := by
  obtain ⟨pre, m, b, e, hb, hy, _, _, ht⟩ := pixels_complete K h1 hc1 hd1 hroom1 hin1 he1
  obtain ⟨pre', m', b', e', hb', hy', _, _, ht'⟩ := pixels_complete K h2 hc2 hd2 hroom2 hin2 he2
  have hp : pre = pre' ∧ m :: b :: l = m' :: b' :: l := by
    refine List.append_inj' (hb.symm.trans hb') (by simp)
  obtain ⟨-, hp⟩ := hp
  cases hp
  exact ⟨(K.det hy hy').1, by rw [ht] at ht'; exact Option.some.inj ht'⟩

end Gif.Draw
