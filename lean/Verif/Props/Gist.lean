import Verif.Props.Drawing
import Verif.Spec.Gist
/-!
# C96: slices and output buffers make no difference to what a program gets
-/

namespace Gif.Draw

variable {C : Codec}

open Spec SD

/-! ## What a file has to tell, whatever the mode -/

/-- An event, the code size of the last image, compressed data. -/
abbrev Item := Decoded × UInt8 × List UInt8

/-- From one event to the next, in a decoder that does not decode image data. -/
inductive Leap : SD C → List UInt8 → UInt8 → Item → SD C → List UInt8 → UInt8 → Prop
  | out {a a' : SD C} {l l' : List UInt8} {ev : Decoded} (m : UInt8) (ho : outside a.state = true)
      (h : Eval false a [] l (.event a' [] ev l')) (hev : ∀ t, ev ≠ .frameMetadata t) : Leap a l m (ev, m, []) a' l' m
  | start {a a' : SD C} {l l' : List UInt8} (m : UInt8) {k : UInt8} (ho : outside a.state = true)
      (h : Eval false a [] l (.event a' [] (.frameMetadata (.lzw k)) l')) : Leap a l m (.frameMetadata (.lzw k), m, []) a' l' k
  | data {a : SD C} {l l' d : List UInt8} (m : UInt8) {left : Nat} (hs : a.state = .copySubBlock left)
      (hb : blocks left l = (d, some l')) : Leap a l m (.dataEnd, m, d) { a with state := .blockEnd, current := none } l' m

theorem leap_det {a a1 a2 : SD C} {l l1 l2 : List UInt8} {m m1 m2 : UInt8} {i1 i2 : Item} (h1 : Leap a l m i1 a1 l1 m1)
    (h2 : Leap a l m i2 a2 l2 m2) : i1 = i2 ∧ a1 = a2 ∧ l1 = l2 ∧ m1 = m2 := by
  cases h1 with
  | out _ ho h hev =>
    cases h2 with
    | out _ _ h' _ => cases eval_det h h'; exact ⟨rfl, rfl, rfl, rfl⟩
    | start _ _ h' => cases eval_det h h'; exact absurd rfl (hev _)
    | data _ hs => rw [hs] at ho; cases ho
  | start _ ho h =>
    cases h2 with
    | out _ _ h' hev => cases eval_det h h'; exact absurd rfl (hev _)
    | start _ _ h' => cases eval_det h h'; exact ⟨rfl, rfl, rfl, rfl⟩
    | data _ hs => rw [hs] at ho; cases ho
  | data _ hs hb =>
    cases h2 with
    | out _ ho => rw [hs] at ho; cases ho
    | start _ ho => rw [hs] at ho; cases ho
    | data _ hs' hb' =>
      rw [hs] at hs'
      cases hs'
      rw [hb] at hb'
      cases hb'
      exact ⟨rfl, rfl, rfl, rfl⟩

/-- Several events. -/
inductive Leaps : SD C → List UInt8 → UInt8 → List Item → SD C → List UInt8 → UInt8 → Prop
  | nil (a : SD C) (l : List UInt8) (m : UInt8) : Leaps a l m [] a l m
  | cons {a a1 a' : SD C} {l l1 l' : List UInt8} {m m1 m' : UInt8} {i : Item} {is : List Item} (h : Leap a l m i a1 l1 m1)
      (ht : Leaps a1 l1 m1 is a' l' m') : Leaps a l m (i :: is) a' l' m'

/-- Of two runs one goes on where the other has stopped. -/
theorem leaps_order {a a1 : SD C} {l l1 : List UInt8} {m m1 : UInt8} {is1 : List Item} (h1 : Leaps a l m is1 a1 l1 m1) :
    ∀ {a2 : SD C} {l2 : List UInt8} {m2 : UInt8} {is2 : List Item}, Leaps a l m is2 a2 l2 m2 →
    (∃ is, is2 = is1 ++ is ∧ Leaps a1 l1 m1 is a2 l2 m2) ∨ (∃ is, is1 = is2 ++ is ∧ Leaps a2 l2 m2 is a1 l1 m1) := by
  induction h1 with
  | nil => exact fun h2 => .inl ⟨_, rfl, h2⟩
  | cons h ht ih =>
    intro a2 l2 m2 is2 h2
    cases h2 with
    | nil => exact .inr ⟨_, rfl, .cons h ht⟩
    | cons h' ht' =>
      obtain ⟨rfl, rfl, rfl, rfl⟩ := leap_det h h'
      rcases ih ht' with ⟨is, rfl, hs⟩ | ⟨is, rfl, hs⟩
      · exact .inl ⟨is, rfl, hs⟩
      · exact .inr ⟨is, rfl, hs⟩

theorem leaps_append {a a1 a2 : SD C} {l l1 l2 : List UInt8} {m m1 m2 : UInt8} {is1 is2 : List Item}
    (h1 : Leaps a l m is1 a1 l1 m1) (h2 : Leaps a1 l1 m1 is2 a2 l2 m2) : Leaps a l m (is1 ++ is2) a2 l2 m2 := by
  induction h1 with
  | nil => exact h2
  | cons h _ ih => exact .cons h (ih h2)

/-- What a program gets of it. -/
inductive Shows (K : C.Contract) (o : DecodeOptions) : Item → Decoded × List UInt8 → Prop
  | same {ev : Decoded} (m : UInt8) (d : List UInt8)
      (h : o.skipFrameDecoding = true ∨ (∀ t, ev ≠ .frameMetadata t) ∧ ev ≠ .dataEnd) : Shows K o (ev, m, d) (ev, d)
  | start (m k : UInt8) (h : o.skipFrameDecoding = false) : Shows K o (.frameMetadata (.lzw k), m, []) (.frameMetadata .pixels, [])
  | data {m : UInt8} {d px : List UInt8} {e : LzwEnd} (h : o.skipFrameDecoding = false) (hy : K.Yields (C.new m) d px e)
      (he : e ≠ .invalid) (hc : o.checkForEndCode = true → e = .ended) : Shows K o (.dataEnd, m, d) (.dataEnd, px)

theorem shows_det {K : C.Contract} {o : DecodeOptions} {i : Item} {j1 j2 : Decoded × List UInt8} (h1 : Shows K o i j1)
    (h2 : Shows K o i j2) : j1 = j2 := by
  have key : ∀ {P : Prop} {ev : Decoded}, (o.skipFrameDecoding = true ∨ (∀ t, ev ≠ .frameMetadata t) ∧ ev ≠ .dataEnd) →
      o.skipFrameDecoding = false → (ev = .dataEnd ∨ ∃ t, ev = .frameMetadata t) → P := by
    intro P ev h h' he
    rcases h with h | h
    · rw [h] at h'; cases h'
    · rcases he with he | ⟨t, he⟩
      · exact absurd he h.2
      · exact absurd he (h.1 t)
  cases h1 with
  | same m d h =>
    cases h2 with
    | same => rfl
    | start _ _ h' => exact key h h' (.inr ⟨_, rfl⟩)
    | data h' => exact key h h' (.inl rfl)
  | start _ _ h' =>
    cases h2 with
    | same m d h => exact key h h' (.inr ⟨_, rfl⟩)
    | start => rfl
  | data h' hy =>
    cases h2 with
    | same m d h => exact key h h' (.inl rfl)
    | data _ hy' => rw [(K.det hy hy').1]

/-! ## A program, between two events -/

/-- In these states the output buffer makes no difference. -/
theorem nextState_out {s : SD C} (h : outside s.state = true) (b : UInt8) (bs : List UInt8) (o o' : OutSpec) :
    nextState s (b :: bs) o = nextState s (b :: bs) o' := by
  unfold nextState
  cases hs : s.state <;> simp only [hs, outside] at h ⊢ <;> first | rfl | cases h

theorem tr_plain {o : OutSpec} {b : UInt8} {bs : List UInt8} {s s' : SD C} {n : Nat} {ev : Decoded}
    (h : Tr o b bs s s' n ev) (hs : neutral s.state = true) : ev ≠ .dataEnd ∧ (ev.within = true → ev = .nothing) := by
  cases h with
  | copy l c k h => simp [h, neutral] at hs
  | decode l c bb lz h => simp [h, neutral] at hs
  | decodeFlush c bb lz h => simp [h, neutral] at hs
  | frameDecoded h => simp [h, neutral] at hs
  | _ => (repeat' split) <;> exact ⟨by simp, by simp [Decoded.within]⟩

/-- `LzwInit` with `skip_frame_decoding`. -/
theorem lzwInit_skip (z : LzwReader C) {s : SD C} {m : UInt8} (hs : s.state = .lzwInit m) (hk : s.skipFrameDecoding = true)
    (b : UInt8) (bs : List UInt8) (o : OutSpec) :
    (LzwReader.codeSizeOk m = true ∧
      nextState s (b :: bs) o = ({ s with state := .copySubBlock b.toNat }, .ok (1, .frameMetadata (.lzw m))) ∧
      nextState (raw z s) (b :: bs) o = ({ raw z s with state := .copySubBlock b.toNat },
        .ok (1, .frameMetadata (.lzw m)))) ∨
    (nextState s (b :: bs) o = (s, .fmtErr .invalidMinCodeSize) ∧
      nextState (raw z s) (b :: bs) o = (raw z s, .fmtErr .invalidMinCodeSize)) := by
  have hst : (raw z s).state = s.state := rfl
  unfold nextState
  simp only [hst, hs]
  unfold onLzwInit goto
  rw [if_neg (by simp [hk]), if_neg (show ¬ ¬ (raw z s).skipFrameDecoding = true by simp [raw])]
  by_cases hm : LzwReader.codeSizeOk m = true
  · simp only [if_pos hm]
    exact .inl ⟨hm, trivial, trivial⟩
  · simp only [if_neg hm]
    exact .inr ⟨trivial, trivial⟩

/-- The decoder `s` of a program, with `l` to be read, has come from the last event, where the raw decoder was `a` and `l0` was to be
read, and the program has collected `acc` since. -/
inductive Since (K : C.Contract) (z : LzwReader C) (a : SD C) (l0 : List UInt8) (m : UInt8) :
    Option FrameDataType → SD C → List UInt8 → List UInt8 → Prop
  | out {s : SD C} {l : List UInt8} (ho : outside s.state = true) (ha : outside a.state = true)
      (h : ∀ r, Eval false (raw z s) [] l r → Eval false a [] l0 r) : Since K z a l0 m none s l []
  | pix {s : SD C} {l acc px : List UInt8} {left : Nat} {e : LzwEnd} (hk : s.skipFrameDecoding = false)
      (ha : a = { raw z s with state := .copySubBlock left }) (hy : K.Yields (C.new m) (blocks left l0).1 (acc ++ px) e)
      (hf : Feed K [] s l px e (blocks left l0).2) : Since K z a l0 m (some .pixels) s l acc
  | copy {s : SD C} {l acc data : List UInt8} {left : Nat} (hk : s.skipFrameDecoding = true)
      (ha : a = { raw z s with state := .copySubBlock left }) (hd : (blocks left l0).1 = acc ++ data)
      (hf : Copying s l data (blocks left l0).2) : Since K z a l0 m (some (.lzw m)) s l acc

/-- The bytes of an event. -/
def evBytes : Decoded → List UInt8
  | .bytesDecoded p => p
  | .lzwDataCopied p => p
  | _ => []

/-- The image data that come after an event. -/
def evNext (ev : Decoded) (w : Option FrameDataType) : Option FrameDataType :=
  match ev with
  | .frameMetadata t => some t
  | .dataEnd => none
  | _ => w

/-- Is an output buffer fit for the image data? -/
def outFits (out : OutSpec) : Option FrameDataType → Prop
  | none => True
  | some .pixels => ∃ n, out = .slice (n + 1)
  | some (.lzw _) => (∃ n, out = .slice (n + 1)) ∨ ∃ n, out = .vec n

theorem raw_kept (z : LzwReader C) {s s' : SD C} (h : s' = { s with lzw := s'.lzw, state := s'.state }) (x : State) :
    { raw z s' with state := x } = { raw z s with state := x } := by
  rw [h]; rfl

theorem kept_skip {s s' : SD C} (h : s' = { s with lzw := s'.lzw, state := s'.state }) :
    s'.skipFrameDecoding = s.skipFrameDecoding := by
  rw [h]

theorem state_kept {s s' : SD C} (h : s' = { s with state := s'.state }) : s' = { s with lzw := s'.lzw, state := s'.state } := by
  have : s'.lzw = s.lzw := by rw [h]
  rw [this]
  exact h

theorem not_quiet {ev : Decoded} (h : ev.within = false) : ∀ x, ¬ Quiet ev x := by
  intro x hx
  cases hx <;> cases h

/-- What is known of the decoder of a program. -/
structure Good (K : C.Contract) (o : DecodeOptions) (s : SD C) : Prop where
  fit : K.Fit s.lzw
  skip : s.skipFrameDecoding = o.skipFrameDecoding
  check : s.lzw.checkForEndCode = o.checkForEndCode

theorem good_step {K : C.Contract} {o : DecodeOptions} {out : OutSpec} {s s' : SD C} {b : UInt8} {bs : List UInt8} {n : Nat} {ev : Decoded}
    (h : Good K o s) (htr : Tr out b bs s s' n ev) : Good K o s' := by
  have ho := tr_opts htr
  simp only [SD.opts, Prod.mk.injEq] at ho
  exact ⟨tr_fit K htr h.fit, ho.1.trans h.skip, ho.2.2.2.2.trans h.check⟩

/-- The decoder of a program and the raw decoder, at an event. -/
def Fresh (z : LzwReader C) (a s : SD C) : Prop :=
  a = raw z s ∨ ∃ left, s.state = .decodeSubBlock left ∧ s.skipFrameDecoding = false ∧ a = { raw z s with state := .copySubBlock left }

/-- What a step means. -/
def Onward (K : C.Contract) (o : DecodeOptions) (z : LzwReader C) (a : SD C) (l0 : List UInt8) (m : UInt8) (w : Option FrameDataType)
    (acc : List UInt8) (s' : SD C) (l' : List UInt8) (ev : Decoded) : Prop :=
  (ev.within = true → Since K z a l0 m w s' l' (acc ++ evBytes ev)) ∧
  (ev.within = false → ∃ i a' m', Leap a l0 m i a' l' m' ∧ Shows K o i (ev, acc) ∧ Since K z a' l' m' (evNext ev w) s' l' [] ∧
    Fresh z a' s' ∧ (ev = .blockStart .trailer → s'.state = .trailer ∧ a'.state = .trailer))

theorem tr_at_trailer {o : OutSpec} {b : UInt8} {bs : List UInt8} {s s' : SD C} {n : Nat}
    (h : Tr o b bs s s' n (.blockStart .trailer)) : s'.state = .trailer := by
  generalize hev : Decoded.blockStart .trailer = ev at h
  cases h <;> first | rfl | (cases hev; done) | (cases hev; rfl) | (split at hev <;> cases hev)

theorem since_step (K : C.Contract) {o : DecodeOptions} {z : LzwReader C} {a s s' : SD C} {l0 l l' acc : List UInt8} {m : UInt8}
    {w : Option FrameDataType} {out : OutSpec} {ev : Decoded} (hg : Good K o s) (hs : Since K z a l0 m w s l acc)
    (hout : outFits out w) (h : Micro out s l s' l' ev) : Onward K o z a l0 m w acc s' l' ev := by
  obtain ⟨b, bs, rest, n, rfl, hst, rfl, hw⟩ := h
  have htr := tr_of_nextState hw.ibuf hst
  generalize hl : b :: bs ++ rest = l at hs
  cases hs with
  | out ho ha hr =>
    subst hl
    rw [nextState_out ho b bs out .none] at hst
    have hev := eval_step K.safe false _ (raw z s) [] b bs (Nat.le_refl _) (Decoder.raw_wf hw ho) rest
    rcases outside_cases ho with hn | ⟨k, hk⟩
    · obtain ⟨e1, -, -⟩ := nextState_raw z s b bs .none hn
      rw [hst] at e1
      obtain ⟨p1, p2⟩ := tr_plain htr hn
      obtain ⟨q1, q2⟩ := tr_outside htr hn
      refine ⟨fun hx => ?_, fun hx => ?_⟩
      · cases p2 hx
        exact .out q1 ha fun r h => hr r (hev.1 _ _ _ [] r e1 .nothing h)
      · refine ⟨(ev, m, []), raw z s', m, .out m ha (hr _ (hev.2.1 _ _ _ e1 (not_quiet hx))) q2, .same _ _ (.inr ⟨q2, p1⟩), ?_, .inl rfl, ?_⟩
        · have : evNext ev none = none := by
            cases ev <;> first | rfl | exact absurd rfl (q2 _)
          rw [this]
          exact .out q1 q1 fun _ h => h
        · intro he
          subst he
          exact ⟨tr_at_trailer htr, show s'.state = _ from tr_at_trailer htr⟩
    · cases hsk : s.skipFrameDecoding with
      | false =>
        rcases lzwInit_raw z hk hsk b bs .none with ⟨hok, e1, e2⟩ | ⟨e1, _⟩
        · rw [hst] at e1
          simp only [Prod.mk.injEq, Outcome.ok.injEq] at e1
          obtain ⟨rfl, rfl, rfl⟩ := e1
          refine ⟨fun hx => by (cases hx), fun _ => ?_⟩
          refine ⟨_, _, k, .start m ha (hr _ (hev.2.1 _ _ _ e2 (fun x hx => by cases hx))), .start _ _ (hg.skip.symm.trans hsk), ?_,
            .inr ⟨_, rfl, hsk, rfl⟩,
            fun he => by cases he⟩
          obtain ⟨px, e, hpx⟩ := K.total k (blocks b.toNat ((b :: bs).drop 1 ++ rest)).1
          obtain ⟨_, _, _, st, hd, hy⟩ := reset_yields K hg.fit hok
          exact .pix (px := px) (e := e) (left := b.toNat) hsk rfl hpx
            (.sub rfl hd (by rw [List.append_nil]; exact hy _ _ _ hpx) (.inl rfl))
        · rw [hst] at e1; simp at e1
      | true =>
        rcases lzwInit_skip z hk hsk b bs .none with ⟨hok, e1, e2⟩ | ⟨e1, _⟩
        · rw [hst] at e1
          simp only [Prod.mk.injEq, Outcome.ok.injEq] at e1
          obtain ⟨rfl, rfl, rfl⟩ := e1
          refine ⟨fun hx => by (cases hx), fun _ => ?_⟩
          refine ⟨_, _, k, .start m ha (hr _ (hev.2.1 _ _ _ e2 (fun x hx => by cases hx))), .same _ _ (.inl (hg.skip.symm.trans hsk)), ?_,
            .inl rfl, fun he => by cases he⟩
          exact .copy (left := b.toNat) hsk rfl rfl (.sub rfl)
        · rw [hst] at e1; simp at e1
  | @pix _ _ _ px left e hk ha hy hf =>
    subst hl
    obtain ⟨cap, rfl⟩ := hout
    have hr := feed_step K hw hf (Nat.succ_pos cap) hst
    unfold SD.FeedRes at hr
    cases ev with
    | nothing =>
      obtain ⟨k1, f1⟩ := hr
      refine ⟨fun _ => ?_, fun hx => by (cases hx)⟩
      refine .pix ((kept_skip k1.eq).trans hk) (ha.trans (raw_kept z k1.eq _).symm) ?_ f1
      rw [show evBytes .nothing = [] from rfl, List.append_nil]
      exact hy
    | bytesDecoded p =>
      obtain ⟨k1, -, -, px', rfl, f1⟩ := hr
      refine ⟨fun _ => ?_, fun hx => by (cases hx)⟩
      refine .pix ((kept_skip k1.eq).trans hk) (ha.trans (raw_kept z k1.eq _).symm) ?_ f1
      rw [show evBytes (.bytesDecoded p) = p from rfl, List.append_assoc]
      exact hy
    | dataEnd =>
      obtain ⟨rfl, q2, q3, q4, q5⟩ := hr
      refine ⟨fun hx => by (cases hx), fun _ => ?_⟩
      rw [List.append_nil] at hy
      have hd : a.state = .copySubBlock left := by rw [ha]
      refine ⟨_, _, m, .data m hd (Prod.ext rfl q4), .data (hg.skip.symm.trans hk) hy q2 (fun hc => q3 (hg.check.trans hc)), ?_, ?_,
        fun he => by cases he⟩
      · subst ha
        subst q5
        exact .out rfl rfl fun _ h => h
      · subst ha
        subst q5
        exact .inl rfl
    | _ => exact hr.elim
  | @copy _ _ _ data left hk ha hd hf =>
    subst hl
    have hr := copy_step hout hw hf hst
    unfold CopyRes at hr
    cases ev with
    | nothing =>
      obtain ⟨k1, f1⟩ := hr
      refine ⟨fun _ => ?_, fun hx => by (cases hx)⟩
      have k2 := state_kept k1
      refine .copy ((kept_skip k2).trans hk) (ha.trans (raw_kept z k2 _).symm) ?_ f1
      rw [show evBytes .nothing = [] from rfl, List.append_nil]
      exact hd
    | lzwDataCopied p =>
      obtain ⟨k1, -, -, data', rfl, f1⟩ := hr
      refine ⟨fun _ => ?_, fun hx => by (cases hx)⟩
      have k2 := state_kept k1
      refine .copy ((kept_skip k2).trans hk) (ha.trans (raw_kept z k2 _).symm) ?_ f1
      rw [show evBytes (.lzwDataCopied p) = p from rfl, List.append_assoc]
      exact hd
    | dataEnd =>
      obtain ⟨rfl, q4, q5⟩ := hr
      refine ⟨fun hx => by (cases hx), fun _ => ?_⟩
      rw [List.append_nil] at hd
      have hda : a.state = .copySubBlock left := by rw [ha]
      refine ⟨_, _, m, .data m hda (Prod.ext hd q4), .same _ _ (.inl (hg.skip.symm.trans hk)), ?_, ?_,
        fun he => by cases he⟩
      · subst ha
        subst q5
        exact .out rfl rfl fun _ h => h
      · subst ha
        subst q5
        exact .inl rfl
    | _ => exact hr.elim

theorem glide_since (K : C.Contract) {o : DecodeOptions} {z : LzwReader C} {a s s' : SD C} {l0 l l' acc : List UInt8} {m : UInt8}
    {w : Option FrameDataType} {out : OutSpec} (h : Glide out s l s' l') (hg : Good K o s) (hs : Since K z a l0 m w s l acc)
    (hout : outFits out w) : Good K o s' ∧ Since K z a l0 m w s' l' acc := by
  induction h with
  | refl => exact ⟨hg, hs⟩
  | step h _ ih =>
    have h1 := (since_step K hg hs hout h).1 rfl
    rw [show evBytes .nothing = [] from rfl, List.append_nil] at h1
    obtain ⟨b, bs, rest, n, rfl, hst, rfl, hw⟩ := h
    exact ih (good_step hg (tr_of_nextState hw.ibuf hst)) h1

/-- One call. -/
theorem call_since (K : C.Contract) {o : DecodeOptions} {z : LzwReader C} {a s s1 : SD C} {l0 slice rest acc : List UInt8} {m : UInt8}
    {w : Option FrameDataType} {out : OutSpec} {n : Nat} {ev : Decoded} (hw : WF s) (hl : Look s (slice ++ rest)) (hne : slice ≠ [])
    (hg : Good K o s) (hs : Since K z a l0 m w s (slice ++ rest) acc) (hout : outFits out w)
    (h : s.update slice out = (s1, .ok (n, ev))) :
    WF s1 ∧ Look s1 ((slice ++ rest).drop n) ∧ Good K o s1 ∧ Onward K o z a l0 m w acc s1 ((slice ++ rest).drop n) ev := by
  obtain ⟨s0, l1, g, w0, hr⟩ := call_micro K.safe hw hl hne (trailer_stuck hne h) h
  obtain ⟨g0, f0⟩ := glide_since K g hg hs hout
  rcases hr with ⟨n', ev', he, w2, lk2, hm⟩ | ⟨_, _, _, _, _, _, he⟩
  · cases he
    rcases hm with ⟨rfl, rfl, rfl⟩ | ⟨_, hm⟩
    · refine ⟨w2, lk2, g0, fun _ => ?_, fun hx => by (cases hx)⟩
      rw [show evBytes .nothing = [] from rfl, List.append_nil]
      exact f0
    · have := since_step K g0 f0 hout hm
      obtain ⟨b, bs, x, n', rfl, hst, _, _⟩ := hm
      exact ⟨w2, lk2, good_step g0 (tr_of_nextState w0.ibuf hst), this⟩
  · cases he

/-- Two lists, element by element. -/
inductive Each {α β : Type} (R : α → β → Prop) : List α → List β → Prop
  | nil : Each R [] []
  | cons {x : α} {y : β} {xs : List α} {ys : List β} (h : R x y) (ht : Each R xs ys) : Each R (x :: xs) (y :: ys)

theorem next_eq (slice : List UInt8) (out : OutSpec) (n : Nat) (ev : Decoded) (w : Option FrameDataType) :
    UpdateCall.next ⟨slice, out, .ok (n, ev)⟩ w = evNext ev w := by cases ev <;> rfl

theorem gist_cons (slice : List UInt8) (out : OutSpec) (n : Nat) (ev : Decoded) (acc : List UInt8) (cs : List UpdateCall) :
    gist acc (⟨slice, out, .ok (n, ev)⟩ :: cs) = if ev.within then gist (acc ++ evBytes ev) cs else (ev, acc) :: gist [] cs := by
  cases ev <;> rfl

theorem collected_cons (slice : List UInt8) (out : OutSpec) (n : Nat) (ev : Decoded) (cs : List UpdateCall) :
    collected (⟨slice, out, .ok (n, ev)⟩ :: cs) = evBytes ev ++ collected cs := by
  cases ev <;> rfl

theorem evBytes_out {ev : Decoded} (h : ev.within = false) : evBytes ev = [] := by
  cases ev <;> first | rfl | cases h

/-- A program that feeds a decoder is told what the file has to tell. -/
theorem drawing_leaps (K : C.Contract) {o : DecodeOptions} {z : LzwReader C} {s s' : SD C} {l l' : List UInt8} {cs : List UpdateCall}
    (h : Drawing s l cs s' l') : ∀ {a : SD C} {l0 : List UInt8} {m : UInt8} {w : Option FrameDataType} {acc : List UInt8}, WF s → Look s l →
    Good K o s → Since K z a l0 m w s l acc → careful w cs →
    ∃ items a' l0' m' acc', Leaps a l0 m items a' l0' m' ∧ Each (Shows K o) items (gist acc cs) ∧
      Since K z a' l0' m' (dataAfter w cs) s' l' acc' ∧ WF s' ∧ Look s' l' ∧ Good K o s' ∧
      ((∃ c ∈ cs, c.event = some (.blockStart .trailer)) → a'.state = .trailer) ∧
      (∀ c ev, cs.getLast? = some c → c.event = some ev → ev.within = false → Fresh z a' s' ∧ l0' = l') ∧
      acc.length + (collected cs).length = ((gist acc cs).map (·.2.length)).sum + acc'.length := by
  induction h with
  | nil =>
    intro a l0 m w acc hw hl hg hs _
    exact ⟨[], a, l0, m, acc, .nil _ _ _, .nil, hs, hw, hl, hg, (fun ⟨_, hc, _⟩ => by cases hc), (fun _ _ h => by cases h), by simp [collected, gist]⟩
  | @cons s s1 s' slice rest l' out cs n ev hne h ht ih =>
    intro a l0 m w acc hw hl hg hs hc
    obtain ⟨hc1, hc2⟩ := hc
    have hout : outFits out w := by
      cases w with
      | none => trivial
      | some t => cases t <;> exact hc1
    obtain ⟨w1, l1, g1, hon1, hon2⟩ := call_since K hw hl hne hg hs hout h
    cases hev : ev.within with
    | true =>
      have hnext : UpdateCall.next ⟨slice, out, .ok (n, ev)⟩ w = w := by
        cases ev <;> first | rfl | cases hev
      rw [hnext] at hc2
      obtain ⟨items, a', l0', m', acc', q1, q2, q3, q4, q5, q6, q7, q8, q9⟩ := ih w1 l1 g1 (hon1 hev) hc2
      refine ⟨items, a', l0', m', acc', q1, ?_, ?_, q4, q5, q6, ?_, ?_, ?_⟩
      · rw [gist_cons, if_pos hev]
        exact q2
      · show Since K z a' l0' m' (dataAfter (UpdateCall.next _ w) cs) s' l' acc'
        rw [hnext]
        exact q3
      · rintro ⟨c, hc, he⟩
        rcases List.mem_cons.mp hc with rfl | hc
        · cases he
          cases hev
        · exact q7 ⟨c, hc, he⟩
      · intro c ev' hc he hin
        cases cs with
        | nil =>
          cases hc
          cases he
          rw [hev] at hin
          cases hin
        | cons c' cs => exact q8 c ev' (by rw [← hc, List.getLast?_cons_cons]) he hin
      · rw [gist_cons, if_pos hev, ← q9, collected_cons, List.length_append, List.length_append]
        omega
    | false =>
      obtain ⟨i, a1, m1, p1, p2, p3, p4, p5⟩ := hon2 hev
      rw [← next_eq slice out n] at p3
      obtain ⟨items, a', l0', m', acc', q1, q2, q3, q4, q5, q6, q7, q8, q9⟩ := ih w1 l1 g1 p3 hc2
      refine ⟨i :: items, a', l0', m', acc', .cons p1 q1, ?_, q3, q4, q5, q6, ?_, ?_, ?_⟩
      · rw [gist_cons, if_neg (by simp [hev])]
        exact .cons p2 q2
      · rintro ⟨c, hc, he⟩
        rcases List.mem_cons.mp hc with rfl | hc
        · cases he
          obtain ⟨p6, p7⟩ := p5 rfl
          generalize (slice ++ rest).drop n = lx at ht q1
          cases ht with
          | nil =>
            cases q2
            cases q1
            exact p7
          | cons hne' h' => exact absurd p6 (trailer_stuck hne' h')
        · exact q7 ⟨c, hc, he⟩
      · intro c ev' hc he hin
        cases cs with
        | nil =>
          generalize (slice ++ rest).drop n = lx at ht q1
          cases ht
          cases q2
          cases q1
          exact ⟨p4, rfl⟩
        | cons c' cs => exact q8 c ev' (by rw [← hc, List.getLast?_cons_cons]) he hin
      · rw [gist_cons, if_neg (by simp [hev]), List.map_cons, List.sum_cons, collected_cons, List.length_append,
          evBytes_out hev]
        simp only [List.length_nil] at q9 ⊢
        omega

theorem since_start (K : C.Contract) (o : DecodeOptions) (bytes : List UInt8) :
    Since K (LzwReader.new C false) (raw (LzwReader.new C false) (SD.withOptions C o)) bytes 0 none (SD.withOptions C o) bytes [] ∧
      Good K o (SD.withOptions C o) ∧ Look (SD.withOptions C o) bytes :=
  ⟨.out rfl rfl fun _ h => h, ⟨(by intro st h; cases h), rfl, rfl⟩, by intro hp; cases hp⟩

theorem each_append {α β : Type} {R : α → β → Prop} (hR : ∀ {x y y'}, R x y → R x y' → y = y') {xs ys : List α} {u v : List β}
    (h1 : Each R xs u) (h2 : Each R (xs ++ ys) v) : ∃ t, v = u ++ t ∧ Each R ys t := by
  induction h1 generalizing v with
  | nil => exact ⟨v, rfl, h2⟩
  | cons h _ ih =>
    cases h2 with
    | cons h' ht' =>
      obtain ⟨t, rfl, ht⟩ := ih ht'
      rw [hR h h']
      exact ⟨t, rfl, ht⟩

/-- **C96**. Two programs read the same file, with slices and output buffers of their own: they are told the same, and collect the same
for each image, as far as both have come. -/
theorem gist_slices (K : C.Contract) {o : DecodeOptions} {bytes l1 l2 : List UInt8} {cs1 cs2 : List UpdateCall} {s1 s2 : SD C}
    (h1 : Drawing (SD.withOptions C o) bytes cs1 s1 l1) (hc1 : careful none cs1)
    (h2 : Drawing (SD.withOptions C o) bytes cs2 s2 l2) (hc2 : careful none cs2) :
    gist [] cs1 <+: gist [] cs2 ∨ gist [] cs2 <+: gist [] cs1 := by
  obtain ⟨hs, hg, hl⟩ := since_start K o bytes
  obtain ⟨is1, a1, x1, m1, acc1, p1, p2, _⟩ := drawing_leaps K h1 (SD.wf_withOptions o) hl hg hs hc1
  obtain ⟨is2, a2, x2, m2, acc2, q1, q2, _⟩ := drawing_leaps K h2 (SD.wf_withOptions o) hl hg hs hc2
  rcases leaps_order p1 q1 with ⟨is, rfl, _⟩ | ⟨is, rfl, _⟩
  · obtain ⟨t, ht, _⟩ := each_append (R := Shows K o) (fun h h' => shows_det h h') p2 q2
    exact .inl ⟨t, ht.symm⟩
  · obtain ⟨t, ht, _⟩ := each_append (R := Shows K o) (fun h h' => shows_det h h') q2 p2
    exact .inr ⟨t, ht.symm⟩

/-- How a call may fail. -/
def FailKind (K : C.Contract) (o : DecodeOptions) (a : SD C) (l0 : List UInt8) (m : UInt8) (e : DecodingError) : Prop :=
  outside a.state = true ∧ Eval false a [] l0 (.err e) ∨
  ∃ left px e', o.skipFrameDecoding = false ∧ a.state = .copySubBlock left ∧ K.Yields (C.new m) (blocks left l0).1 px e' ∧
    (e = .io .invalidCode ∧ e' = .invalid ∨ e = .io .noEndCode ∧ o.checkForEndCode = true ∧ e' = .starved)

theorem failKind_det {K : C.Contract} {o : DecodeOptions} {a : SD C} {l0 : List UInt8} {m : UInt8} {e1 e2 : DecodingError}
    (h1 : FailKind K o a l0 m e1) (h2 : FailKind K o a l0 m e2) : e1 = e2 := by
  rcases h1 with ⟨p1, p2⟩ | ⟨left, px, e, p1, p2, p3, p4⟩
  · rcases h2 with ⟨_, q2⟩ | ⟨left', px', e', q1, q2, q3, q4⟩
    · cases eval_det p2 q2
      rfl
    · rw [q2] at p1; cases p1
  · rcases h2 with ⟨q1, _⟩ | ⟨left', px', e', q1, q2, q3, q4⟩
    · rw [p2] at q1; cases q1
    · rw [p2] at q2
      cases q2
      obtain ⟨-, rfl⟩ := K.det p3 q3
      rcases p4 with ⟨rfl, h⟩ | ⟨rfl, _, h⟩ <;> rcases q4 with ⟨rfl, h'⟩ | ⟨rfl, _, h'⟩ <;> first | rfl | (rw [h] at h'; cases h')

theorem call_fails_since (K : C.Contract) {o : DecodeOptions} {z : LzwReader C} {a s : SD C} {l0 slice rest acc : List UInt8} {m : UInt8}
    {w : Option FrameDataType} {out : OutSpec} {e : DecodingError} (hw : WF s) (hl : Look s (slice ++ rest)) (hne : slice ≠ [])
    (hg : Good K o s) (hs : Since K z a l0 m w s (slice ++ rest) acc) (hout : w ≠ none → ∃ n, out = .slice (n + 1))
    (h : (s.update slice out).2 = .err e) : FailKind K o a l0 m e := by
  have ht : s.state ≠ .trailer := by
    intro ht
    rw [trailer_diverges out hne ht] at h
    cases h
  have hfit : outFits out w := by
    cases w with
    | none => trivial
    | some t =>
      have := hout (by simp)
      cases t with
      | pixels => exact this
      | lzw => exact .inl this
  generalize hu : s.update slice out = u at h
  obtain ⟨s1, r⟩ := u
  simp only at h
  subst h
  obtain ⟨s0, l1, g, w0, hr⟩ := call_micro K.safe hw hl hne ht hu
  obtain ⟨g0, f0⟩ := glide_since K g hg hs hfit
  rcases hr with ⟨n', ev', he, _⟩ | ⟨b, bs, x, e', rfl, hst, he⟩
  · cases he
  · cases he
    generalize hl : b :: bs ++ x = l at f0
    cases f0 with
    | out ho ha hr =>
      subst hl
      rw [nextState_out ho b bs out .none] at hst
      have hev := eval_step K.safe false _ (raw z s0) [] b bs (Nat.le_refl _) (Decoder.raw_wf w0 ho) x
      refine .inl ⟨ha, hr _ ?_⟩
      rcases outside_cases ho with hn | ⟨k, hk⟩
      · obtain ⟨e1, -, -⟩ := nextState_raw z s0 b bs .none hn
        rw [hst] at e1
        exact hev.2.2 _ _ e1
      · cases hsk : s0.skipFrameDecoding with
        | false =>
          rcases lzwInit_raw z hk hsk b bs .none with ⟨hok, e1, e2⟩ | ⟨e1, e2⟩
          · rw [hst] at e1; simp at e1
          · rw [hst] at e1
            simp only [Prod.mk.injEq, Outcome.err.injEq] at e1
            obtain ⟨-, rfl⟩ := e1
            exact hev.2.2 _ _ e2
        | true =>
          rcases lzwInit_skip z hk hsk b bs .none with ⟨hok, e1, e2⟩ | ⟨e1, e2⟩
          · rw [hst] at e1; simp at e1
          · rw [hst] at e1
            simp only [Prod.mk.injEq, Outcome.err.injEq] at e1
            obtain ⟨-, rfl⟩ := e1
            exact hev.2.2 _ _ e2
    | @pix _ _ _ px left e' hk ha hy hf =>
      subst hl
      obtain ⟨cap, rfl⟩ := hfit
      have hr := feed_step K w0 hf (Nat.succ_pos cap) hst
      unfold SD.FeedRes at hr
      refine .inr ⟨left, _, e', g0.skip.symm.trans hk, by rw [ha], hy, ?_⟩
      rcases hr with ⟨h1, h2⟩ | ⟨h1, h2, h3, _⟩
      · exact .inl ⟨h1, h2⟩
      · exact .inr ⟨h1, g0.check.symm.trans h2, h3⟩
    | @copy _ _ _ data left hk ha hd hf =>
      subst hl
      have hr := copy_step hfit w0 hf hst
      obtain ⟨_, len, _, hv, _⟩ := hr
      obtain ⟨cap, hc⟩ := hout (by simp)
      rw [hc] at hv
      cases hv

theorem trailer_eval {m : Bool} {a : SD C} {acc l : List UInt8} {r : Res C} (h : Eval m a acc l r) (ha : a.state = .trailer) :
    ∃ a' acc', r = .more a' acc' := by
  have key : ∀ b (o : OutSpec) (a : SD C), a.state = .trailer → nextState a [b] o = (a, .ok (0, .nothing)) := by
    intro b o a hs
    rcases a with ⟨⟩
    simp only at hs
    subst hs
    rfl
  induction h with
  | nil => exact ⟨_, _, rfl⟩
  | quiet h hq _ ih =>
    rw [key _ _ _ ha] at h
    cases h
    exact ih ha
  | event _ h hq =>
    rw [key _ _ _ ha] at h
    cases h
    exact absurd .nothing (hq _)
  | err _ h =>
    rw [key _ _ _ ha] at h
    cases h

/-- A program that cannot go on has been told everything. -/
theorem finished_stops (K : C.Contract) {o : DecodeOptions} {z : LzwReader C} {a s : SD C} {l0 l acc : List UInt8} {m : UInt8}
    {cs : List UpdateCall} {r : Option DecodingError} (hfin : Finished cs s l r) (hw : WF s) (hl : Look s l) (hg : Good K o s)
    (hs : Since K z a l0 m (dataAfter none cs) s l acc)
    (ht : (∃ c ∈ cs, c.event = some (.blockStart .trailer)) → a.state = .trailer) {a' : SD C} {l' : List UInt8} {m' : UInt8} {i : Item}
    {j : Decoded × List UInt8} (h : Leap a l0 m i a' l' m') (hj : Shows K o i j) : False := by
  cases hfin with
  | trailer hc =>
    have := ht hc
    cases h with
    | out _ _ h => obtain ⟨_, _, h⟩ := trailer_eval h this; cases h
    | start _ _ h => obtain ⟨_, _, h⟩ := trailer_eval h this; cases h
    | data _ h => rw [this] at h; cases h
  | all =>
    generalize dataAfter none cs = w at hs
    generalize hl : ([] : List UInt8) = l at hs
    cases hs with
    | out ho ha hr =>
      subst hl
      have hm := hr _ (.nil _ _)
      cases h with
      | out _ _ h => cases eval_det h hm
      | start _ _ h => cases eval_det h hm
      | data _ h => rw [h] at ha; cases ha
    | @pix _ _ _ px left e' hk ha hy hf =>
      have ha' : a.state = .copySubBlock left := by rw [ha]
      have hnone : (blocks left l0).2 = none := by
        generalize (blocks left l0).2 = tail at hf
        cases hf with
        | sub => subst hl; rw [blocks_nil]
        | fin => cases hl
      cases h with
      | out _ ho => rw [ha'] at ho; cases ho
      | start _ ho => rw [ha'] at ho; cases ho
      | data _ hst hb =>
        rw [ha'] at hst
        cases hst
        rw [hb] at hnone
        cases hnone
    | @copy _ _ _ data left hk ha hd hf =>
      have ha' : a.state = .copySubBlock left := by rw [ha]
      have hnone : (blocks left l0).2 = none := by
        generalize (blocks left l0).2 = tail at hf
        cases hf with
        | sub => subst hl; rw [blocks_nil]
        | fin => cases hl
      cases h with
      | out _ ho => rw [ha'] at ho; cases ho
      | start _ ho => rw [ha'] at ho; cases ho
      | data _ hst hb =>
        rw [ha'] at hst
        cases hst
        rw [hb] at hnone
        cases hnone
  | @fails slice rest out e hne hout hu =>
    rcases call_fails_since K hw hl hne hg hs hout hu with ⟨p1, p2⟩ | ⟨left, px, e', p0, p1, p2, p3⟩
    · cases h with
      | out _ _ h => cases eval_det h p2
      | start _ _ h => cases eval_det h p2
      | data _ h => rw [h] at p1; cases p1
    · cases h with
      | out _ ho => rw [p1] at ho; cases ho
      | start _ ho => rw [p1] at ho; cases ho
      | data _ hst hb =>
        rw [p1] at hst
        cases hst
        rw [hb] at p2
        cases hj with
        | same _ _ hh =>
          rcases hh with hh | hh
          · rw [p0] at hh; cases hh
          · exact absurd rfl hh.2
        | data _ hy he hc =>
          obtain ⟨-, rfl⟩ := K.det p2 hy
          rcases p3 with ⟨_, rfl⟩ | ⟨_, h1, rfl⟩
          · exact he rfl
          · cases hc h1

/-- **C96**, the end. Two programs that cannot go on have been told the same, have collected the same for each image, and if a call
failed in both, it was with the same error. -/
theorem gist_final (K : C.Contract) {o : DecodeOptions} {bytes l1 l2 : List UInt8} {cs1 cs2 : List UpdateCall} {s1 s2 : SD C}
    {r1 r2 : Option DecodingError}
    (h1 : Drawing (SD.withOptions C o) bytes cs1 s1 l1) (hc1 : careful none cs1) (hf1 : Finished cs1 s1 l1 r1)
    (h2 : Drawing (SD.withOptions C o) bytes cs2 s2 l2) (hc2 : careful none cs2) (hf2 : Finished cs2 s2 l2 r2) :
    gist [] cs1 = gist [] cs2 ∧ ∀ e1 e2, r1 = some e1 → r2 = some e2 → e1 = e2 := by
  obtain ⟨hs, hg, hl⟩ := since_start K o bytes
  obtain ⟨is1, a1, x1, m1, acc1, p1, p2, p3, p4, p5, p6, p7, _⟩ := drawing_leaps K h1 (SD.wf_withOptions o) hl hg hs hc1
  obtain ⟨is2, a2, x2, m2, acc2, q1, q2, q3, q4, q5, q6, q7, _⟩ := drawing_leaps K h2 (SD.wf_withOptions o) hl hg hs hc2
  have same : a1 = a2 ∧ x1 = x2 ∧ m1 = m2 ∧ gist [] cs1 = gist [] cs2 := by
    rcases leaps_order p1 q1 with ⟨is, rfl, hx⟩ | ⟨is, rfl, hx⟩
    · obtain ⟨t, ht, he⟩ := each_append (R := Shows K o) (fun h h' => shows_det h h') p2 q2
      cases he with
      | nil => cases hx; exact ⟨rfl, rfl, rfl, by rw [ht, List.append_nil]⟩
      | cons hj _ =>
        cases hx with
        | cons hx _ => exact (finished_stops K hf1 p4 p5 p6 p3 p7 hx hj).elim
    · obtain ⟨t, ht, he⟩ := each_append (R := Shows K o) (fun h h' => shows_det h h') q2 p2
      cases he with
      | nil => cases hx; exact ⟨rfl, rfl, rfl, by rw [ht, List.append_nil]⟩
      | cons hj _ =>
        cases hx with
        | cons hx _ => exact (finished_stops K hf2 q4 q5 q6 q3 q7 hx hj).elim
  obtain ⟨rfl, rfl, rfl, hgist⟩ := same
  refine ⟨hgist, fun e1 e2 he1 he2 => ?_⟩
  subst he1
  subst he2
  cases hf1 with
  | fails hne1 ho1 hu1 =>
    cases hf2 with
    | fails hne2 ho2 hu2 =>
      exact failKind_det (call_fails_since K p4 p5 hne1 p6 p3 ho1 hu1) (call_fails_since K q4 q5 hne2 q6 q3 ho2 hu2)

theorem fresh_same {z : LzwReader C} {a s1 s2 : SD C} (h1 : Fresh z a s1) (h2 : Fresh z a s2) (w1 : WF s1) (w2 : WF s2)
    (hk : s1.skipFrameDecoding = s2.skipFrameDecoding) : s1 = { s2 with lzw := s1.lzw } := by
  have skips : ∀ {s : SD C} {left : Nat}, WF s → s.state = .copySubBlock left → s.skipFrameDecoding = true := by
    intro s left hw hs
    have := hw.st
    simp only [stOk, hs] at this
    exact this.2.2
  rcases h1 with h1 | ⟨left1, p1, p2, h1⟩ <;> rcases h2 with h2 | ⟨left2, q1, q2, h2⟩
  · rw [h1] at h2
    cases s1; cases s2
    simp only [raw, SD.mk.injEq] at h2 hk ⊢
    simp_all
  · have : s1.state = .copySubBlock left2 := by
      have : a.state = s1.state := by rw [h1]; rfl
      rw [← this, h2]
    rw [skips w1 this, q2] at hk
    cases hk
  · have : s2.state = .copySubBlock left1 := by
      have : a.state = s2.state := by rw [h2]; rfl
      rw [← this, h1]
    rw [skips w2 this, p2] at hk
    cases hk
  · rw [h1] at h2
    cases s1; cases s2
    simp only [raw, SD.mk.injEq] at h2 hk p1 q1 ⊢
    simp_all

/-- **C96**, at an event. When both programs have been told the same and have just been told the last event, the same bytes are still to
be consumed, and the decoders are the same but for the LZW decoder. -/
theorem gist_state (K : C.Contract) {o : DecodeOptions} {bytes l1 l2 : List UInt8} {cs1 cs2 : List UpdateCall} {c1 c2 : UpdateCall}
    {s1 s2 : SD C} {ev1 ev2 : Decoded}
    (h1 : Drawing (SD.withOptions C o) bytes (cs1 ++ [c1]) s1 l1) (hc1 : careful none (cs1 ++ [c1])) (he1 : c1.event = some ev1)
    (ht1 : ev1.within = false)
    (h2 : Drawing (SD.withOptions C o) bytes (cs2 ++ [c2]) s2 l2) (hc2 : careful none (cs2 ++ [c2])) (he2 : c2.event = some ev2)
    (ht2 : ev2.within = false) (hlen : (gist [] (cs1 ++ [c1])).length = (gist [] (cs2 ++ [c2])).length) :
    gist [] (cs1 ++ [c1]) = gist [] (cs2 ++ [c2]) ∧ l1 = l2 ∧ s1 = { s2 with lzw := s1.lzw } := by
  obtain ⟨hs, hg, hl⟩ := since_start K o bytes
  obtain ⟨is1, a1, x1, m1, acc1, p1, p2, _, p4, _, p6, _, p8, -⟩ := drawing_leaps K h1 (SD.wf_withOptions o) hl hg hs hc1
  obtain ⟨is2, a2, x2, m2, acc2, q1, q2, _, q4, _, q6, _, q8, -⟩ := drawing_leaps K h2 (SD.wf_withOptions o) hl hg hs hc2
  have same : a1 = a2 ∧ x1 = x2 ∧ gist [] (cs1 ++ [c1]) = gist [] (cs2 ++ [c2]) := by
    rcases leaps_order p1 q1 with ⟨is, rfl, hx⟩ | ⟨is, rfl, hx⟩
    · obtain ⟨t, ht, he⟩ := each_append (R := Shows K o) (fun h h' => shows_det h h') p2 q2
      cases he with
      | nil => cases hx; exact ⟨rfl, rfl, by rw [ht, List.append_nil]⟩
      | cons =>
        rw [ht] at hlen
        simp at hlen
    · obtain ⟨t, ht, he⟩ := each_append (R := Shows K o) (fun h h' => shows_det h h') q2 p2
      cases he with
      | nil => cases hx; exact ⟨rfl, rfl, by rw [ht, List.append_nil]⟩
      | cons =>
        rw [ht] at hlen
        simp at hlen
  obtain ⟨rfl, rfl, hgist⟩ := same
  obtain ⟨f1, rfl⟩ := p8 c1 ev1 (by simp) he1 ht1
  obtain ⟨f2, rfl⟩ := q8 c2 ev2 (by simp) he2 ht2
  exact ⟨hgist, rfl, fresh_same f1 f2 p4 q4 (p6.skip.trans q6.skip.symm)⟩

theorem expand_item {K : C.Contract} {o1 o2 : DecodeOptions} (hk1 : o1.skipFrameDecoding = false) (hk2 : o2.skipFrameDecoding = true)
    {a a' : SD C} {l l' : List UInt8} {m m' : UInt8} {i : Item} {x y : Decoded × List UInt8} (h : Leap a l m i a' l' m')
    (h1 : Shows K o1 i x) (h2 : Shows K o2 i y) {v u : List (Decoded × List UInt8)} (ht : Expansion K o1.checkForEndCode m' v u) :
    Expansion K o1.checkForEndCode m (y :: v) (x :: u) := by
  have hy : y = (i.1, i.2.2) := by
    cases h2 with
    | same => rfl
    | start => exact absurd ‹o2.skipFrameDecoding = false› (by rw [hk2]; simp)
    | data => exact absurd ‹o2.skipFrameDecoding = false› (by rw [hk2]; simp)
  subst hy
  cases h with
  | out _ ho hee hev =>
    cases h1 with
    | same _ _ h =>
      rcases h with h | h
      · rw [hk1] at h; cases h
      · exact .same h.1 h.2 ht
    | start => exact absurd rfl (hev _)
    | data => exact .data ‹_› ‹_› ‹_› ht
  | start =>
    cases h1 with
    | same _ _ h =>
      rcases h with h | h
      · rw [hk1] at h; cases h
      · exact absurd rfl (h.1 _)
    | start => exact .start ht
  | data =>
    cases h1 with
    | same _ _ h =>
      rcases h with h | h
      · rw [hk1] at h; cases h
      · exact absurd rfl h.2
    | data => exact .data ‹_› ‹_› ‹_› ht

theorem expand_left {K : C.Contract} {o1 o2 : DecodeOptions} (hk1 : o1.skipFrameDecoding = false) (hk2 : o2.skipFrameDecoding = true)
    {a a' : SD C} {l l' : List UInt8} {m m' : UInt8} {is : List Item} (h : Leaps a l m is a' l' m') :
    ∀ {js : List Item} {u v : List (Decoded × List UInt8)}, Each (Shows K o1) is u → Each (Shows K o2) (is ++ js) v →
    Expansion K o1.checkForEndCode m v u := by
  induction h with
  | nil => intro js u v h1 _; cases h1; exact .here
  | cons h _ ih =>
    intro js u v h1 h2
    cases h1 with
    | cons h1 t1 =>
      cases h2 with
      | cons h2 t2 => exact expand_item hk1 hk2 h h1 h2 (ih t1 t2)

theorem expand_right {K : C.Contract} {o1 o2 : DecodeOptions} (hk1 : o1.skipFrameDecoding = false) (hk2 : o2.skipFrameDecoding = true)
    {a a' : SD C} {l l' : List UInt8} {m m' : UInt8} {is : List Item} (h : Leaps a l m is a' l' m') :
    ∀ {js : List Item} {u v : List (Decoded × List UInt8)}, Each (Shows K o1) (is ++ js) u → Each (Shows K o2) is v →
    Expansion K o1.checkForEndCode m v u := by
  induction h with
  | nil => intro js u v _ h2; cases h2; exact .there
  | cons h _ ih =>
    intro js u v h1 h2
    cases h1 with
    | cons h1 t1 =>
      cases h2 with
      | cons h2 t2 => exact expand_item hk1 hk2 h h1 h2 (ih t1 t2)

/-- **C96**, the two modes. A program that collects pixels and one that collects compressed data, with slices and output buffers of their
own: the same events, and the pixels are what the compressed data expand to. -/
theorem gist_modes (K : C.Contract) {o1 o2 : DecodeOptions} (hk1 : o1.skipFrameDecoding = false) (hk2 : o2.skipFrameDecoding = true)
    (hm : o1.memoryLimit = o2.memoryLimit) (hcon : o1.checkFrameConsistency = o2.checkFrameConsistency)
    (hunk : o1.allowUnknownBlocks = o2.allowUnknownBlocks) {bytes l1 l2 : List UInt8} {cs1 cs2 : List UpdateCall} {s1 s2 : SD C}
    (h1 : Drawing (SD.withOptions C o1) bytes cs1 s1 l1) (hc1 : careful none cs1)
    (h2 : Drawing (SD.withOptions C o2) bytes cs2 s2 l2) (hc2 : careful none cs2) :
    Expansion K o1.checkForEndCode 0 (gist [] cs2) (gist [] cs1) := by
  obtain ⟨hs, hg, hl⟩ := since_start K o1 bytes
  obtain ⟨hs', hg', hl'⟩ := since_start K o2 bytes
  have ha : raw (LzwReader.new C false) (SD.withOptions C o1) = raw (LzwReader.new C false) (SD.withOptions C o2) := by
    unfold raw SD.withOptions
    rw [hm, hcon, hunk]
  rw [← ha] at hs'
  obtain ⟨is1, a1, x1, m1, acc1, p1, p2, _⟩ := drawing_leaps K h1 (SD.wf_withOptions o1) hl hg hs hc1
  obtain ⟨is2, a2, x2, m2, acc2, q1, q2, _⟩ := drawing_leaps K h2 (SD.wf_withOptions o2) hl' hg' hs' hc2
  rcases leaps_order p1 q1 with ⟨is, rfl, _⟩ | ⟨is, rfl, _⟩
  · exact expand_left hk1 hk2 p1 p2 q2
  · exact expand_right hk1 hk2 q1 p2 q2

end Gif.Draw
