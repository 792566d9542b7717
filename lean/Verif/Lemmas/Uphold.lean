import Verif.Lemmas.Sim
import Verif.Lemmas.Twin
import Verif.Spec.Agree
/-!
What a session returns before its first error is what the raw frames say, whatever the compressed data are.
-/

namespace Gif

open Spec (blocks bare Pixels)

namespace SD

variable {C : Codec}

/-- What passing over the rest of the image data does, if nothing is known about them. -/
def SkipAny (K : C.Contract) (s : SD C) (l : List UInt8) (tail : Option (List UInt8)) : Prop :=
  match tail with
  | some rest =>
    (∃ s1, Kept K s s1 ∧ Eval false s [] l (.event { s1 with state := .blockEnd, current := none } [] .dataEnd rest)) ∨
    ∃ e, Eval false s [] l (.err e)
  | none => ∃ s1, Eval false s [] l (.more s1 [])

theorem skip_any (K : C.Contract) : ∀ (l : List UInt8) (s : SD C) (left : Nat) (st : C.σ),
    s.state = .decodeSubBlock left → s.lzw.decoder = some st → s.skipFrameDecoding = false →
    SkipAny K s l (blocks left l).2 := by
  intro l
  induction l with
  | nil =>
    intro s left st hs hd hf
    rw [Spec.blocks_nil]
    exact ⟨s, .nil _ _⟩
  | cons b l ih =>
    intro s left st hs hd hf
    have lift : ∀ n tail, nextState s [b] .none = ({ s with state := .decodeSubBlock n }, .ok (1, .nothing)) →
        SkipAny K { s with state := .decodeSubBlock n } l tail → SkipAny K s (b :: l) tail := by
      intro n tail hn h
      cases tail with
      | none =>
        obtain ⟨s1, h1⟩ := h
        exact ⟨s1, .quiet hn .nothing (by simpa using h1)⟩
      | some rest =>
        rcases h with ⟨s1, h1, h2⟩ | ⟨e, h2⟩
        · exact .inl ⟨s1, kept_trans (kept_state K s _) h1, .quiet hn .nothing (by simpa using h2)⟩
        · exact .inr ⟨e, .quiet hn .nothing (by simpa using h2)⟩
    match left with
    | left + 1 =>
      refine lift left _ ?_ (ih _ left st rfl hd hf)
      unfold nextState
      simp only [hs]
      unfold onDecodeSubBlock
      rw [if_neg (by simp [hf]), if_pos (by omega)]
      simp only
      rw [if_pos (.inr trivial)]
      unfold goto
      rw [show min (left + 1) [b].length = 1 by simp]
      rfl
    | 0 =>
      by_cases hb : b = 0
      · subst hb
        rw [Spec.blocks_end]
        have hout : (C.decodeBytes st [] 0).out = [] := List.eq_nil_of_length_eq_zero (by have := K.safe.out_le st [] 0; omega)
        have hdec : (∃ e, s.lzw.decodeBytes [] .none = ({ s.lzw with decoder := some (C.decodeBytes st [] 0).st }, .err e)) ∨
            s.lzw.decodeBytes [] .none = ({ s.lzw with decoder := some (C.decodeBytes st [] 0).st },
              .ok ((C.decodeBytes st [] 0).consumed, [])) := by
          rw [LzwReader.decodeBytes_none hd, LzwReader.decodeBytes_slice hd, hout]
          cases hs : (C.decodeBytes st [] 0).status with
          | done => exact .inr rfl
          | ok => exact .inr rfl
          | noProgress =>
            simp only
            split
            · exact .inl ⟨_, rfl⟩
            · exact .inr rfl
          | invalidCode => exact .inl ⟨_, rfl⟩
        rcases hdec with ⟨e, hdec⟩ | hdec
        · refine .inr ⟨e, .err (s' := { s with lzw := { s.lzw with decoder := some (C.decodeBytes st [] 0).st } }) _ ?_⟩
          rw [spec_false]
          unfold nextState
          simp only [hs]
          unfold onDecodeSubBlock
          rw [if_neg (by simp [hf]), if_neg (by omega), if_neg (by simp)]
          rw [hdec]
          simp only [hs]
        · refine .inl ⟨_, kept_step K hd [] 0 .frameDecoded, ?_⟩
          refine .quiet (n := 0) (ev := .nothing) (x := [])
            (s' := { s with lzw := { s.lzw with decoder := some (C.decodeBytes st [] 0).st }, state := .frameDecoded }) ?_ .nothing ?_
          · rw [spec_false]
            unfold nextState
            simp only [hs]
            unfold onDecodeSubBlock
            rw [if_neg (by simp [hf]), if_neg (by omega), if_neg (by simp)]
            rw [hdec]
            rfl
          · refine .event (n := 1) _ ?_ ?_
            · unfold nextState; rfl
            · intro x hx; cases hx
      · rw [Spec.blocks_next hb]
        refine lift b.toNat _ ?_ (ih _ b.toNat st rfl hd hf)
        unfold nextState
        simp only [hs]
        unfold onDecodeSubBlock
        rw [if_neg (by simp [hf]), if_neg (by omega), if_pos hb]
        rfl

/-- Whatever was fetched before, the rest of the image data is passed over or found to be wrong. -/
theorem feed_any (K : C.Contract) {s : SD C} {more l out : List UInt8} {e : LzwEnd} {tail : Option (List UInt8)}
    (h : Feed K more s l out e tail) (hw : WF s) : SkipAny K s l tail := by
  cases h with
  | @sub _ _ left st _ hst hd hy hm =>
    have hst' := hw.st
    simp only [stOk, hst] at hst'
    exact skip_any K l s left st hst hd hst'.2.2.1
  | fin hst he hc =>
    refine .inl ⟨s, kept_refl K s, .event (n := 1) _ ?_ ?_⟩
    · unfold nextState; simp only [hst]; rfl
    · intro x hx; cases hx

end SD

namespace RD

variable {C : Codec}

/-- The decoder will not get out of the image data. -/
def Stuck (d : RD C) : Prop :=
  (∃ s a, SD.Eval false d.sd [] d.reader.bytes (.more s a)) ∨ ∃ e, SD.Eval false d.sd [] d.reader.bytes (.err e)

theorem live_any {K : C.Contract} {M : Check} {e : LzwEnd} {more px : List UInt8} {d d0 : RD C} (h : Live K M e more d0 d px) :
    Stuck d ∨ Ahead K M True more d d0 := by
  obtain ⟨q, tail, hf, h1, h2⟩ := h.feed
  have := SD.feed_any K hf h.inv.wf
  cases tail with
  | none => obtain ⟨s1, hs⟩ := this; exact .inl (.inl ⟨s1, [], hs⟩)
  | some l =>
    rcases this with ⟨s1, g1, g2⟩ | g
    · exact .inr (.inr (.inr ⟨fun _ => trivial, _, l,
        ready_of_kept g1 (SD.eval_wf K.safe g2 rfl h.inv.wf) h.skip h.check h.fit h.sd (h1 _ rfl), .inr g2⟩))
    · exact .inl (.inr g)

end RD

namespace Decoder

variable {C : Codec}

theorem stuck_info (hS : C.Safe) {d : Decoder C} (hi : d.rd.Inv) (hr : d.rd.reader.Reliable) (he : d.rd.atEof = false)
    (h : d.rd.Stuck) : ∃ e, d.nextFrameInfo.2 = .err e := by
  have r1 := nextFrameInfo_run hS d hi
  obtain ⟨_, n1⟩ := frameRun_reliable r1 hr
  obtain ⟨evs1, o1, rd1, u1, _, e1⟩ := frameRun_upto hS r1 hi (Reader.reliable_clean hr) he
  have m1 : ∀ c, o1 ≠ .err (.io (.reader c)) := by
    intro c ho
    subst ho
    exact n1 c (congrArg Prod.snd e1)
  have : ∃ e, o1 = .err e := by
    rcases h with ⟨s, a, h⟩ | ⟨e, h⟩
    · exact ⟨_, (uptoRes_det rfl u1 m1 (.stop h (by intro _ _ _ _ h; cases h))).2⟩
    · exact ⟨_, (uptoRes_det rfl u1 m1 (.stop h (by intro _ _ _ _ h; cases h))).2⟩
  obtain ⟨e, rfl⟩ := this
  exact ⟨e, congrArg Prod.snd e1⟩

/-- Where the two decoders are: at the end, before the next block, or at a frame whose pixels `live` are still to be fetched. -/
inductive Place (K : C.Contract) (M : Check) (more : List UInt8) (d d0 : Decoder C) : Option (List UInt8) → Prop
  | eof (h : d.rd.atEof = true) (h0 : d0.rd.atEof = true) (hb : d0.rd.reader.bytes = d.rd.reader.bytes ++ more) :
      Place K M more d d0 none
  | ahead (h : d.rd.atEof = false) (h0 : d0.rd.atEof = false) (ha : d.rd.Stuck ∨ RD.Ahead K M True more d.rd d0.rd) :
      Place K M more d d0 none
  | live {px : List UInt8} {e : LzwEnd} (h0 : d0.rd.atEof = false) (hl : RD.Live K M e more d0.rd d.rd px) :
      Place K M more d d0 (some px)

/-- `next_frame_info` on the first decoder and `read_next_frame` on the second. -/
def PlaceRes (K : C.Contract) (M : Check) (more : List UInt8) (d d' d0' : Decoder C) (out : Outcome Bool)
    (out0 : Outcome (Option Frame)) : Prop :=
  (∃ e, out = .err e) ∨
  match out0 with
  | .ok (some f) => out = .ok true ∧ d'.dataType = .pixels ∧ Pair d' d0' ∧ d'.currentFrame = bare f ∧
      d'.rd.atEof = false ∧ d0'.rd.atEof = false ∧
      ∀ m data px e, f.buffer = m :: data → K.Yields (C.new m) data px e → RD.Live K M e more d0'.rd d'.rd px
  | .ok none => out = .ok false ∧ Pair d' d0' ∧ d'.currentFrame = d.currentFrame ∧ d'.rd.atEof = true ∧ d0'.rd.atEof = true ∧
      d0'.rd.reader.bytes = d'.rd.reader.bytes ++ more
  | _ => False

theorem ahead_place (K : C.Contract) {M : Check} {more : List UInt8} {d d0 : Decoder C} (hp : Pair d d0)
    (hm : Complete more) (hlim : d0.rd.sd.memoryLimit = .unlimited)
    (ha : d.rd.Stuck ∨ RD.Ahead K M True more d.rd d0.rd) (he : d.rd.atEof = false) (he0 : d0.rd.atEof = false) :
    PlaceRes K M more d d.nextFrameInfo.1 d0.readNextFrame.1 d.nextFrameInfo.2 d0.readNextFrame.2 := by
  rcases ha with ha | ha
  · exact .inl (stuck_info K.safe hp.inv.rd hp.rel he ha)
  · have h := ahead_info K hp ha he he0
    have jo := readNextFrame_opts K.safe d0 hp.inv0
    have hl : d0.readNextFrame.1.rd.sd.memoryLimit = .unlimited := by
      simp only [SD.opts, Prod.mk.injEq] at jo
      rw [jo.2.2.2.1]; exact hlim
    rcases h with h | h | ⟨_, h⟩
    · exact .inl ⟨_, h.2⟩
    · exact .inl ⟨_, h.2⟩
    · cases hx : d0.readNextFrame.2 with
      | ok o =>
        rw [hx] at h
        cases o with
        | some f =>
          obtain ⟨g1, g2, g3, g4, g5, g6, g7⟩ := h
          exact .inr ⟨g1, g2, g3, g4, g5, g6, fun m data px e h1 h2 => (g7 m data px e h1 h2).1⟩
        | none => exact .inr h
      | err e =>
        rw [hx] at h
        rcases h with h | h | h
        · exact absurd hm h.2
        · exact absurd hl h.2
        · exact .inl ⟨_, h⟩
      | panic => rw [hx] at h; exact h.elim
      | diverge => rw [hx] at h; exact h.elim

theorem place_info (K : C.Contract) {M : Check} {more : List UInt8} {d d0 : Decoder C} {live : Option (List UInt8)}
    (hp : Pair d d0) (hm : Complete more) (hlim : d0.rd.sd.memoryLimit = .unlimited) (h : Place K M more d d0 live) :
    PlaceRes K M more d d.nextFrameInfo.1 d0.readNextFrame.1 d.nextFrameInfo.2 d0.readNextFrame.2 := by
  cases h with
  | eof h h0 hb =>
    obtain ⟨g, _⟩ := readNextFrame_other (atEof_info h0)
    rw [g rfl, atEof_info h]
    exact .inr ⟨rfl, hp, rfl, h, h0, hb⟩
  | ahead h h0 ha => exact ahead_place K hp hm hlim ha h h0
  | live h0 hl => exact ahead_place K hp hm hlim (RD.live_any hl) hl.eof h0

theorem picture_empty (c : ColorOutput) (g : Option (List UInt8)) (f : Frame) (px : List UInt8)
    (h : f.width.toNat * f.height.toNat = 0) : Spec.picture c g f px = [] := by
  have : Spec.pixelOrder f px = [] := by
    unfold Spec.pixelOrder Spec.deinterlace
    split
    · rcases Nat.mul_eq_zero.1 h with h | h
      · rw [h]
        simp [Spec.rowOf]
      · rw [h]; rfl
    · rw [h]; rfl
  unfold Spec.picture
  rw [this]
  cases c <;> rfl

/-- `read_into_buffer` on pixels that may be all there or not. -/
theorem readIntoBuffer_any {τ : Type} (c : Converter) (f : Frame) {cb : Callback τ} {F : τ → List UInt8 → Prop}
    {G : τ → Prop} {E : DecodingError → Prop} (hs : Converter.Src cb F G E) (t : τ) (l : List UInt8) (hF : F t l)
    (hr : (c.readIntoBuffer f cb t (List.replicate (c.bufferSize f) 0)).2.2.returns = true) :
    (f.width.toNat * f.height.toNat ≤ l.length ∧
      ∃ t', c.readIntoBuffer f cb t (List.replicate (c.bufferSize f) 0) =
        (t', Spec.picture c.colorOutput c.globalPalette f l, .ok ()) ∧ F t' (l.drop (f.width.toNat * f.height.toNat))) ∨
    ∃ t' b e, c.readIntoBuffer f cb t (List.replicate (c.bufferSize f) 0) = (t', b, .err e) := by
  by_cases hpos : 0 < f.width.toNat * f.height.toNat
  · rcases c.readIntoBuffer_src f hs t l hF (Nat.pos_of_mul_pos_right hpos) (Nat.pos_of_mul_pos_left hpos) with h | ⟨_, t', b, h, _⟩ | ⟨t', b, e, h, _⟩
    · exact .inl h
    · exact .inr ⟨_, _, _, h⟩
    · exact .inr ⟨_, _, _, h⟩
  · have h0 : f.width.toNat * f.height.toNat = 0 := by omega
    by_cases hi : f.interlaced = true ∧ f.height.toNat = 0
    · left
      have hsz : c.bufferSize f = 0 := by rw [Converter.bufferSize_eq, h0, Nat.mul_zero]
      refine ⟨by omega, t, ?_, by rw [h0]; exact hF⟩
      rw [Converter.readIntoBuffer, if_pos hi.1, hi.2, Converter.readRows, hsz, picture_empty _ _ _ _ h0]
      rfl
    · right
      have hi' : f.interlaced = true → f.height.toNat ≠ 0 := fun h h' => hi ⟨h, h'⟩
      have hno := (readIntoBuffer_noPixels c f cb t h0 hi').1
      generalize c.readIntoBuffer f cb t (List.replicate (c.bufferSize f) 0) = x at *
      obtain ⟨t', b, o⟩ := x
      cases o with
      | ok u => exact absurd rfl hno
      | err e => exact ⟨_, _, _, rfl⟩
      | panic => cases hr
      | diverge => cases hr

/-- `read_next_frame` on a frame that `next_frame_info` has found. -/
def FrameAny (K : C.Contract) (M : Check) (more : List UInt8) (f : Frame) (px : List UInt8) (d d0 : Decoder C) (rd : RD C) (g : Frame)
    (out : Outcome Unit) : Prop :=
  (∃ e, out = .err e) ∨
  (Spec.deliver d.conv.colorOutput d.conv.memoryLimit d.globalPalette f (px, .ended) = .ok g ∧ out = .ok () ∧
    (rd.Stuck ∨ RD.Ahead K M True more rd d0.rd) ∧
      rd.atEof = false ∧ rd.Inv ∧ rd.reader.Reliable ∧ rd.sd.width = d.rd.sd.width ∧ rd.sd.height = d.rd.sd.height)

theorem frame_any (K : C.Contract) {M : Check} {more : List UInt8} {f : Frame} {px : List UInt8} {e : LzwEnd} {d d0 : Decoder C}
    (hl : RD.Live K M e more d0.rd d.rd px) (hf : d.currentFrame = bare f)
    (hr : (d.conv.readFrame d.currentFrame RD.decodeNextBytes d.rd).2.2.returns = true) :
    FrameAny K M more f px d d0 (d.conv.readFrame d.currentFrame RD.decodeNextBytes d.rd).1
      (d.conv.readFrame d.currentFrame RD.decodeNextBytes d.rd).2.1
      (d.conv.readFrame d.currentFrame RD.decodeNextBytes d.rd).2.2 := by
  have hsrc := readIntoBuffer_any d.conv (bare f) (RD.live_src K M e more d0.rd) d.rd px hl
  rw [hf] at hr ⊢
  unfold Converter.readFrame at hr ⊢
  unfold FrameAny Spec.deliver
  rcases d.conv.checkBufferSize_cases (bare f) with ⟨h1, h2⟩ | ⟨h1, h2⟩
  · rw [h1] at hr ⊢
    have hlim : d.conv.memoryLimit.bufferSize d.conv.colorOutput f.width f.height = some (d.conv.bufferSize f) := by
      unfold Converter.checkBufferSize at h1
      have e1 : (bare f).width = f.width := rfl
      have e2 : (bare f).height = f.height := rfl
      rw [e1, e2] at h1
      cases hb : d.conv.memoryLimit.bufferSize d.conv.colorOutput f.width f.height with
      | none => rw [hb] at h1; cases h1
      | some n => rw [hb] at h1; simp only at h1; split at h1 <;> cases h1; rfl
    rw [hlim]
    simp only at hr ⊢
    have hbb : ({ bare f with buffer := [], ownedCap := none } : Frame) = bare f := rfl
    rw [frameBuffer_bare, hbb] at hr ⊢
    have hr' : (d.conv.readIntoBuffer (bare f) RD.decodeNextBytes d.rd (List.replicate (d.conv.bufferSize (bare f)) 0)).2.2.returns = true := by
      generalize d.conv.readIntoBuffer (bare f) RD.decodeNextBytes d.rd (List.replicate (d.conv.bufferSize (bare f)) 0) = y at *
      obtain ⟨rd, b, o⟩ := y
      cases o <;> first | rfl | exact hr
    rcases hsrc hr' with ⟨g1, t', g2, g3⟩ | ⟨t', b, e, g2⟩
    · right
      rw [g2]
      have e1 : (bare f).width = f.width := rfl
      have e2 : (bare f).height = f.height := rfl
      rw [e1, e2] at g1
      rw [if_neg (by simp), if_neg (by simpa using g1)]
      refine ⟨rfl, rfl, RD.live_any g3, g3.eof, g3.inv, g3.rel, ?_, ?_⟩
      · have := congrArg SD.width (g3.sd.symm.trans hl.sd)
        exact this
      · have := congrArg SD.height (g3.sd.symm.trans hl.sd)
        exact this
    · left
      rw [g2]
      exact ⟨_, rfl⟩
  · left
    rw [h1]
    exact ⟨_, rfl⟩

theorem upheld_cons {a b : List Got} (x : Got) (h : Spec.Upheld a b) : Spec.Upheld (x :: a) (x :: b) := by
  rcases h with rfl | ⟨k, e, hk, rfl⟩
  · exact .inl rfl
  · exact .inr ⟨k + 1, e, by simpa using hk, rfl⟩

theorem upheld_stop {b : List Got} (e : DecodingError) (hb : b ≠ []) : Spec.Upheld [.seen (.failed e)] b :=
  .inr ⟨0, e, List.length_pos_iff.2 hb, rfl⟩

/-- What the data expand to, as if it were all valid. -/
def whole (px : Pixels) : Pixels := (px.1, .ended)

/-- A decoder returns what the raw frames of another one say, until it fails. -/
theorem film_upheld (K : C.Contract) {M : Check} {more : List UInt8} {c : ColorOutput} {limit : MemoryLimit} (hm : Complete more) :
    ∀ (acts : List Act) (k : Nat) (d d0 : Decoder C) (live : Option (List UInt8)) (outs : List Pixels),
      Pair d d0 → d0.rd.sd.memoryLimit = .unlimited → Place K M more d d0 live → d.conv.colorOutput = c → d.conv.memoryLimit = limit →
      Spec.seeks acts ≤ k → Spec.YieldAll K (Spec.rawFrames (session (List.replicate k .read) d0)) outs →
      Spec.Upheld (film acts d live.isSome)
        (Spec.watch c limit acts d.view live (session (List.replicate k .read) d0) (outs.map whole)) := by
  intro acts
  induction acts with
  | nil => intro k d d0 live outs _ _ _ _ _ _ _; exact .inl rfl
  | cons a acts ih =>
    intro k d d0 live outs hp hun hph hcol hlim hk hex
    cases a with
    | info =>
      obtain ⟨k, rfl⟩ : ∃ k', k = k' + 1 := ⟨k - 1, by simp only [Spec.seeks] at hk; omega⟩
      have hk' : Spec.seeks acts ≤ k := by simp only [Spec.seeks] at hk; omega
      have hinfo := place_info K hp hm hun hph
      have hspec := frameRun_spec K.safe (nextFrameInfo_run K.safe d hp.inv.rd) hp.inv.rd
      have jo := readNextFrame_opts K.safe d0 hp.inv0
      have hun' : d0.readNextFrame.1.rd.sd.memoryLimit = .unlimited := by
        simp only [SD.opts, Prod.mk.injEq] at jo
        rw [jo.2.2.2.1]; exact hun
      rw [List.replicate_succ, session] at hex ⊢
      simp only [see] at hex ⊢
      rw [film]
      simp only [act]
      have h0r := (readNextFrame_spec K.safe d0 hp.inv0).2.1
      generalize d.nextFrameInfo = x1 at *
      generalize d0.readNextFrame = x2 at *
      obtain ⟨d', out⟩ := x1
      obtain ⟨d0', out0⟩ := x2
      simp only at *
      have hcol' : d'.conv.colorOutput = c := by rw [hspec.2.2.2.1]; exact hcol
      have hlim' : d'.conv.memoryLimit = limit := by rw [hspec.2.2.2.1]; exact hlim
      cases out0 with
      | ok o =>
        simp only at hex ⊢
        cases o with
        | some f =>
          simp only [Spec.rawFrames] at hex
          obtain ⟨px, outs', rfl⟩ : ∃ px outs', outs = px :: outs' := by
            cases outs with
            | nil => exact hex.elim
            | cons px outs => exact ⟨_, _, rfl⟩
          obtain ⟨⟨m, data, hb, hy⟩, hex⟩ := hex
          simp only [Spec.watch, List.map_cons]
          rcases hinfo with ⟨e, rfl⟩ | ⟨rfl, ht, hp', hf, he, he0, hl⟩
          · exact upheld_stop e (by simp)
          · simp only
            rw [← pair_view hp' hf]
            refine upheld_cons _ ?_
            exact ih k d' d0' (some px.1) outs' hp' hun' (.live he0 (hl m data px.1 px.2 hb hy)) hcol' hlim' hk' hex
        | none =>
          simp only [Spec.rawFrames] at hex
          simp only [Spec.watch]
          rcases hinfo with ⟨e, rfl⟩ | ⟨rfl, hp', hf, he, he0, hrest⟩
          · exact upheld_stop e (by simp)
          · simp only
            have hv : d.view.currentFrame = d.currentFrame := rfl
            rw [hv, ← pair_view hp' hf]
            refine upheld_cons _ ?_
            exact ih k d' d0' none outs hp' hun' (.eof he he0 hrest) hcol' hlim' hk' hex
      | err e =>
        simp only [Spec.watch]
        rcases hinfo with ⟨e, rfl⟩ | h
        · exact upheld_stop e (by simp)
        · exact h.elim
      | panic => cases h0r
      | diverge => cases h0r
    | read =>
      obtain ⟨k, rfl⟩ : ∃ k', k = k' + 1 := ⟨k - 1, by simp only [Spec.seeks] at hk; omega⟩
      have hk' : Spec.seeks acts ≤ k := by simp only [Spec.seeks] at hk; omega
      have hinfo := place_info K hp hm hun hph
      have hspec := frameRun_spec K.safe (nextFrameInfo_run K.safe d hp.inv.rd) hp.inv.rd
      have jo := readNextFrame_opts K.safe d0 hp.inv0
      have hun' : d0.readNextFrame.1.rd.sd.memoryLimit = .unlimited := by
        simp only [SD.opts, Prod.mk.injEq] at jo
        rw [jo.2.2.2.1]; exact hun
      rw [List.replicate_succ, session] at hex ⊢
      simp only [see] at hex ⊢
      rw [film]
      simp only [act]
      have h0r := (readNextFrame_spec K.safe d0 hp.inv0).2.1
      have hri := (readNextFrame_spec K.safe d hp.inv)
      obtain ⟨ho1, ho2⟩ := readNextFrame_other (d := d) (d' := d.nextFrameInfo.1) (out := d.nextFrameInfo.2) rfl
      have ho3 := readNextFrame_pixels (d := d) (d' := d.nextFrameInfo.1)
      generalize d.nextFrameInfo = x1 at *
      generalize d0.readNextFrame = x2 at *
      obtain ⟨d', out⟩ := x1
      obtain ⟨d0', out0⟩ := x2
      simp only at *
      have hcol' : d'.conv.colorOutput = c := by rw [hspec.2.2.2.1]; exact hcol
      have hlim' : d'.conv.memoryLimit = limit := by rw [hspec.2.2.2.1]; exact hlim
      cases out0 with
      | ok o =>
        simp only at hex ⊢
        cases o with
        | some f =>
          simp only [Spec.rawFrames] at hex
          obtain ⟨px, outs', rfl⟩ : ∃ px outs', outs = px :: outs' := by
            cases outs with
            | nil => exact hex.elim
            | cons px outs => exact ⟨_, _, rfl⟩
          obtain ⟨⟨m, data, hb, hy⟩, hex⟩ := hex
          simp only [Spec.watch, List.map_cons]
          have hne : (match Spec.deliver c limit d0'.view.globalPalette f (whole px) with
              | .ok g => Got.seen (.frame (some g) { d0'.view with currentFrame := g }) ::
                  Spec.watch c limit acts { d0'.view with currentFrame := g } none (session (List.replicate k .read) d0') (outs'.map whole)
              | .error e => [.seen (.failed e)]) ≠ [] := by split <;> simp
          rcases hinfo with ⟨e, rfl⟩ | ⟨rfl, ht, hp', hf, he, he0, hl⟩
          · rw [ho2 _ rfl]
            exact upheld_stop e hne
          · have hl := hl m data px.1 px.2 hb hy
            replace ho3 := ho3 rfl ht
            have hrd := frame_any K (d := d') (d0 := d0') (f := f) hl hf
            generalize d'.conv.readFrame d'.currentFrame RD.decodeNextBytes d'.rd = y at *
            obtain ⟨rd, g, o⟩ := y
            simp only at ho3 hrd
            have hgp : d0'.view.globalPalette = d'.globalPalette := by
              show d0'.globalPalette = d'.globalPalette
              unfold globalPalette; rw [hp'.conv]
            have hret : o.returns = true := by
              have := hri.2.1
              rw [ho3] at this
              cases o <;> first | rfl | exact this
            rcases hrd hret with ⟨e, rfl⟩ | ⟨hdel, rfl, r1, r2, r3, r4, r5, r6⟩
            · simp only at ho3
              rw [ho3]
              exact upheld_stop e hne
            · simp only at ho3
              rw [ho3] at hri ⊢
              simp only at hri ⊢
              have hdel' : Spec.deliver c limit d0'.view.globalPalette f (whole px) = .ok g := by
                rw [hgp, ← hcol', ← hlim']; exact hdel
              rw [hdel']
              have hp'' : Pair ({ d' with rd := rd, currentFrame := g } : Decoder C) d0' :=
                ⟨hp'.conv, hp'.bg, hp'.rep, r5.trans hp'.width, r6.trans hp'.height, r4, hp'.rel0, hri.1, hp'.inv0, hp'.skip0⟩
              have hv := pair_view hp'' (f := g) rfl
              simp only at hv ⊢
              rw [← hv]
              refine upheld_cons _ ?_
              exact ih k _ d0' none outs' hp'' hun' (.ahead r2 he0 r1) hcol' hlim' hk' hex
        | none =>
          simp only [Spec.rawFrames] at hex
          simp only [Spec.watch]
          rcases hinfo with ⟨e, rfl⟩ | ⟨rfl, hp', hf, he, he0, hrest⟩
          · rw [ho2 _ rfl]
            exact upheld_stop e (by simp)
          · rw [ho1 rfl]
            simp only
            have hv : d.view.currentFrame = d.currentFrame := rfl
            rw [hv, ← pair_view hp' hf]
            refine upheld_cons _ ?_
            exact ih k d' d0' none outs hp' hun' (.eof he he0 hrest) hcol' hlim' hk' hex
      | err e =>
        simp only [Spec.watch]
        rcases hinfo with ⟨e, rfl⟩ | h
        · rw [ho2 _ rfl]
          exact upheld_stop e (by simp)
        · exact h.elim
      | panic => cases h0r
      | diverge => cases h0r
    | fill n =>
      have hk' : Spec.seeks acts ≤ k := hk
      rw [film]
      simp only [act]
      cases live with
      | none =>
        simp only [Option.isSome_none, Bool.false_eq_true, if_false, List.nil_append, Spec.watch]
        exact ih k d d0 none outs hp hun hph hcol hlim hk' hex
      | some px =>
        cases hph with
        | @live px e h0 hl =>
        simp only [Option.isSome_some, if_true, Spec.watch]
        have hinv := inv_fillBuffer K.safe d (List.replicate ((n + 1) * Spec.channels d.conv.colorOutput) 0) hp.inv
        have hch : Spec.channels d.conv.colorOutput = d.conv.chan := by
          unfold Spec.channels Converter.chan; cases d.conv.colorOutput <;> rfl
        have hsrc := d.conv.fillBuffer_src d.currentFrame (RD.live_src K M e more d0.rd) d.rd px
          (List.replicate ((n + 1) * Spec.channels d.conv.colorOutput) 0) (n + 1) hl
          (by rw [List.length_replicate, hch, Nat.mul_comm]) (by omega)
        rcases hsrc with ⟨g1, t', g2, g3⟩ | ⟨g1, t', g2, ⟨g3, g4, g5, g6⟩, g7, g8⟩ | ⟨t', b, e', g2, g3, _⟩
        · have hf : d.fillBuffer (List.replicate ((n + 1) * Spec.channels d.conv.colorOutput) 0) =
              ({ d with rd := t' }, Spec.colours d.conv.colorOutput (Spec.paletteOf d.conv.globalPalette d.currentFrame)
                d.currentFrame.transparent (px.take (n + 1)), .ok true) := by
            unfold fillBuffer
            rw [g2, ← Converter.convert_eq, List.length_take, Nat.min_eq_left g1, hch, Nat.mul_comm]
          rw [hf] at hinv ⊢
          rw [if_pos g1, ← hcol]
          refine upheld_cons _ ?_
          rw [hcol]
          have hp' : Pair ({ d with rd := t' } : Decoder C) d0 := by
            have a1 := (congrArg SD.width (g3.sd.symm.trans hl.sd))
            have a2 := (congrArg SD.height (g3.sd.symm.trans hl.sd))
            exact ⟨hp.conv, hp.bg, hp.rep, (show t'.sd.width = d.rd.sd.width from a1).trans hp.width,
              (show t'.sd.height = d.rd.sd.height from a2).trans hp.height, g3.rel, hp.rel0, hinv.1, hp.inv0, hp.skip0⟩
          have hv : ({ d with rd := t' } : Decoder C).view = d.view := by
            rw [pair_view hp' rfl, pair_view hp rfl]
          rw [← hv]
          exact ih k _ d0 (some (px.drop (n + 1))) outs hp' hun (.live h0 g3) hcol hlim hk' hex
        · have hf : d.fillBuffer (List.replicate ((n + 1) * Spec.channels d.conv.colorOutput) 0) =
              ({ d with rd := t' }, Spec.colours d.conv.colorOutput (Spec.paletteOf d.conv.globalPalette d.currentFrame)
                d.currentFrame.transparent px ++ List.replicate ((n + 1 - px.length) * Spec.channels d.conv.colorOutput) 0, .ok false) := by
            unfold fillBuffer
            have hle : d.conv.chan * px.length ≤ (n + 1) * d.conv.chan := by
              rw [Nat.mul_comm]; exact Nat.mul_le_mul_right _ (by omega)
            rw [g2, ← Converter.convert_eq, hch, Converter.replicate_take _ hle, List.drop_replicate, Nat.sub_mul,
              Nat.mul_comm px.length]
          rw [hf] at hinv ⊢
          rw [if_neg (by omega), ← hcol]
          refine upheld_cons _ ?_
          rw [hcol]
          have hp' : Pair ({ d with rd := t' } : Decoder C) d0 := by
            have a1 := (congrArg SD.width (g6.sd.symm.trans hl.sd))
            have a2 := (congrArg SD.height (g6.sd.symm.trans hl.sd))
            exact ⟨hp.conv, hp.bg, hp.rep, (show t'.sd.width = d.rd.sd.width from a1).trans hp.width,
              (show t'.sd.height = d.rd.sd.height from a2).trans hp.height, g4, hp.rel0, hinv.1, hp.inv0, hp.skip0⟩
          have hv : ({ d with rd := t' } : Decoder C).view = d.view := by
            rw [pair_view hp' rfl, pair_view hp rfl]
          rw [← hv]
          exact ih k _ d0 none outs hp' hun
            (.ahead g5 h0 (.inr (.inr (.inr ⟨fun _ => trivial, _, _, g6, .inl ⟨rfl, rfl⟩⟩)))) hcol hlim hk' hex
        · have hf : d.fillBuffer (List.replicate ((n + 1) * Spec.channels d.conv.colorOutput) 0) =
              ({ d with rd := t' }, b, .err e') := by
            unfold fillBuffer
            rw [g2]
          rw [hf]
          refine upheld_stop e' ?_
          split <;> simp
    | into =>
      have hk' : Spec.seeks acts ≤ k := hk
      rw [film]
      simp only [act]
      cases live with
      | none =>
        simp only [Option.isSome_none, Bool.false_eq_true, if_false, List.nil_append, Spec.watch]
        exact ih k d d0 none outs hp hun hph hcol hlim hk' hex
      | some px =>
        cases hph with
        | @live px e h0 hl =>
        simp only [Option.isSome_some, if_true, Spec.watch]
        have hinv := inv_readIntoBuffer K.safe d (List.replicate d.bufferSize 0) hp.inv
        have hret : (d.conv.readIntoBuffer d.currentFrame RD.decodeNextBytes d.rd
            (List.replicate (d.conv.bufferSize d.currentFrame) 0)).2.2.returns = true := by
          have := hinv.2.1
          unfold readIntoBuffer bufferSize at this
          exact this
        have hsrc := readIntoBuffer_any d.conv d.currentFrame (RD.live_src K M e more d0.rd) d.rd px hl hret
        have hcf : d.view.currentFrame = d.currentFrame := rfl
        rw [hcf]
        rcases hsrc with ⟨g1, t', g2, g3⟩ | ⟨t', b, e', g2⟩
        · have hf : d.readIntoBuffer (List.replicate d.bufferSize 0) =
              ({ d with rd := t' }, Spec.picture d.conv.colorOutput d.conv.globalPalette d.currentFrame px, .ok ()) := by
            unfold readIntoBuffer bufferSize
            rw [g2]
          rw [hf] at hinv ⊢
          rw [if_pos g1, ← hcol]
          refine upheld_cons _ ?_
          rw [hcol]
          have hp' : Pair ({ d with rd := t' } : Decoder C) d0 := by
            have a1 := (congrArg SD.width (g3.sd.symm.trans hl.sd))
            have a2 := (congrArg SD.height (g3.sd.symm.trans hl.sd))
            exact ⟨hp.conv, hp.bg, hp.rep, (show t'.sd.width = d.rd.sd.width from a1).trans hp.width,
              (show t'.sd.height = d.rd.sd.height from a2).trans hp.height, g3.rel, hp.rel0, hinv.1, hp.inv0, hp.skip0⟩
          have hv : ({ d with rd := t' } : Decoder C).view = d.view := by
            rw [pair_view hp' rfl, pair_view hp rfl]
          rw [← hv]
          exact ih k _ d0 (some _) outs hp' hun (.live h0 g3) hcol hlim hk' hex
        · have hf : d.readIntoBuffer (List.replicate d.bufferSize 0) = ({ d with rd := t' }, b, .err e') := by
            unfold readIntoBuffer bufferSize
            rw [g2]
          rw [hf]
          refine upheld_stop e' ?_
          split <;> simp

end Decoder

end Gif
