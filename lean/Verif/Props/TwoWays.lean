import Verif.Props.Gist
import Verif.Props.Given
import Verif.Props.Descent
import Verif.Spec.TwoWays
import Verif.Lemmas.History
/-!
# C97: `Decoder` gives what a program gets that drives a streaming decoder itself
-/

namespace Gif.Twofold

variable {C : Codec}

open Spec SD Draw

/-- The data items. -/
def ends (is : List Item) : List Item := is.filter (fun i => i.1 = .dataEnd)

/-- Is it the announcement of an image? -/
def isStart (i : Item) : Bool := Decoder.isMetadata i.1

def starts (is : List Item) : Nat := is.countP isStart

theorem ends_append (x y : List Item) : ends (x ++ y) = ends x ++ ends y := List.filter_append ..

theorem starts_append (x y : List Item) : starts (x ++ y) = starts x + starts y := List.countP_append ..

/-! ## `Decoder` -/

/-- From one event to the next, outside of image data, with `skip_frame_decoding`. -/
theorem eval_skip (hS : C.Safe) {s s' : SD C} {acc a l rest : List UInt8} {ev : Decoded} {r : Res C} (h : Eval false s acc l r)
    (hr : r = .event s' a ev rest) (hw : WF s) (ho : outside s.state = true) (hk : s.skipFrameDecoding = true) :
    s'.skipFrameDecoding = true ∧ (ev = .blockStart .trailer → s'.state = .trailer) ∧
    ((∀ t, ev ≠ .frameMetadata t) ∧ ev ≠ .dataEnd ∧ outside s'.state = true ∨
      ∃ k left, ev = .frameMetadata (.lzw k) ∧ s'.state = .copySubBlock left) := by
  induction h with
  | nil => cases hr
  | @quiet s s1 acc l x b n ev r h hq ht ih =>
    have htr := tr_of_nextState hw.ibuf h
    have hop := tr_opts htr
    simp only [SD.opts, Prod.mk.injEq] at hop
    have hout : outside s1.state = true := by
      rcases outside_cases ho with hn | ⟨m, hm⟩
      · exact (tr_outside htr hn).1
      · rcases lzwInit_skip s.lzw hm hk b [] (spec false acc) with ⟨_, e1, _⟩ | ⟨e1, _⟩
        · rw [h] at e1
          simp only [Prod.mk.injEq, Outcome.ok.injEq] at e1
          obtain ⟨-, -, rfl⟩ := e1
          cases hq
        · rw [h] at e1
          simp at e1
    exact ih hr (tr_wf hS hw htr).1 hout (hop.1.trans hk)
  | @event s s1 acc b n ev l h hq =>
    cases hr
    have htr := tr_of_nextState hw.ibuf h
    have hop := tr_opts htr
    simp only [SD.opts, Prod.mk.injEq] at hop
    refine ⟨hop.1.trans hk, fun he => by subst he; exact tr_at_trailer htr, ?_⟩
    rcases outside_cases ho with hn | ⟨m, hm⟩
    · exact .inl ⟨(tr_outside htr hn).2, (tr_plain htr hn).1, (tr_outside htr hn).1⟩
    · rcases lzwInit_skip s.lzw hm hk b [] (spec false a) with ⟨_, e1, _⟩ | ⟨e1, _⟩
      · rw [h] at e1
        simp only [Prod.mk.injEq, Outcome.ok.injEq] at e1
        obtain ⟨rfl, -, rfl⟩ := e1
        exact .inr ⟨m, b.toNat, rfl, rfl⟩
      · rw [h] at e1
        simp at e1
  | err => cases hr

/-- The events up to one that is waited for. -/
theorem upto_leaps (hS : C.Safe) {P : Decoded → Bool} {s s' : SD C} {l rest : List UInt8} {evs : List Decoded} {ev : Decoded} {r : Res C}
    (h : Upto P s l evs r) (hr : r = .event s' [] ev rest) (hw : WF s) (ho : outside s.state = true)
    (hk : s.skipFrameDecoding = true) (hP : (∀ t, P (.frameMetadata t) = true) ∨ s.headerEndReached = false ∧ P .headerEnd = true) (m : UInt8) :
    ∃ is a1 l1, Leaps s l m is a1 l1 m ∧ ends is = [] ∧ starts is = 0 ∧ WF a1 ∧ outside a1.state = true ∧
      a1.skipFrameDecoding = true ∧ Eval false a1 [] l1 (.event s' [] ev rest) ∧
      (s.headerEndReached = false → P .headerEnd = true → a1.headerEndReached = false) := by
  induction h with
  | @step s s1 l rest1 ev1 evs r h hP1 ht hr1 ih =>
    obtain ⟨h1, -, h3⟩ := eval_skip hS h rfl hw ho hk
    have hne : ∀ t, ev1 ≠ .frameMetadata t := by
      rcases hP with hP | hP
      · intro t he; subst he; rw [hP] at hP1; cases hP1
      · exact (eval_header hS h rfl hw hP.1).1
    have hhe : s.headerEndReached = false → P .headerEnd = true → s1.headerEndReached = false := by
      intro hh hp
      exact (eval_header hS h rfl hw hh).2 (by intro he; subst he; rw [hp] at hP1; cases hP1)
    rcases h3 with ⟨_, h4, h5⟩ | ⟨k, left, he, _⟩
    rotate_left
    · exact absurd he (hne _)
    obtain ⟨is, a1, l1, g1, g2, g3, g4, g5, g6, g7, g8⟩ := ih hr (eval_wf hS h rfl hw) h5 h1 (hP.imp id fun ⟨x, y⟩ => ⟨hhe x y, y⟩)
    refine ⟨(ev1, m, []) :: is, a1, l1, .cons (.out m ho h hne) g1, ?_, ?_, g4, g5, g6, g7, fun x y => g8 (hhe x y) y⟩
    · unfold ends
      rw [List.filter_cons_of_neg (by simpa using h4)]
      exact g2
    · unfold starts
      rw [List.countP_cons_of_neg]
      · exact g3
      · unfold isStart
        cases ev1 <;> first | (intro x; cases x; done) | exact absurd rfl (hne _)
  | @stop s l r h hr1 =>
    subst hr
    exact ⟨[], s, l, .nil _ _ _, rfl, rfl, hw, ho, hk, h, fun x _ => x⟩

/-- A decoder between two frames. -/
structure Calm (d : Decoder C) : Prop where
  inv : d.Inv
  rel : d.rd.reader.Reliable
  eof : d.rd.atEof = false
  out : outside d.rd.sd.state = true
  skip : d.rd.sd.skipFrameDecoding = true

theorem calm_readInfo (hS : C.Safe) (o : DecodeOptions) (hsk : o.skipFrameDecoding = true) {r : Reader} (hr : r.Reliable)
    (h : (Decoder.readInfo C o r).2 = .ok ()) :
    Calm (Decoder.readInfo C o r).1 ∧ ∃ is, Leaps (SD.withOptions C o) r.bytes 0 is (Decoder.readInfo C o r).1.rd.sd
      (Decoder.readInfo C o r).1.rd.reader.bytes 0 ∧ ends is = [] ∧ starts is = 0 := by
  have hi := Decoder.inv_withNoInit (C := C) o r
  have hinv := (Decoder.inv_readInfo (C := C) hS o r).1
  have w := Decoder.initLoop_run hS _ (Decoder.withNoInit C o r) hi.rd (Decoder.meas_lt_fuel _)
  obtain ⟨l, n⟩ := Decoder.initRun_reliable w hr
  obtain ⟨evs, out, u, e, _, f⟩ := Decoder.initRun_upto hS w hi.rd (Reader.reliable_clean hr) rfl
  have hbr : ∀ (a : Decoder C), a.checkBg.rd = a.rd := by
    intro a; unfold Decoder.checkBg; split <;> (try split) <;> rfl
  unfold Decoder.readInfo Decoder.init at h hinv ⊢
  generalize Decoder.initLoop (Decoder.withNoInit C o r).rd.eventFuel (Decoder.withNoInit C o r) = x at *
  obtain ⟨d', out'⟩ := x
  simp only at *
  cases out' with
  | ok v =>
    simp only at h hinv ⊢
    cases out with
    | ok oe =>
      cases oe with
      | none => cases f
      | some ev =>
        obtain ⟨p1, p2, p3⟩ := u
        have he : ev = .headerEnd := by cases ev <;> first | rfl | cases p1
        subst he
        rw [hbr]
        obtain ⟨is, a1, l1, g1, g2, g3, g4, g5, g6, g7, g8⟩ := upto_leaps hS p3 rfl (SD.wf_withOptions o) rfl hsk (.inr ⟨rfl, rfl⟩) 0
        obtain ⟨q1, -, q3⟩ := eval_skip hS g7 rfl g4 g5 g6
        rcases q3 with ⟨k1, k2, k3⟩ | ⟨_, _, k1, _⟩
        · refine ⟨⟨hinv, by rw [hbr]; exact l, by rw [hbr]; exact p2, by rw [hbr]; exact k3, by rw [hbr]; exact q1⟩,
            is ++ [(.headerEnd, 0, [])], leaps_append g1 (.cons (.out 0 g5 g7 k1) (.nil _ _ _)), ?_, ?_⟩
          · rw [ends_append, g2]; rfl
          · rw [starts_append, g3]; rfl
        · cases k1
    | err e => cases f
    | panic => cases f
    | diverge => cases f
  | err e => simp at h
  | panic => simp at h
  | diverge => simp at h

/-- What a call of `read_next_frame` does that returns a frame. -/
theorem calm_read (hS : C.Safe) {d d' : Decoder C} (hc : Calm d) {f : Frame} (h : d.readNextFrame = (d', .ok (some f))) (m : UInt8) :
    Calm d' ∧ ∃ is k dd a1 l1 a2 l2, Leaps d.rd.sd d.rd.reader.bytes m is a1 l1 m ∧ ends is = [] ∧ starts is = 0 ∧
      Leap a1 l1 m (.frameMetadata (.lzw k), m, []) a2 l2 k ∧ a2.current = some (bare f) ∧
      Leap a2 l2 k (.dataEnd, k, dd) d'.rd.sd d'.rd.reader.bytes k ∧ f.buffer = k :: dd := by
  have hrun := Decoder.nextFrameInfo_run hS d hc.inv.rd
  obtain ⟨l1, n1⟩ := Decoder.frameRun_reliable hrun hc.rel
  obtain ⟨evs, o, rd, u, _, e⟩ := Decoder.frameRun_upto hS hrun hc.inv.rd (Reader.reliable_clean hc.rel) hc.eof
  have hinv' := (Decoder.inv_nextFrameInfo hS d hc.inv).1
  have hinv := (Decoder.readNextFrame_spec hS d hc.inv).1
  obtain ⟨-, -, -, -, -, -, hbuf, -⟩ := Decoder.frameRun_spec hS hrun hc.inv.rd
  rw [h] at hinv
  unfold Decoder.readNextFrame at h
  generalize d.nextFrameInfo = x at *
  obtain ⟨d1, out⟩ := x
  cases o with
  | ok oe =>
    cases oe with
    | none =>
      simp only [Decoder.infoOf, Prod.mk.injEq] at e
      obtain ⟨rfl, rfl⟩ := e
      simp at h
    | some ev =>
      obtain ⟨p1, p2, p3⟩ := u
      obtain ⟨is, a1, x1, g1, g2, g3, g4, g5, g6, g7, -⟩ :=
        upto_leaps hS p3 rfl hc.inv.rd.wf hc.out hc.skip (.inl fun _ => rfl) m
      obtain ⟨q1, -, q3⟩ := eval_skip hS g7 rfl g4 g5 g6
      rcases q3 with ⟨k1, -, -⟩ | ⟨k, left, rfl, k2⟩
      · cases ev <;> first | exact absurd rfl (k1 _) | cases p1
      · simp only [Decoder.infoOf] at e
        cases hcur : rd.sd.current with
        | none =>
          rw [hcur] at e
          simp only [Prod.mk.injEq] at e
          obtain ⟨rfl, rfl⟩ := e
          simp at h
        | some f0 =>
          rw [hcur] at e
          simp only [Prod.mk.injEq] at e
          obtain ⟨rfl, e2⟩ := e
          split at e2
          · subst e2
            simp at h
          · subst e2
            obtain ⟨b1, b2, -⟩ := hbuf rfl
            have b1 : f0.buffer = [] := b1
            have b2 : f0.ownedCap = none := b2
            have hi := hinv'.rd
            generalize hd1 : d.withFrame rd f0 (.lzw k) = d1 at *
            have t1 : d1.rd.sd = { rd.sd with current := some f0.afterTake } := by rw [← hd1]; rfl
            have t2 : d1.rd.reader = rd.reader := by rw [← hd1]; rfl
            have t3 : d1.rd.atEof = rd.atEof := by rw [← hd1]; rfl
            have t4 : d1.dataType = .lzw k := by rw [← hd1]; rfl
            have t5 : d1.currentFrame = f0 := by rw [← hd1]; rfl
            simp only [t4, t5, b2] at h
            obtain ⟨r, hev, hr1, hr2⟩ := SD.copy_payload d1.rd.reader.bytes left d1.rd.sd [k] (by rw [t1]; exact q1) (by rw [t1]; exact k2)
            obtain ⟨c1, c2, c3⟩ := Decoder.copy_eq hS hi l1 (t3.trans p2) k hev
            have c4 : ∀ t a, r = .more t a → (Decoder.copyLzw k d1.rd).2.2 = .ioErr .unexpectedEof := by
              rintro t a rfl
              exact Decoder.copy_more hS hi l1 (t3.trans p2) k hev
            generalize hcl : Decoder.copyLzw k d1.rd = z at *
            obtain ⟨rd', vec, out⟩ := z
            simp only at *
            by_cases hcc : (Spec.blocks left d1.rd.reader.bytes).1 ≠ [] ∧
                d1.rd.sd.memoryLimit.sizeOk ([k].length + (Spec.blocks left d1.rd.reader.bytes).1.length) = false
            · have := c3 _ (hr1 hcc)
              subst this
              simp at h
            · obtain ⟨k1, k3⟩ := hr2 hcc
              cases hb : (Spec.blocks left d1.rd.reader.bytes).2 with
              | none =>
                obtain ⟨t, a, rfl⟩ := k1 hb
                have := c4 _ _ rfl
                subst this
                simp at h
              | some l' =>
                obtain ⟨m1, m2, m3, m4⟩ := c2 _ _ _ (k3 l' hb)
                simp only [Prod.mk.injEq] at m1
                obtain ⟨rfl, rfl⟩ := m1
                simp only [Prod.mk.injEq, Outcome.ok.injEq, Option.some.injEq] at h
                obtain ⟨rfl, rfl⟩ := h
                refine ⟨⟨hinv, c1, m4, ?_, ?_⟩, is, k, _, a1, x1, rd.sd, rd.reader.bytes, g1, g2, g3, .start m g5 g7, ?_, ?_, rfl⟩
                · show outside rd'.sd.state = true
                  rw [m2]; rfl
                · show rd'.sd.skipFrameDecoding = true
                  rw [m2, t1]; exact q1
                · rw [hcur]
                  cases f0
                  simp only at b1 b2
                  subst b1
                  subst b2
                  rfl
                · show Leap _ _ _ _ rd'.sd rd'.reader.bytes _
                  have := Leap.data (C := C) (a := rd.sd) (l := rd.reader.bytes) (d := (Spec.blocks left d1.rd.reader.bytes).1) k k2
                    (l' := l') (by rw [← t2]; exact Prod.ext rfl hb)
                  rw [m2, m3, t1]
                  exact this
  | err e' =>
    simp only [Decoder.infoOf, Prod.mk.injEq] at e
    obtain ⟨rfl, rfl⟩ := e
    simp at h
  | panic => exact u.elim
  | diverge => exact u.elim

/-- What a call of `read_next_frame` does that finds the trailer. -/
theorem calm_none (hS : C.Safe) {d d' : Decoder C} (hc : Calm d) (h : d.readNextFrame = (d', .ok none)) (m : UInt8) :
    d'.rd.atEof = true ∧ ∃ is a l, Leaps d.rd.sd d.rd.reader.bytes m is a l m ∧ ends is = [] ∧ starts is = 0 ∧ a.state = .trailer := by
  have hrun := Decoder.nextFrameInfo_run hS d hc.inv.rd
  obtain ⟨evs, o, rd, u, _, e⟩ := Decoder.frameRun_upto hS hrun hc.inv.rd (Reader.reliable_clean hc.rel) hc.eof
  have hout : d.nextFrameInfo = (d', .ok false) := by
    unfold Decoder.readNextFrame at h
    generalize d.nextFrameInfo = x at *
    obtain ⟨d1, out⟩ := x
    cases out with
    | ok b =>
      cases b with
      | false => simp only [Prod.mk.injEq] at h; rw [h.1]
      | true =>
        simp only at h
        exfalso
        revert h
        repeat' split
        all_goals simp
    | err e => simp at h
    | panic => simp at h
    | diverge => simp at h
  rw [hout] at e
  cases o with
  | ok oe =>
    cases oe with
    | none =>
      simp only [Decoder.infoOf, Prod.mk.injEq] at e
      obtain ⟨rfl, -⟩ := e
      obtain ⟨p1, p2⟩ := u
      obtain ⟨is, a1, x1, g1, g2, g3, g4, g5, g6, g7, -⟩ :=
        upto_leaps hS p2 rfl hc.inv.rd.wf hc.out hc.skip (.inl fun _ => rfl) m
      obtain ⟨-, q2, q3⟩ := eval_skip hS g7 rfl g4 g5 g6
      refine ⟨p1, is ++ [(.blockStart .trailer, m, [])], rd.sd, rd.reader.bytes,
        leaps_append g1 (.cons (.out m g5 g7 (by intro t ht; cases ht)) (.nil _ _ _)), ?_, ?_, q2 rfl⟩
      · rw [ends_append, g2]; rfl
      · rw [starts_append, g3]; rfl
    | some ev =>
      cases ev with
      | frameMetadata t =>
        simp only [Decoder.infoOf] at e
        split at e
        · cases e
        · simp only [Prod.mk.injEq] at e
          split at e <;> cases e.2
      | _ => cases e
  | err e' => cases e
  | panic => cases e
  | diverge => cases e

theorem eof_session : ∀ (k : Nat) {d : Decoder C}, d.rd.atEof = true → ∀ x ∈ d.session (List.replicate k .read), ∃ v, x = .frame none v := by
  intro k
  induction k with
  | zero => intro d _ x hx; cases hx
  | succ k ih =>
    intro d h x hx
    have hr : d.readNextFrame = (d, .ok none) := by
      unfold Decoder.readNextFrame
      rw [Decoder.atEof_info h]
    rw [List.replicate_succ, Decoder.session] at hx
    simp only [Decoder.see, hr] at hx
    rcases List.mem_cons.mp hx with rfl | hx
    · exact ⟨_, rfl⟩
    · exact ih h x hx

/-- A frame that is read, and what the decoder goes over to read it. -/
def Reads (s : SD C) (l : List UInt8) (m : UInt8) (i : Nat) (f : Frame) : Prop :=
  ∃ is k dd a1 l1 m1 a2 l2 a3 l3, Leaps s l m is a1 l1 m1 ∧ (ends is).length = i ∧ starts is = i ∧
    Leap a1 l1 m1 (.frameMetadata (.lzw k), m1, []) a2 l2 k ∧ a2.current = some (bare f) ∧
    Leap a2 l2 k (.dataEnd, k, dd) a3 l3 k ∧ f.buffer = k :: dd

theorem session_frame (hS : C.Safe) : ∀ (k : Nat) {d : Decoder C} (m : UInt8) {i : Nat} {f : Frame} {v : View}, Calm d →
    (d.session (List.replicate k .read))[i]? = some (.frame (some f) v) → Reads d.rd.sd d.rd.reader.bytes m i f := by
  intro k
  induction k with
  | zero => intro d m i f v _ h; cases h
  | succ k ih =>
    intro d m i f v hc h
    rw [List.replicate_succ, Decoder.session] at h
    cases hr : d.readNextFrame with
    | mk d' out =>
      simp only [Decoder.see, hr] at h
      cases out with
      | ok g =>
        simp only at h
        cases i with
        | zero =>
          simp only [List.getElem?_cons_zero, Option.some.injEq, Seen.frame.injEq] at h
          obtain ⟨rfl, -⟩ := h
          obtain ⟨-, is, k, dd, a1, l1, a2, l2, g1, g2, g3, g4, g5, g6, g7⟩ := calm_read hS hc hr m
          exact ⟨is, k, dd, a1, l1, m, a2, l2, _, _, g1, by rw [g2]; rfl, g3, g4, g5, g6, g7⟩
        | succ i =>
          rw [List.getElem?_cons_succ] at h
          cases g with
          | none =>
            obtain ⟨he, -⟩ := calm_none hS hc hr m
            obtain ⟨v', hv⟩ := eof_session k he _ (List.mem_of_getElem? h)
            cases hv
          | some g =>
            obtain ⟨hc', is, kk, dd, a1, l1, a2, l2, g1, g2, g3, g4, g5, g6, g7⟩ := calm_read hS hc hr m
            obtain ⟨is', k', dd', b1, l1', m1, b2, l2', b3, l3, e1, e2, e3, e4, e5, e6, e7⟩ := ih kk hc' h
            refine ⟨is ++ ((.frameMetadata (.lzw kk), m, []) :: (.dataEnd, kk, dd) :: is'), k', dd', b1, l1', m1, b2, l2', b3, l3,
              leaps_append g1 (.cons g4 (.cons g6 e1)), ?_, ?_, e4, e5, e6, e7⟩
            · rw [ends_append, g2]
              show ((Decoded.dataEnd, kk, dd) :: ends is').length = _
              rw [List.length_cons, e2]
            · rw [starts_append, g3]
              have : starts ((.frameMetadata (.lzw kk), m, []) :: (.dataEnd, kk, dd) :: is') = starts is' + 1 := by
                unfold starts
                rw [List.countP_cons_of_pos rfl, List.countP_cons_of_neg (by intro h; cases h)]
              rw [this, e3]
              omega
      | err e => cases i <;> simp at h
      | panic => cases i <;> simp at h
      | diverge => cases i <;> simp at h

theorem session_none (hS : C.Safe) : ∀ (k : Nat) {d : Decoder C} (m : UInt8) {i : Nat} {v : View}, Calm d →
    (d.session (List.replicate k .read))[i]? = some (.frame none v) →
    ∃ is a l m', Leaps d.rd.sd d.rd.reader.bytes m is a l m' ∧ (ends is).length ≤ i ∧ a.state = .trailer := by
  intro k
  induction k with
  | zero => intro d m i v _ h; cases h
  | succ k ih =>
    intro d m i v hc h
    rw [List.replicate_succ, Decoder.session] at h
    cases hr : d.readNextFrame with
    | mk d' out =>
      simp only [Decoder.see, hr] at h
      cases out with
      | ok g =>
        simp only at h
        cases g with
        | none =>
          obtain ⟨-, is, a, l, e1, e2, -, e4⟩ := calm_none hS hc hr m
          exact ⟨is, a, l, m, e1, by rw [e2]; exact Nat.zero_le _, e4⟩
        | some g =>
          cases i with
          | zero => simp at h
          | succ i =>
            rw [List.getElem?_cons_succ] at h
            obtain ⟨hc', is, kk, dd, a1, l1, a2, l2, g1, g2, g3, g4, g5, g6, g7⟩ := calm_read hS hc hr m
            obtain ⟨is', a, l, m', e1, e2, e3⟩ := ih kk hc' h
            refine ⟨is ++ ((.frameMetadata (.lzw kk), m, []) :: (.dataEnd, kk, dd) :: is'), a, l, m',
              leaps_append g1 (.cons g4 (.cons g6 e1)), ?_, e3⟩
            rw [ends_append, g2]
            show ((Decoded.dataEnd, kk, dd) :: ends is').length ≤ _
            rw [List.length_cons]
            omega
      | err e => cases i <;> simp at h
      | panic => cases i <;> simp at h
      | diverge => cases i <;> simp at h

/-- The frames that a decoder with `skip_frame_decoding` reads. -/
theorem rawFilm_reads (hS : C.Safe) (o : DecodeOptions) {r : Reader} (hr : r.Reliable) {k i : Nat} {f : Frame} {v : View}
    (h : (Decoder.rawFilm C o r k)[i + 1]? = some (.frame (some f) v)) :
    Reads (SD.withOptions C { o with skipFrameDecoding := true }) r.bytes 0 i f := by
  unfold Decoder.rawFilm Decoder.sessionFrom at h
  have hc := calm_readInfo (C := C) hS { o with skipFrameDecoding := true } rfl hr
  generalize Decoder.readInfo C { o with skipFrameDecoding := true } r = x at *
  obtain ⟨d, out⟩ := x
  cases out with
  | ok u =>
    simp only [List.getElem?_cons_succ] at h
    obtain ⟨c1, is0, c2, c3, c4⟩ := hc rfl
    obtain ⟨is, k, dd, a1, l1, m1, a2, l2, a3, l3, e1, e2, e3, e4⟩ := session_frame hS _ 0 c1 h
    refine ⟨is0 ++ is, k, dd, a1, l1, m1, a2, l2, a3, l3, leaps_append c2 e1, ?_, ?_, e4⟩
    · rw [ends_append, c3]; exact e2
    · rw [starts_append, c4, e3]; omega
  | err e => simp at h
  | panic => simp at h
  | diverge => simp at h

theorem rawFilm_none (hS : C.Safe) (o : DecodeOptions) {r : Reader} (hr : r.Reliable) {k i : Nat} {v : View}
    (h : (Decoder.rawFilm C o r k)[i + 1]? = some (.frame none v)) :
    ∃ is a l m', Leaps (SD.withOptions C { o with skipFrameDecoding := true }) r.bytes 0 is a l m' ∧ (ends is).length ≤ i ∧
      a.state = .trailer := by
  unfold Decoder.rawFilm Decoder.sessionFrom at h
  have hc := calm_readInfo (C := C) hS { o with skipFrameDecoding := true } rfl hr
  generalize Decoder.readInfo C { o with skipFrameDecoding := true } r = x at *
  obtain ⟨d, out⟩ := x
  cases out with
  | ok u =>
    simp only [List.getElem?_cons_succ] at h
    obtain ⟨c1, is0, c2, c3, c4⟩ := hc rfl
    obtain ⟨is, a, l, m', e1, e2, e3⟩ := session_none hS _ 0 c1 h
    refine ⟨is0 ++ is, a, l, m', leaps_append c2 e1, ?_, e3⟩
    rw [ends_append, c3]; exact e2
  | err e => simp at h
  | panic => simp at h
  | diverge => simp at h

/-! ## The program -/

/-- What a program gets, relative to the items. -/
theorem program_leaps (K : C.Contract) {o : DecodeOptions} {bytes l' : List UInt8} {cs : List UpdateCall} {s' : SD C}
    (h : Drawing (SD.withOptions C o) bytes cs s' l') (hc : careful none cs) :
    ∃ items a' l0' m', Leaps (SD.withOptions C { o with skipFrameDecoding := true }) bytes 0 items a' l0' m' ∧
      Each (Shows K o) items (gist [] cs) ∧
      ((∃ c ∈ cs, c.event = some (.blockStart .trailer)) → a'.state = .trailer) ∧
      (∀ c ev, cs.getLast? = some c → c.event = some ev → ev.within = false → a'.current = s'.current) := by
  obtain ⟨hs, hg, hl⟩ := since_start K o bytes
  have hs' : Since K (LzwReader.new C o.checkForEndCode) (SD.withOptions C { o with skipFrameDecoding := true }) bytes 0 none
      (SD.withOptions C o) bytes [] := .out rfl rfl fun _ h => h
  obtain ⟨is, a, l0, m, acc, p1, p2, p3, p4, p5, p6, p7, p8, -⟩ := drawing_leaps K h (SD.wf_withOptions o) hl hg hs' hc
  refine ⟨is, a, l0, m, p1, p2, p7, fun c ev h1 h2 h3 => ?_⟩
  obtain ⟨q, -⟩ := p8 c ev h1 h2 h3
  rcases q with rfl | ⟨_, _, _, rfl⟩ <;> rfl

theorem shows_event {K : C.Contract} {o : DecodeOptions} {i : Item} {j : Decoded × List UInt8} (h : Shows K o i j) :
    (i.1 = .dataEnd ↔ j.1 = .dataEnd) ∧ (isStart i = Decoder.isMetadata j.1) := by
  cases h with
  | same => exact ⟨Iff.rfl, rfl⟩
  | start => exact ⟨⟨fun h => (by cases h), fun h => (by cases h)⟩, rfl⟩
  | data => exact ⟨Iff.rfl, rfl⟩

theorem gathered_shows {K : C.Contract} {o : DecodeOptions} {is : List Item} {js : List (Decoded × List UInt8)}
    (h : Each (Shows K o) is js) : Each (fun i d => Shows K o i (.dataEnd, d)) (ends is) (gathered js) := by
  induction h with
  | nil => exact .nil
  | @cons x y xs ys h ht ih =>
    obtain ⟨ev, d⟩ := y
    have he := (shows_event h).1
    simp only [gathered]
    by_cases hx : x.1 = .dataEnd
    · have := he.1 hx
      simp only at this
      subst this
      unfold ends
      rw [List.filter_cons_of_pos (by simpa using hx), if_pos rfl]
      exact .cons h ih
    · rw [if_neg (fun h => hx (he.2 h))]
      unfold ends
      rw [List.filter_cons_of_neg (by simpa using hx)]
      exact ih

theorem announced_cons (ev : Decoded) (d : List UInt8) (l : List (Decoded × List UInt8)) :
    announcedImages ((ev, d) :: l) = announcedImages l + (if Decoder.isMetadata ev then 1 else 0) := by
  cases ev <;> rfl

theorem announced_shows {K : C.Contract} {o : DecodeOptions} {is : List Item} {js : List (Decoded × List UInt8)}
    (h : Each (Shows K o) is js) : starts is = announcedImages js := by
  induction h with
  | nil => rfl
  | @cons x y xs ys h ht ih =>
    obtain ⟨ev, d⟩ := y
    have he := (shows_event h).2
    rw [announced_cons]
    unfold starts at ih ⊢
    rw [List.countP_cons, ih, he]

theorem each_length {α β : Type} {R : α → β → Prop} {xs : List α} {ys : List β} (h : Each R xs ys) : xs.length = ys.length := by
  induction h with
  | nil => rfl
  | cons _ _ ih => rw [List.length_cons, List.length_cons, ih]

theorem each_get {α β : Type} {R : α → β → Prop} {xs : List α} {ys : List β} (h : Each R xs ys) :
    ∀ {i : Nat} {y : β}, ys[i]? = some y → ∃ x, xs[i]? = some x ∧ R x y := by
  induction h with
  | nil => intro i y h; cases h
  | cons h _ ih =>
    intro i y hy
    cases i with
    | zero => simp only [List.getElem?_cons_zero, Option.some.injEq] at hy ⊢; subst hy; exact ⟨_, rfl, h⟩
    | succ i => simp only [List.getElem?_cons_succ] at hy ⊢; exact ih hy

theorem prefix_get {α : Type} {xs ys : List α} {i : Nat} {x : α} (h : xs <+: ys) (hx : xs[i]? = some x) : ys[i]? = some x := by
  obtain ⟨t, rfl⟩ := h
  rw [List.getElem?_append_left (List.getElem?_eq_some_iff.mp hx).1]
  exact hx

theorem trailer_end {a a' : SD C} {l l' : List UInt8} {m m' : UInt8} {is : List Item} (h : Leaps a l m is a' l' m')
    (ha : a.state = .trailer) : is = [] := by
  cases h with
  | nil => rfl
  | cons h _ =>
    cases h with
    | out _ _ h => obtain ⟨_, _, h⟩ := trailer_eval h ha; cases h
    | start _ _ h => obtain ⟨_, _, h⟩ := trailer_eval h ha; cases h
    | data _ hs => rw [ha] at hs; cases hs

/-! ## Both -/

/-- The image data of a program and of `Decoder`. -/
theorem both_data (K : C.Contract) {o : DecodeOptions} {r : Reader} (hr : r.Reliable) {cs : List UpdateCall} {s : SD C} {l : List UInt8}
    (h : Drawing (SD.withOptions C o) r.bytes cs s l) (hc : careful none cs) {i k : Nat} {x : List UInt8} {f : Frame} {v : View}
    (hx : (gathered (gist [] cs))[i]? = some x) (hf : (Decoder.rawFilm C o r k)[i + 1]? = some (.frame (some f) v)) :
    ∃ m dd, f.buffer = m :: dd ∧ Shows K o (.dataEnd, m, dd) (.dataEnd, x) := by
  obtain ⟨P, a, l0, m0, p1, p2, -, -⟩ := program_leaps K h hc
  obtain ⟨is, m, dd, a1, l1, m1, a2, l2, a3, l3, e1, e2, e3, e4, e5, e6, e7⟩ := rawFilm_reads K.safe o hr hf
  obtain ⟨it, q1, q2⟩ := each_get (gathered_shows p2) hx
  have hD := leaps_append e1 (.cons e4 (.cons e6 (.nil _ _ _)))
  have hE : (ends (is ++ [(.frameMetadata (.lzw m), m1, []), (.dataEnd, m, dd)]))[i]? = some (.dataEnd, m, dd) := by
    rw [ends_append, List.getElem?_append_right (by omega), e2, Nat.sub_self]
    rfl
  have hit : it = (.dataEnd, m, dd) := by
    rcases leaps_order p1 hD with ⟨t, ht, _⟩ | ⟨t, ht, _⟩
    · rw [ht, ends_append] at hE
      have := prefix_get ⟨_, rfl⟩ q1 (ys := ends P ++ ends t)
      rw [hE] at this
      exact (Option.some.inj this).symm
    · rw [ht, ends_append] at q1
      have := prefix_get ⟨_, rfl⟩ hE (ys := _ ++ ends t)
      rw [q1] at this
      exact Option.some.inj this
  subst hit
  exact ⟨m, dd, e7, q2⟩

/-- **C97**, with `skip_frame_decoding`: the compressed data that a program has collected for an image are those that
`read_next_frame` returns. -/
theorem same_data (K : C.Contract) {o : DecodeOptions} (hs : o.skipFrameDecoding = true) {r : Reader} (hr : r.Reliable)
    {cs : List UpdateCall} {s : SD C} {l : List UInt8} (h : Drawing (SD.withOptions C o) r.bytes cs s l) (hc : careful none cs)
    {i k : Nat} {x : List UInt8} {f : Frame} {v : View} (hx : (gathered (gist [] cs))[i]? = some x)
    (hf : (Decoder.sessionFrom C o r (List.replicate k .read))[i + 1]? = some (.frame (some f) v)) : f.buffer.tail = x := by
  have ho : { o with skipFrameDecoding := true } = o := by cases o; simp only at hs; subst hs; rfl
  have hf' : (Decoder.rawFilm C o r k)[i + 1]? = some (.frame (some f) v) := by
    unfold Decoder.rawFilm
    rw [ho]
    exact hf
  obtain ⟨m, dd, e1, e2⟩ := both_data K hr h hc hx hf'
  rw [e1]
  cases e2 with
  | same => rfl
  | data h' => rw [hs] at h'; cases h'

theorem last_start {p : Item → Bool} {xs ys t : List Item} {x y : Item} (h : xs ++ [x] = (ys ++ [y]) ++ t) (hx : p x = true)
    (hn : xs.countP p ≤ ys.countP p) (hy : p y = true) : t = [] := by
  cases t.eq_nil_or_concat with
  | inl h => exact h
  | inr ht =>
    obtain ⟨t', z, rfl⟩ := ht
    exfalso
    rw [List.concat_eq_append, ← List.append_assoc] at h
    obtain ⟨rfl, -⟩ := List.append_inj' h rfl
    simp only [List.countP_append, List.countP_singleton, hy, if_true] at hn
    omega

theorem gist_last : ∀ (cs : List UpdateCall) (acc : List UInt8) {c : UpdateCall} {ev : Decoded}, c.event = some ev → ev.within = false →
    ∃ pre d, gist acc (cs ++ [c]) = pre ++ [(ev, d)] := by
  intro cs
  induction cs with
  | nil =>
    intro acc c ev h hw
    refine ⟨[], acc, ?_⟩
    simp only [List.nil_append, gist, h, hw]
    rfl
  | cons x cs ih =>
    intro acc c ev h hw
    simp only [List.cons_append, gist]
    split
    · exact ih acc h hw
    · split
      · exact ih _ h hw
      · obtain ⟨pre, d, e⟩ := ih [] h hw
        exact ⟨_ :: pre, d, by rw [e]; rfl⟩

theorem each_last {α β : Type} {R : α → β → Prop} : ∀ {ys : List β} {xs : List α} {y : β}, Each R xs (ys ++ [y]) →
    ∃ xs' x, xs = xs' ++ [x] ∧ R x y := by
  intro ys
  induction ys with
  | nil =>
    intro xs y h
    cases h with
    | cons h ht => cases ht; exact ⟨[], _, rfl, h⟩
  | cons y' ys ih =>
    intro xs y h
    cases h with
    | cons h ht =>
      obtain ⟨xs', x, rfl, hx⟩ := ih ht
      exact ⟨_ :: xs', x, rfl, hx⟩

/-- **C97**: what `current_frame_mut` gives a program that was told of an image is the frame that `read_next_frame` returns,
but for the data; with `skip_frame_decoding` the program is told the code size that these begin with. -/
theorem same_frame (K : C.Contract) {o : DecodeOptions} {r : Reader} (hr : r.Reliable) {cs : List UpdateCall} {c : UpdateCall}
    {t : FrameDataType} {s : SD C} {l : List UInt8} (h : Drawing (SD.withOptions C o) r.bytes (cs ++ [c]) s l)
    (hc : careful none (cs ++ [c])) (he : c.event = some (.frameMetadata t)) {i k : Nat} {f : Frame} {v : View}
    (hi : announcedImages (gist [] (cs ++ [c])) = i + 1) (hf : (Decoder.rawFilm C o r k)[i + 1]? = some (.frame (some f) v)) :
    s.current = some (bare f) ∧ ∀ m, t = .lzw m → f.buffer.head? = some m := by
  obtain ⟨P, a, l0, m0, p1, p2, -, p4⟩ := program_leaps K h hc
  obtain ⟨is, m, dd, a1, l1, m1, a2, l2, a3, l3, e1, e2, e3, e4, e5, e6, e7⟩ := rawFilm_reads K.safe o hr hf
  rw [← p4 c _ (by simp) he rfl, ← e5]
  have hst := announced_shows p2
  rw [hi] at hst
  obtain ⟨pre, d, hg⟩ := gist_last cs [] he rfl
  rw [hg] at p2
  obtain ⟨P', x, rfl, hsh⟩ := each_last p2
  have hx : isStart x = true := by rw [(shows_event hsh).2]; rfl
  rw [starts_append, show starts [x] = 1 by unfold starts; rw [List.countP_singleton, if_pos hx]] at hst
  have hD := leaps_append e1 (.cons e4 (.nil _ _ _))
  have hcode : x = (.frameMetadata (.lzw m), m1, []) → ∀ k, t = .lzw k → f.buffer.head? = some k := by
    rintro rfl k rfl
    cases hsh
    rw [e7]
    rfl
  rcases leaps_order p1 hD with ⟨t, ht, hl⟩ | ⟨t, ht, hl⟩
  · have := last_start (p := isStart) ht rfl (by unfold starts at *; omega) hx
    subst this
    cases hl
    rw [List.append_nil] at ht
    exact ⟨rfl, hcode (List.cons.inj (List.append_inj' ht rfl).2).1.symm⟩
  · have := last_start (p := isStart) ht hx (by unfold starts at *; omega) rfl
    subst this
    cases hl
    rw [List.append_nil] at ht
    exact ⟨rfl, hcode (List.cons.inj (List.append_inj' ht rfl).2).1⟩

/-- **C97**: when a program was told of the trailer, it has got all the frames that `Decoder` reads. -/
theorem no_more_frames (K : C.Contract) {o : DecodeOptions} {r : Reader} (hr : r.Reliable) {cs : List UpdateCall} {s : SD C}
    {l : List UInt8} (h : Drawing (SD.withOptions C o) r.bytes cs s l) (hc : careful none cs)
    (ht : ∃ c ∈ cs, c.event = some (.blockStart .trailer)) {i k : Nat} {f : Frame} {v : View}
    (hf : (Decoder.rawFilm C o r k)[i + 1]? = some (.frame (some f) v)) : i < (gathered (gist [] cs)).length := by
  obtain ⟨P, a, l0, m0, p1, p2, p3, -⟩ := program_leaps K h hc
  obtain ⟨is, m, dd, a1, l1, m1, a2, l2, a3, l3, e1, e2, e3, e4, e5, e6, e7⟩ := rawFilm_reads K.safe o hr hf
  rw [← each_length (gathered_shows p2)]
  have hD := leaps_append e1 (.cons e4 (.cons e6 (.nil _ _ _)))
  have hE : (ends (is ++ [(.frameMetadata (.lzw m), m1, []), (.dataEnd, m, dd)])).length = i + 1 := by
    rw [ends_append, List.length_append, e2]
    rfl
  rcases leaps_order p1 hD with ⟨t, ht', hl⟩ | ⟨t, ht', _⟩
  · have := trailer_end hl (p3 ht)
    subst this
    rw [List.append_nil] at ht'
    rw [ht'] at hE
    omega
  · rw [ht', ends_append, List.length_append, hE]
    omega

/-- **C97**: when `read_next_frame` has found the end, a program gets no more images, either. -/
theorem no_more_images (K : C.Contract) {o : DecodeOptions} {r : Reader} (hr : r.Reliable) {cs : List UpdateCall} {s : SD C}
    {l : List UInt8} (h : Drawing (SD.withOptions C o) r.bytes cs s l) (hc : careful none cs) {i k : Nat} {v : View}
    (hf : (Decoder.rawFilm C o r k)[i + 1]? = some (.frame none v)) : (gathered (gist [] cs)).length ≤ i := by
  obtain ⟨P, a, l0, m0, p1, p2, -, -⟩ := program_leaps K h hc
  obtain ⟨is, a1, l1, m1, e1, e2, e3⟩ := rawFilm_none K.safe o hr hf
  rw [← each_length (gathered_shows p2)]
  rcases leaps_order p1 e1 with ⟨t, rfl, _⟩ | ⟨t, rfl, hl⟩
  · rw [ends_append, List.length_append] at e2
    omega
  · have := trailer_end hl e3
    subst this
    rw [List.append_nil]
    exact e2

/-! ## Pixels -/

/-- More bytes in the file, and no memory limit: the calls do the same. -/
theorem drawing_lift (hS : C.Safe) {p q : Policy} (hpq : p.Le q) (more : List UInt8) {s s' : SD C} {l l' : List UInt8}
    {cs : List UpdateCall} (h : Drawing s l cs s' l') (hw : WF s) (hp : s.policy = p) :
    Drawing (s.relax q) (l ++ more) cs (s'.relax q) (l' ++ more) := by
  induction h with
  | nil => exact .nil _ _
  | @cons s s1 s' slice rest l' out cs n ev hne h ht ih =>
    have hr := update_relax hpq s hp slice out
    have hu := update_spec hS out s slice hw (by rw [h]; rfl)
    rw [h] at hr hu
    obtain ⟨h1, h2⟩ := hr
    have h3 : (s.relax q).update slice out = (s1.relax q, .ok (n, ev)) := by
      rcases h2 with h2 | ⟨e, h2, _⟩
      · exact h2
      · cases h2
    rcases hu with ⟨n', ev', k1, k2, _, k3, _⟩ | ⟨e, k1, _⟩
    · cases k1
      rw [List.append_assoc]
      refine .cons hne h3 ?_
      have := ih k2 h1
      rw [← List.drop_append_of_le_length (by rw [List.length_append]; omega), List.append_assoc] at this
      exact this
    · cases k1

theorem shown_bare (c : ColorOutput) (p : Option (List UInt8)) (f : Frame) (x : List UInt8) : shown c p (bare f) x = shown c p f x := rfl

/-- A frame that `read_next_frame` returns is made of a raw frame. -/
theorem raw_exists (K : C.Contract) (o : DecodeOptions) (hs : o.skipFrameDecoding = false) {r : Reader} (hr : r.Reliable) (as : List Act)
    {g : Frame} {w : View} (hg : Decoder.filmFrom C o r (as ++ [.read]) = Decoder.filmFrom C o r as ++ [.seen (.frame (some g) w)]) :
    ∃ f v, (Decoder.rawFilm C { o with memoryLimit := .unlimited } (Decoder.completed r) (Spec.seeks as + 1))[Spec.seeks as + 1]? =
      some (.frame (some f) v) := by
  obtain ⟨v', live', outs', hex, hup⟩ := Decoder.film_part K o hs o.checkForEndCode hr (List.prefix_refl r.bytes) as [.read] _ hg (by simp)
    (Spec.seeks as + 1) (by rw [Decoder.seeks_append]; simp [Spec.seeks])
  have hro : Decoder.rawOf C o o.checkForEndCode r (Spec.seeks as + 1) =
      Decoder.rawFilm C { o with memoryLimit := .unlimited } (Decoder.completed r) (Spec.seeks as + 1) := rfl
  rw [hro] at hex hup
  have hu := Decoder.upheld_last (a := []) rfl hup
  rw [← List.head?_drop]
  generalize (Decoder.rawFilm C { o with memoryLimit := .unlimited } (Decoder.completed r) (Spec.seeks as + 1)).drop (Spec.seeks as + 1) = d at *
  simp only [List.nil_append] at hu
  cases d with
  | nil => simp [watch] at hu
  | cons y d =>
    cases y with
    | frame f v =>
      cases f with
      | some f => exact ⟨f, v, rfl⟩
      | none => simp [watch] at hu
    | _ => simp [watch] at hu

/-- **C97**: the pixels that a program has collected for an image, and the frame that it was told of: `read_next_frame` of `Decoder`
returns the picture of them. -/
theorem same_picture (K : C.Contract) {o : DecodeOptions} (hs : o.skipFrameDecoding = false) {r : Reader} (hr : r.Reliable)
    {cs ds : List UpdateCall} {c : UpdateCall} {t : FrameDataType} {s s' : SD C} {l l' : List UInt8}
    (h : Drawing (SD.withOptions C o) r.bytes (cs ++ [c]) s l) (hc : careful none (cs ++ [c])) (he : c.event = some (.frameMetadata t))
    (h' : Drawing (SD.withOptions C o) r.bytes ds s' l') (hc' : careful none ds)
    (as : List Act) {g : Frame} {w : View}
    (hg : Decoder.filmFrom C o r (as ++ [.read]) = Decoder.filmFrom C o r as ++ [.seen (.frame (some g) w)])
    (hi : announcedImages (gist [] (cs ++ [c])) = Spec.seeks as + 1) {x : List UInt8} (hx : (gathered (gist [] ds))[Spec.seeks as]? = some x) :
    ∃ f, s.current = some f ∧ g = Spec.shown o.colorOutput w.globalPalette f x ∧ f.width.toNat * f.height.toNat ≤ x.length := by
  obtain ⟨f, v, hf⟩ := raw_exists K o hs hr as hg
  have hle : o.policy.Le { o.policy with memoryLimit := .unlimited } := ⟨MemoryLimit.le_unlimited _, id, id, id⟩
  have L := fun {cs : List UpdateCall} {s : SD C} {l : List UInt8} (h : Drawing (SD.withOptions C o) r.bytes cs s l) =>
    drawing_lift K.safe hle (List.replicate 256 0) h (SD.wf_withOptions o) rfl
  have hb := Decoder.completed_bytes r
  have hre := Decoder.completed_reliable r
  have h1 := L h
  have h2 := L h'
  rw [← hb] at h1 h2
  obtain ⟨e1, -⟩ := same_frame K (o := { o with memoryLimit := .unlimited }) hre h1 hc he hi hf
  obtain ⟨m, dd, e2, e3⟩ := both_data K (o := { o with memoryLimit := .unlimited }) hre h2 hc' hx hf
  obtain ⟨px, ⟨m', dd', u1, u2⟩, g1, g2, g3⟩ := Decoder.frame_right K o hs o.checkForEndCode .unlimited hr hre
    (by rw [hb]; exact ⟨_, rfl⟩) as g w hg f v hf
  cases e3 with
  | same _ _ h' =>
    rcases h' with h' | h'
    · replace h' : o.skipFrameDecoding = true := h'
      rw [hs] at h'; cases h'
    · exact absurd rfl h'.2
  | data h' hy =>
    rw [e2] at u1
    cases u1
    obtain ⟨e, -⟩ := K.det hy u2
    subst e
    refine ⟨bare f, e1, ?_, g1⟩
    rw [shown_bare, g3]
    exact g2

end Gif.Twofold
