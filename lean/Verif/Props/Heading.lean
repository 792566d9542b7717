import Verif.Props.OwnLoop
import Verif.Spec.Heading
/-!
# C100: what `Decoder` shows of a file is what `StreamingDecoder` tells
-/

namespace Gif.Loop

open Spec SD Draw Twofold Gif.Props Decoder

variable {C : Codec}

/-! ## What `init` keeps of the events -/

theorem last_cons {α : Type} (x : α) (xs : List α) : (x :: xs).getLast? = some (xs.getLast?.getD x) := by
  rw [List.getLast?_cons]

theorem folded (evs : List Decoded) : ∀ d : Decoder C,
    (evs.foldl onEvent d).bgColor = (lastBackground evs).or d.bgColor ∧
    (evs.foldl onEvent d).repetition = (lastRepetitions evs).getD d.repetition ∧
    (evs.foldl onEvent d).conv.globalPalette =
      ((lastPalette evs).map fun p => if p.isEmpty then none else some p).getD d.conv.globalPalette ∧
    (evs.foldl onEvent d).currentFrame = d.currentFrame := by
  induction evs with
  | nil => intro d; exact ⟨rfl, rfl, rfl, rfl⟩
  | cons ev evs ih =>
    intro d
    rw [List.foldl_cons]
    obtain ⟨h1, h2, h3, h4⟩ := ih (d.onEvent ev)
    rw [h1, h2, h3, h4]
    cases ev with
    | backgroundColor c =>
      refine ⟨?_, rfl, rfl, rfl⟩
      simp only [lastBackground, onEvent, List.filterMap_cons, last_cons]
      cases (List.getLast? _) <;> rfl
    | globalPalette p =>
      refine ⟨rfl, rfl, ?_, rfl⟩
      simp only [lastPalette, onEvent, List.filterMap_cons, last_cons, Converter.setGlobalPalette]
      cases (List.getLast? _) <;> rfl
    | repetitions r =>
      refine ⟨rfl, ?_, rfl, rfl⟩
      simp only [lastRepetitions, onEvent, List.filterMap_cons, last_cons]
      cases (List.getLast? _) <;> rfl
    | _ => exact ⟨rfl, rfl, rfl, rfl⟩

theorem folded_view (o : DecodeOptions) (r : Reader) (evs : List Decoded) (rd : RD C) :
    (Decoder.checkBg { evs.foldl onEvent (withNoInit C o r) with rd := rd }).view = heading rd.sd.width rd.sd.height evs := by
  obtain ⟨h1, h2, h3, h4⟩ := folded evs (withNoInit C o r)
  generalize evs.foldl onEvent (withNoInit C o r) = d at *
  have h1 : d.bgColor = lastBackground evs := by rw [h1]; cases lastBackground evs <;> rfl
  have h3 : d.conv.globalPalette = (lastPalette evs).filter fun p => !p.isEmpty := by
    rw [h3]
    cases lastPalette evs with
    | none => rfl
    | some p => cases p <;> rfl
  unfold Decoder.checkBg Decoder.view heading
  simp only [Decoder.globalPalette, Decoder.width, Decoder.height, ← h3, ← h1]
  have h2 : d.repetition = (lastRepetitions evs).getD (.finite 0) := h2
  have h4 : d.currentFrame = Frame.default := h4
  cases hp : d.conv.globalPalette with
  | none => simp only [hp, h2, h4]; cases d.bgColor <;> rfl
  | some p =>
    cases hb : d.bgColor with
    | none =>
      simp only [Option.getD]
      split <;> simp only [hp, h2, h4] <;> rfl
    | some c =>
      simp only [Option.getD]
      split
      · rename_i hc
        simp only [hp, h2, h4, Option.filter, Option.all]
        rw [if_neg (by simp; omega)]
        rfl
      · rename_i hc
        simp only [hp, h2, h4, Option.filter, Option.all]
        rw [if_pos (by simp; omega)]
        rfl

/-! ## The way to the end of the header -/

theorem upto_path (hS : C.Safe) {s : SD C} {l : List UInt8} {evs : List Decoded} {r : Res C}
    (h : Upto isHeaderEnd s l evs r) (hw : WF s) (ho : outside s.state = true) (hk : s.skipFrameDecoding = true)
    (hh : s.headerEndReached = false) (m : UInt8) :
    ∃ a1 l1, Leaps s l m (evs.map (·, m, [])) a1 l1 m ∧ WF a1 ∧ outside a1.state = true ∧ a1.skipFrameDecoding = true ∧
      Eval false a1 [] l1 r ∧ (∀ s1 a ev rest, r = .event s1 a ev rest → ev = .headerEnd ∨ ev = .blockStart .trailer) ∧
      ∀ ev ∈ evs, ev ≠ .headerEnd ∧ (∀ t, ev ≠ .frameMetadata t) ∧ ev ≠ .dataEnd := by
  induction h with
  | @step s s1 l rest1 ev1 evs r h hP1 ht hr1 ih =>
    obtain ⟨h1, -, h3⟩ := eval_skip hS h rfl hw ho hk
    have hne : ev1 ≠ .headerEnd := by intro he; subst he; cases hP1
    obtain ⟨e1, e2⟩ := eval_header hS h rfl hw hh
    rcases h3 with ⟨_, h4, h5⟩ | ⟨k, left, he, _⟩
    · obtain ⟨a1, l1, g1, g2, g3, g4, g5, g6, g7⟩ := ih (eval_wf hS h rfl hw) h5 h1 (e2 hne)
      refine ⟨a1, l1, .cons (.out m ho h e1) g1, g2, g3, g4, g5, g6, ?_⟩
      intro ev hev
      rcases List.mem_cons.1 hev with rfl | hev
      · exact ⟨hne, e1, h4⟩
      · exact g7 ev hev
    · exact absurd he (e1 _)
  | @stop s l r h hr1 =>
    refine ⟨s, l, .nil _ _ _, hw, ho, hk, h, ?_, fun _ h => by cases h⟩
    intro s1 a ev rest he
    rcases hr1 s1 a ev rest he with h | h
    · refine .inl ?_
      cases ev <;> first | rfl | cases h
    · exact .inr h

/-- A run that comes to the end of the header has taken this way. -/
theorem path_header {a0 a1 a' : SD C} {l l1 l' : List UInt8} {m m' : UInt8} {evs : List Decoded} {P : List Item} {r : Res C}
    (h : Leaps a0 l m (evs.map (·, m, [])) a1 l1 m) (ho : outside a1.state = true) (he : Eval false a1 [] l1 r)
    (hr : ∀ s1 a ev rest, r = .event s1 a ev rest → ev = .headerEnd ∨ ev = .blockStart .trailer)
    (ht : ∀ s1 a rest, r = .event s1 a (.blockStart .trailer) rest → s1.state = .trailer)
    (hevs : ∀ ev ∈ evs, ev ≠ .headerEnd) (hP : Leaps a0 l m P a' l' m') (hm : ∃ i ∈ P, i.1 = .headerEnd) :
    ∃ a2 l2 is, r = .event a2 [] .headerEnd l2 ∧ P = evs.map (·, m, []) ++ (.headerEnd, m, []) :: is ∧ Leaps a2 l2 m is a' l' m' := by
  have hno : ∀ i ∈ evs.map (fun ev => ((ev, m, []) : Item)), i.1 ≠ .headerEnd := by
    intro i hi
    obtain ⟨ev, hev, rfl⟩ := List.mem_map.1 hi
    exact hevs ev hev
  obtain ⟨i0, hi0, hi1⟩ := hm
  rcases leaps_order h hP with ⟨is, rfl, hl⟩ | ⟨is, hx, _⟩
  · have hi0 : i0 ∈ is := by
      rcases List.mem_append.1 hi0 with h | h
      · exact absurd hi1 (hno _ h)
      · exact h
    cases hl with
    | nil => cases hi0
    | @cons _ a2 _ _ l2 _ _ m2 _ x xs hx hxs =>
      cases hx with
      | out _ _ h' hev =>
        have := eval_det he h'
        subst this
        rcases hr _ _ _ _ rfl with rfl | rfl
        · exact ⟨a2, l2, xs, rfl, rfl, hxs⟩
        · have := trailer_end hxs (ht _ _ _ rfl)
          subst this
          rw [List.mem_singleton] at hi0
          subst hi0
          cases hi1
      | start _ _ h' =>
        have := eval_det he h'
        subst this
        rcases hr _ _ _ _ rfl with h | h <;> cases h
      | data _ hs => rw [hs] at ho; cases ho
  · exact absurd hi1 (hno i0 (by rw [hx]; exact List.mem_append_left _ hi0))

/-- `read_info` goes this way. -/
theorem readInfo_path (hS : C.Safe) (o : DecodeOptions) {r : Reader} (hr : r.Reliable) :
    ∃ evs res, Upto isHeaderEnd (SD.withOptions C { o with skipFrameDecoding := true }) r.bytes evs res ∧
      ((∃ a l, res = .event a [] .headerEnd l ∧ (readInfo C o r).2 = .ok () ∧
          (readInfo C o r).1.view = heading a.width a.height evs) ∨
        ((∀ a x l, res ≠ .event a x .headerEnd l) ∧ (readInfo C o r).2 ≠ .ok ())) := by
  have hi := Decoder.inv_withNoInit (C := C) o r
  have w := Decoder.initLoop_run hS _ (Decoder.withNoInit C o r) hi.rd (Decoder.meas_lt_fuel _)
  obtain ⟨evs, out, u, e, _, f⟩ := Decoder.initRun_upto hS w hi.rd (Reader.reliable_clean hr) rfl
  obtain ⟨lr, n⟩ := Decoder.initRun_reliable w hr
  unfold Decoder.readInfo Decoder.init
  generalize Decoder.initLoop (Decoder.withNoInit C o r).rd.eventFuel (Decoder.withNoInit C o r) = x at *
  obtain ⟨d', out'⟩ := x
  simp only at *
  have lift : ∀ {res : Res C}, Upto isHeaderEnd (SD.withOptions C o) r.bytes evs res →
      ∃ res', Upto isHeaderEnd (SD.withOptions C { o with skipFrameDecoding := true }) r.bytes evs res' ∧
        match res with
        | .more _ a => ∃ s0, res' = .more s0 a
        | .err e => res' = .err e
        | .event s1 a ev rest => ∃ s0, res' = .event s0 a ev rest ∧ s0.width = s1.width ∧ s0.height = s1.height := by
    intro res hu
    cases hk : o.skipFrameDecoding with
    | true =>
      have ho : { o with skipFrameDecoding := true } = o := by cases o; simp only at hk; subst hk; rfl
      rw [ho]
      refine ⟨res, hu, ?_⟩
      cases res with
      | more => exact ⟨_, rfl⟩
      | err => rfl
      | event => exact ⟨_, rfl, rfl, rfl⟩
    | false =>
      have := upto_init hS (LzwReader.new C o.checkForEndCode) hu (SD.wf_withOptions o) rfl hk rfl
      cases res with
      | more s1 a => obtain ⟨s0, h0⟩ := this; exact ⟨_, h0, s0, rfl⟩
      | err e => exact ⟨_, this, rfl⟩
      | event s1 a ev rest => exact ⟨_, this.2.2.2, _, rfl, rfl, rfl⟩
  have bad : ∀ {res : Res C}, Upto isHeaderEnd (SD.withOptions C o) r.bytes evs res → (∀ a x l, res ≠ .event a x .headerEnd l) →
      ∃ res', Upto isHeaderEnd (SD.withOptions C { o with skipFrameDecoding := true }) r.bytes evs res' ∧
        ∀ a x l, res' ≠ .event a x .headerEnd l := by
    intro res hu hne
    obtain ⟨res', h1, h2⟩ := lift hu
    refine ⟨res', h1, ?_⟩
    cases res with
    | more => obtain ⟨s0, rfl⟩ := h2; intro _ _ _ h; cases h
    | err => subst h2; intro _ _ _ h; cases h
    | event s1 a ev rest =>
      obtain ⟨s0, rfl, -⟩ := h2
      intro _ _ _ h
      cases h
      exact hne _ _ _ rfl
  cases out with
  | ok oe =>
    cases oe with
    | none =>
      simp only at f
      subst f
      obtain ⟨res', h1, h2⟩ := bad u.2 (by intro _ _ _ h; cases h)
      exact ⟨evs, res', h1, .inr ⟨h2, by intro h; cases h⟩⟩
    | some ev =>
      simp only at f
      subst f
      obtain ⟨p1, p2, p3⟩ := u
      have he : ev = .headerEnd := by cases ev <;> first | rfl | cases p1
      subst he
      obtain ⟨res', h1, s0, rfl, h2, h3⟩ := lift p3
      refine ⟨evs, _, h1, .inl ⟨_, _, rfl, rfl, ?_⟩⟩
      rw [e, h2, h3]
      exact folded_view o r evs d'.rd
  | err er =>
    simp only at f
    subst f
    obtain ⟨p1, ⟨c, rfl, hc⟩ | ⟨rfl, p2, p3⟩ | p3⟩ := u
    · exact (n c rfl).elim
    · obtain ⟨res', h1, h2⟩ := bad p3 (by intro _ _ _ h; cases h)
      exact ⟨evs, res', h1, .inr ⟨h2, by intro h; cases h⟩⟩
    · obtain ⟨res', h1, h2⟩ := bad p3 (by intro _ _ _ h; cases h)
      exact ⟨evs, res', h1, .inr ⟨h2, by intro h; cases h⟩⟩
  | panic => exact u.elim
  | diverge => exact u.elim

/-! ## The events of a program -/

theorem at_trailer (hS : C.Safe) {m : Bool} {s s1 : SD C} {acc a l rest : List UInt8} {r : Res C} (h : Eval m s acc l r)
    (hr : r = .event s1 a (.blockStart .trailer) rest) (hw : WF s) : s1.state = .trailer := by
  induction h with
  | nil => cases hr
  | quiet h hq _ ih => exact ih hr (tr_wf hS hw (tr_of_nextState hw.ibuf h)).1
  | event _ h hq =>
    cases hr
    exact tr_at_trailer (tr_of_nextState hw.ibuf h)
  | err => cases hr

theorem gist_snoc : ∀ (cs : List UpdateCall) (acc : List UInt8) {c : UpdateCall} {ev : Decoded}, c.event = some ev → ev.within = false →
    ∃ d, gist acc (cs ++ [c]) = gist acc cs ++ [(ev, d)] := by
  intro cs
  induction cs with
  | nil =>
    intro acc c ev h hw
    refine ⟨acc, ?_⟩
    simp only [List.nil_append, gist, h, hw]
    rfl
  | cons x cs ih =>
    intro acc c ev h hw
    rw [List.cons_append, gist, gist]
    cases x.event with
    | none => exact ih acc h hw
    | some ev' =>
      simp only
      split
      · exact ih _ h hw
      · obtain ⟨d, hd⟩ := ih [] h hw
        exact ⟨d, by rw [hd]; rfl⟩

theorem each_snoc {α β : Type} {R : α → β → Prop} : ∀ {ys : List β} {xs : List α} {y : β}, Each R xs (ys ++ [y]) →
    ∃ xs' x, xs = xs' ++ [x] ∧ Each R xs' ys ∧ R x y := by
  intro ys
  induction ys with
  | nil =>
    intro xs y h
    cases h with
    | cons h ht => cases ht; exact ⟨[], _, rfl, .nil, h⟩
  | cons y' ys ih =>
    intro xs y h
    cases h with
    | cons h ht =>
      obtain ⟨xs', x, rfl, hp, hx⟩ := ih ht
      exact ⟨_ :: xs', x, rfl, .cons h hp, hx⟩

/-- What is told of the file as a whole is told outside of image data. -/
theorem gist_filter {α : Type} (f : Decoded → Option α) (hf : ∀ ev, ev.within = true → f ev = none) :
    ∀ (cs : List UpdateCall) (acc : List UInt8),
    (cs.filterMap UpdateCall.event).filterMap f = ((gist acc cs).map (·.1)).filterMap f := by
  intro cs
  induction cs with
  | nil => intro acc; rfl
  | cons x cs ih =>
    intro acc
    rw [gist]
    cases hx : x.event with
    | none => rw [List.filterMap_cons_none hx]; exact ih acc
    | some ev =>
      rw [List.filterMap_cons_some hx]
      cases hw : ev.within with
      | true =>
        simp only [hw, if_true]
        rw [List.filterMap_cons_none (hf ev hw)]
        exact ih _
      | false =>
        simp only [hw, Bool.false_eq_true, if_false, List.map_cons, List.filterMap_cons]
        rw [ih []]

theorem heading_gist (w h : UInt16) (cs : List UpdateCall) (acc : List UInt8) :
    heading w h (cs.filterMap UpdateCall.event) = heading w h ((gist acc cs).map (·.1)) := by
  have e1 : lastPalette (cs.filterMap UpdateCall.event) = lastPalette ((gist acc cs).map (·.1)) := by
    unfold lastPalette
    rw [gist_filter _ _ cs acc]
    intro ev hw; cases ev <;> first | rfl | cases hw
  have e2 : lastBackground (cs.filterMap UpdateCall.event) = lastBackground ((gist acc cs).map (·.1)) := by
    unfold lastBackground
    rw [gist_filter _ _ cs acc]
    intro ev hw; cases ev <;> first | rfl | cases hw
  have e3 : lastRepetitions (cs.filterMap UpdateCall.event) = lastRepetitions ((gist acc cs).map (·.1)) := by
    unfold lastRepetitions
    rw [gist_filter _ _ cs acc]
    intro ev hw; cases ev <;> first | rfl | cases hw
  unfold heading
  rw [e1, e2, e3]

/-- The end of the header adds nothing. -/
theorem heading_snoc (w h : UInt16) (evs : List Decoded) : heading w h (evs ++ [.headerEnd]) = heading w h evs := by
  simp [heading, lastPalette, lastBackground, lastRepetitions, List.filterMap_append]

theorem shows_same {K : C.Contract} {o : DecodeOptions} {is : List Item} {js : List (Decoded × List UInt8)} (h : Each (Shows K o) is js)
    (hi : ∀ i ∈ is, ∀ t, i.1 ≠ .frameMetadata t) : js.map (·.1) = is.map (·.1) := by
  induction h with
  | nil => rfl
  | cons h _ ih =>
    rw [List.map_cons, List.map_cons, ih fun i hx => hi i (List.mem_cons_of_mem _ hx)]
    cases h with
    | same => rfl
    | start => exact absurd rfl (hi _ List.mem_cons_self _)
    | data => rfl

/-- **C100.** A program feeds `StreamingDecoder` until it is told that the header is over. Then `read_info` on the same bytes succeeds, and
what the `Decoder` then shows (the size, the global palette, the background colour, the repetitions) is what the program has been told. -/
theorem heading_told (K : C.Contract) {o : DecodeOptions} {r : Reader} (hr : r.Reliable) {cs : List UpdateCall} {c : UpdateCall} {s : SD C}
    {l : List UInt8} (h : Drawing (SD.withOptions C o) r.bytes (cs ++ [c]) s l) (hc : careful none (cs ++ [c]))
    (he : c.event = some .headerEnd) (hfirst : ∀ x ∈ cs, x.event ≠ some .headerEnd) :
    (readInfo C o r).2 = .ok () ∧ (readInfo C o r).1.view = heading s.width s.height (cs.filterMap UpdateCall.event) := by
  obtain ⟨hs, hg, hl⟩ := since_start K o r.bytes
  have hs' : Since K (LzwReader.new C o.checkForEndCode) (SD.withOptions C { o with skipFrameDecoding := true }) r.bytes 0 none
      (SD.withOptions C o) r.bytes [] := .out rfl rfl fun _ h => h
  obtain ⟨P, a, l0, m, acc, p1, p2, p3, p4, p5, p6, p7, p8, -⟩ := drawing_leaps K h (SD.wf_withOptions o) hl hg hs' hc
  obtain ⟨evs, res, u, hu⟩ := readInfo_path K.safe o hr
  obtain ⟨a1, l1, g1, g2, g3, g4, g5, g6, g7⟩ := upto_path K.safe u (SD.wf_withOptions _) rfl rfl rfl 0
  obtain ⟨d, hpre⟩ := gist_snoc cs [] he rfl
  rw [hpre] at p2
  have hm : ∃ i ∈ P, i.1 = .headerEnd := by
    obtain ⟨P', x, rfl, -, hsh⟩ := each_snoc p2
    refine ⟨x, by simp, ?_⟩
    cases hsh
    rfl
  obtain ⟨a2, l2, is, rfl, rfl, q3⟩ := path_header g1 g3 g5 g6 (fun _ _ _ hx => at_trailer K.safe g5 hx g2) (fun ev hev => (g7 ev hev).1) p1 hm
  rcases hu with ⟨_, _, hu, hok, hv⟩ | ⟨hu, -⟩
  · cases hu
    have hnil : is = [] := by
      rcases List.eq_nil_or_concat is with h | ⟨is', x, rfl⟩
      · exact h
      · exfalso
        obtain ⟨P', x', hP', hpe, -⟩ := each_snoc p2
        have hin : ((.headerEnd, 0, []) : Item) ∈ P' := by
          have : P' = evs.map (·, 0, []) ++ (.headerEnd, 0, []) :: is' := by
            have h2 : evs.map (·, 0, []) ++ (.headerEnd, 0, []) :: (is' ++ [x]) = (evs.map (·, 0, []) ++ (.headerEnd, 0, []) :: is') ++ [x] := by
              simp
            rw [List.concat_eq_append, h2] at hP'
            exact (List.append_inj_left' hP' rfl).symm
          rw [this]
          simp
        obtain ⟨y, hy, hsh⟩ := each_mem hpe hin
        cases hsh
        obtain ⟨c', hc', he'⟩ := gist_told _ _ hy
        exact hfirst c' hc' he'
    subst hnil
    cases q3
    obtain ⟨hf, -⟩ := p8 c .headerEnd (by simp) he rfl
    refine ⟨hok, ?_⟩
    rw [hv, heading_gist _ _ cs [], ← heading_snoc s.width, ← heading_snoc]
    have hjs := shows_same p2 (by
      intro i hi
      rcases List.mem_append.1 hi with hi | hi
      · obtain ⟨ev, hev, rfl⟩ := List.mem_map.1 hi
        exact (g7 ev hev).2.1
      · cases List.mem_singleton.1 hi
        intro t; simp)
    simp only [List.map_append, List.map_map, List.map_cons, List.map_nil] at hjs
    rw [hjs]
    have hid : List.map (Prod.fst ∘ fun ev => ((ev, 0, []) : Item)) evs = evs := List.map_id _
    rcases hf with rfl | ⟨_, _, _, rfl⟩
    · exact congrArg (fun x => heading s.width s.height (x ++ [Decoded.headerEnd])) hid.symm
    · exact congrArg (fun x => heading s.width s.height (x ++ [Decoded.headerEnd])) hid.symm
  · exact absurd rfl (hu _ _ _)

/-- **C100**, the other way round: when `read_info` succeeds, a loop around `update` over the same bytes is told that the header is over. -/
theorem heading_reached (K : C.Contract) {o : DecodeOptions} {r : Reader} (hr : r.Reliable) (hok : (readInfo C o r).2 = .ok ())
    {p : Driver} (hp : p.Fit) {cs : List UpdateCall} {s : SD C} {l : List UInt8} {e : Option DecodingError}
    (h : Drive C p o r.bytes cs s l) (he : DriveEnd p cs s l e) : ∃ c ∈ cs, c.event = some .headerEnd := by
  obtain ⟨h1, h2, -⟩ := drive_drawing hp h
  obtain ⟨hs, hg, hl⟩ := since_start K o r.bytes
  have hs' : Since K (LzwReader.new C o.checkForEndCode) (SD.withOptions C { o with skipFrameDecoding := true }) r.bytes 0 none
      (SD.withOptions C o) r.bytes [] := .out rfl rfl fun _ h => h
  obtain ⟨P, a, l0, m, acc, p1, p2, p3, p4, p5, p6, p7, p8, -⟩ := drawing_leaps K h1 (SD.wf_withOptions o) hl hg hs' h2
  obtain ⟨evs, res, u, hu⟩ := readInfo_path K.safe o hr
  obtain ⟨a1, l1, g1, g2, g3, g4, g5, g6, g7⟩ := upto_path K.safe u (SD.wf_withOptions _) rfl rfl rfl 0
  rcases hu with ⟨a2, l2, rfl, -⟩ | ⟨-, hu⟩
  · have hD := leaps_append g1 (.cons (.out 0 g3 g5 (by intro t; simp)) (.nil _ _ _))
    have hnf : ∀ i ∈ evs.map (fun ev => ((ev, 0, []) : Item)) ++ [(.headerEnd, 0, [])], (∀ t, i.1 ≠ .frameMetadata t) ∧ i.1 ≠ .dataEnd := by
      intro i hi
      rcases List.mem_append.1 hi with hi | hi
      · obtain ⟨ev, hev, rfl⟩ := List.mem_map.1 hi
        exact (g7 ev hev).2
      · cases List.mem_singleton.1 hi
        exact ⟨by intro t; simp, by simp⟩
    have hin : ((.headerEnd, 0, []) : Item) ∈ P := by
      rcases leaps_order p1 hD with ⟨t, ht, hx⟩ | ⟨t, rfl, -⟩
      · cases hx with
        | nil => rw [List.append_nil] at ht; rw [← ht]; simp
        | @cons _ _ _ _ _ _ _ _ _ x xs hx hxs =>
          obtain ⟨ev, m', d'⟩ := x
          exact (finished_stops K (end_finished hp he) p4 p5 p6 p3 p7 hx
            (.same _ _ (.inr (hnf (ev, m', d') (by rw [ht]; simp))))).elim
      · simp
    obtain ⟨y, hy, hsh⟩ := each_mem p2 hin
    cases hsh
    exact gist_told _ _ hy
  · exact absurd hok hu

/-- `skip_frame_decoding` makes no difference to it. -/
theorem readInfo_skip (hS : C.Safe) (o : DecodeOptions) {r : Reader} (hr : r.Reliable)
    (h : (readInfo C { o with skipFrameDecoding := true } r).2 = .ok ()) :
    (readInfo C o r).2 = .ok () ∧ (readInfo C o r).1.view = (readInfo C { o with skipFrameDecoding := true } r).1.view := by
  obtain ⟨evs, res, u, hu⟩ := readInfo_path hS o hr
  obtain ⟨evs', res', u', hu'⟩ := readInfo_path hS { o with skipFrameDecoding := true } hr
  obtain ⟨rfl, rfl⟩ := upto_det u u'
  rcases hu' with ⟨a, l, rfl, -, hv'⟩ | ⟨-, hx⟩
  · rcases hu with ⟨a1, l1, h1, hok, hv⟩ | ⟨hx, -⟩
    · cases h1
      exact ⟨hok, by rw [hv, hv']⟩
    · exact absurd rfl (hx _ _ _)
  · exact absurd h hx

/-- **C100**, for files of the encoder: every loop is told that the header is over, and before that it is told the size, the palette
(padded) and the repetitions that the encoder was given. -/
theorem own_heading (K : C.Contract) {o : DecodeOptions} (np : Bool) {w h : UInt16} {pal : List UInt8}
    (hpal : pal.length / 3 ≤ 256) {ops : List EncOp} (hsane : ∀ op ∈ ops, op.Sane) (hpl : ∀ op ∈ ops, Plain o op)
    {file : List UInt8} {rs : List (EOut Unit)} (henc : encodeFile C np w h pal ops = (some file, rs))
    (had : ∀ op ∈ written ops rs, Admissible C o w h op) (hld : ∀ op ∈ written ops rs, Held C o op)
    (hne : (encodeFile C np w h pal []).1 ≠ some file) (junk : List UInt8) {p : Driver} (hp : p.Fit) :
    (∀ cs s l e, Drive C p o (file ++ junk) cs s l → DriveEnd p cs s l e → ∃ c ∈ cs, c.event = some .headerEnd) ∧
    ∀ cs c s l, Drive C p o (file ++ junk) (cs ++ [c]) s l → c.event = some .headerEnd → (∀ x ∈ cs, x.event ≠ some .headerEnd) →
      heading s.width s.height (cs.filterMap UpdateCall.event) = screen w h pal (repetitions ops rs (.finite 0)) Frame.default := by
  have hr : (Decoder.atOnce (file ++ junk)).Reliable := Decoder.atOnce_reliable _
  have hb : (Decoder.atOnce (file ++ junk)).bytes = file ++ junk := by simp [Decoder.atOnce, Reader.bytes]
  have hraw := roundtrip_raw K np hpal hsane hpl henc had hld hne hr hb 0
  rw [← hb]
  generalize Decoder.atOnce (file ++ junk) = r at *
  have hview : (readInfo C o r).2 = .ok () ∧
      (readInfo C o r).1.view = screen w h pal (repetitions ops rs (.finite 0)) Frame.default := by
    have hx : (readInfo C { o with skipFrameDecoding := true } r).2 = .ok () ∧
        (readInfo C { o with skipFrameDecoding := true } r).1.view = screen w h pal (repetitions ops rs (.finite 0)) Frame.default := by
      unfold Decoder.rawFilm sessionFrom projection at hraw
      generalize readInfo C { o with skipFrameDecoding := true } r = y at *
      obtain ⟨d, out⟩ := y
      cases out with
      | ok u =>
        simp only [List.cons_append, List.cons.injEq, Seen.opened.injEq] at hraw
        exact ⟨rfl, hraw.1⟩
      | err e => simp at hraw
      | panic => simp at hraw
      | diverge => simp at hraw
    obtain ⟨h1, h2⟩ := readInfo_skip K.safe o hr hx.1
    exact ⟨h1, h2.trans hx.2⟩
  refine ⟨fun _ _ _ _ hd he => heading_reached K hr hview.1 hp hd he, fun _ _ _ _ hd hc hfirst => ?_⟩
  obtain ⟨h1, h2, -⟩ := drive_drawing hp hd
  rw [← (heading_told K hr h1 h2 hc hfirst).2]
  exact hview.2

end Gif.Loop
