import Verif.Props.Explode
import Verif.Props.Parallel
import Verif.Props.Expand
import Verif.Props.EncoderIo
/-!
# C70: `examples/parallel.rs`
-/

namespace Gif

open Spec Encoder

variable {C : Codec}

namespace DecoderIter

/-- The item that a loop that ended with `x` has at the end. -/
def lastItem : Outcome Unit → List (Except DecodingError Frame)
  | .err e => [.error e]
  | _ => []

theorem items_ended_nil {it : DecoderIter C} (h : it.ended = true) {xs : List (Except DecodingError Frame)} (hx : Items it xs) : xs = [] := by
  have hn : it.next = (it, .ok none) := by unfold next; rw [if_pos h]
  cases hx with
  | done _ => rfl
  | item h1 _ => rw [hn] at h1; cases h1

/-- With `skip_frame_decoding`, the iterator gives what the loop over `read_next_frame` gives. -/
theorem items_loop (hS : C.Safe) {o : DecodeOptions} (ho : o.skipFrameDecoding = true) {w h : UInt16} {pal : Option (List UInt8)}
    {it : DecoderIter C} {xs : List (Except DecodingError Frame)} (hx : Items it xs) :
    ∀ d : Decoder C, it.ended = false → Same it.inner d → Decoder.Steady o w h pal it.inner → Decoder.Steady o w h pal d →
      ∃ fs x, Decoder.Looped d fs x ∧ x.returns = true ∧ xs = fs.map .ok ++ lastItem x := by
  have hnext : ∀ (it : DecoderIter C), it.ended = false → it.next = (match it.inner.readNextFrame with
      | (d, .ok (some _)) =>
        match d.takeCurrentFrame with
        | (d, some f) => ({ it with inner := d }, .ok (some (.ok f)))
        | (d, none) => ({ it with inner := d }, .ok none)
      | (d, .ok none) => ({ inner := d, ended := true }, .ok none)
      | (d, .err e) => ({ inner := d, ended := true }, .ok (some (.error e)))
      | (d, .panic) => ({ it with inner := d }, .panic)
      | (d, .diverge) => ({ it with inner := d }, .diverge)) := by
    intro it hend; unfold next; rw [if_neg (by simp [hend])]; rfl
  induction hx with
  | @done it it' h1 =>
    intro d hend hsame hi hd
    rw [hnext it hend] at h1
    obtain ⟨s1, s2⟩ := readNextFrame_same it.inner d hsame
    have hs := Decoder.readNextFrame_spec hS it.inner hi.inv
    obtain ⟨t1, t2⟩ := Decoder.readNextFrame_steady hS hi
    generalize it.inner.readNextFrame = x at *
    generalize hy : d.readNextFrame = y at *
    obtain ⟨d1, r1⟩ := x
    obtain ⟨d2, r2⟩ := y
    simp only at *
    subst s1
    cases r1 with
    | ok a =>
      cases a with
      | none => exact ⟨[], .ok (), .done hy, rfl, rfl⟩
      | some f =>
        exfalso
        have hc := (hs.2.2.2.2.2.1 f rfl).1
        obtain ⟨m, data, hb, _⟩ := ((t2 f rfl).raw ho).2
        simp only [Decoder.takeCurrentFrame, hc, hb] at h1
        simp at h1
    | err e => simp at h1
    | panic => simp at h1
    | diverge => simp at h1
  | @item it it' x xs h1 hxs ih =>
    intro d hend hsame hi hd
    rw [hnext it hend] at h1
    obtain ⟨s1, s2⟩ := readNextFrame_same it.inner d hsame
    have hs := Decoder.readNextFrame_spec hS it.inner hi.inv
    obtain ⟨t1, t2⟩ := Decoder.readNextFrame_steady hS hi
    obtain ⟨u1, u2⟩ := Decoder.readNextFrame_steady hS hd
    generalize it.inner.readNextFrame = x at *
    generalize hy : d.readNextFrame = y at *
    obtain ⟨d1, r1⟩ := x
    obtain ⟨d2, r2⟩ := y
    simp only at *
    subst s1
    cases r1 with
    | ok a =>
      cases a with
      | none => simp at h1
      | some f =>
        have hc := (hs.2.2.2.2.2.1 f rfl).1
        obtain ⟨m, data, hb, _⟩ := ((t2 f rfl).raw ho).2
        have ht : d1.takeCurrentFrame = ({ d1 with currentFrame := d1.currentFrame.afterTake }, some f) := by
          unfold Decoder.takeCurrentFrame
          rw [if_neg (by rw [hc, hb]; simp), hc]
          rfl
        simp only [ht, Prod.mk.injEq, Outcome.ok.injEq, Option.some.injEq] at h1
        obtain ⟨rfl, rfl⟩ := h1
        obtain ⟨fs, x, l1, l2, l3⟩ := ih d2 hend s2 ⟨⟨t1.inv.rd, t1.inv.limit⟩, t1.shape, t1.past, t1.pal, t1.check, t1.skip, t1.limit, t1.color⟩ u1
        exact ⟨f :: fs, x, .frame hy l1, l2, by rw [l3]; rfl⟩
    | err e =>
      simp only [Prod.mk.injEq, Outcome.ok.injEq, Option.some.injEq] at h1
      obtain ⟨rfl, rfl⟩ := h1
      rw [items_ended_nil rfl hxs]
      exact ⟨[], .err e, .err hy, rfl, rfl⟩
    | panic => simp at h1
    | diverge => simp at h1

end DecoderIter

namespace Decoder

theorem Steady.view {o : DecodeOptions} {w h : UInt16} {pal : Option (List UInt8)} {d d' : Decoder C} (hd : Steady o w h pal d)
    (hd' : Steady o w h pal d') (hb : d'.bgColor = d.bgColor) (hr : d'.repetition = d.repetition) :
    d'.view = { d.view with currentFrame := d'.currentFrame } := by
  have e1 : d.width = w := hd.past.2.2.1
  have e2 : d.height = h := hd.past.2.2.2
  have e3 := hd.pal
  have f1 : d'.width = w := hd'.past.2.2.1
  have f2 : d'.height = h := hd'.past.2.2.2
  have f3 := hd'.pal
  simp only [Decoder.view, e1, e2, e3, f1, f2, f3, hb, hr]

/-- The loop as a session. -/
theorem looped_session (hS : C.Safe) {o : DecodeOptions} {w h : UInt16} {pal : Option (List UInt8)} {d : Decoder C} {fs : List Frame}
    {x : Outcome Unit} (hl : Looped d fs x) (hx : x = .ok ()) (hd : Steady o w h pal d) :
    ∃ g, session (List.replicate (fs.length + 1) .read) d = fs.map (fun f => .frame (some f) { d.view with currentFrame := f }) ++
      [.frame none { d.view with currentFrame := g }] := by
  induction hl with
  | @done d d' h1 =>
    have hs := readNextFrame_spec hS d hd.inv
    have hst := (readNextFrame_steady hS hd).1
    refine ⟨d'.currentFrame, ?_⟩
    rw [h1] at hs hst
    simp only [List.length_nil, Nat.zero_add, List.replicate_succ, List.replicate_zero, session, see, h1, List.map_nil, List.nil_append]
    rw [hd.view hst hs.2.2.2.1 hs.2.2.2.2.1]
  | err _ => cases hx
  | panic _ => cases hx
  | diverge _ => cases hx
  | @frame d d1 f fs x h1 _ ih =>
    have hs := readNextFrame_spec hS d hd.inv
    have hst := (readNextFrame_steady hS hd).1
    rw [h1] at hs hst
    have hv := hd.view hst hs.2.2.2.1 hs.2.2.2.2.1
    have hc := (hs.2.2.2.2.2.1 f rfl).1
    obtain ⟨g, ih⟩ := ih hx hst
    refine ⟨g, ?_⟩
    rw [List.length_cons, List.replicate_succ, session]
    simp only [see, h1]
    rw [ih, hv]
    simp only at hc
    simp only [hc, List.map_cons, List.cons_append]

end Decoder

namespace Examples

/-- The frames `fs`, expanded one by one with `FrameDecoder`s, give `gs`. -/
def Expanded (C : Codec) : List Frame → List Frame → Prop
  | [], [] => True
  | f :: fs, g :: gs => ((FrameDecoder.new C DecodeOptions.new).decodeFrame f).2 = (g, .ok ()) ∧ Expanded C fs gs
  | _, _ => False

/-- The options of `parallel.rs:24-25`. -/
abbrev rawOptions : DecodeOptions := { DecodeOptions.new with skipFrameDecoding := true }

/-- Options with which the expanded frames could have been read. -/
abbrev freeOptions : DecodeOptions := { DecodeOptions.new with memoryLimit := .unlimited }

theorem expanded_sound (K : C.Contract) {w h : UInt16} {pal : Option (List UInt8)} {f g : Frame} (hf : Sound rawOptions w h pal f)
    (hd : ((FrameDecoder.new C DecodeOptions.new).decodeFrame f).2 = (g, .ok ())) : Sound freeOptions w h pal g := by
  obtain ⟨m, data, hb, _⟩ := (hf.raw rfl).2
  generalize hy : (FrameDecoder.new C DecodeOptions.new).decodeFrame f = y at hd
  obtain ⟨d', z⟩ := y
  simp only at hd
  subst hd
  obtain ⟨px, -, h2, h3⟩ := FrameDecoder.right K (FrameDecoder.Reach.new) hy (by rw [hb]; simp)
  have hlen : g.buffer.length = f.width.toNat * f.height.toNat := by
    have := Converter.pixelOrder_length h2
    rw [h3]
    exact this
  have hw : g.width = f.width := by rw [h3]; rfl
  have hh : g.height = f.height := by rw [h3]; rfl
  refine ⟨fun h => (by cases h), ?_, ?_, ?_, ?_, fun h => (by cases h)⟩
  · intro p hp; exact hf.table p (by rw [h3] at hp; exact hp)
  · have := hf.coloured
    rw [h3]
    exact this
  · rw [h3]; rfl
  · intro _
    refine ⟨by rw [h3]; rfl, ?_, rfl⟩
    rw [hlen, hw, hh]
    simp [DecodeOptions.new]

theorem items_eq {it : DecoderIter C} {xs : List (Except DecodingError Frame)} (h : DecoderIter.Items it xs) :
    ∀ fuel, xs.length < fuel → items fuel it = (xs, .success) := by
  induction h with
  | done h1 =>
    intro fuel hf
    obtain ⟨fuel, rfl⟩ : ∃ k, fuel = k + 1 := ⟨fuel - 1, by omega⟩
    rw [items, h1]
    rfl
  | item h1 _ ih =>
    intro fuel hf
    obtain ⟨fuel, rfl⟩ : ∃ k, fuel = k + 1 := ⟨fuel - 1, by omega⟩
    rw [items, h1]
    simp only
    rw [ih fuel (by simp at hf; omega)]

/-- The items of the iterator: all frames that the loop over `read_next_frame` gives, and its error. -/
theorem raw_items (K : C.Contract) {r : Reader} {d : Decoder C} (ho : Decoder.readInfo C rawOptions r = (d, .ok ())) :
    (∀ t, d.globalPalette = some t → TableLength t.length) ∧
    ∃ fs x, Decoder.Looped d fs x ∧ x.returns = true ∧
      items (r.bytes.length + 2) (DecoderIter.new d) = (fs.map .ok ++ DecoderIter.lastItem x, .success) ∧
      ∀ f ∈ fs, Sound rawOptions d.width d.height d.globalPalette f := by
  obtain ⟨h1, h2⟩ := Decoder.readInfo_steady K.safe rawOptions r (by rw [ho])
  rw [ho] at h1 h2
  obtain ⟨fs, e, i1, i2, i3⟩ := DecoderIter.items_end K.safe ho
  obtain ⟨fs', x, l1, l2, l3⟩ := DecoderIter.items_loop K.safe rfl i1 d rfl ⟨rfl, rfl⟩ h1 h1
  refine ⟨h2, fs', x, l1, l2, ?_, Decoder.looped_steady K.safe l1 h1⟩
  rw [← l3]
  apply items_eq i1
  simp only [List.length_append, List.length_map]
  by_cases hf : fs = []
  · subst hf; simp; omega
  · have := i3 hf
    omega

theorem task_cases (hS : C.Safe) (f : Frame) :
    (∃ g, ((FrameDecoder.new C DecodeOptions.new).decodeFrame f).2 = (g, .ok ()) ∧ task C (.ok f) = .sent (g.makeLzwPreEncoded C)) ∨
    (∃ g e, ((FrameDecoder.new C DecodeOptions.new).decodeFrame f).2 = (g, .err e) ∧ task C (.ok f) = .panicked) := by
  have hret := (FrameDecoder.calls_return hS (FrameDecoder.new C DecodeOptions.new) f []).1
  simp only [task]
  generalize (FrameDecoder.new C DecodeOptions.new).decodeFrame f = y at *
  obtain ⟨d', g, out⟩ := y
  cases out with
  | ok u => exact .inl ⟨g, rfl, rfl⟩
  | err e => exact .inr ⟨g, e, rfl, rfl⟩
  | panic => cases hret
  | diverge => cases hret

/-- If all items were processed, all frames were expanded, and there was no error. -/
theorem sent_expanded (hS : C.Safe) {x : Outcome Unit} (hx : x.returns = true) : ∀ (fs ms : List Frame),
    (fs.map Except.ok ++ DecoderIter.lastItem x).map (task C) = ms.map .sent →
    x = .ok () ∧ ∃ gs, Expanded C fs gs ∧ ms = gs.map (·.makeLzwPreEncoded C) := by
  intro fs
  induction fs with
  | nil =>
    intro ms h
    cases x with
    | ok u =>
      cases ms with
      | nil => exact ⟨rfl, [], trivial, rfl⟩
      | cons m ms => simp [DecoderIter.lastItem] at h
    | err e =>
      cases ms with
      | nil => simp [DecoderIter.lastItem] at h
      | cons m ms => simp [DecoderIter.lastItem, task] at h
    | panic => cases hx
    | diverge => cases hx
  | cons f fs ih =>
    intro ms h
    cases ms with
    | nil => simp at h
    | cons m ms =>
      rw [List.map_cons, List.cons_append, List.map_cons, List.map_cons, List.cons.injEq] at h
      obtain ⟨h1, h2⟩ := h
      obtain ⟨k1, gs, k2, k3⟩ := ih ms h2
      rcases task_cases hS f with ⟨g, t1, t2⟩ | ⟨g, e, t1, t2⟩
      · rw [t2] at h1
        cases h1
        exact ⟨k1, g :: gs, ⟨t1, k2⟩, by rw [k3]; rfl⟩
      · rw [t2] at h1; cases h1

theorem expanded_sent (hS : C.Safe) : ∀ (fs gs : List Frame), Expanded C fs gs →
    (fs.map Except.ok).map (task C) = (gs.map (·.makeLzwPreEncoded C)).map .sent
  | [], [], _ => rfl
  | [], _ :: _, h => h.elim
  | _ :: _, [], h => h.elim
  | f :: fs, g :: gs, h => by
    have ih := expanded_sent hS fs gs h.2
    rw [List.map_cons, List.map_cons, List.map_cons, List.map_cons, ih]
    congr 1
    rcases task_cases hS f with ⟨g', t1, t2⟩ | ⟨g', e, t1, t2⟩
    · rw [h.1] at t1; cases t1; exact t2
    · rw [h.1] at t1; cases t1

theorem expanded_det : ∀ (fs gs gs' : List Frame), Expanded C fs gs → Expanded C fs gs' → gs = gs'
  | [], [], [], _, _ => rfl
  | [], _ :: _, _, h, _ => h.elim
  | [], _, _ :: _, _, h => h.elim
  | _ :: _, [], _, h, _ => h.elim
  | _ :: _, _, [], _, h => h.elim
  | f :: fs, g :: gs, g' :: gs', h, h' => by
    rw [expanded_det fs gs gs' h.2 h'.2]
    have := h.1.symm.trans h'.1
    cases this
    rfl

theorem expanded_all_sound (K : C.Contract) {w h : UInt16} {pal : Option (List UInt8)} : ∀ (fs gs : List Frame), Expanded C fs gs →
    (∀ f ∈ fs, Sound rawOptions w h pal f) → ∀ g ∈ gs, Sound freeOptions w h pal g
  | [], [], _, _ => by intro g hg; cases hg
  | [], _ :: _, h, _ => h.elim
  | _ :: _, [], h, _ => h.elim
  | f :: fs, g :: gs, he, hf => by
    intro g' hg
    rcases List.mem_cons.mp hg with rfl | hg
    · exact expanded_sound K (hf f List.mem_cons_self) he.1
    · exact expanded_all_sound K fs gs he.2 (fun f hf' => hf f (List.mem_cons_of_mem _ hf')) g' hg

end Examples

end Gif
