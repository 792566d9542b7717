import Verif.Props.Agree
/-!
# C17, C18, C19, C44, C49: what is given, is right

No assumptions about the file, the memory limit or `check_lzw_end_code`: where the sessions give something at all, it is this.
-/

namespace Gif

open Spec (Pixels rawFrames watch Upheld Agree YieldAll Unpacks)

namespace Decoder

variable {C : Codec}

theorem upheld_last {a b : List Got} {x : Got} (hx : x.isError = false) (h : Upheld (a ++ [x]) b) : a ++ [x] = b := by
  rcases h with h | ⟨k, e, _, h⟩
  · exact h
  · have := congrArg List.getLast? h
    rw [List.getLast?_append, List.getLast?_append] at this
    cases this
    cases hx

theorem upheld_fine {a b : List Got} (ha : ∀ x ∈ a, x.isError = false) (h : Upheld a b) : a = b := by
  rcases h with h | ⟨k, e, _, h⟩
  · exact h
  · have := ha (.seen (.failed e)) (by rw [h]; simp)
    cases this

theorem upheld_length {a b : List Got} (h : Upheld a b) : a.length ≤ b.length := by
  rcases h with rfl | ⟨k, e, hk, rfl⟩
  · exact Nat.le_refl _
  · simp only [List.length_append, List.length_take, List.length_singleton]; omega

theorem upheld_cancel {a y w : List Got} (hy : y ≠ []) (h : Upheld (a ++ y) (a ++ w)) : Upheld y w := by
  have hl := List.length_pos_iff.mpr hy
  rcases h with h | ⟨k, e, hk, h⟩
  · exact .inl (List.append_cancel_left h)
  · have h1 := congrArg List.length h
    simp only [List.length_append, List.length_take, List.length_singleton] at h1 hk
    refine .inr ⟨k - a.length, e, by omega, ?_⟩
    rw [List.take_append, List.take_of_length_le (by omega), List.append_assoc] at h
    exact List.append_cancel_left h

/-- The raw frames of a file, of which `x` is a beginning, without memory limit. -/
abbrev rawOf (C : Codec) (o : DecodeOptions) (c0 : Bool) (x : Reader) (k : Nat) : List Seen :=
  rawFilm C { o with memoryLimit := .unlimited, checkForEndCode := c0 } (completed x) k

/-- After the calls `as` the calls `bs` gave something: it is what they have to give. -/
theorem film_part (K : C.Contract) (o : DecodeOptions) (hs : o.skipFrameDecoding = false) (c0 : Bool) {r x : Reader}
    (h : r.Reliable) (hb : r.bytes <+: x.bytes) (as bs : List Act) (y : List Got)
    (hy : filmFrom C o r (as ++ bs) = filmFrom C o r as ++ y) (hne : y ≠ []) (k : Nat) (hk : Spec.seeks (as ++ bs) ≤ k) :
    ∃ v' live' outs', YieldAll K (rawFrames ((rawOf C o c0 x k).drop (Spec.seeks as + 1))) outs' ∧
      Upheld y (watch o.colorOutput .unlimited bs v' live' ((rawOf C o c0 x k).drop (Spec.seeks as + 1)) (outs'.map whole)) := by
  have hl := List.length_pos_iff.mpr hne
  have hk' : Spec.seeks as ≤ k := by rw [seeks_append] at hk; omega
  have hfine : ∀ z ∈ filmFrom C o r as, z.isError = false := by
    rcases filmFrom_append (C := C) o r as with h | h
    · exfalso
      rw [h bs] at hy
      have := congrArg List.length hy
      rw [List.length_append] at this
      omega
    · exact h
  obtain ⟨outs, hex, hup⟩ := filmFrom_completed K o hs c0 x k
  have u1 := upheld_fine hfine (hup o r rfl rfl rfl hs h hb as hk')
  have u2 := hup o r rfl rfl rfl hs h hb (as ++ bs) hk
  rw [hy] at u2
  have hsh := rawFilm_shape (C := C) { o with memoryLimit := .unlimited, checkForEndCode := c0 } (completed x) k
  unfold rawOf at *
  generalize rawFilm C { o with memoryLimit := .unlimited, checkForEndCode := c0 } (completed x) k = raw at *
  have hno : ∀ w, w = filmFrom C o r as → ¬ Upheld (filmFrom C o r as ++ y) w := by
    intro w hw hu
    have := upheld_length hu
    rw [hw, List.length_append] at this
    omega
  rcases hsh with ⟨v, raw, rfl⟩ | ⟨e, rfl⟩ | rfl
  · simp only [screening] at u1 u2
    rcases Spec.watch_append o.colorOutput .unlimited as v none raw (outs.map whole)
      (by rw [List.length_map]; exact Spec.yield_length K _ _ hex) with h1 | ⟨v', live', h1⟩
    · rw [h1] at u2
      exact absurd u2 (hno _ u1.symm)
    · refine ⟨v', live', outs.drop (rawFrames (raw.take (Spec.seeks as))).length, Spec.yield_drop K _ raw outs hex, ?_⟩
      rw [h1, u1, ← List.cons_append] at u2
      rw [List.map_drop]
      exact upheld_cancel hne u2
  · exact absurd u2 (hno _ u1.symm)
  · exact absurd u2 (hno _ u1.symm)

/-- **C17, C18, C44** for every file: a frame that `read_next_frame` returns is the picture described by the palette indices that
the data of this frame expand to, after any calls. `f` is the raw frame at this place in the file, which may have been longer. -/
theorem frame_right (K : C.Contract) (o : DecodeOptions) (hs : o.skipFrameDecoding = false) (c0 : Bool) (m : MemoryLimit)
    {r x : Reader} (h : r.Reliable) (hx : x.Reliable) (hb : r.bytes <+: x.bytes) (as : List Act) (g : Frame) (w : View)
    (hg : filmFrom C o r (as ++ [.read]) = filmFrom C o r as ++ [.seen (.frame (some g) w)]) (f : Frame) (v : View)
    (hf : (rawFilm C { o with memoryLimit := m, checkForEndCode := c0 } x (Spec.seeks as + 1))[Spec.seeks as + 1]? =
      some (.frame (some f) v)) :
    ∃ px, Unpacks K f px ∧ f.width.toNat * f.height.toNat ≤ px.1.length ∧
      g = Spec.shown o.colorOutput v.globalPalette f px.1 ∧ w = { v with currentFrame := g } := by
  have hf' := raw_completed K.safe { o with checkForEndCode := c0 } m hx _ _ _ (by intro e he; cases he) hf
  obtain ⟨v', live', outs', hex, hup⟩ := film_part K o hs c0 h hb as [.read] _ hg (by simp) (Spec.seeks as + 1)
    (by rw [seeks_append]; simp [Spec.seeks])
  obtain ⟨hlt, hget⟩ := List.getElem?_eq_some_iff.mp hf'
  unfold rawOf at hex hup
  rw [List.drop_eq_getElem_cons hlt, hget] at hex hup
  match outs', hex with
  | px :: outs', hex =>
    refine ⟨px, hex.1, ?_⟩
    have hu := upheld_last (a := []) rfl hup
    simp only [List.nil_append, List.map_cons, watch] at hu
    cases hd : Spec.deliver o.colorOutput .unlimited v.globalPalette f (whole px) with
    | error e => rw [hd] at hu; simp at hu
    | ok g' =>
      rw [hd] at hu
      simp only [List.cons.injEq, Got.seen.injEq, Seen.frame.injEq, Option.some.injEq, and_true] at hu
      obtain ⟨rfl, hw⟩ := hu
      unfold Spec.deliver at hd
      split at hd
      · cases hd
      · rw [if_neg (by simp [whole])] at hd
        split at hd
        · cases hd
        · rename_i hl
          cases hd
          exact ⟨Nat.le_of_not_lt hl, rfl, hw⟩

/-- **C44** for every file: the pixels of a frame depend on the frame and the global palette, not on what was done with the frames
before, or on whether more follows. -/
theorem frame_independent (K : C.Contract) {o p : DecodeOptions} (hs1 : o.skipFrameDecoding = false) (hs2 : p.skipFrameDecoding = false)
    (hc : o.colorOutput = p.colorOutput) {r1 r2 x1 x2 : Reader} (h1 : r1.Reliable) (h2 : r2.Reliable) (hx1 : x1.Reliable)
    (hx2 : x2.Reliable) (hb1 : r1.bytes <+: x1.bytes) (hb2 : r2.bytes <+: x2.bytes) (as1 as2 : List Act) (g1 g2 : Frame) (w1 w2 : View)
    (hg1 : filmFrom C o r1 (as1 ++ [.read]) = filmFrom C o r1 as1 ++ [.seen (.frame (some g1) w1)])
    (hg2 : filmFrom C p r2 (as2 ++ [.read]) = filmFrom C p r2 as2 ++ [.seen (.frame (some g2) w2)])
    (f1 f2 : Frame) (v1 v2 : View)
    (hf1 : (rawFilm C o x1 (Spec.seeks as1 + 1))[Spec.seeks as1 + 1]? = some (.frame (some f1) v1))
    (hf2 : (rawFilm C p x2 (Spec.seeks as2 + 1))[Spec.seeks as2 + 1]? = some (.frame (some f2) v2))
    (hsame : (f1.width, f1.height, f1.interlaced, f1.palette, f1.transparent, f1.buffer, v1.globalPalette) =
      (f2.width, f2.height, f2.interlaced, f2.palette, f2.transparent, f2.buffer, v2.globalPalette)) :
    g1.buffer = g2.buffer ∧ g1.palette = g2.palette ∧ g1.transparent = g2.transparent ∧ g1.width = g2.width ∧
      g1.height = g2.height := by
  obtain ⟨px1, y1, l1, rfl, _⟩ := frame_right K o hs1 o.checkForEndCode o.memoryLimit h1 hx1 hb1 as1 g1 w1 hg1 f1 v1 hf1
  obtain ⟨px2, y2, l2, rfl, _⟩ := frame_right K p hs2 p.checkForEndCode p.memoryLimit h2 hx2 hb2 as2 g2 w2 hg2 f2 v2 hf2
  simp only [Prod.mk.injEq] at hsame
  obtain ⟨q1, q2, q3, q4, q5, q6, q7⟩ := hsame
  have hpx : px1 = px2 := by
    obtain ⟨m1, data1, b1, y1⟩ := y1
    obtain ⟨m2, data2, b2, y2⟩ := y2
    rw [b1, b2] at q6
    cases q6
    obtain ⟨p, q⟩ := K.det y1 y2
    exact Prod.ext p q
  subst hpx
  refine ⟨?_, q4, q5, q1, q2⟩
  show Spec.picture _ _ _ _ = Spec.picture _ _ _ _
  unfold Spec.picture Spec.paletteOf Spec.pixelOrder
  rw [q1, q2, q3, q4, q5, q7, hc]

/-- **C19** for every file: after `next_frame_info` found a frame of which `read_into_buffer` gives the image, calls of
`fill_buffer` give the consecutive pieces of it, up to an error. -/
theorem fill_buffer_right (K : C.Contract) {o p : DecodeOptions} (hop : SameWish o p) {r1 r2 x : Reader} (h1 : r1.Reliable)
    (h2 : r2.Reliable) (hb1 : r1.bytes <+: x.bytes) (hb2 : r2.bytes <+: x.bytes) (as : List Act) (v : View) (image : List UInt8)
    (hi : filmFrom C o r1 (as ++ [.info, .into]) = filmFrom C o r1 as ++ [.seen (.info true v), .image image])
    (hni : v.currentFrame.interlaced = false) (ns : List Nat)
    (hns : (ns.map (· + 1)).sum ≤ v.currentFrame.width.toNat * v.currentFrame.height.toNat) (y : List Got)
    (hy : filmFrom C p r2 (as ++ .info :: ns.map .fill) = filmFrom C p r2 as ++ y) (hne : y ≠ []) :
    Upheld y (.seen (.info true v) ::
      (Spec.pieces image (ns.map fun n => (n + 1) * Spec.channels o.colorOutput)).map (.filled · true)) := by
  obtain ⟨e1, e2, e3, e4, e5⟩ := hop
  have hse : ∀ ns : List Nat, Spec.seeks (ns.map Act.fill) = 0 := by
    intro ns
    induction ns with
    | nil => rfl
    | cons n ns ih => simpa [Spec.seeks] using ih
  obtain ⟨v1, live1, outs1, hex1, hup1⟩ := film_part K o e4 false h1 hb1 as [.info, .into] _ hi (by simp) (Spec.seeks as + 1)
    (by rw [seeks_append]; simp [Spec.seeks])
  obtain ⟨v2, live2, outs2, hex2, hup2⟩ := film_part K p e5 false h2 hb2 as (.info :: ns.map .fill) _ hy hne (Spec.seeks as + 1)
    (by rw [seeks_append]; simp [Spec.seeks, hse])
  have eraw : rawOf C p false x (Spec.seeks as + 1) = rawOf C o false x (Spec.seeks as + 1) := by
    unfold rawOf rawFilm
    congr 1
    cases o; cases p; simp only at e1 e2 e3 e4 e5; subst e1 e2 e3 e4; simp
  rw [eraw] at hex2 hup2
  generalize (rawOf C o false x (Spec.seeks as + 1)).drop (Spec.seeks as + 1) = raw at *
  have hu1 := upheld_last (a := [.seen (.info true v)]) (x := .image image) rfl hup1
  cases raw with
  | nil => simp [watch] at hu1
  | cons s raw =>
    cases s with
    | opened _ => simp [watch] at hu1
    | info _ _ => simp [watch] at hu1
    | crashed => simp [watch] at hu1
    | failed e => simp [watch] at hu1
    | frame f v0 =>
      cases f with
      | none => simp [watch] at hu1
      | some f =>
        match outs1, hex1, outs2, hex2 with
        | px :: outs1, hex1, px2 :: outs2, hex2 =>
          have hpx := Spec.unpacks_det K rfl hex1.1 hex2.1
          subst hpx
          simp only [List.map_cons, watch, List.cons_append, List.nil_append, List.cons.injEq, Got.seen.injEq, Seen.info.injEq,
            true_and] at hu1
          obtain ⟨rfl, hu1⟩ := hu1
          simp only at hns hni hu1
          simp only [List.map_cons, watch, Spec.watch_fill] at hup2
          rw [← e1] at hup2
          split at hu1
          · rename_i hl
            simp only [List.cons.injEq, Got.image.injEq, and_true] at hu1
            subst hu1
            have hpp := Spec.pour_pieces o.colorOutput (Spec.paletteOf v0.globalPalette (Spec.bare f)) (Spec.bare f).transparent ns
              (px.1.take ((Spec.bare f).width.toNat * (Spec.bare f).height.toNat))
              (px.1.drop ((Spec.bare f).width.toNat * (Spec.bare f).height.toNat)) (by
                simp only [whole] at hl
                rw [List.length_take]
                exact Nat.le_trans hns (by omega))
            rw [List.take_append_drop] at hpp
            simp only [whole] at hup2
            rw [hpp] at hup2
            simp only [Spec.picture, Spec.pixelOrder, hni, whole, Bool.false_eq_true, if_false]
            exact hup2
          · simp at hu1

theorem seeks_map_fill (ns : List Nat) : Spec.seeks (ns.map Act.fill) = 0 := by
  induction ns with
  | nil => rfl
  | cons n ns ih => simpa [Spec.seeks] using ih

/-- **C19** for every file: after `next_frame_info` found the frame `f`, calls of `fill_buffer` give the palette indices that its
data expand to one after the other, and `true` as long as they fill the buffer, up to an error. -/
theorem fill_buffer_stream_right (K : C.Contract) (o : DecodeOptions) (hs : o.skipFrameDecoding = false) (c0 : Bool) (m : MemoryLimit)
    {r x : Reader} (h : r.Reliable) (hx : x.Reliable) (hb : r.bytes <+: x.bytes) (as : List Act) (ns : List Nat) (y : List Got)
    (hy : filmFrom C o r (as ++ .info :: ns.map .fill) = filmFrom C o r as ++ y) (hne : y ≠ []) (f : Frame) (v : View)
    (hf : (rawFilm C { o with memoryLimit := m, checkForEndCode := c0 } x (Spec.seeks as + 1))[Spec.seeks as + 1]? =
      some (.frame (some f) v)) :
    ∃ px, Unpacks K f px ∧ Upheld y (.seen (.info true { v with currentFrame := Spec.bare f }) ::
      Spec.pour o.colorOutput (Spec.paletteOf v.globalPalette f) f.transparent ns px.1) := by
  have hf' := raw_completed K.safe { o with checkForEndCode := c0 } m hx _ _ _ (by intro e he; cases he) hf
  obtain ⟨v', live', outs', hex, hup⟩ := film_part K o hs c0 h hb as (.info :: ns.map .fill) _ hy hne (Spec.seeks as + 1)
    (by rw [seeks_append]; simp [Spec.seeks, seeks_map_fill])
  obtain ⟨hlt, hget⟩ := List.getElem?_eq_some_iff.mp hf'
  unfold rawOf at hex hup
  rw [List.drop_eq_getElem_cons hlt, hget] at hex hup
  match outs', hex with
  | px :: outs', hex =>
    refine ⟨px, hex.1, ?_⟩
    simp only [List.map_cons, watch, Spec.watch_fill] at hup
    exact hup

end Decoder

/-! ## C49 -/

namespace Spec

variable {C : Codec} (K : C.Contract)

theorem sameSight_cases {x y : Seen} (h : SameSight K x y) :
    (∃ f v g w, x = .frame (some f) v ∧ y = .frame (some g) w ∧ SamePicture K f g ∧
      { v with currentFrame := Frame.default } = { w with currentFrame := Frame.default }) ∨
    (∃ v w, x = .frame none v ∧ y = .frame none w ∧
      { v with currentFrame := Frame.default } = { w with currentFrame := Frame.default }) ∨
    (x = y ∧ ∀ f v, x ≠ .frame f v) := by
  unfold SameSight at h
  split at h
  · exact .inl ⟨_, _, _, _, rfl, rfl, h.1, h.2⟩
  · exact .inr (.inl ⟨_, _, rfl, rfl, h⟩)
  · rename_i n1 n2
    refine .inr (.inr ⟨h, fun f v hx => ?_⟩)
    subst h
    cases f with
    | none => exact n2 v v hx hx
    | some f => exact n1 f v f v hx hx

theorem deliver_same (c : ColorOutput) (lim : MemoryLimit) (g : Option (List UInt8)) (f f' : Frame) (px px' : List UInt8)
    (h : bare f = bare f')
    (hpx : px.take (f.width.toNat * f.height.toNat) = px'.take (f.width.toNat * f.height.toNat)) :
    deliver c lim g f (px, .ended) = deliver c lim g f' (px', .ended) := by
  have hs := picture_bare c g f f' px px' h hpx
  simp only [bare, Frame.mk.injEq] at h
  obtain ⟨q1, q2, q3, q4, q5, q6, q7, q8, q9, q10, _, _⟩ := h
  have hl := congrArg List.length hpx
  simp only [List.length_take] at hl
  unfold deliver
  rw [hs, ← q7, ← q8]
  simp only [reduceCtorEq, if_false]
  by_cases hlt : px.length < f.width.toNat * f.height.toNat
  · rw [if_pos hlt, if_pos (by omega)]
  · rw [if_neg hlt, if_neg (by omega)]

theorem watch_show (c : ColorOutput) (lim : MemoryLimit) : ∀ (as : List Act), (∀ a ∈ as, a = .info ∨ a = .read) →
    ∀ (v : View) (live live' : Option (List UInt8)) (raw raw' : List Seen) (outs outs' : List Pixels),
    SameShow K raw raw' → YieldAll K (rawFrames raw) outs → YieldAll K (rawFrames raw') outs' →
    watch c lim as v live raw (outs.map Decoder.whole) = watch c lim as v live' raw' (outs'.map Decoder.whole) := by
  intro as
  induction as with
  | nil => intros; rfl
  | cons a as ih =>
    intro ha v live live' raw raw' outs outs' hsf h h'
    have ih' := ih (fun b hb => ha b (List.mem_cons_of_mem _ hb))
    cases raw with
    | nil =>
      cases raw' with
      | cons _ _ => exact hsf.elim
      | nil => rcases ha a (List.mem_cons_self ..) with rfl | rfl <;> simp only [watch]
    | cons s raw =>
      cases raw' with
      | nil => exact hsf.elim
      | cons s' raw' =>
        rcases sameSight_cases K hsf.1 with ⟨f, v1, g, v2, rfl, rfl, ⟨hbare, px1, px2, y1, y2, htake⟩, hview⟩ | ⟨v1, v2, rfl, rfl, hview⟩ | ⟨rfl, hno⟩
        · match outs, h, outs', h' with
          | px :: outs, h, px' :: outs', h' =>
            have e1 := unpacks_det K rfl y1 h.1
            have e2 := unpacks_det K rfl y2 h'.1
            subst e1 e2
            have hview' := hview
            simp only [View.mk.injEq] at hview'
            have hgp : v1.globalPalette = v2.globalPalette := hview'.2.2.1
            rcases ha a (List.mem_cons_self ..) with rfl | rfl
            · simp only [List.map_cons, watch]
              rw [hbare, rest_eq hview]
              exact congrArg _ (ih' _ _ _ _ _ _ _ hsf.2 h.2 h'.2)
            · simp only [List.map_cons, watch, Decoder.whole]
              rw [hgp, deliver_same c lim v2.globalPalette f g px1.1 px2.1 hbare htake]
              split
              · rename_i g' hg
                have hr := rest_eq hview g'
                rw [hgp] at hr
                rw [hr]
                exact congrArg _ (ih' _ _ _ _ _ _ _ hsf.2 h.2 h'.2)
              · rfl
        · rcases ha a (List.mem_cons_self ..) with rfl | rfl
          · simp only [watch]
            rw [rest_eq hview]
            exact congrArg _ (ih' _ _ _ _ _ _ _ hsf.2 h h')
          · simp only [watch]
            rw [rest_eq hview]
            exact congrArg _ (ih' _ _ _ _ _ _ _ hsf.2 h h')
        · rcases ha a (List.mem_cons_self ..) with rfl | rfl
          · cases s with
            | frame f v => exact absurd rfl (hno f v)
            | failed e => simp only [watch]
            | crashed => simp only [watch]
            | opened v => simp only [watch]
            | info b v => simp only [watch]
          · cases s with
            | frame f v => exact absurd rfl (hno f v)
            | failed e => simp only [watch]
            | crashed => simp only [watch]
            | opened v => simp only [watch]
            | info b v => simp only [watch]

end Spec

namespace Decoder

variable {C : Codec}

/-- Raw frames that could be read are the same in a completion of the file, without memory limit. -/
theorem readable_completed (hS : C.Safe) (o : DecodeOptions) {x : Reader} (hx : x.Reliable) (n : Nat)
    (h : Spec.Readable (rawFilm C o x n)) : rawOf C o o.checkForEndCode x n = rawFilm C o x n := by
  have h1 : rawFilm C { o with memoryLimit := .unlimited } x n = rawFilm C o x n := by
    have hc := filmFrom_cap (C := C) { o with skipFrameDecoding := true } o.memoryLimit.le_unlimited x (List.replicate n .read)
    rw [raw_film o, raw_film { o with memoryLimit := .unlimited }] at hc
    rcases hc with hc | ⟨k, e, he, hk, hc⟩
    · exact (map_seen_inj hc).symm
    · exfalso
      have hm : Got.seen (.failed e) ∈ (rawFilm C o x n).map Got.seen := by rw [hc]; simp
      obtain ⟨s, hs, e'⟩ := List.mem_map.mp hm
      cases e'
      rcases he with rfl | rfl
      · exact h.2.1 hs
      · exact h.2.2 hs
  have h2 := truncated_prefix_partial (C := C) hS { o with memoryLimit := .unlimited, skipFrameDecoding := true } x (completed x) hx
    (completed_reliable x) ⟨_, (completed_bytes x).symm⟩ (List.replicate n .read) (.inr rfl)
  rcases h2 with h2 | ⟨k, hk, h2⟩
  · exact h2.symm.trans h1
  · exfalso
    apply h.1
    rw [← h1]
    show _ ∈ sessionFrom C _ x _
    rw [h2]
    simp

/-- **C49** for every file: data that expand to other superfluous pixels, to none or to more of them, or that end in another way,
give the same frames, now and later, up to the first error in one of the sessions. -/
theorem extra_pixels_ignored (K : C.Contract) (o : DecodeOptions) (hs : o.skipFrameDecoding = false) {r1 r2 : Reader}
    (h1 : r1.Reliable) (h2 : r2.Reliable) (acts : List Act) (ha : ∀ a ∈ acts, a = .info ∨ a = .read)
    (hr1 : Spec.Readable (rawFilm C o r1 (Spec.seeks acts))) (hr2 : Spec.Readable (rawFilm C o r2 (Spec.seeks acts)))
    (hsame : Spec.SameShow K (rawFilm C o r1 (Spec.seeks acts)) (rawFilm C o r2 (Spec.seeks acts))) :
    Agree (filmFrom C o r1 acts) (filmFrom C o r2 acts) := by
  obtain ⟨outs1, hex1, u1⟩ := filmFrom_completed K o hs o.checkForEndCode r1 (Spec.seeks acts)
  obtain ⟨outs2, hex2, u2⟩ := filmFrom_completed K o hs o.checkForEndCode r2 (Spec.seeks acts)
  have u1 := u1 o r1 rfl rfl rfl hs h1 (List.prefix_refl _) acts (Nat.le_refl _)
  have u2 := u2 o r2 rfl rfl rfl hs h2 (List.prefix_refl _) acts (Nat.le_refl _)
  have e1 := readable_completed K.safe o h1 _ hr1
  have e2 := readable_completed K.safe o h2 _ hr2
  unfold rawOf at e1 e2
  rw [e1] at hex1 u1
  rw [e2] at hex2 u2
  have s1 := rawFilm_shape (C := C) o r1 (Spec.seeks acts)
  have s2 := rawFilm_shape (C := C) o r2 (Spec.seeks acts)
  have key : screening { o with memoryLimit := .unlimited } acts (rawFilm C o r1 (Spec.seeks acts)) (outs1.map whole) =
      screening { o with memoryLimit := .unlimited } acts (rawFilm C o r2 (Spec.seeks acts)) (outs2.map whole) := by
    generalize rawFilm C o r1 (Spec.seeks acts) = a1 at *
    generalize rawFilm C o r2 (Spec.seeks acts) = a2 at *
    rcases s1 with ⟨v, raw, rfl⟩ | ⟨e, rfl⟩ | rfl <;> rcases s2 with ⟨v', raw', rfl⟩ | ⟨e', rfl⟩ | rfl
    · have hv : v = v' := by simpa [Spec.SameSight] using hsame.1
      subst hv
      simp only [screening]
      exact congrArg _ (Spec.watch_show K _ _ acts ha v none none raw raw' outs1 outs2 hsame.2 hex1 hex2)
    all_goals first
      | rfl
      | (have := hsame.1; simp only [Spec.SameSight, reduceCtorEq] at this; done)
      | (have := hsame.1; simp only [Spec.SameSight, Seen.failed.injEq] at this; subst this; rfl)
  rw [key] at u1
  exact Spec.upheld_agree u1 u2

end Decoder

end Gif
