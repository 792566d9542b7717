import Verif.Props.TwoWays
import Verif.Props.Streaming
import Verif.Spec.Loop
/-!
# C98: a loop around `StreamingDecoder::update` ends, and gets every frame
-/

namespace Gif.Loop

open Spec SD Draw Twofold Gif.Props

variable {C : Codec}

/-! ## The loop, as a sequence of calls -/

theorem drawing_snoc {s s1 s2 : SD C} {l l1 slice rest : List UInt8} {cs : List UpdateCall} (h : Drawing s l cs s1 l1)
    {out : OutSpec} {n : Nat} {ev : Decoded} (hl : l1 = slice ++ rest) (hne : slice ≠ [])
    (hu : s1.update slice out = (s2, .ok (n, ev))) :
    Drawing s l (cs ++ [⟨slice, out, .ok (n, ev)⟩]) s2 (l1.drop n) := by
  induction h with
  | nil => subst hl; exact .cons hne hu (.nil _ _)
  | cons hne' h' _ ih => exact .cons hne' h' (ih hl hu)

theorem careful_snoc : ∀ (cs : List UpdateCall) (w : Option FrameDataType) (c : UpdateCall), careful w cs → c.fits (dataAfter w cs) →
    careful w (cs ++ [c])
  | [], _, _, _, h => ⟨h, trivial⟩
  | _ :: cs, _, c, ⟨h1, h2⟩, h => ⟨h1, careful_snoc cs _ c h2 h⟩

theorem fits_of {p : Driver} (hp : p.Fit) (cs : List UpdateCall) (slice : List UInt8) (x : Outcome (Nat × Decoded)) :
    UpdateCall.fits ⟨slice, (p cs).2, x⟩ (dataAfter none cs) := by
  have := (hp cs).2.2
  cases h : dataAfter none cs with
  | none => trivial
  | some t =>
    have := this (by rw [h]; simp)
    cases t with
    | pixels => exact this
    | lzw => exact .inl this

theorem take_ne {l : List UInt8} {n : Nat} (h : l ≠ []) (hn : 0 < n) : l.take n ≠ [] := by
  cases l with
  | nil => exact absurd rfl h
  | cons => cases n with
    | zero => omega
    | succ => simp

/-- The loop feeds the decoder. -/
theorem drive_drawing {p : Driver} (hp : p.Fit) {o : DecodeOptions} {bytes l : List UInt8} {cs : List UpdateCall} {s : SD C}
    (h : Drive C p o bytes cs s l) :
    Drawing (SD.withOptions C o) bytes cs s l ∧ careful none cs ∧ ∀ c ∈ cs, c.out ≠ .slice 0 := by
  induction h with
  | start => exact ⟨.nil _ _, trivial, fun _ h => by cases h⟩
  | @call cs s s1 l n ev h ht hne hu ih =>
    obtain ⟨i1, i2, i3⟩ := ih
    refine ⟨drawing_snoc i1 (List.take_append_drop _ _).symm (take_ne hne (hp cs).1) hu, careful_snoc _ _ _ i2 (fits_of hp cs _ _), ?_⟩
    intro c hc
    rcases List.mem_append.1 hc with hc | hc
    · exact i3 c hc
    · cases List.mem_singleton.1 hc
      exact (hp cs).2.1

theorem end_finished {p : Driver} (hp : p.Fit) {cs : List UpdateCall} {s : SD C} {l : List UInt8} {r : Option DecodingError}
    (h : DriveEnd p cs s l r) : Finished cs s l r := by
  cases h with
  | trailer h => exact .trailer h
  | all h => subst h; exact .all
  | @fails e hne h =>
    have := Finished.fails (cs := cs) (rest := l.drop (p cs).1) (take_ne hne (hp cs).1) (hp cs).2.2 h
    rw [List.take_append_drop] at this
    exact this

/-- The calls, as a history. -/
theorem drawing_calls {s s' : SD C} {l l' : List UInt8} {cs : List UpdateCall} (h : Drawing s l cs s' l') : Calls s cs s' := by
  induction h with
  | nil => exact .nil _
  | @cons s s1 s' slice rest l' out cs n ev hne h ht ih =>
    have := Calls.cons (s := s) (s' := s') (calls := cs) slice out (by rw [h]; rfl) (by rw [h]; exact ih)
    rw [h] at this
    exact this

/-! ## The number of calls -/

/-- What the calls consume. -/
theorem drawing_consumed (hS : C.Safe) {s s' : SD C} {l l' : List UInt8} {cs : List UpdateCall} (h : Drawing s l cs s' l') (hw : WF s)
    (hout : ∀ c ∈ cs, c.out ≠ .slice 0) :
    cs.length + SD.rank s' + 4 * l'.length ≤ 4 * l.length + (collected cs).length + SD.rank s := by
  induction h with
  | nil => simp [collected]; omega
  | @cons s s1 s' slice rest l' out cs n ev hne h ht ih =>
    rcases SD.update_spec hS out s slice hw (by rw [h]; rfl) with ⟨n', ev', h1, h2, h3, h4, h5, h6, h7, _⟩ | ⟨e, h1, _⟩
    · rw [h] at h1 h2
      cases h1
      have hi := ih h2 fun c hc => hout c (List.mem_cons_of_mem _ hc)
      have hr1 := SD.rank_le s1
      rw [List.length_drop, List.length_append] at hi
      rw [collected_cons, List.length_append, List.length_append, List.length_cons]
      have hlen : 0 < slice.length := List.length_pos_iff.2 hne
      by_cases hn : ev = .nothing
      · have := h5 hn
        subst hn
        simp only [evBytes, List.length_nil]
        omega
      · have hp := h7 (.inl (hout _ List.mem_cons_self)) hn
        have : SD.produced ev = (evBytes ev).length := by cases ev <;> rfl
        rw [h] at hp
        simp only at hp
        omega
    · rw [h] at h1; cases h1

/-! ## What the calls collect -/

theorem blocks_sub : ∀ (l : List UInt8) (n : Nat), (blocks n l).1.Sublist l ∧
    (blocks n l).1.length ≤ l.length ∧ ∀ l', (blocks n l).2 = some l' → l' <:+ l ∧ (blocks n l).1.length + l'.length + 1 ≤ l.length := by
  intro l
  induction l with
  | nil => intro n; rw [blocks_nil]; exact ⟨.refl _, Nat.le_refl _, fun _ h => by cases h⟩
  | cons b l ih =>
    intro n
    match n with
    | 0 =>
      by_cases hb : b = 0
      · subst hb
        rw [blocks_end]
        refine ⟨List.nil_sublist _, Nat.zero_le _, fun l' h => ?_⟩
        cases h
        exact ⟨List.suffix_cons _ _, by simp⟩
      · rw [blocks_next hb]
        obtain ⟨h1, h2, h3⟩ := ih b.toNat
        refine ⟨h1.trans (List.sublist_cons_self _ _), by rw [List.length_cons]; omega, fun l' h => ?_⟩
        obtain ⟨h4, h5⟩ := h3 l' h
        exact ⟨h4.trans (List.suffix_cons _ _), by rw [List.length_cons]; omega⟩
    | n + 1 =>
      obtain ⟨h1, h2, h3⟩ := ih n
      rw [blocks]
      refine ⟨h1.cons_cons _, by simp only [List.length_cons]; omega, fun l' h => ?_⟩
      obtain ⟨h4, h5⟩ := h3 l' h
      exact ⟨h4.trans (List.suffix_cons _ _), by simp only [List.length_cons]; omega⟩

theorem eval_suffix {m : Bool} {s : SD C} {acc l : List UInt8} {r : Res C} (h : Eval m s acc l r) {s1 : SD C} {acc1 rest : List UInt8}
    {ev : Decoded} (hr : r = .event s1 acc1 ev rest) : rest <:+ l := by
  induction h with
  | nil => cases hr
  | quiet _ _ _ ih => exact (ih hr).trans (List.drop_suffix _ _)
  | event => cases hr; exact List.drop_suffix _ _
  | err => cases hr

/-- An image that ends takes its data, and a byte, off what is left. -/
theorem leap_takes (hS : C.Safe) {a a' : SD C} {l l' : List UInt8} {m m' : UInt8} {i : Item} (h : Leap a l m i a' l' m') (hw : WF a)
    (hk : a.skipFrameDecoding = true) :
    WF a' ∧ a'.skipFrameDecoding = true ∧ l' <:+ l ∧
    (i.1 = .dataEnd → i.2.2.Sublist l ∧ i.2.2.length + l'.length + 1 ≤ l.length) ∧ (i.1 ≠ .dataEnd → i.2.2 = []) := by
  cases h with
  | out _ ho h hev =>
    obtain ⟨h1, -, h2 | ⟨_, _, rfl, _⟩⟩ := eval_skip hS h rfl hw ho hk
    · exact ⟨eval_wf hS h rfl hw, h1, eval_suffix h rfl, fun he => absurd he h2.2.1, fun _ => rfl⟩
    · exact absurd rfl (hev _)
  | start _ ho h =>
    exact ⟨eval_wf hS h rfl hw, (eval_skip hS h rfl hw ho hk).1, eval_suffix h rfl, fun he => (by cases he), fun _ => rfl⟩
  | data _ hs hb =>
    obtain ⟨h1, h2, h3⟩ := blocks_sub l ‹_›
    rw [hb] at h1 h2 h3
    obtain ⟨h4, h5⟩ := h3 _ rfl
    refine ⟨⟨?_, hw.ext, fun f hf => (by cases hf), fun f hf => (by cases hf)⟩, hk, h4, fun _ => ⟨h1, h5⟩, fun h => absurd rfl h⟩
    have := hw.ibuf
    unfold ibufOk at this ⊢
    simp only [hs, required] at this ⊢
    exact this

/-- So do they all. -/
theorem leaps_take (hS : C.Safe) {a a' : SD C} {l l' : List UInt8} {m m' : UInt8} {is : List Item} (h : Leaps a l m is a' l' m')
    (hw : WF a) (hk : a.skipFrameDecoding = true) :
    l' <:+ l ∧ (∀ i ∈ is, i.2.2.Sublist l) ∧ (is.map (·.2.2.length)).sum + (ends is).length + l'.length ≤ l.length ∧
      ∀ i ∈ is, i.1 ≠ .dataEnd → i.2.2 = [] := by
  induction h with
  | nil => exact ⟨List.suffix_refl _, fun _ h => (by cases h), by simp [ends], fun _ h => (by cases h)⟩
  | @cons a a1 a' l l1 l' m m1 m' i is h ht ih =>
    obtain ⟨h1, h2, h3, h4, h5⟩ := leap_takes hS h hw hk
    obtain ⟨i1, i2, i3, i4⟩ := ih h1 h2
    refine ⟨i1.trans h3, ?_, ?_, ?_⟩
    · intro x hx
      rcases List.mem_cons.1 hx with rfl | hx
      · by_cases hi : x.1 = .dataEnd
        · exact (h4 hi).1
        · rw [h5 hi]; exact List.nil_sublist _
      · exact (i2 x hx).trans h3.sublist
    · rw [List.map_cons, List.sum_cons]
      have hl := h3.length_le
      unfold ends at i3 ⊢
      by_cases hi : i.1 = .dataEnd
      · rw [List.filter_cons_of_pos (by simpa using hi), List.length_cons]
        have := (h4 hi).2
        omega
      · rw [List.filter_cons_of_neg (by simpa using hi), h5 hi]
        simp only [List.length_nil]
        omega
    · intro x hx
      rcases List.mem_cons.1 hx with rfl | hx
      · exact h5
      · exact i4 x hx

/-- No image has more bytes than it can have. -/
theorem shows_sum {K : C.Contract} {o : DecodeOptions} {M : Nat} {is : List Item} {js : List (Decoded × List UInt8)}
    (h : Each (Shows K o) is js) (hM : ∀ i ∈ is, ∀ px e, K.Yields (C.new i.2.1) i.2.2 px e → px.length ≤ M)
    (hd : ∀ i ∈ is, i.1 ≠ .dataEnd → i.2.2 = []) :
    (js.map (·.2.length)).sum ≤ (is.map (·.2.2.length)).sum + M * (ends is).length := by
  induction h with
  | nil => simp
  | @cons x y xs ys h ht ih =>
    have := ih (fun i hi => hM i (List.mem_cons_of_mem _ hi)) fun i hi => hd i (List.mem_cons_of_mem _ hi)
    have hx := hM x List.mem_cons_self
    rw [List.map_cons, List.sum_cons, List.map_cons, List.sum_cons]
    unfold ends at this ⊢
    have hc : M * (xs.filter fun i => decide (i.1 = .dataEnd)).length ≤
        M * ((x :: xs).filter fun i => decide (i.1 = .dataEnd)).length :=
      Nat.mul_le_mul_left _ (by rw [List.filter_cons]; split <;> simp)
    cases h with
    | same => simp only; omega
    | start => simp only; omega
    | data _ hy =>
      have := hx _ _ hy
      rw [List.filter_cons_of_pos (by rfl), List.length_cons, Nat.mul_add]
      simp only
      omega

theorem shows_sum_skip {K : C.Contract} {o : DecodeOptions} (ho : o.skipFrameDecoding = true) {is : List Item}
    {js : List (Decoded × List UInt8)} (h : Each (Shows K o) is js) : (js.map (·.2.length)).sum = (is.map (·.2.2.length)).sum := by
  induction h with
  | nil => rfl
  | cons h ht ih =>
    rw [List.map_cons, List.sum_cons, List.map_cons, List.sum_cons, ih]
    cases h with
    | same => rfl
    | start _ _ h => rfl
    | data h => rw [ho] at h; cases h

/-! ## No file has more pixels than it can have -/

theorem all_sublists : ∀ l : List UInt8, ∃ L : List (List UInt8), ∀ d, d.Sublist l → d ∈ L
  | [] => ⟨[[]], fun d h => by rw [List.sublist_nil.1 h]; exact List.mem_singleton.2 rfl⟩
  | b :: l => by
    obtain ⟨L, hL⟩ := all_sublists l
    refine ⟨L ++ L.map (b :: ·), fun d h => ?_⟩
    rcases List.sublist_cons_iff.1 h with h | ⟨d', rfl, h⟩
    · exact List.mem_append_left _ (hL d h)
    · exact List.mem_append_right _ (List.mem_map.2 ⟨d', hL d' (by assumption), rfl⟩)

theorem yields_max (K : C.Contract) (m : UInt8) : ∀ L : List (List UInt8), ∃ M : Nat, ∀ d ∈ L, ∀ px e, K.Yields (C.new m) d px e →
    px.length ≤ M
  | [] => ⟨0, fun _ h => by cases h⟩
  | d :: L => by
    obtain ⟨M, hM⟩ := yields_max K m L
    obtain ⟨px, e, hy⟩ := K.total m d
    refine ⟨M + px.length, fun d' hd px' e' hy' => ?_⟩
    rcases List.mem_cons.1 hd with rfl | hd
    · rw [(K.det hy' hy).1]; omega
    · have := hM d' hd px' e' hy'; omega

theorem yields_max' (K : C.Contract) (l : List UInt8) : ∃ M : Nat, ∀ m d, d.Sublist l → ∀ px e, K.Yields (C.new m) d px e →
    px.length ≤ M := by
  obtain ⟨L, hL⟩ := all_sublists l
  have : ∀ n : Nat, ∃ M : Nat, ∀ m : UInt8, m.toNat < n → ∀ d ∈ L, ∀ px e, K.Yields (C.new m) d px e → px.length ≤ M := by
    intro n
    induction n with
    | zero => exact ⟨0, fun _ h => by omega⟩
    | succ n ih =>
      obtain ⟨M, hM⟩ := ih
      obtain ⟨M', hM'⟩ := yields_max K (UInt8.ofNat n) L
      refine ⟨M + M', fun m hm d hd px e hy => ?_⟩
      by_cases h : m.toNat < n
      · have := hM m h d hd px e hy; omega
      · have : m = UInt8.ofNat n := by
          rw [show n = m.toNat by omega, UInt8.ofNat_toNat]
        subst this
        have := hM' d hd px e hy; omega
  obtain ⟨M, hM⟩ := this 256
  exact ⟨M, fun m d hd px e hy => hM m m.toNat_lt d (hL d hd) px e hy⟩

/-! ## The loop ends -/

/-- What the program has collected in all. -/
theorem drawing_total (K : C.Contract) {o : DecodeOptions} {bytes l' : List UInt8} {cs : List UpdateCall} {s' : SD C} {M : Nat}
    (hM : ∀ m d, d.Sublist bytes → ∀ px e, K.Yields (C.new m) d px e → px.length ≤ M)
    (h : Drawing (SD.withOptions C o) bytes cs s' l') (hc : careful none cs) :
    (collected cs).length ≤ bytes.length + M * bytes.length + M ∧
    (o.skipFrameDecoding = true → (collected cs).length ≤ bytes.length) := by
  obtain ⟨hs, hg, hl⟩ := since_start K o bytes
  have hs' : Since K (LzwReader.new C o.checkForEndCode) (SD.withOptions C { o with skipFrameDecoding := true }) bytes 0 none
      (SD.withOptions C o) bytes [] := .out rfl rfl fun _ h => h
  obtain ⟨is, a, l0, m, acc, p1, p2, p3, p4, p5, p6, p7, p8, p9⟩ := drawing_leaps K h (SD.wf_withOptions o) hl hg hs' hc
  obtain ⟨q1, q2, q3, q4⟩ := leaps_take K.safe p1 (SD.wf_withOptions _) rfl
  have t1 := shows_sum p2 (fun i hi => hM _ _ (q2 i hi)) q4
  have t2 : M * (ends is).length ≤ M * bytes.length := Nat.mul_le_mul_left _ (by omega)
  rw [List.length_nil] at p9
  have hacc : (acc.length ≤ M ∧ o.skipFrameDecoding = false) ∨ acc.length ≤ l0.length := by
    generalize dataAfter none cs = w at p3
    cases p3 with
    | out => exact .inr (Nat.zero_le _)
    | pix hk _ hy =>
      have := hM _ _ ((blocks_sub l0 _).1.trans q1.sublist) _ _ hy
      rw [List.length_append] at this
      exact .inl ⟨by omega, p6.skip.symm.trans hk⟩
    | copy _ _ hd =>
      have := (blocks_sub l0 ‹_›).2.1
      rw [hd, List.length_append] at this
      exact .inr (by omega)
  refine ⟨by omega, fun ho => ?_⟩
  have := shows_sum_skip ho p2
  rcases hacc with ⟨-, h⟩ | h
  · rw [ho] at h; cases h
  · omega

/-- **C98**: with `skip_frame_decoding`, the loop makes at most five calls for each byte, and three. -/
theorem drive_calls (K : C.Contract) {p : Driver} (hp : p.Fit) {o : DecodeOptions} (ho : o.skipFrameDecoding = true)
    {bytes l : List UInt8} {cs : List UpdateCall} {s : SD C} (h : Drive C p o bytes cs s l) : cs.length ≤ 5 * bytes.length + 3 := by
  obtain ⟨h1, h2, h3⟩ := drive_drawing hp h
  obtain ⟨M, hM⟩ := yields_max' K bytes
  have := (drawing_total K hM h1 h2).2 ho
  have := drawing_consumed K.safe h1 (SD.wf_withOptions o) h3
  have := SD.rank_le (SD.withOptions C o)
  omega

/-- **C98**: there is a number of calls that no loop around `update` exceeds, for given options and bytes. -/
theorem drive_bounded (K : C.Contract) (o : DecodeOptions) (bytes : List UInt8) :
    ∃ N, ∀ (p : Driver), p.Fit → ∀ {cs : List UpdateCall} {s : SD C} {l : List UInt8}, Drive C p o bytes cs s l → cs.length ≤ N := by
  obtain ⟨M, hM⟩ := yields_max' K bytes
  refine ⟨5 * bytes.length + M * bytes.length + M + 3, fun p hp cs s l h => ?_⟩
  obtain ⟨h1, h2, h3⟩ := drive_drawing hp h
  have := (drawing_total K hM h1 h2).1
  have := drawing_consumed K.safe h1 (SD.wf_withOptions o) h3
  have := SD.rank_le (SD.withOptions C o)
  omega

/-- A loop that is not left makes another call. -/
theorem drive_next (K : C.Contract) {p : Driver} (hp : p.Fit) {o : DecodeOptions} {bytes l : List UInt8} {cs : List UpdateCall} {s : SD C}
    (h : Drive C p o bytes cs s l) : (∃ r, DriveEnd p cs s l r) ∨ ∃ c s1 l1, Drive C p o bytes (cs ++ [c]) s1 l1 := by
  obtain ⟨h1, h2, h3⟩ := drive_drawing hp h
  obtain ⟨hs, hg, hl⟩ := since_start K o bytes
  obtain ⟨is, a, l0, m, acc, p1, p2, p3, p4, p5, -⟩ := drawing_leaps K h1 (SD.wf_withOptions o) hl hg hs h2
  by_cases ht : ∃ c ∈ cs, c.event = some (.blockStart .trailer)
  · exact .inl ⟨_, .trailer ht⟩
  by_cases hne : l = []
  · exact .inl ⟨_, .all hne⟩
  have htr : s.state ≠ .trailer := fun hst => ht ((history_inv K.safe (drawing_calls h1)).2.2.1.1 hst)
  have hsl := take_ne hne (hp cs).1
  cases hx : l.take (p cs).1 with
  | nil => exact absurd hx hsl
  | cons b bs =>
    have hret : (s.update (l.take (p cs).1) (p cs).2).2.returns = true := by
      rw [hx]
      rcases SD.update_any K.safe (p cs).2 s b bs p4 with ⟨h, -⟩ | ⟨-, h, hb⟩ | ⟨-, -, s1, l1, -, hu⟩
      · exact absurd h htr
      · obtain ⟨t, ht⟩ := p5 h
        subst ht
        cases hn : (p cs).1 with
        | zero => rw [hn] at hx; cases hx
        | succ n => rw [hn, List.take_succ_cons] at hx; cases hx; exact absurd rfl hb
      · generalize s.update (b :: bs) (p cs).2 = u at hu
        obtain ⟨u1, u2⟩ := u
        cases hu <;> rfl
    rcases SD.update_spec K.safe (p cs).2 s _ p4 hret with ⟨n, ev, h1, -⟩ | ⟨e, h1, -⟩
    · exact .inr ⟨_, _, _, .call h (fun c hc he => ht ⟨c, hc, he⟩) hne (Prod.ext rfl h1)⟩
    · exact .inl ⟨_, .fails hne h1⟩

/-- **C98**: a loop around `update` ends, for every file, damaged or not. -/
theorem drive_ends (K : C.Contract) {p : Driver} (hp : p.Fit) (o : DecodeOptions) (bytes : List UInt8) :
    ∃ cs s l r, Drive C p o bytes cs s l ∧ DriveEnd p cs s l r := by
  obtain ⟨N, hN⟩ := drive_bounded (C := C) K o bytes
  have : ∀ n, (∃ cs s l r, Drive C p o bytes cs s l ∧ DriveEnd p cs s l r) ∨ ∃ cs s l, Drive C p o bytes cs s l ∧ cs.length = n := by
    intro n
    induction n with
    | zero => exact .inr ⟨_, _, _, .start, rfl⟩
    | succ n ih =>
      rcases ih with h | ⟨cs, s, l, h, hn⟩
      · exact .inl h
      · rcases drive_next K hp h with ⟨r, hr⟩ | ⟨c, s1, l1, h'⟩
        · exact .inl ⟨_, _, _, _, h, hr⟩
        · exact .inr ⟨_, _, _, h', by rw [List.length_append, hn]; rfl⟩
  rcases this (N + 1) with h | ⟨cs, s, l, h, hn⟩
  · exact h
  · have := hN p hp h
    omega

/-- **C98**: two loops, whatever slices and output buffers they use, have got the same when they end, and fail for the same reason if
both fail. -/
theorem drive_same (K : C.Contract) {p q : Driver} (hp : p.Fit) (hq : q.Fit) {o : DecodeOptions} {bytes l1 l2 : List UInt8}
    {cs1 cs2 : List UpdateCall} {s1 s2 : SD C} {r1 r2 : Option DecodingError} (h1 : Drive C p o bytes cs1 s1 l1)
    (e1 : DriveEnd p cs1 s1 l1 r1) (h2 : Drive C q o bytes cs2 s2 l2) (e2 : DriveEnd q cs2 s2 l2 r2) :
    gist [] cs1 = gist [] cs2 ∧ ∀ x1 x2, r1 = some x1 → r2 = some x2 → x1 = x2 := by
  obtain ⟨a1, a2, -⟩ := drive_drawing hp h1
  obtain ⟨b1, b2, -⟩ := drive_drawing hq h2
  exact gist_final K a1 a2 (end_finished hp e1) b1 b2 (end_finished hq e2)

/-- **C98**: with `skip_frame_decoding`, a loop has got the data of every frame that `Decoder` returns, when it ends. -/
theorem drive_finds (K : C.Contract) {p : Driver} (hp : p.Fit) {o : DecodeOptions} (ho : o.skipFrameDecoding = true) {r : Reader}
    (hr : r.Reliable) {cs : List UpdateCall} {s : SD C} {l : List UInt8} {e : Option DecodingError} (h : Drive C p o r.bytes cs s l)
    (he : DriveEnd p cs s l e) {i k : Nat} {f : Frame} {v : View}
    (hf : (Decoder.sessionFrom C o r (List.replicate k .read))[i + 1]? = some (.frame (some f) v)) :
    (gathered (gist [] cs))[i]? = some f.buffer.tail := by
  obtain ⟨h1, h2, -⟩ := drive_drawing hp h
  have ho' : { o with skipFrameDecoding := true } = o := by cases o; simp only at ho; subst ho; rfl
  have hf' : (Decoder.rawFilm C o r k)[i + 1]? = some (.frame (some f) v) := by
    unfold Decoder.rawFilm
    rw [ho']
    exact hf
  have hlen : i < (gathered (gist [] cs)).length := by
    obtain ⟨hs, hg, hl⟩ := since_start K o r.bytes
    have hs' : Since K (LzwReader.new C o.checkForEndCode) (SD.withOptions C { o with skipFrameDecoding := true }) r.bytes 0 none
        (SD.withOptions C o) r.bytes [] := .out rfl rfl fun _ h => h
    obtain ⟨P, a, l0, m, acc, p1, p2, p3, p4, p5, p6, p7, -⟩ := drawing_leaps K h1 (SD.wf_withOptions o) hl hg hs' h2
    obtain ⟨is, m, dd, a1, l1, m1, a2, l2, a3, l3, e1, e2, e3, e4, e5, e6, e7⟩ := rawFilm_reads K.safe o hr hf'
    rw [← each_length (gathered_shows p2)]
    have hD := leaps_append e1 (.cons e4 (.cons e6 (.nil _ _ _)))
    have hE : (ends (is ++ [(.frameMetadata (.lzw m), m1, []), (.dataEnd, m, dd)])).length = i + 1 := by
      rw [ends_append, List.length_append, e2]
      rfl
    rcases leaps_order p1 hD with ⟨t, ht', hl⟩ | ⟨t, ht', _⟩
    · cases hl with
      | nil => rw [List.append_nil] at ht'; rw [ht'] at hE; omega
      | @cons _ _ _ _ _ _ _ _ _ x _ hx =>
        obtain ⟨ev, m', d⟩ := x
        exact (finished_stops K (end_finished hp he) p4 p5 p6 p3 p7 hx (.same m' d (.inl ho))).elim
    · rw [ht', ends_append, List.length_append, hE]
      omega
  obtain ⟨x, hx⟩ : ∃ x, (gathered (gist [] cs))[i]? = some x := ⟨_, List.getElem?_eq_getElem hlen⟩
  rw [hx, same_data K ho hr h1 h2 hx hf]

/-- The items of two runs of the raw decoder. -/
theorem ends_agree {a a1 a2 : SD C} {l l1 l2 : List UInt8} {m m1 m2 : UInt8} {is1 is2 : List Item} (h1 : Leaps a l m is1 a1 l1 m1)
    (h2 : Leaps a l m is2 a2 l2 m2) {j : Nat} {x y : Item} (hx : (ends is1)[j]? = some x) (hy : (ends is2)[j]? = some y) : x = y := by
  rcases leaps_order h1 h2 with ⟨t, rfl, _⟩ | ⟨t, rfl, _⟩
  · rw [ends_append] at hy
    have := prefix_get ⟨_, rfl⟩ hx (ys := ends is1 ++ ends t)
    rw [hy] at this
    exact (Option.some.inj this).symm
  · rw [ends_append] at hx
    have := prefix_get ⟨_, rfl⟩ hy (ys := ends is2 ++ ends t)
    rw [hx] at this
    exact Option.some.inj this

/-- The image data of a frame, as read with `skip_frame_decoding`, decode to `px`: nothing in them is invalid, and they have an end code
if there must be one. -/
def Decodes (K : C.Contract) (o : DecodeOptions) (f : Frame) (px : List UInt8) : Prop :=
  ∃ m dd e, f.buffer = m :: dd ∧ K.Yields (C.new m) dd px e ∧ e ≠ .invalid ∧ (o.checkForEndCode = true → e = .ended)

/-- **C98**: without `skip_frame_decoding`, a loop has got the pixels of every frame, when it ends, up to the first one whose image data
cannot be decoded. -/
theorem drive_decodes (K : C.Contract) {p : Driver} (hp : p.Fit) {o : DecodeOptions} (ho : o.skipFrameDecoding = false) {r : Reader}
    (hr : r.Reliable) {cs : List UpdateCall} {s : SD C} {l : List UInt8} {e : Option DecodingError} (h : Drive C p o r.bytes cs s l)
    (he : DriveEnd p cs s l e) {i k : Nat}
    (hf : ∀ j, j ≤ i → ∃ f v px, (Decoder.rawFilm C o r k)[j + 1]? = some (.frame (some f) v) ∧ Decodes K o f px)
    {f : Frame} {v : View} (hi : (Decoder.rawFilm C o r k)[i + 1]? = some (.frame (some f) v)) {px : List UInt8}
    (hd : Decodes K o f px) : (gathered (gist [] cs))[i]? = some px := by
  obtain ⟨h1, h2, -⟩ := drive_drawing hp h
  have hlen : i < (gathered (gist [] cs)).length := by
    obtain ⟨hs, hg, hl⟩ := since_start K o r.bytes
    have hs' : Since K (LzwReader.new C o.checkForEndCode) (SD.withOptions C { o with skipFrameDecoding := true }) r.bytes 0 none
        (SD.withOptions C o) r.bytes [] := .out rfl rfl fun _ h => h
    obtain ⟨P, a, l0, m, acc, p1, p2, p3, p4, p5, p6, p7, -⟩ := drawing_leaps K h1 (SD.wf_withOptions o) hl hg hs' h2
    obtain ⟨is, m, dd, a1, l1, m1, a2, l2, a3, l3, e1, e2, e3, e4, e5, e6, e7⟩ := rawFilm_reads K.safe o hr hi
    rw [← each_length (gathered_shows p2)]
    have hD := leaps_append e1 (.cons e4 (.cons e6 (.nil _ _ _)))
    have hE : (ends (is ++ [(.frameMetadata (.lzw m), m1, []), (.dataEnd, m, dd)])).length = i + 1 := by
      rw [ends_append, List.length_append, e2]
      rfl
    rcases leaps_order p1 hD with ⟨t, ht', hl⟩ | ⟨t, ht', _⟩
    · cases hl with
      | nil => rw [List.append_nil] at ht'; rw [ht'] at hE; omega
      | @cons _ _ _ _ _ _ _ _ _ x xs hx hxs =>
        exfalso
        have stop : ∀ {j}, Shows K o x j → False := fun hj => finished_stops K (end_finished hp he) p4 p5 p6 p3 p7 hx hj
        have hend : x.1 = .dataEnd → False := by
          intro hx1
          have hP := leaps_append p1 (Leaps.cons hx hxs)
          have hxe : (ends (P ++ x :: xs))[(ends P).length]? = some x := by
            rw [ends_append, List.getElem?_append_right (Nat.le_refl _), Nat.sub_self]
            unfold ends
            rw [List.filter_cons_of_pos (by simpa using hx1)]
            rfl
          have hj : (ends P).length ≤ i := by
            have : (ends P).length < (ends (P ++ x :: xs)).length := (List.getElem?_eq_some_iff.1 hxe).1
            rw [← ht', hE] at this
            omega
          obtain ⟨g, w, py, g1, mm, ddd, ee, g2, g3, g4, g5⟩ := hf _ hj
          obtain ⟨is', m', dd', b1, l1', m1', b2, l2', b3, l3', f1, f2, f3, f4, f5, f6, f7⟩ := rawFilm_reads K.safe o hr g1
          have hD' := leaps_append f1 (.cons f4 (.cons f6 (.nil _ _ _)))
          have hE' : (ends (is' ++ [(.frameMetadata (.lzw m'), m1', []), (.dataEnd, m', dd')]))[(ends P).length]? =
              some (.dataEnd, m', dd') := by
            rw [ends_append, List.getElem?_append_right (by omega), f2, Nat.sub_self]
            rfl
          have := ends_agree hP hD' hxe hE'
          subst this
          rw [g2] at f7
          cases f7
          exact stop (.data ho g3 g4 g5)
        cases hx with
        | out _ _ _ hev => exact stop (.same _ _ (.inr ⟨hev, hend⟩))
        | start _ _ _ => exact stop (.start _ _ ho)
        | data => exact hend rfl
    · rw [ht', ends_append, List.length_append, hE]
      omega
  obtain ⟨x, hx⟩ : ∃ x, (gathered (gist [] cs))[i]? = some x := ⟨_, List.getElem?_eq_getElem hlen⟩
  obtain ⟨m, dd, b1, b2⟩ := both_data K hr h1 h2 hx hi
  obtain ⟨m', dd', e, d1, d2, -⟩ := hd
  rw [b1] at d1
  cases d1
  rw [hx]
  cases b2 with
  | same _ _ h =>
    rcases h with h | h
    · rw [ho] at h; cases h
    · exact absurd rfl h.2
  | data _ hy => rw [(K.det hy d2).1]

end Gif.Loop
