import Verif.Lemmas.Uphold
import Verif.Lemmas.Limit
import Verif.Props.Film
import Verif.Props.Chunks
/-!
# C03, C08, C19, C44, C49, C52: what is given, is right

Everything a session gives before its first error is determined by the raw frames of the file, whatever the memory limit and
`check_lzw_end_code`, whether the file is complete or not, and whether its image data are valid or not.
-/

namespace Gif

open Spec (blocks blocks_end Pixels rawFrames watch Upheld Agree YieldAll Unpacks)

/-! ## Upheld and Agree -/

namespace Spec

theorem upheld_trans {a b c : List Got} (h : Upheld a b) (h' : Upheld b c) : Upheld a c := by
  rcases h with rfl | ⟨k, e, hk, rfl⟩
  · exact h'
  · rcases h' with rfl | ⟨k', e', hk', rfl⟩
    · exact .inr ⟨k, e, hk, rfl⟩
    · refine .inr ⟨k, e, ?_, ?_⟩
      · rw [List.length_append, List.length_take] at hk; simp at hk; omega
      · rw [List.length_append, List.length_take] at hk
        simp at hk
        rw [List.take_append_of_le_length (by rw [List.length_take]; omega), List.take_take, Nat.min_eq_left (by omega)]

theorem agree_refl : ∀ a : List Got, Agree a a
  | [] => trivial
  | _ :: a => .inr (.inr ⟨rfl, agree_refl a⟩)

theorem agree_symm : ∀ {a b : List Got}, Agree a b → Agree b a
  | [], [], _ => trivial
  | [], _ :: _, h => h.elim
  | _ :: _, [], h => h.elim
  | x :: a, y :: b, h => by
    rcases h with h | h | ⟨rfl, h⟩
    · exact .inr (.inl h)
    · exact .inl h
    · exact .inr (.inr ⟨rfl, agree_symm h⟩)

theorem agree_take : ∀ (w : List Got) (k j : Nat) (e e' : DecodingError), k < w.length → j < w.length →
    Agree (w.take k ++ [.seen (.failed e)]) (w.take j ++ [.seen (.failed e')])
  | [], k, _, _, _, h, _ => absurd h (by simp)
  | x :: w, 0, j, e, e', _, _ => by
    cases j with
    | zero => exact .inl rfl
    | succ j => exact .inl rfl
  | x :: w, k + 1, 0, e, e', _, _ => .inr (.inl rfl)
  | x :: w, k + 1, j + 1, e, e', h, h' => by
    refine .inr (.inr ⟨rfl, ?_⟩)
    exact agree_take w k j e e' (by simpa using h) (by simpa using h')

theorem agree_whole : ∀ (w : List Got) (k : Nat) (e : DecodingError), k < w.length →
    Agree (w.take k ++ [.seen (.failed e)]) w
  | [], k, _, h => absurd h (by simp)
  | x :: w, 0, e, _ => .inl rfl
  | x :: w, k + 1, e, h => .inr (.inr ⟨rfl, agree_whole w k e (by simpa using h)⟩)

/-- What is upheld by the same, agrees. -/
theorem upheld_agree {a b w : List Got} (ha : Upheld a w) (hb : Upheld b w) : Agree a b := by
  rcases ha with rfl | ⟨k, e, hk, rfl⟩
  · rcases hb with rfl | ⟨j, e', hj, rfl⟩
    · exact agree_refl _
    · exact agree_symm (agree_whole _ _ _ hj)
  · rcases hb with rfl | ⟨j, e', hj, rfl⟩
    · exact agree_whole _ _ _ hk
    · exact agree_take w k j e e' hk hj

/-- Sessions that agree, both without error, are the same. -/
theorem agree_eq : ∀ {a b : List Got}, Agree a b → (∀ x ∈ a, x.isError = false) → (∀ x ∈ b, x.isError = false) → a = b
  | [], [], _, _, _ => rfl
  | [], _ :: _, h, _, _ => h.elim
  | _ :: _, [], h, _, _ => h.elim
  | x :: a, y :: b, h, ha, hb => by
    rcases h with h | h | ⟨rfl, h⟩
    · rw [ha x (List.mem_cons_self ..)] at h; cases h
    · rw [hb y (List.mem_cons_self ..)] at h; cases h
    · rw [agree_eq h (fun z hz => ha z (List.mem_cons_of_mem _ hz)) (fun z hz => hb z (List.mem_cons_of_mem _ hz))]

theorem upheld_eq {a w : List Got} (h : Upheld a w) (ha : ∀ x ∈ a, x.isError = false) : a = w := by
  rcases h with rfl | ⟨k, e, hk, rfl⟩
  · rfl
  · have := ha (.seen (.failed e)) (by simp)
    cases this

variable {C : Codec} (K : C.Contract)

theorem yield_all : ∀ (fs : List Frame), (∀ f ∈ fs, f.buffer ≠ []) → ∃ outs, YieldAll K fs outs
  | [], _ => ⟨[], trivial⟩
  | f :: fs, hb => by
    obtain ⟨outs, h⟩ := yield_all fs (fun g hg => hb g (List.mem_cons_of_mem _ hg))
    obtain ⟨m, data, he⟩ := List.exists_cons_of_ne_nil (hb f (List.mem_cons_self ..))
    obtain ⟨px, e, hy⟩ := K.total m data
    exact ⟨(px, e) :: outs, ⟨m, data, he, hy⟩, h⟩

theorem unpacks_det {f g : Frame} {p q : Pixels} (hb : f.buffer = g.buffer) (hp : Unpacks K f p) (hq : Unpacks K g q) : p = q := by
  obtain ⟨m1, data1, b1, y1⟩ := hp
  obtain ⟨m2, data2, b2, y2⟩ := hq
  rw [b1, b2] at hb
  cases hb
  obtain ⟨a, b⟩ := K.det y1 y2
  exact Prod.ext a b

end Spec

/-! ## A continuation that completes every file -/

theorem blocks_zeros : ∀ (n left : Nat), left < n → (blocks left (List.replicate n (0 : UInt8))).2 ≠ none
  | 0, _, h => absurd h (by simp)
  | n + 1, 0, _ => by rw [List.replicate_succ, blocks_end]; simp
  | n + 1, left + 1, h => by rw [List.replicate_succ, blocks]; exact blocks_zeros n left (by omega)

namespace Decoder

variable {C : Codec}

theorem zeros_complete : Complete (List.replicate 256 0) := by
  intro left l
  induction l generalizing left with
  | nil => intro h; exact blocks_zeros 256 left (by omega)
  | cons b l ih =>
    intro h
    cases left with
    | succ left => rw [List.cons_append, blocks]; exact ih left (by omega)
    | zero =>
      rw [List.cons_append, blocks]
      split
      · intro h; cases h
      · exact ih _ (by have := b.toNat_lt; omega)

/-- What the bytes of a file, completed by zeros, are read from. -/
def completed (r : Reader) : Reader := { buf := r.bytes ++ List.replicate 256 0, src := [] }

theorem completed_reliable (r : Reader) : (completed r).Reliable := by intro ev h; cases h

theorem completed_bytes (r : Reader) : (completed r).bytes = r.bytes ++ List.replicate 256 0 := by
  unfold completed Reader.bytes
  rw [List.map_nil, List.flatten_nil, List.append_nil]

/-- Everything a session gives is upheld by the raw frames. -/
theorem filmFrom_upheld (K : C.Contract) (o : DecodeOptions) (hs : o.skipFrameDecoding = false) (c0 : Bool)
    {more : List UInt8} {r r0 : Reader} (h : r.Reliable) (h0 : r0.Reliable) (hb : r0.bytes = r.bytes ++ more) (hm : Complete more)
    (acts : List Act) (k : Nat) (hk : Spec.seeks acts ≤ k) (outs : List Pixels)
    (hex : YieldAll K (rawFrames (rawFilm C { o with memoryLimit := .unlimited, checkForEndCode := c0 } r0 k)) outs) :
    Upheld (filmFrom C o r acts) (screening { o with memoryLimit := .unlimited } acts
      (rawFilm C { o with memoryLimit := .unlimited, checkForEndCode := c0 } r0 k) (outs.map whole)) := by
  refine Spec.upheld_trans (filmFrom_cap o o.memoryLimit.le_unlimited r acts).upheld ?_
  generalize hq : ({ o with memoryLimit := .unlimited } : DecodeOptions) = q at *
  have hqs : q.skipFrameDecoding = false := by rw [← hq]; exact hs
  have hqm : q.memoryLimit = .unlimited := by rw [← hq]
  have hqo : ({ o with memoryLimit := .unlimited, checkForEndCode := c0 } : DecodeOptions) = { q with checkForEndCode := c0 } := by
    rw [← hq]
  rw [hqo] at hex ⊢
  have key := both_readInfo (C := C) K ⟨q.checkForEndCode, False⟩ q hqs rfl c0 h h0 hb True
  have hret := (inv_readInfo (C := C) K.safe q r).2
  have hret0 := (inv_readInfo (C := C) K.safe { q with skipFrameDecoding := true, checkForEndCode := c0 } r0).2
  have ho0 := readInfo_opts (C := C) K.safe { q with skipFrameDecoding := true, checkForEndCode := c0 } r0
  unfold filmFrom rawFilm sessionFrom at *
  generalize readInfo C q r = x1 at *
  generalize readInfo C { q with skipFrameDecoding := true, checkForEndCode := c0 } r0 = x2 at *
  obtain ⟨d, out⟩ := x1
  obtain ⟨d0, out0⟩ := x2
  simp only at *
  rcases key with ⟨hm, rfl⟩ | ⟨rfl, key⟩
  · refine upheld_stop _ ?_
    cases out0 with
    | ok u => simp [screening]
    | err e => simp [screening]
    | panic => simp [screening]
    | diverge => simp [screening]
  · cases out with
    | ok u =>
      obtain ⟨k1, k2, k3, k4, k5⟩ := key rfl
      simp only [screening] at *
      have hv : d.view = d0.view := by rw [pair_view k1 k3]; rfl
      rw [← hv]
      refine upheld_cons _ ?_
      rw [← k4, ← k5]
      refine film_upheld K (M := ⟨q.checkForEndCode, False⟩) hm acts k d d0 none outs k1 ?_ ?_ rfl rfl hk hex
      · simp only [SD.opts, Prod.mk.injEq] at ho0
        rw [ho0.2.2.2.1]
        exact hqm
      · cases k2 with
        | eof a b c e => exact .eof a b c
        | ahead a b c => exact .ahead a b (.inr c)
    | err e => exact .inl rfl
    | panic => cases hret
    | diverge => cases hret

/-- The same for the file completed by zeros. -/
theorem filmFrom_completed (K : C.Contract) (o : DecodeOptions) (hs : o.skipFrameDecoding = false) (c0 : Bool) (x : Reader)
    (k : Nat) : ∃ outs, YieldAll K (rawFrames (rawFilm C { o with memoryLimit := .unlimited, checkForEndCode := c0 } (completed x) k)) outs ∧
      ∀ (p : DecodeOptions) (r : Reader), p.colorOutput = o.colorOutput → p.checkFrameConsistency = o.checkFrameConsistency →
        p.allowUnknownBlocks = o.allowUnknownBlocks → p.skipFrameDecoding = false → r.Reliable → r.bytes <+: x.bytes →
        ∀ acts, Spec.seeks acts ≤ k → Upheld (filmFrom C p r acts) (screening { o with memoryLimit := .unlimited } acts
          (rawFilm C { o with memoryLimit := .unlimited, checkForEndCode := c0 } (completed x) k) (outs.map whole)) := by
  obtain ⟨outs, hex⟩ := Spec.yield_all K _ (rawFilm_buffer K.safe { o with memoryLimit := .unlimited, checkForEndCode := c0 } (completed x) k)
  refine ⟨outs, hex, fun p r hp1 hp2 hp3 hp4 hr hx acts hk => ?_⟩
  obtain ⟨q, hq⟩ := hx
  have hm : Complete (q ++ List.replicate 256 0) := by
    intro left l hl
    rw [← List.append_assoc]
    exact zeros_complete left _ hl
  have e : ({ p with memoryLimit := .unlimited, checkForEndCode := c0 } : DecodeOptions) =
      { o with memoryLimit := .unlimited, checkForEndCode := c0 } := by
    cases o; cases p; simp only at hp1 hp2 hp3 hp4 hs; subst hp1 hp2 hp3 hp4 hs; rfl
  have h := filmFrom_upheld K p hp4 c0 hr (completed_reliable x)
    (more := q ++ List.replicate 256 0) (by rw [completed_bytes, ← hq, List.append_assoc]) hm acts k hk outs (by rw [e]; exact hex)
  rw [e] at h
  have e2 : ∀ raw outs, screening { p with memoryLimit := .unlimited } acts raw outs =
      screening { o with memoryLimit := .unlimited } acts raw outs := by
    intro raw outs
    unfold screening
    simp only
    rw [hp1]
  rw [e2] at h
  exact h

/-- Options that ask for the same pictures: they may differ in the memory limit and in `check_lzw_end_code`. -/
def SameWish (o p : DecodeOptions) : Prop :=
  o.colorOutput = p.colorOutput ∧ o.checkFrameConsistency = p.checkFrameConsistency ∧ o.allowUnknownBlocks = p.allowUnknownBlocks ∧
    o.skipFrameDecoding = false ∧ p.skipFrameDecoding = false

/-- **C03, C08** for every file: sessions on a file and on a beginning of it, cut in any ways, give the same up to the first
error in one of them. The memory limits and `check_lzw_end_code` may differ. -/
theorem sessions_agree (K : C.Contract) {o p : DecodeOptions} (hop : SameWish o p) {r1 r2 : Reader} (h1 : r1.Reliable)
    (h2 : r2.Reliable) (hb : r1.bytes <+: r2.bytes) (acts : List Act) :
    Agree (filmFrom C o r1 acts) (filmFrom C p r2 acts) := by
  obtain ⟨e1, e2, e3, e4, e5⟩ := hop
  obtain ⟨outs, _, h⟩ := filmFrom_completed K p e5 false r2 (Spec.seeks acts)
  exact Spec.upheld_agree (h o r1 e1 e2 e3 e4 h1 hb acts (Nat.le_refl _)) (h p r2 rfl rfl rfl e5 h2 (List.prefix_refl _) acts (Nat.le_refl _))

/-! ## The parts of a session -/

/-- After some calls the session goes on, and none of them failed, or it is over. -/
theorem film_append : ∀ (as : List Act) (d : Decoder C) (live : Bool),
    (∀ bs, film (as ++ bs) d live = film as d live) ∨
    ((∀ x ∈ film as d live, x.isError = false) ∧ ∃ (d' : Decoder C) (live' : Bool), ∀ bs, film (as ++ bs) d live = film as d live ++ film bs d' live') := by
  intro as
  induction as with
  | nil => intro d live; exact .inr ⟨(by intro x hx; cases hx), d, live, fun bs => rfl⟩
  | cons a as ih =>
    intro d live
    have he : ∀ d1 live1, (d.act live a).2 = some (d1, live1) → ∀ x ∈ (d.act live a).1, x.isError = false := by
      intro d1 live1 h x hx
      unfold act at h hx
      cases a with
      | info =>
        simp only at h hx
        generalize d.nextFrameInfo = y at *
        obtain ⟨d2, out⟩ := y
        cases out <;> simp only [reduceCtorEq, List.mem_singleton] at h hx
        subst hx; rfl
      | read =>
        simp only at h hx
        generalize d.readNextFrame = y at *
        obtain ⟨d2, out⟩ := y
        cases out <;> simp only [reduceCtorEq, List.mem_singleton] at h hx
        subst hx; rfl
      | fill n =>
        simp only at h hx
        cases live with
        | false => cases hx
        | true =>
          simp only [if_true] at h hx
          generalize d.fillBuffer _ = y at *
          obtain ⟨d2, b, out⟩ := y
          cases out <;> simp only [reduceCtorEq, List.mem_singleton] at h hx
          subst hx; rfl
      | into =>
        simp only at h hx
        cases live with
        | false => cases hx
        | true =>
          simp only [if_true] at h hx
          generalize d.readIntoBuffer _ = y at *
          obtain ⟨d2, b, out⟩ := y
          cases out <;> simp only [reduceCtorEq, List.mem_singleton] at h hx
          subst hx; rfl
    simp only [List.cons_append, film]
    generalize d.act live a = y at *
    obtain ⟨x, next⟩ := y
    cases next with
    | none => exact .inl fun _ => rfl
    | some z =>
      obtain ⟨d1, live1⟩ := z
      simp only
      rcases ih d1 live1 with h | ⟨h1, d', live', h2⟩
      · exact .inl fun bs => by rw [h]
      · refine .inr ⟨?_, d', live', fun bs => by rw [h2, List.append_assoc]⟩
        intro g hg
        rcases List.mem_append.mp hg with hg | hg
        · exact he d1 live1 rfl g hg
        · exact h1 g hg

theorem filmFrom_append (o : DecodeOptions) (r : Reader) (as : List Act) :
    (∀ bs, filmFrom C o r (as ++ bs) = filmFrom C o r as) ∨ ∀ x ∈ filmFrom C o r as, x.isError = false := by
  unfold filmFrom
  generalize readInfo C o r = y
  obtain ⟨d, out⟩ := y
  cases out with
  | ok u =>
    rcases film_append as d false with h | ⟨h, _⟩
    · exact .inl fun bs => by simp only [h]
    · refine .inr fun x hx => ?_
      rcases List.mem_cons.mp hx with rfl | hx
      · rfl
      · exact h x hx
  | err e => exact .inl fun _ => rfl
  | panic => exact .inl fun _ => rfl
  | diverge => exact .inl fun _ => rfl

end Decoder

namespace Spec

/-- What was seen of the first calls does not depend on those that follow. -/
theorem watch_append (c : ColorOutput) (lim : MemoryLimit) : ∀ (as : List Act) (v : View) (live : Option (List UInt8))
    (raw : List Seen) (outs : List Pixels), (rawFrames raw).length = outs.length →
    (∀ bs, watch c lim (as ++ bs) v live raw outs = watch c lim as v live raw outs) ∨
    ∃ v' live', ∀ bs,
      watch c lim (as ++ bs) v live raw outs = watch c lim as v live raw outs ++
        watch c lim bs v' live' (raw.drop (seeks as)) (outs.drop (rawFrames (raw.take (seeks as))).length) := by
  intro as
  induction as with
  | nil => intro v live raw outs h; exact .inr ⟨v, live, fun bs => by simp [watch, seeks, rawFrames]⟩
  | cons a as ih =>
    intro v live raw outs h
    have step : ∀ (x : List Got) (v1 live1 raw1 outs1) (hr : raw1.drop (seeks as) = raw.drop (seeks (a :: as)))
        (ho : outs1.drop (rawFrames (raw1.take (seeks as))).length = outs.drop (rawFrames (raw.take (seeks (a :: as)))).length),
        (∀ cs, watch c lim (a :: cs) v live raw outs = x ++ watch c lim cs v1 live1 raw1 outs1) →
        (rawFrames raw1).length = outs1.length →
        (∀ bs, watch c lim ((a :: as) ++ bs) v live raw outs = watch c lim (a :: as) v live raw outs) ∨
        ∃ v' live', ∀ bs,
          watch c lim ((a :: as) ++ bs) v live raw outs = watch c lim (a :: as) v live raw outs ++
            watch c lim bs v' live' (raw.drop (seeks (a :: as))) (outs.drop (rawFrames (raw.take (seeks (a :: as)))).length) := by
      intro x v1 live1 raw1 outs1 hr ho hx h1
      rcases ih v1 live1 raw1 outs1 h1 with h2 | ⟨v', live', h3⟩
      · left
        intro bs
        rw [List.cons_append, hx, hx, h2]
      · right
        rw [← hr, ← ho]
        exact ⟨v', live', fun bs => by rw [List.cons_append, hx, hx, h3, List.append_assoc]⟩
    have stop : ∀ (x : List Got), (∀ cs, watch c lim (a :: cs) v live raw outs = x) →
        (∀ bs, watch c lim ((a :: as) ++ bs) v live raw outs = watch c lim (a :: as) v live raw outs) ∨
        ∃ v' live', ∀ bs,
          watch c lim ((a :: as) ++ bs) v live raw outs = watch c lim (a :: as) v live raw outs ++
            watch c lim bs v' live' (raw.drop (seeks (a :: as))) (outs.drop (rawFrames (raw.take (seeks (a :: as)))).length) :=
      fun x hx => .inl fun bs => by rw [List.cons_append, hx, hx]
    cases a with
    | info =>
      cases raw with
      | nil => exact stop [] (fun cs => by simp only [watch])
      | cons x raw =>
        cases x with
        | opened _ => exact stop [] (fun cs => by simp only [watch])
        | info _ _ => exact stop [] (fun cs => by simp only [watch])
        | crashed => exact stop [] (fun cs => by simp only [watch])
        | failed e => exact stop [.seen (.failed e)] (fun cs => by simp only [watch])
        | frame f v0 =>
          cases f with
          | none => exact step [_] _ _ raw outs rfl rfl (fun cs => by simp only [watch]; rfl) h
          | some f =>
            cases outs with
            | nil => simp [rawFrames] at h
            | cons px outs =>
              exact step [_] _ _ raw outs rfl rfl (fun cs => by simp only [watch]; rfl) (by simpa [rawFrames] using h)
    | read =>
      cases raw with
      | nil => exact stop [] (fun cs => by simp only [watch])
      | cons x raw =>
        cases x with
        | opened _ => exact stop [] (fun cs => by simp only [watch])
        | info _ _ => exact stop [] (fun cs => by simp only [watch])
        | crashed => exact stop [] (fun cs => by simp only [watch])
        | failed e => exact stop [.seen (.failed e)] (fun cs => by simp only [watch])
        | frame f v0 =>
          cases f with
          | none => exact step [_] _ _ raw outs rfl rfl (fun cs => by simp only [watch]; rfl) h
          | some f =>
            cases outs with
            | nil => simp [rawFrames] at h
            | cons px outs =>
              cases hd : deliver c lim v0.globalPalette f px with
              | ok g => exact step [_] _ _ raw outs rfl rfl (fun cs => by simp only [watch, hd]; rfl) (by simpa [rawFrames] using h)
              | error e => exact stop [.seen (.failed e)] (fun cs => by simp only [watch, hd])
    | fill n =>
      cases live with
      | none => exact step [] v none raw outs rfl rfl (fun cs => by simp only [watch]; rfl) h
      | some px =>
        by_cases hl : n + 1 ≤ px.length
        · exact step [_] v _ raw outs rfl rfl (fun cs => by simp only [watch]; rw [if_pos hl]; rfl) h
        · exact step [_] v _ raw outs rfl rfl (fun cs => by simp only [watch]; rw [if_neg hl]; rfl) h
    | into =>
      cases live with
      | none => exact step [] v none raw outs rfl rfl (fun cs => by simp only [watch]; rfl) h
      | some px =>
        by_cases hl : v.currentFrame.width.toNat * v.currentFrame.height.toNat ≤ px.length
        · exact step [_] v _ raw outs rfl rfl (fun cs => by simp only [watch]; rw [if_pos hl]; rfl) h
        · exact stop [.seen (.failed (.format .imageTruncated))] (fun cs => by simp only [watch]; rw [if_neg hl])

variable {C : Codec} (K : C.Contract)

theorem yield_length : ∀ (fs : List Frame) (outs : List Pixels), YieldAll K fs outs → fs.length = outs.length
  | [], [], _ => rfl
  | [], _ :: _, h => h.elim
  | _ :: _, [], h => h.elim
  | f :: fs, px :: outs, h => by simp [yield_length fs outs h.2]

theorem yield_drop : ∀ (n : Nat) (raw : List Seen) (outs : List Pixels), YieldAll K (rawFrames raw) outs →
    YieldAll K (rawFrames (raw.drop n)) (outs.drop (rawFrames (raw.take n)).length)
  | 0, raw, outs, h => by simpa [rawFrames] using h
  | n + 1, [], outs, h => by
    cases outs with
    | nil => simp [rawFrames, YieldAll]
    | cons _ _ => exact h.elim
  | n + 1, x :: raw, outs, h => by
    rw [List.drop_succ_cons, List.take_succ_cons]
    cases x with
    | frame f v =>
      cases f with
      | none => exact yield_drop n raw outs h
      | some f =>
        cases outs with
        | nil => exact h.elim
        | cons px outs => exact yield_drop n raw outs h.2
    | failed e => exact yield_drop n raw outs h
    | crashed => exact yield_drop n raw outs h
    | opened v => exact yield_drop n raw outs h
    | info b v => exact yield_drop n raw outs h

end Spec

namespace Decoder

variable {C : Codec}

theorem raw_film_session : ∀ (n : Nat) (d : Decoder C) (live : Bool),
    film (List.replicate n .read) d live = (session (List.replicate n .read) d).map .seen := by
  intro n
  induction n with
  | zero => intro d live; rfl
  | succ n ih =>
    intro d live
    rw [List.replicate_succ, List.replicate_succ, film, session]
    simp only [act, see]
    generalize d.readNextFrame = y
    obtain ⟨d', out⟩ := y
    cases out with
    | ok f => simp only [List.map_cons, List.singleton_append]; rw [ih]
    | err e => rfl
    | panic => rfl
    | diverge => rfl

theorem raw_film (o : DecodeOptions) (r : Reader) (n : Nat) :
    filmFrom C { o with skipFrameDecoding := true } r (List.replicate n .read) = (rawFilm C o r n).map .seen := by
  unfold filmFrom rawFilm sessionFrom
  generalize readInfo C _ r = y
  obtain ⟨d, out⟩ := y
  cases out with
  | ok u => simp only [List.map_cons]; rw [raw_film_session]
  | err e => rfl
  | panic => rfl
  | diverge => rfl

theorem map_seen_inj : ∀ {a b : List Seen}, a.map Got.seen = b.map Got.seen → a = b
  | [], [], _ => rfl
  | [], _ :: _, h => by cases h
  | _ :: _, [], h => by cases h
  | x :: a, y :: b, h => by
    simp only [List.map_cons, List.cons.injEq, Got.seen.injEq] at h
    rw [h.1, map_seen_inj h.2]

/-- A raw frame that was read is the same in a completion of the file, without memory limit. -/
theorem raw_completed (hS : C.Safe) (o : DecodeOptions) (m : MemoryLimit) {x : Reader} (hx : x.Reliable) (n i : Nat) (s : Seen)
    (hs : ∀ e, s ≠ .failed e) (hf : (rawFilm C { o with memoryLimit := m } x n)[i]? = some s) :
    (rawFilm C { o with memoryLimit := .unlimited } (completed x) n)[i]? = some s := by
  have h1 : (rawFilm C { o with memoryLimit := .unlimited } x n)[i]? = some s := by
    have hc := filmFrom_cap (C := C) { o with memoryLimit := m, skipFrameDecoding := true } m.le_unlimited x (List.replicate n .read)
    rw [raw_film { o with memoryLimit := m }, raw_film { o with memoryLimit := .unlimited }] at hc
    rcases hc with hc | ⟨k, e, _, hk, hc⟩
    · rw [← map_seen_inj hc]
      exact hf
    · have hf' : ((rawFilm C { o with memoryLimit := m } x n).map Got.seen)[i]? = some (.seen s) := by
        rw [List.getElem?_map, hf]; rfl
      rw [hc] at hf'
      have : i < k := by
        rcases Nat.lt_trichotomy i k with h | h | h
        · exact h
        · subst h
          rw [List.getElem?_append_right (by rw [List.length_take]; omega), List.length_take, Nat.min_eq_left (by omega), Nat.sub_self] at hf'
          cases hf'
          exact absurd rfl (hs e)
        · rw [List.getElem?_eq_none (by rw [List.length_append, List.length_take]; simp; omega)] at hf'
          cases hf'
      rw [List.getElem?_append_left (by rw [List.length_take]; omega), List.getElem?_take_of_lt this, List.getElem?_map] at hf'
      cases hg : (rawFilm C { o with memoryLimit := .unlimited } x n)[i]? with
      | none => rw [hg] at hf'; cases hf'
      | some y => rw [hg] at hf'; cases hf'; rfl
  have h2 := truncated_prefix_partial (C := C) hS { o with memoryLimit := .unlimited, skipFrameDecoding := true } x (completed x) hx
    (completed_reliable x) ⟨_, (completed_bytes x).symm⟩ (List.replicate n .read) (.inr rfl)
  unfold rawFilm at h1 ⊢
  rcases h2 with h2 | ⟨k, hk, h2⟩
  · rw [← h2]; exact h1
  · rw [h2] at h1
    have : i < k := by
      rcases Nat.lt_trichotomy i k with h | h | h
      · exact h
      · subst h
        rw [List.getElem?_append_right (by rw [List.length_take]; omega), List.length_take, Nat.min_eq_left (by omega), Nat.sub_self] at h1
        cases h1
        exact absurd rfl (hs _)
      · rw [List.getElem?_eq_none (by rw [List.length_append, List.length_take]; simp; omega)] at h1
        cases h1
    rw [List.getElem?_append_left (by rw [List.length_take]; omega), List.getElem?_take_of_lt this] at h1
    exact h1

end Decoder

end Gif
