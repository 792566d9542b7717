import Verif.Props.ReencodeRun
import Verif.Props.Agree
import Verif.Props.EndCode
/-!
# C70: what `examples/parallel.rs` writes
-/

namespace Gif

open Spec Encoder

variable {C : Codec}

namespace Examples

theorem sound_given {w h : UInt16} {gp : Option (List UInt8)} (hp : ∀ t, gp = some t → TableLength t.length) {g : Frame}
    (hg : Sound freeOptions w h gp g) : Accepted (gp.getD []) g := by
  obtain ⟨h1, h2⟩ := sound_accepted (o := freeOptions) rfl rfl hp hg
  refine ⟨h1, h2, ?_⟩
  have := (hg.pixels rfl).2.1
  simp only [DecodeOptions.new, Nat.one_mul] at this
  omega

/-- The rest of the program, if the header could be written. -/
theorem after_cases (K : C.Contract) {np : Bool} {s : Sink} {r : Reader} {d : Decoder C}
    (ho : Decoder.readInfo C rawOptions r = (d, .ok ())) {e : Encoder} {s1 : Sink} (hs : e.w = some s1)
    (hg : e.globalPalette = decide (3 ≤ (d.globalPalette.getD []).length)) {y : Sink × Exit} (h : After C np s r d e y) :
    (∃ fs gs, Decoder.Looped d fs (.ok ()) ∧ Expanded C fs gs ∧ (∀ g ∈ gs, Sound freeOptions d.width d.height d.globalPalette g) ∧
      ((y.2 = .success ∧ y.1.written = s1.written ++
          renderBlks ((gs.map EncOp.frame).flatMap (opBlks C (3 ≤ (d.globalPalette.getD []).length))) ++ [0x3B]) ∨
        ¬ s1.Working ∧ ((∃ code, y.2 = .encoding (.io (.writer code))) ∨ np = false ∧ y.2 = .panic))) ∨
    (∃ fs e, Decoder.Looped d fs (.err e) ∧ (y.2 = .decoding e ∨ np = false ∧ y.2 = .panic)) ∨
    (∃ fs x f g er, Decoder.Looped d fs x ∧ f ∈ fs ∧ ((FrameDecoder.new C DecodeOptions.new).decodeFrame f).2 = (g, .err er) ∧
      y.2 = .panic) := by
  obtain ⟨hp, fs, x, l1, l2, l3, l4⟩ := raw_items K ho
  obtain ⟨xs, arr, z, i1, t1, o1⟩ := h
  rw [l3] at i1
  cases i1
  cases t1 with
  | @done ms _ p q =>
    left
    obtain ⟨rfl, gs, g1, rfl⟩ := sent_expanded K.safe l2 fs ms p
    have hsound := expanded_all_sound K fs gs g1 l4
    refine ⟨fs, gs, l1, g1, hsound, ?_⟩
    have hy := (o1.resolve_left (fun h => h.1 rfl)).2
    rw [collect_eq np e s q] at hy
    have hacc : ∀ g ∈ gs, Accepted (d.globalPalette.getD []) g := fun g hg => sound_given hp (hsound g hg)
    rcases send_all (C := C) gs e s1 hs hg hacc with ⟨e', s', k1, k2, k3, k4⟩ | ⟨e', code, k1, k2⟩
    · rw [k1] at hy
      simp only at hy
      rcases Encoder.intoInner_either np k2 with ⟨e2, s2, m1, m2⟩ | ⟨e2, code, m1, m2⟩
      · rw [m1] at hy
        left
        rw [hy]
        exact ⟨rfl, by rw [m2, k4]⟩
      · right
        refine ⟨fun h => m1 (k3 h), ?_⟩
        rcases m2 with m2 | ⟨n, m2⟩
        · rw [m2] at hy; rw [hy]; exact .inl ⟨code, rfl⟩
        · rw [m2] at hy; rw [hy]; exact .inr ⟨n, rfl⟩
    · rw [k2] at hy
      simp only at hy
      right
      refine ⟨k1, ?_⟩
      rw [hy]
      rcases (leave_any np e' s (.encoding (.io (.writer code)))).2 with m | ⟨n, m⟩
      · exact .inl ⟨code, m⟩
      · exact .inr ⟨n, m⟩
  | @failed er hm =>
    have hy := (o1.resolve_right (fun h => by cases h.1)).2
    right; left
    obtain ⟨x', hx', ht⟩ := List.mem_map.mp hm
    cases x' with
    | ok f => rcases task_cases K.safe f with ⟨g, _, t⟩ | ⟨g, e, _, t⟩ <;> (rw [t] at ht; cases ht)
    | error er' =>
      simp only [task, Task.failed.injEq] at ht
      subst ht
      rcases List.mem_append.mp hx' with h | h
      · obtain ⟨f, _, hf⟩ := List.mem_map.mp h
        cases hf
      · cases x with
        | err e' =>
          simp only [DecoderIter.lastItem, List.mem_singleton, Except.error.injEq] at h
          subst h
          refine ⟨fs, _, l1, ?_⟩
          rw [hy]
          exact (leave_any np e s _).2
        | ok u => cases h
        | panic => cases l2
        | diverge => cases l2
  | panicked hm =>
    have hy := (o1.resolve_right (fun h => by cases h.1)).2
    right; right
    obtain ⟨x', hx', ht⟩ := List.mem_map.mp hm
    cases x' with
    | error e => cases ht
    | ok f =>
      rcases task_cases K.safe f with ⟨g, _, t⟩ | ⟨g, er, t0, t⟩
      · rw [t] at ht; cases ht
      · refine ⟨fs, x, f, g, er, l1, ?_, t0, ?_⟩
        · rcases List.mem_append.mp hx' with h | h
          · obtain ⟨f', hf, hff⟩ := List.mem_map.mp h
            cases hff
            exact hf
          · cases x with
            | err e' => simp [DecoderIter.lastItem] at h
            | ok u => cases h
            | panic => cases h
            | diverge => cases h
        · rw [hy]
          rcases (leave_any np e s .panic).2 with m | ⟨_, m⟩ <;> exact m
  | diverged hm =>
    obtain ⟨x', _, ht⟩ := List.mem_map.mp hm
    cases x' with
    | error e => cases ht
    | ok f => rcases task_cases K.safe f with ⟨g, _, t⟩ | ⟨g, er, _, t⟩ <;> (rw [t] at ht; cases ht)

/-- C70: `parallel` ends, for every input and with every behaviour of the file it writes: with success, with the error that
reading the raw frames ends with, with an error of the file, or in a panic because a frame cannot be decoded. -/
theorem reencode_ends (K : C.Contract) {s s' : Sink} {r : Reader} {x : Exit} (h : Reencode C true s r s' x) :
    x = .success ∨ (∃ e, x = .decoding e) ∨ (∃ code, x = .encoding (.io (.writer code)) ∧ ¬ s.Working) ∨
    (x = .panic ∧ ∃ (d : Decoder C) (fs : List Frame) (y : Outcome Unit) (f g : Frame) (e : DecodingError),
      Decoder.readInfo C rawOptions r = (d, .ok ()) ∧ Decoder.Looped d fs y ∧ f ∈ fs ∧
      ((FrameDecoder.new C DecodeOptions.new).decodeFrame f).2 = (g, .err e)) := by
  rw [reencode_outcomes K] at h
  unfold Outcomes at h
  have hret := (Decoder.inv_readInfo K.safe rawOptions r).2
  match hd : Decoder.readInfo C rawOptions r with
  | (d, .ok ()) =>
    rw [hd] at h
    simp only at h
    obtain ⟨hp, -⟩ := raw_items K hd
    rcases Encoder.new_either true s d.width d.height (sound_pal hp) with ⟨e, s1, n1, n2, n3, n4, n5⟩ | ⟨e, code, n1, n2⟩
    · rw [n1] at h
      simp only at h
      have hds := does_setRepeat e d.repetition
      have hpal := hds.palette
      have hds := hds.either n2
      generalize e.setRepeat d.repetition = q at *
      obtain ⟨e2, out⟩ := q
      simp only at *
      rcases hds with ⟨s2, q1, q2, q3, rfl⟩ | ⟨s2, code, q1, q2, rfl⟩
      · simp only at h
        rcases after_cases K hd q1 (by rw [hpal, n5]) h with ⟨fs, gs, -, -, -, b⟩ | ⟨fs, er, -, b⟩ | ⟨fs, y, f, g, er, a1, a2, a3, b⟩
        · rcases b with ⟨b, -⟩ | ⟨b0, ⟨code, b⟩ | ⟨b, -⟩⟩
          · exact .inl b
          · exact .inr (.inr (.inl ⟨code, b, fun h => b0 (q3 (n4 h))⟩))
          · cases b
        · rcases b with b | ⟨b, -⟩
          · exact .inr (.inl ⟨er, b⟩)
          · cases b
        · exact .inr (.inr (.inr ⟨b, d, fs, y, f, g, er, rfl, a1, a2, a3⟩))
      · simp only at h
        rcases (leave_any true e2 s (.encoding (.io (.writer code)))).2 with m | ⟨m, -⟩
        · exact .inr (.inr (.inl ⟨code, (congrArg Prod.snd h).trans m, fun h => q2 (n4 h)⟩))
        · cases m
    · rcases n2 with n2 | ⟨n2, -⟩
      · rw [n2] at h
        cases h
        exact .inr (.inr (.inl ⟨code, rfl, n1⟩))
      · cases n2
  | (d, .err e) => rw [hd] at h; cases h; exact .inr (.inl ⟨e, rfl⟩)
  | (d, .panic) => rw [hd] at hret; cases hret
  | (d, .diverge) => rw [hd] at hret; cases hret

theorem tasks_exist (hS : C.Safe) (xs : List (Except DecodingError Frame)) : ∃ arr z, Tasks C xs arr z := by
  by_cases h : ∃ ms : List Frame, xs.map (task C) = ms.map .sent
  · obtain ⟨ms, h⟩ := h
    exact ⟨_, _, .done h (List.Perm.refl _)⟩
  · have : ∃ t ∈ xs.map (task C), ∀ m, t ≠ .sent m := by
      refine Classical.byContradiction fun hn => h ?_
      have hall : ∀ t ∈ xs.map (task C), ∃ m, t = .sent m := by
        intro t ht
        refine Classical.byContradiction fun hm => hn ⟨t, ht, fun m e => hm ⟨m, e⟩⟩
      generalize xs.map (task C) = ts at hall
      clear h hn
      induction ts with
      | nil => exact ⟨[], rfl⟩
      | cons t ts ih =>
        obtain ⟨m, rfl⟩ := hall t List.mem_cons_self
        obtain ⟨ms, ih⟩ := ih (fun t ht => hall t (List.mem_cons_of_mem _ ht))
        exact ⟨m :: ms, by rw [ih]; rfl⟩
    obtain ⟨t, ht, hm⟩ := this
    cases t with
    | sent m => exact absurd rfl (hm m)
    | failed e => exact ⟨_, _, .failed ht⟩
    | panicked => exact ⟨_, _, .panicked ht⟩
    | diverged => exact ⟨_, _, .diverged ht⟩

/-- C70: there is always an outcome. -/
theorem reencode_exists (K : C.Contract) (np : Bool) (s : Sink) (r : Reader) : ∃ s' x, Reencode C np s r s' x := by
  suffices h : ∃ y, Outcomes C np s r y by
    obtain ⟨⟨s', x⟩, h⟩ := h
    exact ⟨s', x, (reencode_outcomes K).mpr h⟩
  unfold Outcomes
  match hd : Decoder.readInfo C rawOptions r with
  | (d, .ok ()) =>
    simp only
    match he : Encoder.new np s d.width d.height (d.globalPalette.getD []) with
    | (e, .ok ()) =>
      simp only
      match hr : e.setRepeat d.repetition with
      | (e', .ok ()) =>
        simp only
        obtain ⟨-, fs, x, -, -, i, -⟩ := raw_items K hd
        obtain ⟨arr, z, t⟩ := tasks_exist K.safe (fs.map .ok ++ DecoderIter.lastItem x)
        by_cases hz : z = .success
        · exact ⟨_, _, arr, z, i, t, .inr ⟨hz, rfl⟩⟩
        · exact ⟨_, _, arr, z, i, t, .inl ⟨hz, rfl⟩⟩
      | (e', .err er) => exact ⟨_, rfl⟩
      | (e', .panic) => exact ⟨_, rfl⟩
    | (e, .err er) => exact ⟨_, rfl⟩
    | (e, .panic) => exact ⟨_, rfl⟩
  | (d, .err er) => exact ⟨_, rfl⟩
  | (d, .panic) => exact ⟨_, rfl⟩
  | (d, .diverge) => exact ⟨_, rfl⟩

/-- The file that is written if all goes well. -/
theorem reencode_file (K : C.Contract) {np : Bool} {s s' : Sink} {r : Reader} (h : Reencode C np s r s' .success) :
    ∃ d fs gs, Decoder.readInfo C rawOptions r = (d, .ok ()) ∧ (∀ t, d.globalPalette = some t → TableLength t.length) ∧
      Decoder.Looped d fs (.ok ()) ∧ Expanded C fs gs ∧
      (∀ g ∈ gs, Sound freeOptions d.width d.height d.globalPalette g) ∧
      s'.written = s.written ++ (madeFile C d.width d.height (d.globalPalette.getD []) (.setRepeat d.repetition :: gs.map .frame)).render := by
  rw [reencode_outcomes K] at h
  unfold Outcomes at h
  have hret := (Decoder.inv_readInfo K.safe rawOptions r).2
  match hd : Decoder.readInfo C rawOptions r with
  | (d, .ok ()) =>
    rw [hd] at h
    simp only at h
    obtain ⟨hp, -⟩ := raw_items K hd
    rcases Encoder.new_either np s d.width d.height (sound_pal hp) with ⟨e, s1, n1, n2, n3, n4, n5⟩ | ⟨e, code, n1, n2⟩
    · rw [n1] at h
      simp only at h
      have hds := does_setRepeat e d.repetition
      have hpal := hds.palette
      have hds := hds.either n2
      generalize e.setRepeat d.repetition = q at *
      obtain ⟨e2, out⟩ := q
      simp only at *
      rcases hds with ⟨s2, q1, q2, q3, rfl⟩ | ⟨s2, code, q1, q2, rfl⟩
      · simp only at h
        rcases after_cases K hd q1 (by rw [hpal, n5]) h with ⟨fs, gs, g1, g2, g3, b⟩ | ⟨fs, er, -, b⟩ | ⟨fs, y, f, g, er, a1, a2, a3, b⟩
        · rcases b with ⟨-, b⟩ | ⟨b0, ⟨code, b⟩ | ⟨-, b⟩⟩
          · refine ⟨d, fs, gs, rfl, hp, g1, g2, g3, ?_⟩
            simp only at b
            rw [b, q2, n3, headerChunks_flatten d.width d.height _ (sound_pal hp)
              ((EncOp.setRepeat d.repetition :: gs.map EncOp.frame).flatMap (opBlks C (3 ≤ (d.globalPalette.getD []).length))),
              repeatChunks_flatten]
            simp only [madeFile, File.render, List.append_assoc, List.flatMap_cons]
            unfold renderBlks
            simp [opBlks, fileOf]
          · cases b
          · cases b
        · rcases b with b | ⟨-, b⟩ <;> cases b
        · cases b
      · simp only at h
        rcases (leave_any np e2 s (.encoding (.io (.writer code)))).2 with m | ⟨-, m⟩
        · have := (congrArg Prod.snd h).trans m; cases this
        · have := (congrArg Prod.snd h).trans m; cases this
    · rcases n2 with n2 | ⟨-, n2⟩
      · rw [n2] at h; cases h
      · rw [n2] at h; cases h
  | (d, .err e) => rw [hd] at h; cases h
  | (d, .panic) => rw [hd] at hret; cases hret
  | (d, .diverge) => rw [hd] at hret; cases hret

/-- C70: if the file works, the input can be read and its frames can be decoded, `parallel` succeeds. -/
theorem reencode_succeeds (K : C.Contract) {np : Bool} {s : Sink} (hs : s.Working) {r : Reader} {d : Decoder C}
    (ho : Decoder.readInfo C rawOptions r = (d, .ok ())) {fs gs : List Frame} (hl : Decoder.Looped d fs (.ok ()))
    (hg : Expanded C fs gs) {s' : Sink} {x : Exit} (h : Reencode C np s r s' x) : x = .success := by
  rw [reencode_outcomes K] at h
  unfold Outcomes at h
  rw [ho] at h
  simp only at h
  obtain ⟨hp, -⟩ := raw_items K ho
  rcases Encoder.new_either np s d.width d.height (sound_pal hp) with ⟨e, s1, n1, n2, n3, n4, n5⟩ | ⟨e, code, n1, n2⟩
  · rw [n1] at h
    simp only at h
    have hds := does_setRepeat e d.repetition
    have hpal := hds.palette
    have hds := hds.either n2
    generalize e.setRepeat d.repetition = q at *
    obtain ⟨e2, out⟩ := q
    simp only at *
    rcases hds with ⟨s2, q1, q2, q3, rfl⟩ | ⟨s2, code, q1, q2, rfl⟩
    · simp only at h
      rcases after_cases K ho q1 (by rw [hpal, n5]) h with ⟨fs', gs', g1, g2, g3, b⟩ | ⟨fs', er, a, -⟩ | ⟨fs', y, f, g, er, a1, a2, a3, -⟩
      · rcases b with ⟨b, -⟩ | ⟨b0, -⟩
        · exact b
        · exact absurd (q3 (n4 hs)) b0
      · have := (Decoder.looped_det hl a).2
        cases this
      · exfalso
        have := (Decoder.looped_det hl a1).1
        subst this
        clear hl a1 h ho hp
        induction fs generalizing gs with
        | nil => cases a2
        | cons f' fs ih =>
          cases gs with
          | nil => exact hg
          | cons g' gs =>
            rcases List.mem_cons.mp a2 with rfl | a2
            · rw [hg.1] at a3; cases a3
            · exact ih hg.2 a2
    · exact absurd (n4 hs) q2
  · exact absurd hs n1

/-- C70: if a frame cannot be decoded, `parallel` may panic, and it does if there is no other error in the input. -/
theorem reencode_panics (K : C.Contract) {np : Bool} {s : Sink} (hs : s.Working) {r : Reader} {d : Decoder C}
    (ho : Decoder.readInfo C rawOptions r = (d, .ok ())) {fs : List Frame} {x : Outcome Unit} (hl : Decoder.Looped d fs x)
    {f g : Frame} (hf : f ∈ fs) {er : DecodingError}
    (hg : ((FrameDecoder.new C DecodeOptions.new).decodeFrame f).2 = (g, .err er)) :
    (∃ s', Reencode C np s r s' .panic) ∧ (x = .ok () → ∀ s' y, Reencode C np s r s' y → y = .panic) := by
  simp only [reencode_outcomes K]
  unfold Outcomes
  rw [ho]
  simp only
  obtain ⟨hp, fs', x', l1, l2, l3, l4⟩ := raw_items K ho
  obtain ⟨rfl, rfl⟩ := Decoder.looped_det hl l1
  have hpan : Task.panicked ∈ (fs.map Except.ok ++ DecoderIter.lastItem x).map (task C) := by
    refine List.mem_map.mpr ⟨.ok f, List.mem_append_left _ (List.mem_map.mpr ⟨f, hf, rfl⟩), ?_⟩
    rcases task_cases K.safe f with ⟨g', t, _⟩ | ⟨g', e', _, t⟩
    · rw [hg] at t; cases t
    · exact t
  rcases Encoder.new_either np s d.width d.height (sound_pal hp) with ⟨e, s1, n1, n2, n3, n4, n5⟩ | ⟨e, code, n1, n2⟩
  · rw [n1]
    simp only
    have hds := does_setRepeat e d.repetition
    have hpal := hds.palette
    have hds := hds.either n2
    generalize e.setRepeat d.repetition = q at *
    obtain ⟨e2, out⟩ := q
    simp only at *
    rcases hds with ⟨s2, q1, q2, q3, rfl⟩ | ⟨s2, code, q1, q2, rfl⟩
    · simp only
      have hlp : (leave np e2 s .panic).2 = .panic := by
        rcases (leave_any np e2 s .panic).2 with m | ⟨_, m⟩ <;> exact m
      refine ⟨⟨(leave np e2 s .panic).1, _, [], .panic, l3, .panicked hpan, .inl ⟨by simp, ?_⟩⟩, ?_⟩
      · exact Prod.ext rfl hlp.symm
      · intro hx s' y h
        rcases after_cases K ho q1 (by rw [hpal, n5]) h with ⟨fs', gs', g1, g2, -⟩ | ⟨fs', er', a, -⟩ | ⟨fs', y', f, g, er, -, -, -, b⟩
        · exfalso
          have := (Decoder.looped_det hl g1).1
          subst this
          have hse := expanded_sent K.safe fs gs' g2
          subst hx
          rw [DecoderIter.lastItem, List.append_nil, hse] at hpan
          obtain ⟨m, _, hm⟩ := List.mem_map.mp hpan
          cases hm
          simp
        · subst hx
          have := (Decoder.looped_det hl a).2
          cases this
        · exact b
    · exact absurd (n4 hs) q2
  · exact absurd hs n1

theorem watch_raw (K : C.Contract) (v : View) (w : Frame) : ∀ (fs gs : List Frame) (outs : List Pixels) (u : View),
    (∀ f ∈ fs, f.buffer ≠ []) → Expanded C fs gs → YieldAll K fs outs →
    watch .indexed .unlimited (List.replicate (fs.length + 1) .read) u none
        (fs.map (fun f => Seen.frame (some f) { v with currentFrame := f }) ++ [.frame none { v with currentFrame := w }]) (outs.map Decoder.whole) =
      (gs.map (fun g => Seen.frame (some g) { v with currentFrame := g }) ++
        [Seen.frame none { v with currentFrame := gs.getLast?.getD u.currentFrame }]).map .seen
  | [], [], [], u, _, _, _ => rfl
  | [], _ :: _, _, _, _, h, _ => h.elim
  | _ :: _, [], _, _, _, h, _ => h.elim
  | _ :: _, _, [], _, _, _, h => h.elim
  | [], _, _ :: _, _, _, _, h => h.elim
  | f :: fs, g :: gs, px :: outs, u, hb, he, hy => by
    have hbf := hb f List.mem_cons_self
    have hdec := he.1
    generalize hx : (FrameDecoder.new C DecodeOptions.new).decodeFrame f = x at hdec
    obtain ⟨d', z⟩ := x
    simp only at hdec
    subst hdec
    obtain ⟨px', h1, h2, h3⟩ := FrameDecoder.right K FrameDecoder.Reach.new hx hbf
    have hpx := unpacks_det K rfl hy.1 h1
    subst hpx
    have hdel : deliver .indexed .unlimited v.globalPalette f (Decoder.whole px) = .ok g := by
      unfold deliver
      rw [indexed_size .unlimited (w := f.width) (h := f.height) rfl]
      dsimp only
      rw [if_neg (by intro h; cases h), if_neg (by show ¬ px.1.length < _; omega), h3]
      rfl
    have ih := watch_raw K v w fs gs outs { v with currentFrame := g } (fun f hf => hb f (List.mem_cons_of_mem _ hf)) he.2 hy.2
    rw [List.length_cons, List.replicate_succ, List.map_cons, List.map_cons, List.map_cons, List.cons_append, List.cons_append, watch]
    simp only [hdel]
    rw [ih]
    simp only [List.map_cons, List.map_append, List.map_nil, List.getLast?_cons, Option.getD_some]

theorem rawFrames_all (fs : List Frame) (v u : View) (w : Frame) :
    rawFrames (.opened u :: (fs.map (fun f => Seen.frame (some f) { v with currentFrame := f }) ++ [.frame none { v with currentFrame := w }])) = fs := by
  show rawFrames (fs.map (fun f => Seen.frame (some f) { v with currentFrame := f }) ++ [.frame none { v with currentFrame := w }]) = fs
  induction fs with
  | nil => rfl
  | cons f fs ih => rw [List.map_cons, List.cons_append, rawFrames, ih]

/-- What reading all frames gives: the frames `gs`, and then `None`. -/
def allOf (v : View) (gs : List Frame) : List Seen :=
  .opened v :: (gs.map (fun g => Seen.frame (some g) { v with currentFrame := g }) ++
    [.frame none { v with currentFrame := gs.getLast?.getD v.currentFrame }])

/-- Decoding the input gives the frames that were expanded one by one, or fails earlier. -/
theorem direct_frames (K : C.Contract) {r : Reader} (hr : r.Reliable) {d : Decoder C}
    (ho : Decoder.readInfo C rawOptions r = (d, .ok ())) {fs gs : List Frame} (hl : Decoder.Looped d fs (.ok ()))
    (hg : Expanded C fs gs) :
    Decoder.sessionFrom C DecodeOptions.new r (List.replicate (gs.length + 1) .read) = allOf d.view gs ∨
    ∃ k e, k < (allOf d.view gs).length ∧
      Decoder.sessionFrom C DecodeOptions.new r (List.replicate (gs.length + 1) .read) = (allOf d.view gs).take k ++ [.failed e] := by
  obtain ⟨h1, h2⟩ := Decoder.readInfo_steady K.safe rawOptions r (by rw [ho])
  rw [ho] at h1 h2
  obtain ⟨w, hw⟩ := Decoder.looped_session K.safe hl rfl h1
  have hlen : fs.length = gs.length := by
    clear hl hw
    induction fs generalizing gs with
    | nil => cases gs with
      | nil => rfl
      | cons g gs => exact hg.elim
    | cons f fs ih => cases gs with
      | nil => exact hg.elim
      | cons g gs => rw [List.length_cons, List.length_cons, ih hg.2]
  have hraw : Decoder.rawFilm C DecodeOptions.new r (fs.length + 1) =
      .opened d.view :: (fs.map (fun f => Seen.frame (some f) { d.view with currentFrame := f }) ++ [.frame none { d.view with currentFrame := w }]) := by
    unfold Decoder.rawFilm Decoder.sessionFrom
    rw [ho]
    simp only
    rw [hw]
  have hfull : Decoder.rawFilm C { DecodeOptions.new with memoryLimit := .unlimited } (Decoder.completed r) (fs.length + 1) =
      Decoder.rawFilm C DecodeOptions.new r (fs.length + 1) := by
    have hmem := fun i s => Decoder.raw_completed (C := C) K.safe DecodeOptions.new DecodeOptions.new.memoryLimit hr (fs.length + 1) i s
    have hl2 : (Decoder.rawFilm C { DecodeOptions.new with memoryLimit := .unlimited } (Decoder.completed r) (fs.length + 1)).length ≤ fs.length + 2 := by
      unfold Decoder.rawFilm Decoder.sessionFrom
      split
      · rename_i d _
        have := Decoder.session_le (List.replicate (fs.length + 1) .read) d
        rw [List.length_replicate] at this
        rw [List.length_cons]
        omega
      · simp
      · simp
    apply List.ext_getElem?
    intro i
    cases hi : (Decoder.rawFilm C DecodeOptions.new r (fs.length + 1))[i]? with
    | none =>
      rw [List.getElem?_eq_none_iff] at hi ⊢
      rw [hraw] at hi
      simp only [List.length_cons, List.length_append, List.length_map, List.length_nil] at hi
      omega
    | some s =>
      apply hmem i s _ hi
      intro e he
      subst he
      have := List.mem_of_getElem? hi
      rw [hraw] at this
      simp at this
  obtain ⟨outs, hex, hup⟩ := Decoder.filmFrom_completed K DecodeOptions.new rfl false r (fs.length + 1)
  have e0 : ({ DecodeOptions.new with memoryLimit := .unlimited, checkForEndCode := false } : DecodeOptions) =
    { DecodeOptions.new with memoryLimit := .unlimited } := rfl
  rw [e0, hfull, hraw] at hex hup
  have hup := hup DecodeOptions.new r rfl rfl rfl rfl hr ⟨[], by simp⟩ (List.replicate (fs.length + 1) .read)
    (by rw [show Spec.seeks (List.replicate (fs.length + 1) .read) = fs.length + 1 from Decoder.seeks_reads _]; exact Nat.le_refl _)
  have hrf : rawFrames (.opened d.view :: (fs.map (fun f => Seen.frame (some f) { d.view with currentFrame := f }) ++
      [.frame none { d.view with currentFrame := w }])) = fs := rawFrames_all fs _ _ _
  rw [hrf] at hex
  have hbuf : ∀ f ∈ fs, f.buffer ≠ [] := by
    intro f hf
    obtain ⟨m, data, hb, -⟩ := ((Decoder.looped_steady K.safe hl h1 f hf).raw rfl).2
    rw [hb]; simp
  have hwatch := watch_raw K d.view w fs gs outs d.view hbuf hg hex
  unfold Decoder.screening at hup
  simp only at hup
  have e1 : (DecodeOptions.new).colorOutput = .indexed := rfl
  rw [e1, hwatch, Decoder.filmFrom_session] at hup
  rw [← hlen]
  have hall : Got.seen (.opened d.view) :: List.map Got.seen (gs.map (fun g => Seen.frame (some g) { d.view with currentFrame := g }) ++
      [.frame none { d.view with currentFrame := gs.getLast?.getD d.view.currentFrame }]) = (allOf d.view gs).map .seen := rfl
  rw [hall] at hup
  rcases hup with hup | ⟨k, e, hk, hup⟩
  · exact .inl (Decoder.map_seen_inj hup)
  · refine .inr ⟨k, e, by simpa using hk, Decoder.map_seen_inj ?_⟩
    rw [hup, List.map_append, List.map_take]
    rfl

/-- C70: if `parallel` reports success, decoding the file it wrote gives the frames that decoding the input gives (unless that fails,
then they begin with the frames that could be decoded), the same size and loop count and, if there was one, the same global palette. What is
missing: files without frames, and frames without pixels. -/
theorem reencode_frames_partial (K : C.Contract) {np : Bool} {s s' : Sink} (hs : s.written = []) {r : Reader} (hr : r.Reliable)
    (h : Reencode C np s r s' .success) :
    ∃ v gs, (Decoder.sessionFrom C DecodeOptions.new r (List.replicate (gs.length + 1) .read) = allOf v gs ∨
        ∃ k e, k < (allOf v gs).length ∧
          Decoder.sessionFrom C DecodeOptions.new r (List.replicate (gs.length + 1) .read) = (allOf v gs).take k ++ [.failed e]) ∧
      (gs ≠ [] → (∀ g ∈ gs, 0 < g.width.toNat * g.height.toNat) →
        ∀ p : DecodeOptions, p.skipFrameDecoding = false → p.colorOutput = .indexed → p.checkForEndCode = false →
          p.checkFrameConsistency = false → p.memoryLimit.sizeOk 15 = true →
          (∀ g ∈ gs, p.memoryLimit.sizeOk g.buffer.length = true) →
          ∃ v', v'.width = v.width ∧ v'.height = v.height ∧ v'.repetition = v.repetition ∧
            (v.globalPalette ≠ none → v'.globalPalette = v.globalPalette) ∧
            ∀ (junk : List UInt8) (r' : Reader), r'.Reliable → r'.bytes = s'.written ++ junk →
              Decoder.sessionFrom C p r' (List.replicate (gs.length + 1) .read) = allOf v' gs) := by
  obtain ⟨d, fs, gs, h1, h2, h3, h4, h5, h6⟩ := reencode_file K h
  refine ⟨d.view, gs, direct_frames K hr h1 h3 h4, ?_⟩
  intro hne hpx p p1 p2 p3 p4 p5 p6
  obtain ⟨file, v', k1, k2, k3, k4, k5, k6, k7⟩ := sound_encode_decode K (o := freeOptions) (p := p) rfl rfl p1 p2 p3
    (by rw [p4]; intro h; cases h) h2 h5 hne hpx np d.repetition p5 p6
  refine ⟨v', k2, k3, k4, k5, ?_⟩
  intro junk r' hr' hb
  rw [encodeFile_eq C np d.width d.height _ _ (sound_pal h2) (by
    intro op hop
    rcases List.mem_cons.mp hop with rfl | hop
    · trivial
    · obtain ⟨g, hg, rfl⟩ := List.mem_map.mp hop
      exact (sound_given h2 (h5 g hg)).2.1)] at k1
  simp only [Prod.mk.injEq, Option.some.injEq] at k1
  have hfile : s'.written = file := by
    rw [h6, hs, List.nil_append, ← k1.1]
    rfl
  have := k7 junk r' 1 hr' (by rw [← hfile]; exact hb)
  rw [this]
  unfold allOf
  rw [k6]
  rfl

end Examples

end Gif
