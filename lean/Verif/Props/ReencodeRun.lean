import Verif.Props.Reencode
/-!
# C70: `examples/parallel.rs` writes one file, whatever the threads do
-/

namespace Gif

open Spec Encoder

variable {C : Codec}

theorem Encoder.Does.either {α : Type} {e : Encoder} {res : Encoder × EOut α} {c : List (List UInt8)} {r : EOut α}
    (h : Does e res c r) {s : Sink} (hs : e.w = some s) :
    (∃ s', res.1.w = some s' ∧ s'.written = s.written ++ c.flatten ∧ (s.Working → s'.Working) ∧ res.2 = r) ∨
    (∃ s' code, res.1.w = some s' ∧ ¬ s.Working ∧ res.2 = .err (.io (.writer code))) := by
  rcases h.cases hs with ⟨s', _, h2, h3, h4⟩ | ⟨s', code, pre, _, h2, _, _, _, h3, h4⟩
  · refine .inl ⟨s', h2, h3, fun hw => ?_, h4⟩
    obtain ⟨s1, k1, _, k3, _⟩ := h.working hs hw
    rw [h2] at k1
    cases k1
    exact k3
  · exact .inr ⟨s', code, h2, h3, h4⟩

theorem Encoder.new_either (np : Bool) (s : Sink) (w h : UInt16) {pal : List UInt8} (hp : pal.length / 3 ≤ 256) :
    (∃ e s', Encoder.new np s w h pal = (e, .ok ()) ∧ e.w = some s' ∧ s'.written = s.written ++ (headerChunks w h pal).flatten ∧
      (s.Working → s'.Working) ∧ e.globalPalette = decide (3 ≤ pal.length)) ∨
    (∃ e code, ¬ s.Working ∧ (Encoder.new np s w h pal = (e, .err (.io (.writer code))) ∨
      np = false ∧ Encoder.new np s w h pal = (e, .panic))) := by
  have d := does_writeGlobalPalette s w h pal hp
  have hpal := d.palette
  have hc := d.either (s := s) rfl
  clear d
  unfold Encoder.new
  unfold fresh at hpal hc
  generalize writeGlobalPalette _ pal = x at *
  obtain ⟨e, out⟩ := x
  simp only at *
  rcases hc with ⟨s', h1, h2, h3, rfl⟩ | ⟨s', code, h1, h2, rfl⟩
  · exact .inl ⟨e, s', rfl, h1, h2, h3, hpal⟩
  · right
    simp only
    have hd := drop_panics np e
    generalize e.drop np = y at *
    obtain ⟨e2, out⟩ := y
    cases out with
    | panic => exact ⟨e2, code, h2, .inr ⟨(hd rfl).1, rfl⟩⟩
    | ok u => exact ⟨e2, code, h2, .inl rfl⟩
    | err er => exact ⟨e2, code, h2, .inl rfl⟩

theorem Encoder.intoInner_either (np : Bool) {e : Encoder} {s : Sink} (hs : e.w = some s) :
    (∃ e' s', e.intoInner np = (e', .ok s') ∧ s'.written = s.written ++ [0x3B]) ∨
    (∃ e' code, ¬ s.Working ∧ (e.intoInner np = (e', .err (.io (.writer code))) ∨ np = false ∧ e.intoInner np = (e', .panic))) := by
  have hc := (does_writeTrailer e).either hs
  unfold Encoder.intoInner
  generalize e.writeTrailer = x at *
  obtain ⟨e, out⟩ := x
  simp only at *
  rcases hc with ⟨s', h1, h2, h3, rfl⟩ | ⟨s', code, h1, h2, rfl⟩
  · left
    simp only [h1, Encoder.drop]
    exact ⟨_, s', rfl, by simpa using h2⟩
  · right
    simp only
    have hd := drop_panics np e
    generalize e.drop np = y at *
    obtain ⟨e2, out⟩ := y
    cases out with
    | panic => exact ⟨e2, code, h2, .inr ⟨(hd rfl).1, rfl⟩⟩
    | ok u => exact ⟨e2, code, h2, .inl rfl⟩
    | err er => exact ⟨e2, code, h2, .inl rfl⟩

namespace Examples

theorem leave_any (np : Bool) (e : Encoder) (s : Sink) (x : Exit) :
    (leave np e s x).1 = (e.drop np).1.w.getD s ∧ ((leave np e s x).2 = x ∨ np = false ∧ (leave np e s x).2 = .panic) := by
  have hd := drop_panics np e
  unfold leave
  generalize e.drop np = y at *
  obtain ⟨e2, out⟩ := y
  cases out with
  | panic => exact ⟨rfl, .inr ⟨(hd rfl).1, rfl⟩⟩
  | ok u => exact ⟨rfl, .inl rfl⟩
  | err er => exact ⟨rfl, .inl rfl⟩

theorem leave_fst (np : Bool) (e : Encoder) (s : Sink) (x y : Exit) : (leave np e s x).1 = (leave np e s y).1 := by
  rw [(leave_any np e s x).1, (leave_any np e s y).1]

/-- A frame that the encoder accepts. -/
def Accepted (pal : List UInt8) (g : Frame) : Prop :=
  opResult (3 ≤ pal.length) (.frame g) = .ok () ∧ EncOp.Sane (.frame g) ∧ g.width.toNat * g.height.toNat ≤ g.buffer.length

/-- Sending the frames one after the other. -/
theorem send_all {pal : List UInt8} : ∀ (gs : List Frame) (e : Encoder) (s : Sink), e.w = some s →
    e.globalPalette = decide (3 ≤ pal.length) → (∀ g ∈ gs, Accepted pal g) →
    (∃ e' s', Parallel.writeSeq send (e, .ok ()) (gs.map (·.makeLzwPreEncoded C)) = ((e', .ok ()), true) ∧ e'.w = some s' ∧
      (s.Working → s'.Working) ∧ s'.written = s.written ++ renderBlks ((gs.map EncOp.frame).flatMap (opBlks C (3 ≤ pal.length)))) ∨
    (∃ e' code, ¬ s.Working ∧
      Parallel.writeSeq send (e, .ok ()) (gs.map (·.makeLzwPreEncoded C)) = ((e', .err (.io (.writer code))), false)) := by
  intro gs
  induction gs with
  | nil =>
    intro e s hs _ _
    exact .inl ⟨e, s, rfl, hs, id, by simp [renderBlks]⟩
  | cons g gs ih =>
    intro e s hs hg hacc
    obtain ⟨a1, a2, a3⟩ := hacc g List.mem_cons_self
    obtain ⟨c1, c2⟩ := C21_pre_encoding C e g (by simp [hs]) a3 a2
    have hd := does_op C e (.frame g) (by simp [hs]) a2
    have hd' := does_op C e (.preEncoded (g.makeLzwPreEncoded C)) (by simp [hs]) trivial
    have hpal := hd'.palette
    have hc := hd.either hs
    rw [hg, a1, opChunks_flatten] at hc
    simp only [EncOp.run] at hc hpal
    rw [← c1, ← c2] at hc
    rw [List.map_cons, Parallel.writeSeq]
    unfold send
    generalize e.writeLzwPreEncodedFrame (g.makeLzwPreEncoded C) = x at *
    obtain ⟨e1, out⟩ := x
    simp only at *
    rcases hc with ⟨s1, h1, h2, h3, rfl⟩ | ⟨s1, code, h1, h2, rfl⟩
    · simp only
      rcases ih e1 s1 h1 (by rw [hpal, hg]) (fun g hg => hacc g (List.mem_cons_of_mem _ hg)) with
        ⟨e', s', k1, k2, k3, k4⟩ | ⟨e', code, k1, k2⟩
      · refine .inl ⟨e', s', k1, k2, fun h => k3 (h3 h), ?_⟩
        rw [k4, h2, List.map_cons, List.flatMap_cons]
        unfold renderBlks
        simp
      · exact .inr ⟨e', code, fun h => k1 (h3 h), k2⟩
    · exact .inr ⟨e1, code, h2, rfl⟩

/-- What the queue does, in terms of the frames in their order. -/
theorem collect_eq (np : Bool) (e : Encoder) (s : Sink) {ms : List Frame} {arrivals : List (Nat × Frame)}
    (hperm : arrivals.Perm (ms.zipIdx.map Prod.swap)) :
    collect np e s arrivals = (match Parallel.writeSeq send (e, .ok ()) ms with
      | (q, false) => leave np q.1 s (.ofEncoding q.2)
      | (q, true) =>
        match q.1.intoInner np with
        | (_, .ok s) => (s, .success)
        | (e, r) => (e.w.getD s, .ofEncoding r)) := by
  obtain ⟨q, b, h1, h2, -⟩ := Parallel.C51_parallel_order send (e, .ok ()) ms arrivals hperm
  unfold collect
  rw [h1, h2]
  cases b <;> rfl

/-- What is left to do when header and loop count have been written. -/
def After (C : Codec) (np : Bool) (s : Sink) (r : Reader) (d : Decoder C) (e : Encoder) (y : Sink × Exit) : Prop :=
  ∃ xs arrivals z, items (r.bytes.length + 2) (DecoderIter.new d) = (xs, .success) ∧ Tasks C xs arrivals z ∧
    (z ≠ .success ∧ y = leave np e s z ∨ z = .success ∧ y = collect np e s arrivals)

/-- The outcomes, step by step. -/
def Outcomes (C : Codec) (np : Bool) (s : Sink) (r : Reader) (y : Sink × Exit) : Prop :=
  match Decoder.readInfo C rawOptions r with
  | (d, .ok ()) =>
    match Encoder.new np s d.width d.height (d.globalPalette.getD []) with
    | (e, .ok ()) =>
      match e.setRepeat d.repetition with
      | (e, .ok ()) => After C np s r d e y
      | (e, x) => y = leave np e s (.ofEncoding x)
    | (e, x) => y = (e.w.getD s, .ofEncoding x)
  | (_, x) => y = (s, .ofDecoding x)

theorem reencode_outcomes (K : C.Contract) {np : Bool} {s s' : Sink} {r : Reader} {x : Exit} :
    Reencode C np s r s' x ↔ Outcomes C np s r (s', x) := by
  constructor
  · intro h
    unfold Outcomes
    cases h with
    | closed h1 h2 =>
      rw [h1]
      split
      · rename_i heq; cases heq; exact absurd rfl h2
      · rename_i heq; cases heq; rfl
    | header h1 h2 h3 =>
      rw [h1]
      simp only
      rw [h2]
      split
      · rename_i heq; cases heq; exact absurd rfl h3
      · rename_i heq; cases heq; rfl
    | repetition h1 h2 h3 h4 =>
      rw [h1]
      simp only
      rw [h2]
      simp only
      rw [h3]
      split
      · rename_i heq; cases heq; exact absurd rfl h4
      · rename_i heq; cases heq; rfl
    | tasks h1 h2 h3 h4 h5 h6 =>
      rw [h1]
      simp only
      rw [h2]
      simp only
      rw [h3]
      exact ⟨_, _, _, h4, h5, .inl ⟨h6, rfl⟩⟩
    | iterator h1 h2 h3 h4 h5 =>
      obtain ⟨_, fs, y, _, _, k, _⟩ := raw_items K h1
      rw [h4] at k
      cases k
      exact absurd rfl h5
    | finished h1 h2 h3 h4 h5 =>
      rw [h1]
      simp only
      rw [h2]
      simp only
      rw [h3]
      exact ⟨_, _, _, h4, h5, .inr ⟨rfl, rfl⟩⟩
  · intro h
    unfold Outcomes at h
    match h1 : Decoder.readInfo C rawOptions r with
    | (d, .ok ()) =>
      rw [h1] at h
      simp only at h
      match h2 : Encoder.new np s d.width d.height (d.globalPalette.getD []) with
      | (e, .ok ()) =>
        rw [h2] at h
        simp only at h
        match h3 : e.setRepeat d.repetition with
        | (e', .ok ()) =>
          rw [h3] at h
          obtain ⟨xs, arr, z, a1, a2, a3⟩ := h
          rcases a3 with ⟨a3, a4⟩ | ⟨rfl, a4⟩
          · have := Reencode.tasks (np := np) h1 h2 h3 a1 a2 a3
            rw [← a4] at this
            exact this
          · have := Reencode.finished (np := np) h1 h2 h3 a1 a2
            rw [← a4] at this
            exact this
        | (e', .err er) =>
          rw [h3] at h
          have := Reencode.repetition (np := np) h1 h2 h3 (by simp)
          simp only at h
          rw [← h] at this
          exact this
        | (e', .panic) =>
          rw [h3] at h
          have := Reencode.repetition (np := np) h1 h2 h3 (by simp)
          simp only at h
          rw [← h] at this
          exact this
      | (e, .err er) => rw [h2] at h; cases h; exact .header h1 h2 (by simp)
      | (e, .panic) => rw [h2] at h; cases h; exact .header h1 h2 (by simp)
    | (d, .err er) => rw [h1] at h; cases h; exact .closed h1 (by simp)
    | (d, .panic) => rw [h1] at h; cases h; exact .closed h1 (by simp)
    | (d, .diverge) => rw [h1] at h; cases h; exact .closed h1 (by simp)

theorem map_sent_inj : ∀ {a b : List Frame}, a.map Task.sent = b.map Task.sent → a = b
  | [], [], _ => rfl
  | [], _ :: _, h => by cases h
  | _ :: _, [], h => by cases h
  | x :: a, y :: b, h => by
    simp only [List.map_cons, List.cons.injEq, Task.sent.injEq] at h
    rw [h.1, map_sent_inj h.2]

/-- Which outcomes the tasks have does not depend on the schedule, except which failure is reported. -/
theorem tasks_same (hS : C.Safe) {xs : List (Except DecodingError Frame)} {a1 a2 : List (Nat × Frame)} {z1 z2 : Exit}
    (h1 : Tasks C xs a1 z1) (h2 : Tasks C xs a2 z2) :
    (z1 = .success ∧ z2 = .success ∧ ∃ ms : List Frame, a1.Perm (ms.zipIdx.map Prod.swap) ∧ a2.Perm (ms.zipIdx.map Prod.swap)) ∨
    ((z1 = .panic ∨ ∃ e, z1 = .decoding e) ∧ (z2 = .panic ∨ ∃ e, z2 = .decoding e)) := by
  have hdiv : .diverged ∉ xs.map (task C) := by
    intro h
    obtain ⟨x, _, hx⟩ := List.mem_map.mp h
    cases x with
    | error e => cases hx
    | ok f => rcases task_cases hS f with ⟨g, _, t⟩ | ⟨g, e, _, t⟩ <;> (rw [t] at hx; cases hx)
  have hbad : ∀ {a z}, Tasks C xs a z → z ≠ .success → (z = .panic ∨ ∃ e, z = .decoding e) ∧
      ∀ ms : List Frame, xs.map (task C) ≠ ms.map .sent := by
    intro a z h hz
    cases h with
    | done _ _ => exact absurd rfl hz
    | failed h =>
      refine ⟨.inr ⟨_, rfl⟩, fun ms hms => ?_⟩
      rw [hms] at h
      obtain ⟨m, _, hm⟩ := List.mem_map.mp h
      cases hm
    | panicked h =>
      refine ⟨.inl rfl, fun ms hms => ?_⟩
      rw [hms] at h
      obtain ⟨m, _, hm⟩ := List.mem_map.mp h
      cases hm
    | diverged h => exact absurd h hdiv
  by_cases hz1 : z1 = .success
  · by_cases hz2 : z2 = .success
    · subst hz1 hz2
      cases h1 with
      | done p1 q1 =>
        cases h2 with
        | done p2 q2 =>
          have := map_sent_inj (p1.symm.trans p2)
          subst this
          exact .inl ⟨rfl, rfl, _, q1, q2⟩
    · subst hz1
      cases h1 with
      | done p1 q1 => exact absurd p1 ((hbad h2 hz2).2 _)
  · by_cases hz2 : z2 = .success
    · subst hz2
      cases h2 with
      | done p2 q2 => exact absurd p2 ((hbad h1 hz1).2 _)
    · exact .inr ⟨(hbad h1 hz1).1, (hbad h2 hz2).1⟩

/-- C70: what is in the file when `parallel` ends does not depend on the threads, and neither does the way it ends, except that an
error of the input may be reported instead of a panic on a frame that cannot be decoded, or the other way round. -/
theorem reencode_same (K : C.Contract) {np : Bool} {s s1 s2 : Sink} {r : Reader} {x1 x2 : Exit} (h1 : Reencode C np s r s1 x1)
    (h2 : Reencode C np s r s2 x2) :
    s1 = s2 ∧ (x1 = x2 ∨ (x1 = .panic ∨ ∃ e, x1 = .decoding e) ∧ (x2 = .panic ∨ ∃ e, x2 = .decoding e)) := by
  rw [reencode_outcomes K] at h1 h2
  unfold Outcomes at h1 h2
  have hfin : ∀ {y : Sink × Exit}, (s1, x1) = y → (s2, x2) = y →
      s1 = s2 ∧ (x1 = x2 ∨ (x1 = .panic ∨ ∃ e, x1 = .decoding e) ∧ (x2 = .panic ∨ ∃ e, x2 = .decoding e)) := by
    intro y e1 e2
    rw [← e2] at e1
    cases e1
    exact ⟨rfl, .inl rfl⟩
  match hd : Decoder.readInfo C rawOptions r with
  | (d, .ok ()) =>
    rw [hd] at h1 h2
    simp only at h1 h2
    match he : Encoder.new np s d.width d.height (d.globalPalette.getD []) with
    | (e, .ok ()) =>
      rw [he] at h1 h2
      simp only at h1 h2
      match hr : e.setRepeat d.repetition with
      | (e', .ok ()) =>
        rw [hr] at h1 h2
        obtain ⟨xs, b1, z1, i1, t1, o1⟩ := h1
        obtain ⟨xs', b2, z2, i2, t2, o2⟩ := h2
        rw [i1] at i2
        cases i2
        rcases tasks_same K.safe t1 t2 with ⟨rfl, rfl, ms, p1, p2⟩ | ⟨n1, n2⟩
        · have e1 := (o1.resolve_left (fun h => h.1 rfl)).2
          have e2 := (o2.resolve_left (fun h => h.1 rfl)).2
          rw [collect_eq np e' s p1] at e1
          rw [collect_eq np e' s p2] at e2
          exact hfin e1 e2
        · have hn : ∀ {z : Exit}, (z = .panic ∨ ∃ e, z = .decoding e) → z ≠ .success := by
            rintro z (rfl | ⟨e, rfl⟩) h <;> cases h
          have e1 := (o1.resolve_right (fun h => hn n1 h.1)).2
          have e2 := (o2.resolve_right (fun h => hn n2 h.1)).2
          have hl : ∀ {z : Exit}, (z = .panic ∨ ∃ e, z = .decoding e) →
              ((leave np e' s z).2 = .panic ∨ ∃ e, (leave np e' s z).2 = .decoding e) := by
            intro z hz
            rcases (leave_any np e' s z).2 with h | ⟨_, h⟩
            · rw [h]; exact hz
            · exact .inl h
          refine ⟨?_, .inr ⟨?_, ?_⟩⟩
          · exact (congrArg Prod.fst e1).trans ((leave_fst np e' s z1 z2).trans (congrArg Prod.fst e2).symm)
          · rw [show x1 = (leave np e' s z1).2 from congrArg Prod.snd e1]; exact hl n1
          · rw [show x2 = (leave np e' s z2).2 from congrArg Prod.snd e2]; exact hl n2
      | (e', .err er) => rw [hr] at h1 h2; exact hfin h1 h2
      | (e', .panic) => rw [hr] at h1 h2; exact hfin h1 h2
    | (e, .err er) => rw [he] at h1 h2; exact hfin h1 h2
    | (e, .panic) => rw [he] at h1 h2; exact hfin h1 h2
  | (d, .err er) => rw [hd] at h1 h2; exact hfin h1 h2
  | (d, .panic) => rw [hd] at h1 h2; exact hfin h1 h2
  | (d, .diverge) => rw [hd] at h1 h2; exact hfin h1 h2

end Examples

end Gif
