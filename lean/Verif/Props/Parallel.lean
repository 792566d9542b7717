import Verif.Model.Parallel
/-!
# C51: the reordering queue of `examples/parallel.rs`
-/

namespace Gif.Parallel

variable {φ ε : Type}

/-- Writing frames one after the other, stopping at the first failure. -/
def writeSeq (write : ε → φ → ε × Bool) : ε → List φ → ε × Bool
  | e, [] => (e, true)
  | e, f :: fs =>
    match write e f with
    | (e, true) => writeSeq write e fs
    | (e, false) => (e, false)

theorem writeSeq_append (write : ε → φ → ε × Bool) (e e' : ε) (a b : List φ) (h : writeSeq write e a = (e', true)) :
    writeSeq write e (a ++ b) = writeSeq write e' b := by
  induction a generalizing e with
  | nil => simp only [writeSeq, Prod.mk.injEq, and_true] at h; subst h; rfl
  | cons f fs ih =>
    simp only [List.cons_append, writeSeq] at h ⊢
    rcases hw : write e f with ⟨e₁, b₁⟩
    rw [hw] at h
    cases b₁ with
    | true => exact ih e₁ h
    | false => simp at h

theorem writeSeq_fail (write : ε → φ → ε × Bool) (e e' : ε) (a b : List φ) (h : writeSeq write e a = (e', false)) :
    writeSeq write e (a ++ b) = (e', false) := by
  induction a generalizing e with
  | nil => simp [writeSeq] at h
  | cons f fs ih =>
    simp only [List.cons_append, writeSeq] at h ⊢
    rcases hw : write e f with ⟨e₁, b₁⟩
    rw [hw] at h
    cases b₁ with
    | true => exact ih e₁ h
    | false => exact h

/-- What holds between messages: the frames before `next` are written, in order; the others received wait. -/
structure Inv (write : ε → φ → ε × Bool) (e₀ : ε) (frames : List φ) (received : List Nat) (q : Queue φ ε) : Prop where
  written : writeSeq write e₀ (frames.take q.next) = (q.enc, true)
  le : q.next ≤ frames.length
  pending : ∀ m ∈ q.pending, frames[m.1]? = some m.2 ∧ q.next ≤ m.1
  nodup : (q.pending.map Prod.fst).Nodup
  known : ∀ k, k ∈ received ↔ k < q.next ∨ k ∈ q.pending.map Prod.fst

theorem drain_spec (write : ε → φ → ε × Bool) (e₀ : ε) (frames : List φ) (received : List Nat) (fuel : Nat)
    (q : Queue φ ε) (h : Inv write e₀ frames received q) (hf : q.pending.length < fuel) :
    ∃ q' b, drain write fuel q = (q', b) ∧
      (b = true → Inv write e₀ frames received q' ∧ q'.next ∉ q'.pending.map Prod.fst) ∧
      (b = false → writeSeq write e₀ frames = (q'.enc, false)) := by
  induction fuel generalizing q with
  | zero => omega
  | succ fuel ih =>
    rw [drain]
    cases hi : q.pending.findIdx? (fun p => p.1 = q.next) with
    | none =>
      refine ⟨q, true, rfl, fun _ => ⟨h, ?_⟩, by simp⟩
      intro hm
      obtain ⟨m, hm1, hm2⟩ := List.mem_map.1 hm
      rw [List.findIdx?_eq_none_iff] at hi
      have := hi m hm1
      simp at this
      exact this hm2
    | some index =>
      rw [List.findIdx?_eq_some_iff_getElem] at hi
      obtain ⟨hlt, heq, _⟩ := hi
      simp only [List.getElem?_eq_getElem hlt]
      simp only [decide_eq_true_eq] at heq
      have hmem : q.pending[index] ∈ q.pending := List.getElem_mem hlt
      obtain ⟨hp1, hp2⟩ := h.pending _ hmem
      rw [heq] at hp1
      have hnl : q.next < frames.length := by
        by_cases hx : q.next < frames.length
        · exact hx
        · rw [List.getElem?_eq_none (by omega)] at hp1; simp at hp1
      have htake : frames.take (q.next + 1) = frames.take q.next ++ [q.pending[index].2] := by
        rw [List.take_add_one, hp1]; rfl
      rcases hw : write q.enc q.pending[index].2 with ⟨enc, b⟩
      cases b with
      | true =>
        have hsub : ∀ m, m ∈ q.pending.eraseIdx index → m ∈ q.pending := fun m hm => (List.eraseIdx_sublist _ _).subset hm
        have hmap : (q.pending.eraseIdx index).map Prod.fst = (q.pending.map Prod.fst).eraseIdx index := by
          simp only [List.eraseIdx_eq_take_drop_succ, List.map_append, List.map_take, List.map_drop]
        have hnot : q.next ∉ (q.pending.eraseIdx index).map Prod.fst := by
          rw [hmap]
          intro hm
          have hlt' : index < (q.pending.map Prod.fst).length := by simpa using hlt
          have hg : (q.pending.map Prod.fst)[index] = q.next := by simpa using heq
          rw [List.mem_eraseIdx_iff_getElem] at hm
          obtain ⟨j, hj, hne, hje⟩ := hm
          have := (List.nodup_iff_pairwise_ne.1 h.nodup)
          rw [List.pairwise_iff_getElem] at this
          rcases Nat.lt_or_gt_of_ne hne with hl | hl
          · exact this j index hj hlt' hl (hje.trans hg.symm)
          · exact this index j hlt' hj hl (hg.trans hje.symm)
        have hinv : Inv write e₀ frames received { next := q.next + 1, pending := q.pending.eraseIdx index, enc := enc } := by
          refine ⟨?_, hnl, ?_, ?_, ?_⟩
          · simp only
            rw [htake, writeSeq_append _ _ _ _ _ h.written]
            simp [writeSeq, hw]
          · intro m hm
            obtain ⟨k1, k2⟩ := h.pending m (hsub m hm)
            refine ⟨k1, ?_⟩
            have : m.1 ≠ q.next := by
              intro he
              exact hnot (List.mem_map.2 ⟨m, hm, he⟩)
            simp only; omega
          · simp only
            rw [hmap]
            exact h.nodup.sublist (List.eraseIdx_sublist _ _)
          · intro k
            simp only
            rw [h.known k]
            constructor
            · rintro (hk | hk)
              · left; omega
              · by_cases hkn : k = q.next
                · left; omega
                · right
                  obtain ⟨m, hm1, hm2⟩ := List.mem_map.1 hk
                  refine List.mem_map.2 ⟨m, ?_, hm2⟩
                  obtain ⟨j, hj, hje⟩ := List.getElem_of_mem hm1
                  rw [List.mem_eraseIdx_iff_getElem]
                  refine ⟨j, hj, ?_, hje⟩
                  rintro rfl
                  exact hkn (by rw [← hm2, ← hje, heq])
            · rintro (hk | hk)
              · by_cases hkn : k = q.next
                · right; exact List.mem_map.2 ⟨_, hmem, by rw [heq, hkn]⟩
                · left; omega
              · right
                obtain ⟨m, hm1, hm2⟩ := List.mem_map.1 hk
                exact List.mem_map.2 ⟨m, hsub m hm1, hm2⟩
        refine ih _ hinv ?_
        simp only [List.length_eraseIdx, if_pos hlt]
        omega
      | false =>
        refine ⟨_, false, rfl, by simp, fun _ => ?_⟩
        have h1 : writeSeq write e₀ (frames.take (q.next + 1)) = (enc, false) := by
          rw [htake, writeSeq_append _ _ _ _ _ h.written]
          simp [writeSeq, hw]
        have := writeSeq_fail write e₀ enc (frames.take (q.next + 1)) (frames.drop (q.next + 1)) h1
        rwa [List.take_append_drop] at this

theorem receiveAll_spec (write : ε → φ → ε × Bool) (e₀ : ε) (frames : List φ) (ms : List (Nat × φ)) (received : List Nat)
    (q : Queue φ ε) (h : Inv write e₀ frames received q) (hn : q.next ∉ q.pending.map Prod.fst)
    (hms : ∀ m ∈ ms, frames[m.1]? = some m.2) (hnd : (received ++ ms.map Prod.fst).Nodup) :
    ∃ q' b, receiveAll write q ms = (q', b) ∧
      (b = true → Inv write e₀ frames (received ++ ms.map Prod.fst) q' ∧ q'.next ∉ q'.pending.map Prod.fst) ∧
      (b = false → writeSeq write e₀ frames = (q'.enc, false)) := by
  induction ms generalizing received q with
  | nil => exact ⟨q, true, rfl, fun _ => ⟨by simpa using h, hn⟩, by simp⟩
  | cons m ms ih =>
    have hnew : m.1 ∉ received := by
      intro hx
      rw [List.nodup_append] at hnd
      exact hnd.2.2 m.1 hx m.1 (by simp) rfl
    have hk := h.known m.1
    have hnk : ¬ (m.1 < q.next ∨ m.1 ∈ q.pending.map Prod.fst) := fun hx => hnew (hk.2 hx)
    have hinv : Inv write e₀ frames (received ++ [m.1]) { q with pending := q.pending ++ [m] } := by
      refine ⟨h.written, h.le, ?_, ?_, ?_⟩
      · intro x hx
        rcases List.mem_append.1 hx with hx | hx
        · exact h.pending x hx
        · simp only [List.mem_singleton] at hx
          subst hx
          exact ⟨hms x (by simp), by simp only; omega⟩
      · simp only [List.map_append, List.map_cons, List.map_nil]
        rw [List.nodup_append]
        refine ⟨h.nodup, by simp, ?_⟩
        intro a ha b hb
        simp only [List.mem_singleton] at hb
        subst hb
        rintro rfl
        exact hnk (.inr ha)
      · intro k
        have := h.known k
        simp only [List.mem_append, List.mem_singleton, List.map_append, List.map_cons, List.map_nil]
        rw [this]
        simp only [or_assoc]
    obtain ⟨q₁, b₁, hd, ht, hfl⟩ := drain_spec write e₀ frames _ ((q.pending ++ [m]).length + 1) _ hinv (by simp)
    rw [receiveAll]
    have hrec : receive write q m = (q₁, b₁) := hd
    rw [hrec]
    cases b₁ with
    | false => exact ⟨q₁, false, rfl, by simp, fun _ => hfl rfl⟩
    | true =>
      obtain ⟨i1, i2⟩ := ht rfl
      have := ih (received ++ [m.1]) q₁ i1 i2 (fun x hx => hms x (by simp [hx])) (by simpa using hnd)
      simpa using this

/-- C51: whatever the order in which the numbered frames arrive, the encoder receives exactly the calls of writing all
frames in order (stopping at the first failure), and nothing is left in the queue on success. -/
theorem C51_parallel_order (write : ε → φ → ε × Bool) (e₀ : ε) (frames : List φ) (arrival : List (Nat × φ))
    (hperm : arrival.Perm (frames.zipIdx.map fun p => (p.2, p.1))) :
    ∃ q b, receiveAll write (start e₀) arrival = (q, b) ∧ writeSeq write e₀ frames = (q.enc, b) ∧
      (b = true → q.pending = []) := by
  have h0 : Inv write e₀ frames [] (start e₀) :=
    ⟨rfl, Nat.zero_le _, by simp [start], by simp [start], by simp [start]⟩
  have hms : ∀ m ∈ arrival, frames[m.1]? = some m.2 := by
    intro m hm
    have := hperm.subset hm
    simp only [List.mem_map] at this
    obtain ⟨p, hp, rfl⟩ := this
    rw [List.mem_zipIdx_iff_getElem?] at hp
    exact hp
  have hkeys : (arrival.map Prod.fst).Perm (List.range frames.length) := by
    have := hperm.map Prod.fst
    rw [List.map_map] at this
    have h2 : (Prod.fst ∘ fun p : φ × Nat => (p.2, p.1)) = Prod.snd := rfl
    rw [h2, List.zipIdx_map_snd, ← List.range_eq_range'] at this
    exact this
  obtain ⟨q, b, hr, ht, hf⟩ := receiveAll_spec write e₀ frames arrival [] (start e₀) h0 (by simp [start]) hms
    (by simpa using hkeys.nodup_iff.2 List.nodup_range)
  refine ⟨q, b, hr, ?_, ?_⟩
  all_goals
    cases b with
    | false => first | exact hf rfl | simp
    | true =>
      obtain ⟨i1, i2⟩ := ht rfl
      have hnext : q.next = frames.length := by
        have hk := i1.known q.next
        simp only [List.nil_append] at hk
        rw [hkeys.mem_iff, List.mem_range] at hk
        have hle := i1.le
        have : ¬ q.next < frames.length := fun hlt => (hk.1 hlt).elim (fun h => by omega) i2
        omega
      first
      | (have := i1.written
         rw [hnext, List.take_length] at this
         exact this)
      | (intro _
         cases hp : q.pending with
         | nil => rfl
         | cons m ms =>
           have hm := i1.pending m (by simp [hp])
           rw [List.getElem?_eq_none (by omega)] at hm
           simp at hm)

example : (receiveAll (fun e f => (e ++ [f], true)) (start []) [(2, 'c'), (0, 'a'), (1, 'b')]).1.enc = ['a', 'b', 'c'] := by
  decide
example : [(2, 'c'), (0, 'a'), (1, 'b')].Perm (['a', 'b', 'c'].zipIdx.map fun p => (p.2, p.1)) := by decide

end Gif.Parallel
