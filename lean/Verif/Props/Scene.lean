import Verif.Lemmas.Scene
import Verif.Props.Descent
/-!
# C90: frames can be cut out of a file, repeated, and put in another order
-/

namespace Gif

variable {C : Codec}

namespace Spec.Descent

theorem bit7 (p : UInt8) : p.toNat / 128 = 1 ↔ 128 ≤ p.toNat := by
  have := p.toNat_lt
  omega

/-- The head of a file is read as it is, whatever follows. -/
theorem screen_head {head : List UInt8} (h : IsHead head) : ∃ g, ∀ l, screen (head ++ l) = .ok (g, l) := by
  obtain ⟨h1, h2, h3⟩ := h
  match head, h1, h2, h3 with
  | s0 :: s1 :: s2 :: s3 :: s4 :: s5 :: w0 :: w1 :: y0 :: y1 :: packed :: bg :: asp :: tbl, h1, _, h3 =>
    simp only [List.take_succ_cons, List.take_zero, List.length_cons, List.getD_cons_succ, List.getD_cons_zero] at h1 h3
    have hi : ∀ l, item 6 (s0 :: s1 :: s2 :: s3 :: s4 :: s5 :: w0 :: w1 :: y0 :: y1 :: packed :: bg :: asp :: tbl ++ l) =
        .ok ([s0, s1, s2, s3, s4, s5], w0 :: w1 :: y0 :: y1 :: packed :: bg :: asp :: (tbl ++ l)) := by
      intro l
      unfold item
      rw [if_pos (by simp)]
      rfl
    have ht : ∃ t, ∀ l, table packed (tbl ++ l) = .ok (t, l) := by
      by_cases hp : 128 ≤ packed.toNat
      · rw [if_pos hp] at h3
        refine ⟨some tbl, fun l => ?_⟩
        have hl : tbl.length = 3 * 2 ^ (packed.toNat % 8 + 1) := by omega
        unfold table item
        rw [if_pos ((bit7 _).2 hp), ← hl, if_pos (by simp)]
        simp
      · rw [if_neg hp] at h3
        have : tbl = [] := List.eq_nil_of_length_eq_zero (by omega)
        subst this
        refine ⟨none, fun l => ?_⟩
        unfold table
        rw [if_neg (by rw [bit7]; exact hp)]
        rfl
    obtain ⟨t, ht⟩ := ht
    refine ⟨{
      v89 := decide ([s0, s1, s2, s3, s4, s5] = [0x47, 0x49, 0x46, 0x38, 0x39, 0x61])
      width := number w0 w1, height := number y0 y1
      misc := packed.toNat / 8 % 16, size := packed.toNat % 8, table := t
      background := bg, aspect := asp, blocks := [] }, fun l => ?_⟩
    unfold screen
    rw [hi l]
    simp only [if_pos h1, ht l]
  | [], _, h2, _ | [_], _, h2, _ | [_, _], _, h2, _ | [_, _, _], _, h2, _ | [_, _, _, _], _, h2, _ | [_, _, _, _, _], _, h2, _
  | [_, _, _, _, _, _], _, h2, _ | [_, _, _, _, _, _, _], _, h2, _ | [_, _, _, _, _, _, _, _], _, h2, _
  | [_, _, _, _, _, _, _, _, _], _, h2, _ | [_, _, _, _, _, _, _, _, _, _], _, h2, _
  | [_, _, _, _, _, _, _, _, _, _, _], _, h2, _ | [_, _, _, _, _, _, _, _, _, _, _, _], _, h2, _ => simp at h2

/-- Every file that is opened has a head. -/
theorem head_screen {bytes l : List UInt8} {g : File} (h : screen bytes = .ok (g, l)) : ∃ head, bytes = head ++ l ∧ IsHead head := by
  unfold screen at h
  split at h
  · cases h
  · rename_i sig l1 hi
    have h6 : bytes.take 6 = sig ∧ bytes.drop 6 = l1 := by
      unfold item at hi
      split at hi
      · cases hi; exact ⟨rfl, rfl⟩
      · cases hi
    split at h
    · rename_i hsig
      split at h
      · rename_i w0 w1 y0 y1 packed bg asp l2
        split at h
        · cases h
        · rename_i t l3 ht
          cases h
          have hsl : sig.length = 6 := by rcases hsig with rfl | rfl <;> rfl
          have hlen : ∃ c : List UInt8, l2 = c ++ l ∧
              c.length = if 128 ≤ packed.toNat then 3 * 2 ^ (packed.toNat % 8 + 1) else 0 := by
            unfold table at ht
            split at ht
            · rename_i hp
              unfold item at ht
              split at ht
              · rename_i t' l4 hit
                split at hit
                · rename_i hn
                  cases hit
                  cases ht
                  exact ⟨_, (List.take_append_drop _ _).symm, by rw [if_pos ((bit7 _).1 hp)]; simp [hn]⟩
                · cases hit
              · cases ht
            · rename_i hp
              cases ht
              exact ⟨[], rfl, by rw [if_neg (by rw [← bit7]; exact hp)]; rfl⟩
          obtain ⟨c, rfl, hc⟩ := hlen
          refine ⟨sig ++ w0 :: w1 :: y0 :: y1 :: packed :: bg :: asp :: c, ?_, ?_, ?_, ?_⟩
          · rw [← List.take_append_drop 6 bytes, h6.1, h6.2]
            simp
          · rw [List.take_append_of_le_length (by omega), List.take_of_length_le (by omega)]
            exact hsig
          · simp [hsl]
            omega
          · have : (sig ++ w0 :: w1 :: y0 :: y1 :: packed :: bg :: asp :: c).getD 10 0 = packed := by
              match sig, hsl with
              | [_, _, _, _, _, _], _ => rfl
            rw [this, ← hc]
            simp [hsl]
            omega
      · cases h
    · cases h

/-- One frame after the head, as a file of its own. -/
theorem gif_holds {o : DecodeOptions} {g : File} {head s : List UInt8} {f : Frame} (hh : ∀ l, screen (head ++ l) = .ok (g, l))
    (h : Holds o g s f) : ∃ loops, ∀ (m : List UInt8), ∃ n, n.graphic = .default ∧ ∀ (cs : List Call),
      gif o (head ++ (s ++ m)) (.read :: cs) =
        .opened { g.view Frame.default with repetition := loopsOf loops } ::
        .frame (some f) { g.view f with repetition := loopsOf loops } :: reading o g loops cs f (.block n m) := by
  obtain ⟨loops, h1⟩ := holds_lead h
  refine ⟨loops, fun m => ?_⟩
  obtain ⟨n, l, h2, n', h3, h4⟩ := h1 m
  refine ⟨n', h3, fun cs => ?_⟩
  unfold gif
  rw [hh]
  simp only [h2, h4]

theorem firstFrame_gif (hS : C.Safe) {o : DecodeOptions} (hsk : o.skipFrameDecoding = true) (bytes : List UInt8) :
    firstFrame C o bytes = soleFrame (gif o bytes [.read]) := by
  unfold firstFrame
  rw [Decoder.raw_reading hS o hsk (by intro ev h; cases h), show ({ buf := bytes, src := [] } : Reader).bytes = bytes by simp [Reader.bytes]]

/-- The pieces are those that hold a frame. -/
theorem scene_holds (hS : C.Safe) {o : DecodeOptions} (hsk : o.skipFrameDecoding = true) (hu : o.allowUnknownBlocks = false)
    {head s : List UInt8} {v : View} {f : Frame} {g : File} (hh : ∀ l, screen (head ++ l) = .ok (g, l))
    (h : Scene C o head s v f) : Holds o g s f := by
  obtain ⟨h1, h2⟩ := h
  rw [firstFrame_gif hS hsk] at h1 h2
  have hg : ∃ r s', s = s' ++ r ∧ Holds o g s' f := by
    unfold gif at h1
    rw [hh] at h1
    simp only at h1
    match hl : lead o (s.length + 1) true (.finite 0) .blank s with
    | .error e => rw [hl] at h1; cases h1
    | .ok (loops, n, l) =>
      rw [hl] at h1
      obtain ⟨c, h3, h4⟩ := lead_way _ _ _ _ _ _ _ _ hl
      simp only [reading, advance] at h1
      match hn : next o g n l with
      | .error e => rw [hn] at h1; cases h1
      | .ok none => rw [hn] at h1; cases h1
      | .ok (some (n', i, len, y)) =>
        rw [hn] at h1
        simp only at h1
        match hp : payload o.memoryLimit 1 len y with
        | .error e => rw [hp] at h1; cases h1
        | .ok (d, r) =>
          rw [hp] at h1
          simp only [soleFrame, Option.some.injEq, Prod.mk.injEq] at h1
          obtain ⟨s', h5, h6⟩ := next_holds hu h4 hn hp
          refine ⟨r, s', by rw [h3, h5], ?_⟩
          rw [← h1.2]
          exact h6
  obtain ⟨r, s', rfl, h3⟩ := hg
  by_cases hr : r = []
  · subst hr
    rw [List.append_nil]
    exact h3
  · obtain ⟨loops, h4⟩ := gif_holds hh h3
    obtain ⟨n, _, h5⟩ := h4 r.dropLast
    rw [List.dropLast_append_of_ne_nil hr, h5 []] at h2
    simp [reading, soleFrame] at h2

/-- The bytes of a frame, without the last of them, do not give a frame. -/
theorem holds_least {o : DecodeOptions} (hu : o.allowUnknownBlocks = false) {g : File} {head s : List UInt8} {f : Frame}
    (hh : ∀ l, screen (head ++ l) = .ok (g, l)) (h : Holds o g s f) :
    ∀ v f' w, gif o (head ++ s.dropLast) [.read] ≠ [.opened v, .frame (some f') w] := by
  intro v f' w hc
  have hg : ∃ r s', s.dropLast = s' ++ r ∧ Holds o g s' f' := by
    unfold gif at hc
    rw [hh] at hc
    simp only at hc
    match hl : lead o (s.dropLast.length + 1) true (.finite 0) .blank s.dropLast with
    | .error e => rw [hl] at hc; cases hc
    | .ok (loops, n, l) =>
      rw [hl] at hc
      obtain ⟨c, h3, h4⟩ := lead_way _ _ _ _ _ _ _ _ hl
      simp only [reading, advance] at hc
      match hn : next o g n l with
      | .error e => rw [hn] at hc; cases hc
      | .ok none => rw [hn] at hc; cases hc
      | .ok (some (n', i, len, y)) =>
        rw [hn] at hc
        simp only at hc
        match hp : payload o.memoryLimit 1 len y with
        | .error e => rw [hp] at hc; cases hc
        | .ok (d, r) =>
          rw [hp] at hc
          simp only [List.cons.injEq, Seen.frame.injEq, Option.some.injEq] at hc
          obtain ⟨s', h5, h6⟩ := next_holds hu h4 hn hp
          refine ⟨r, s', by rw [h3, h5], ?_⟩
          rw [← hc.2.1.1]
          exact h6
  obtain ⟨r, s', h1, h2⟩ := hg
  have hne : s ≠ [] := by
    obtain ⟨c, b, q, y, gr, i, len, d, rfl, _⟩ := h
    simp
  have h3 : s = s' ++ (r ++ [s.getLast hne]) := by
    rw [← List.append_assoc, ← h1, List.dropLast_concat_getLast]
  obtain ⟨n1, i1, len1, d1, y1, e1, k1⟩ := holds_next h .blank rfl
  obtain ⟨n2, i2, len2, d2, y2, e2, k2⟩ := holds_next h2 .blank rfl
  obtain ⟨a1, b1⟩ := k1 []
  obtain ⟨a2, b2⟩ := k2 (r ++ [s.getLast hne])
  rw [← h3] at a2
  rw [List.append_nil] at a1
  rw [a1] at a2
  simp only [Except.ok.injEq, Option.some.injEq, Prod.mk.injEq] at a2
  rw [← a2.2.2.1, ← a2.2.2.2, b1] at b2
  simp at b2

/-- Frames one after the other. -/
theorem reading_holds {o : DecodeOptions} {g : File} (loops : Loops) : ∀ (ss : List (List UInt8 × Frame)),
    (∀ s ∈ ss, Holds o g s.1 s.2) → ∀ (n : Notes) (cur : Frame), n.graphic = .default → ∃ n', n'.graphic = .default ∧
      ∀ (m : List UInt8) (cs : List Call),
      reading o g loops (List.replicate ss.length .read ++ cs) cur (.block n ((ss.map (·.1)).flatten ++ m)) =
        roll { g.view Frame.default with repetition := loopsOf loops } (ss.map (·.2)) ++
          reading o g loops cs ((ss.map (·.2)).getLast?.getD cur) (.block n' m) := by
  intro ss
  induction ss with
  | nil => intro _ n cur hn; exact ⟨n, hn, fun m cs => rfl⟩
  | cons s ss ih =>
    intro h n cur hn
    obtain ⟨n1, h1, h2⟩ := holds_reading (h s (by simp)) loops cur n hn
    obtain ⟨n2, h3, h4⟩ := ih (fun x hx => h x (List.mem_cons_of_mem _ hx)) n1 s.2 h1
    refine ⟨n2, h3, fun m cs => ?_⟩
    rw [List.length_cons, List.replicate_succ, List.cons_append, List.map_cons, List.flatten_cons, List.append_assoc, h2, h4]
    rw [List.map_cons, List.getLast?_cons]
    simp only [roll, List.map_cons, List.cons_append, Option.getD_some]
    rfl

theorem reading_trailer {o : DecodeOptions} {g : File} (loops : Loops) (k : Nat) (cur : Frame) (n : Notes) (junk : List UInt8) :
    reading o g loops (List.replicate k .read) cur (.block n (0x3B :: junk)) =
      List.replicate k (.frame none { g.view cur with repetition := loopsOf loops }) := by
  have hdone : ∀ k, reading o g loops (List.replicate k .read) cur .done =
      List.replicate k (.frame none { g.view cur with repetition := loopsOf loops }) := by
    intro k
    induction k with
    | zero => rfl
    | succ k ih => simp only [List.replicate_succ, reading, advance, ih]
  cases k with
  | zero => rfl
  | succ k =>
    have hn : next o g n (0x3B :: junk) = .ok none := by
      unfold next
      simp only [List.length_cons, seek]
      rw [if_pos trivial]
    simp only [List.replicate_succ, reading, advance, hn, hdone]

/-- What is read as frames can be cut into the bytes of the frames. -/
theorem reading_scenes {o : DecodeOptions} (hu : o.allowUnknownBlocks = false) {g : File} (loops : Loops) : ∀ (k : Nat) (cur : Frame)
    (n : Notes) (c0 l : List UInt8), Way o.memoryLimit .default c0 n.graphic →
    ∃ (ss : List (List UInt8 × Frame)) (tail : List UInt8), c0 ++ l = (ss.map (·.1)).flatten ++ tail ∧
      ss.map (·.2) = rawFrames (reading o g loops (List.replicate k .read) cur (.block n l)) ∧ ∀ s ∈ ss, Holds o g s.1 s.2 := by
  intro k
  induction k with
  | zero => intro cur n c0 l _; exact ⟨[], c0 ++ l, rfl, rfl, by simp⟩
  | succ k ih =>
    intro cur n c0 l hw
    simp only [List.replicate_succ, reading, advance]
    match hn : next o g n l with
    | .error e => exact ⟨[], c0 ++ l, rfl, rfl, by simp⟩
    | .ok none =>
      refine ⟨[], c0 ++ l, rfl, ?_, by simp⟩
      have hdone : ∀ k, rawFrames (reading o g loops (List.replicate k .read) cur .done) = [] := by
        intro k
        induction k with
        | zero => rfl
        | succ k ih => simp only [List.replicate_succ, reading, advance, rawFrames, ih]
      simp only [rawFrames, hdone, List.map_nil]
    | .ok (some (n', i, len, y)) =>
      simp only
      match hp : payload o.memoryLimit 1 len y with
      | .error e => exact ⟨[], c0 ++ l, rfl, rfl, by simp⟩
      | .ok (d, r) =>
        obtain ⟨s, h1, h2⟩ := next_holds hu hw hn hp
        obtain ⟨ss, tail, h3, h4, h5⟩ := ih (rawFrame (n'.graphic, { i with subs := [d] })) { n' with graphic := .default } [] r (.nil _)
        refine ⟨(s, rawFrame (n'.graphic, { i with subs := [d] })) :: ss, tail, ?_, ?_, ?_⟩
        · rw [h1, List.map_cons, List.flatten_cons, List.append_assoc, ← h3]
          rfl
        · simp only [List.map_cons, h4, rawFrames]
        · intro x hx
          rcases List.mem_cons.1 hx with rfl | hx
          · exact h2
          · exact h5 x hx

theorem soleFrame_none {l : List Seen} (h : ∀ v f w, l ≠ [.opened v, .frame (some f) w]) : soleFrame l = none := by
  unfold soleFrame
  split
  · exact absurd rfl (h _ _ _)
  · rfl

end Spec.Descent

namespace Decoder

open Spec Spec.Descent

/-- **C90**: pieces that hold a frame each, one after the other in any number and order, are read as these frames. The first of
them says how often the animation is repeated. -/
theorem scenes_spliced (hS : C.Safe) (o : DecodeOptions) (hsk : o.skipFrameDecoding = true) (hu : o.allowUnknownBlocks = false)
    {head : List UInt8} (hh : IsHead head) (s : List UInt8 × View × Frame) (ss : List (List UInt8 × View × Frame))
    (hs : ∀ x ∈ s :: ss, Scene C o head x.1 x.2.1 x.2.2) {r : Reader} (hr : r.Reliable) (junk : List UInt8)
    (hb : r.bytes = head ++ ((s :: ss).map (·.1)).flatten ++ 0x3B :: junk) (k : Nat) :
    sessionFrom C o r (List.replicate ((s :: ss).length + k) .read) =
      .opened s.2.1 :: roll s.2.1 ((s :: ss).map (·.2.2)) ++
        List.replicate k (.frame none { s.2.1 with currentFrame := (ss.map (·.2.2)).getLast?.getD s.2.2 }) := by
  obtain ⟨g, hg⟩ := screen_head hh
  have hall : ∀ x ∈ s :: ss, Holds o g x.1 x.2.2 := fun x hx => scene_holds hS hsk hu hg (hs x hx)
  obtain ⟨loops, h1⟩ := gif_holds hg (hall s (by simp))
  obtain ⟨n, h2, h3⟩ := h1 ((ss.map (·.1)).flatten ++ 0x3B :: junk)
  have hv : s.2.1 = { g.view Frame.default with repetition := loopsOf loops } := by
    obtain ⟨n0, _, h4⟩ := h1 []
    have h5 := (hs s (by simp)).shows
    rw [firstFrame_gif hS hsk, ← List.append_nil s.1, h4 []] at h5
    simp only [reading, soleFrame, Option.some.injEq, Prod.mk.injEq] at h5
    exact h5.1.symm
  obtain ⟨n', h4, h5⟩ := reading_holds loops (ss.map fun x => (x.1, x.2.2))
    (by
      intro y hy
      obtain ⟨x, hx, rfl⟩ := List.mem_map.1 hy
      exact hall x (List.mem_cons_of_mem _ hx)) n s.2.2 h2
  have h6 := h5 (0x3B :: junk) (List.replicate k .read)
  rw [List.map_map, List.map_map, List.length_map, reading_trailer] at h6
  rw [raw_reading hS o hsk hr, hb]
  rw [show head ++ ((s :: ss).map (·.1)).flatten ++ 0x3B :: junk = head ++ (s.1 ++ ((ss.map (·.1)).flatten ++ 0x3B :: junk)) by simp,
    show List.replicate ((s :: ss).length + k) Call.read = .read :: (List.replicate ss.length .read ++ List.replicate k .read) by
      rw [List.replicate_append_replicate, ← List.replicate_succ, List.length_cons]; congr 1; omega, h3]
  rw [show (ss.map (·.1)) = ss.map ((fun x : List UInt8 × Frame => x.1) ∘ fun x => (x.1, x.2.2)) from rfl, h6, hv]
  rfl

/-- **C90**: what a decoder reads as frames, of any string of bytes, can be cut into pieces that hold these frames. `v` is what the
accessors show at the beginning. -/
theorem scenes_exist (hS : C.Safe) (o : DecodeOptions) (hsk : o.skipFrameDecoding = true) (hu : o.allowUnknownBlocks = false)
    {r : Reader} (hr : r.Reliable) {k : Nat} {v : View} {l : List Seen}
    (h : sessionFrom C o r (List.replicate k .read) = .opened v :: l) :
    ∃ (head : List UInt8) (ss : List (List UInt8 × View × Frame)) (tail : List UInt8), IsHead head ∧
      r.bytes = head ++ (ss.map (·.1)).flatten ++ tail ∧ ss.map (·.2.2) = rawFrames l ∧
      (∀ x ∈ ss, Scene C o head x.1 x.2.1 x.2.2 ∧ { x.2.1 with repetition := v.repetition } = v) ∧
      (∀ x, ss.head? = some x → x.2.1 = v) := by
  rw [raw_reading hS o hsk hr] at h
  unfold gif at h
  match hs : screen r.bytes with
  | .error e => rw [hs] at h; cases h
  | .ok (g, b) =>
    obtain ⟨head, hb, hh⟩ := head_screen hs
    obtain ⟨g', hg⟩ := screen_head hh
    have : g' = g := by
      have := hg b
      rw [← hb, hs] at this
      simp only [Except.ok.injEq, Prod.mk.injEq] at this
      exact this.1.symm
    subst this
    rw [hs] at h
    simp only at h
    match hl : lead o (b.length + 1) true (.finite 0) .blank b with
    | .error e => rw [hl] at h; cases h
    | .ok (loops, n, b') =>
      rw [hl] at h
      simp only [List.cons.injEq, Seen.opened.injEq] at h
      obtain ⟨c, h1, h2⟩ := lead_way _ _ _ _ _ _ _ _ hl
      obtain ⟨ss, tail, h3, h4, h5⟩ := reading_scenes hu (g := g') loops k Frame.default n c b' h2
      rw [h.2] at h4
      have key : ∀ s : List UInt8 × Frame, ∃ v' : View, Holds o g' s.1 s.2 → Scene C o head s.1 v' s.2 ∧
          { v' with repetition := v.repetition } = v ∧ ∀ m, b = s.1 ++ m → v' = v := by
        intro s
        by_cases hx : Holds o g' s.1 s.2
        · obtain ⟨loops', h6⟩ := gif_holds hg hx
          refine ⟨{ g'.view Frame.default with repetition := loopsOf loops' }, fun _ => ⟨⟨?_, ?_⟩, ?_, ?_⟩⟩
          · obtain ⟨n0, _, h7⟩ := h6 []
            rw [firstFrame_gif hS hsk, ← List.append_nil s.1, h7 []]
            rfl
          · rw [firstFrame_gif hS hsk]
            exact soleFrame_none (holds_least hu hg hx)
          · rw [← h.1]
          · intro m hm
            obtain ⟨n0, _, h7⟩ := h6 m
            have h8 := h7 []
            rw [← hm] at h8
            unfold gif at h8
            rw [hg] at h8
            simp only [hl, List.cons.injEq, Seen.opened.injEq] at h8
            rw [← h8.1, h.1]
        · exact ⟨v, fun h => absurd h hx⟩
      obtain ⟨view, key⟩ := Classical.axiomOfChoice key
      refine ⟨head, ss.map fun s => (s.1, view s, s.2), tail, hh, ?_, ?_, ?_, ?_⟩
      · rw [hb, h1, h3, List.map_map, ← List.append_assoc]
        rfl
      · rw [List.map_map, ← h4]
        rfl
      · intro x hx
        obtain ⟨s, hs, rfl⟩ := List.mem_map.1 hx
        exact ⟨(key s (h5 s hs)).1, (key s (h5 s hs)).2.1⟩
      · intro x hx
        cases ss with
        | nil => cases hx
        | cons s ss =>
          simp only [List.map_cons, List.head?_cons, Option.some.injEq] at hx
          subst hx
          refine (key s (h5 s (by simp))).2.2 ((ss.map (·.1)).flatten ++ tail) ?_
          rw [h1, h3]
          simp

/-- **C90**: any file can be cut into a head, one piece for each frame that is read, and a rest, so that every selection of the
pieces, in any order and with repetitions, is a file with just these frames. Nothing else changes but the number of repetitions of
the animation, and this only if the first piece is no longer the first. -/
theorem frames_rearranged (hS : C.Safe) (o : DecodeOptions) (hsk : o.skipFrameDecoding = true) (hu : o.allowUnknownBlocks = false)
    {r : Reader} (hr : r.Reliable) {k : Nat} {v : View} {l : List Seen}
    (h : sessionFrom C o r (List.replicate k .read) = .opened v :: l) :
    ∃ (head : List UInt8) (ss : List (List UInt8 × Frame)) (tail : List UInt8), IsHead head ∧
      r.bytes = head ++ (ss.map (·.1)).flatten ++ tail ∧ ss.map (·.2) = rawFrames l ∧
      ∀ (s : List UInt8 × Frame) (sel : List (List UInt8 × Frame)), (∀ x ∈ s :: sel, x ∈ ss) →
        ∃ v', { v' with repetition := v.repetition } = v ∧ (ss.head? = some s → v' = v) ∧
        ∀ {r' : Reader} (junk : List UInt8) (k' : Nat), r'.Reliable →
          r'.bytes = head ++ ((s :: sel).map (·.1)).flatten ++ 0x3B :: junk →
          sessionFrom C o r' (List.replicate ((s :: sel).length + k') .read) =
            .opened v' :: roll v' ((s :: sel).map (·.2)) ++
              List.replicate k' (.frame none { v' with currentFrame := (sel.map (·.2)).getLast?.getD s.2 }) := by
  obtain ⟨head, ss, tail, h1, h2, h3, h4, h5⟩ := scenes_exist hS o hsk hu hr h
  have hback : ∀ s : List UInt8 × Frame, ∃ v' : View, s ∈ ss.map (fun x => (x.1, x.2.2)) → (s.1, v', s.2) ∈ ss ∧
      ((ss.map (fun x => (x.1, x.2.2))).head? = some s → v' = v) := by
    intro s
    by_cases h0 : (ss.map (fun x => (x.1, x.2.2))).head? = some s
    · cases ss with
      | nil => cases h0
      | cons x ss =>
        simp only [List.map_cons, List.head?_cons, Option.some.injEq] at h0
        subst h0
        exact ⟨x.2.1, fun _ => ⟨by simp, fun _ => h5 x rfl⟩⟩
    · by_cases hs : s ∈ ss.map (fun x => (x.1, x.2.2))
      · obtain ⟨x, hx, rfl⟩ := List.mem_map.1 hs
        exact ⟨x.2.1, fun _ => ⟨hx, fun h => absurd h h0⟩⟩
      · exact ⟨v, fun h => absurd h hs⟩
  obtain ⟨view, hback⟩ := Classical.axiomOfChoice hback
  refine ⟨head, ss.map (fun x => (x.1, x.2.2)), tail, h1, by rw [h2, List.map_map]; rfl, by rw [← h3, List.map_map]; rfl, ?_⟩
  intro s sel hsel
  refine ⟨view s, (h4 _ (hback s (hsel s (by simp))).1).2, (hback s (hsel s (by simp))).2, fun {r'} junk k' hr' hb' => ?_⟩
  have := scenes_spliced hS o hsk hu h1 (s.1, view s, s.2) (sel.map fun x => (x.1, view x, x.2))
    (by
      intro x hx
      have hx : x ∈ (s :: sel).map fun x => (x.1, view x, x.2) := hx
      obtain ⟨y, hy, rfl⟩ := List.mem_map.1 hx
      exact (h4 _ (hback y (hsel y hy)).1).1) hr' junk
    (by rw [hb']; simp [List.map_map, Function.comp_def]) k'
  simp only [List.length_cons, List.length_map, List.map_cons, List.map_map] at this ⊢
  rw [this]
  rfl

end Decoder

end Gif
