import Verif.Props.Scene
import Verif.Props.FrameDecoder
/-!
# C90 with pixels
-/

namespace Gif.Decoder

variable {C : Codec}

open Spec

theorem expands_det {K : C.Contract} {f : Frame} {px px' : Pixels} (h : Expands K f px) (h' : Expands K f px') : px = px' := by
  obtain ⟨⟨m, data, h1, h2⟩, _⟩ := h
  obtain ⟨⟨m', data', h3, h4⟩, _⟩ := h'
  rw [h1] at h3
  cases h3
  exact Prod.ext (K.det h2 h4).1 (K.det h2 h4).2

/-- Frames that are decoded, one after the other. -/
theorem watch_roll {K : C.Contract} (c : ColorOutput) (limit : MemoryLimit) (v : View) (k : Nat) : ∀ (fps : List (Frame × Frame))
    (outs : List Pixels) (cur : View) (live : Option (List UInt8)), ExpandAll K (fps.map (·.1)) outs →
    (∀ x ∈ fps, ∀ px, Expands K x.1 px → deliver c limit v.globalPalette x.1 px = .ok x.2) →
    ∀ (last : Frame),
    watch c limit (List.replicate (fps.length + k) .read) cur live
      (roll v (fps.map (·.1)) ++ List.replicate k (.frame none { v with currentFrame := last })) outs =
    (roll v (fps.map (·.2)) ++ List.replicate k
      (Seen.frame none { v with currentFrame := (fps.map (·.2)).getLast?.getD cur.currentFrame })).map Got.seen := by
  intro fps
  induction fps with
  | nil =>
    intro outs cur live hex _ last
    cases outs with
    | cons _ _ => exact hex.elim
    | nil =>
      simp only [List.map_nil, roll, List.nil_append, List.length_nil, Nat.zero_add, List.getLast?_nil, Option.getD_none]
      clear hex
      induction k generalizing cur live with
      | zero => rfl
      | succ k ih =>
        simp only [List.replicate_succ, watch, List.map_cons]
        rw [ih { v with currentFrame := cur.currentFrame } none]
  | cons x fps ih =>
    intro outs cur live hex hd last
    cases outs with
    | nil => exact hex.elim
    | cons px outs =>
      obtain ⟨h1, h2⟩ := hex
      have h3 := hd x (by simp) px h1
      have h4 := ih outs { v with currentFrame := x.2 } none h2 (fun y hy => hd y (List.mem_cons_of_mem _ hy)) last
      simp only [List.length_cons, Nat.add_right_comm, List.replicate_succ, List.map_cons, roll, List.cons_append, watch, h3]
      simp only [roll] at h4
      rw [h4, List.getLast?_cons]
      rfl

/-- What `read_next_frame` makes of the frame, if it is the only one. -/
theorem scene_deliver (K : C.Contract) (o : DecodeOptions) (hs : o.skipFrameDecoding = false) (hce : o.checkForEndCode = false)
    {head s : List UInt8} {g : File} {f p : Frame} (hg : ∀ l, Descent.screen (head ++ l) = .ok (g, l))
    (h : Descent.Holds o g s f) (hreg : Regular K f) (hp : (firstFrame C o (head ++ s)).map (·.2) = some p) :
    ∀ px, Expands K f px → deliver o.colorOutput o.memoryLimit g.table f px = .ok p := by
  obtain ⟨loops, h1⟩ := Descent.gif_holds hg h
  obtain ⟨n, _, h2⟩ := h1 []
  have h3 := h2 []
  rw [List.append_nil] at h3
  have hr : (⟨head ++ s, []⟩ : Reader).Reliable := by intro ev h; cases h
  have hb : (⟨head ++ s, []⟩ : Reader).bytes = head ++ s := by simp [Reader.bytes]
  have hraw : rawFilm C o ⟨head ++ s, []⟩ 1 = [.opened { g.view Frame.default with repetition := loopsOf loops },
      .frame (some f) { g.view f with repetition := loopsOf loops }] := by
    rw [rawFilm_gif K.safe o hr, hb]
    exact h3
  have hsane : Sane K o ⟨head ++ s, []⟩ 1 := by
    refine ⟨?_, ?_, ?_⟩ <;> rw [hraw]
    · simp
    · simp
    · intro f' hf
      simp only [rawFrames, List.mem_singleton] at hf
      rw [hf]
      exact hreg
  obtain ⟨outs, hex, hf⟩ := filmFrom_screening K o hs hce hr (List.replicate 1 .read) 1 (by decide) hsane
    (.inr (by intro a ha; exact .inr (List.eq_of_mem_replicate ha)))
  have hfilm := follows_nil (hf hr (more := []) (by simp))
  rw [filmFrom_session, hraw] at hfilm
  rw [hraw] at hex
  intro px hpx
  cases outs with
  | nil => exact hex.elim
  | cons px' outs =>
    have : px' = px := expands_det hex.1 hpx
    subst this
    simp only [screening, List.replicate_succ, List.replicate_zero, watch] at hfilm
    have hgp : ({ g.view f with repetition := loopsOf loops } : View).globalPalette = g.table := rfl
    rw [hgp] at hfilm
    unfold firstFrame at hp
    cases hdel : deliver o.colorOutput o.memoryLimit g.table f px' with
    | error e =>
      rw [hdel] at hfilm
      simp only at hfilm
      match hses : sessionFrom C o ⟨head ++ s, []⟩ [.read], hfilm with
      | [a, b], hfilm =>
        simp only [List.map_cons, List.map_nil, List.cons.injEq, Got.seen.injEq] at hfilm
        rw [hses, hfilm.1, hfilm.2.1] at hp
        cases hp
      | [], hfilm => cases hfilm
      | [_], hfilm => cases hfilm
      | _ :: _ :: _ :: _, hfilm => cases hfilm
    | ok q =>
      rw [hdel] at hfilm
      simp only at hfilm
      match hses : sessionFrom C o ⟨head ++ s, []⟩ [.read], hfilm with
      | [a, b], hfilm =>
        simp only [List.map_cons, List.map_nil, List.cons.injEq, Got.seen.injEq] at hfilm
        rw [hses, hfilm.1, hfilm.2.1] at hp
        simp only [soleFrame, Option.map_some, Option.some.injEq] at hp
        rw [hp]
      | [], hfilm => cases hfilm
      | [_], hfilm => cases hfilm
      | _ :: _ :: _ :: _, hfilm => cases hfilm

theorem seeks_reads (k : Nat) : seeks (List.replicate k .read) = k := by
  induction k with
  | zero => rfl
  | succ k ih => rw [List.replicate_succ, seeks, ih]

theorem rawFrames_roll (v : View) (fs : List Frame) (k : Nat) (w : View) :
    rawFrames (roll v fs ++ List.replicate k (.frame none w)) = fs := by
  induction fs with
  | nil =>
    simp only [roll, List.map_nil, List.nil_append]
    induction k with
    | zero => rfl
    | succ k ih =>
      rw [List.replicate_succ, rawFrames, ih]
      intro _ _ h
      cases h
  | cons f fs ih =>
    simp only [roll, List.map_cons, List.cons_append, rawFrames] at ih ⊢
    rw [ih]

/-- **C90** with pixels: the pieces are read as the frames that each of them is read as on its own. What is missing: frames without
pixels, frames with an invalid code after the last pixel, which `read_next_frame` finds only if it has to go on, and compressed data
above the memory limit. -/
theorem scenes_spliced_pixels_partial (K : C.Contract) (o : DecodeOptions) (hs : o.skipFrameDecoding = false)
    (hce : o.checkForEndCode = false) (hu : o.allowUnknownBlocks = false) {head : List UInt8} (hh : IsHead head)
    (s : List UInt8 × View × Frame × Frame) (ss : List (List UInt8 × View × Frame × Frame))
    (hx : ∀ x ∈ s :: ss, Scene C { o with skipFrameDecoding := true } head x.1 x.2.1 x.2.2.1 ∧ Regular K x.2.2.1 ∧
      (firstFrame C o (head ++ x.1)).map (·.2) = some x.2.2.2)
    {r : Reader} (hr : r.Reliable) (junk : List UInt8)
    (hb : r.bytes = head ++ ((s :: ss).map (·.1)).flatten ++ 0x3B :: junk) (k : Nat) :
    sessionFrom C o r (List.replicate ((s :: ss).length + k) .read) =
      .opened s.2.1 :: roll s.2.1 ((s :: ss).map (·.2.2.2)) ++
        List.replicate k (.frame none { s.2.1 with currentFrame := (ss.map (·.2.2.2)).getLast?.getD s.2.2.2 }) := by
  obtain ⟨g, hg⟩ := Descent.screen_head hh
  have hall : ∀ x ∈ s :: ss, Descent.Holds { o with skipFrameDecoding := true } g x.1 x.2.2.1 :=
    fun x h => Descent.scene_holds (o := { o with skipFrameDecoding := true }) K.safe rfl hu hg (hx x h).1
  have hraw := scenes_spliced K.safe { o with skipFrameDecoding := true } rfl hu hh (s.1, s.2.1, s.2.2.1)
    (ss.map fun x => (x.1, x.2.1, x.2.2.1))
    (by
      intro x h
      have h : x ∈ (s :: ss).map fun x => (x.1, x.2.1, x.2.2.1) := h
      obtain ⟨y, hy, rfl⟩ := List.mem_map.1 h
      exact (hx y hy).1) hr junk (by rw [hb]; simp [List.map_map, Function.comp_def]) k
  have hpal : s.2.1.globalPalette = g.table := by
    obtain ⟨loops, h1⟩ := Descent.gif_holds hg (hall s (by simp))
    obtain ⟨n0, _, h4⟩ := h1 []
    have h5 := (hx s (by simp)).1.shows
    rw [Descent.firstFrame_gif K.safe rfl, ← List.append_nil s.1, h4 []] at h5
    simp only [Descent.reading, soleFrame, Option.some.injEq, Prod.mk.injEq] at h5
    rw [← h5.1]
    rfl
  have hfs : ((s.1, s.2.1, s.2.2.1) :: ss.map fun x => (x.1, x.2.1, x.2.2.1)).map (·.2.2) =
      ((s :: ss).map fun x => (x.2.2.1, x.2.2.2)).map (·.1) := by
    simp [List.map_map, Function.comp_def]
  rw [hfs] at hraw
  have hlen : ((s.1, s.2.1, s.2.2.1) :: ss.map fun x => (x.1, x.2.1, x.2.2.1)).length = (s :: ss).length := by simp
  rw [hlen] at hraw
  have hraw' : rawFilm C o r ((s :: ss).length + k) = _ := hraw
  have hrf : rawFrames (rawFilm C o r ((s :: ss).length + k)) = ((s :: ss).map fun x => (x.2.2.1, x.2.2.2)).map (·.1) := by
    rw [hraw', List.cons_append, rawFrames]
    · exact rawFrames_roll _ _ _ _
    · intro _ _ h; cases h
  have hnf : ∀ e, .failed e ∉ rawFilm C o r ((s :: ss).length + k) := by
    intro e h
    rw [hraw'] at h
    simp only [roll, List.cons_append, List.mem_cons, List.mem_append, List.mem_map, List.mem_replicate] at h
    rcases h with h | ⟨_, _, h⟩ | ⟨_, h⟩ <;> cases h
  have hsane : Sane K o r ((s :: ss).length + k) := by
    refine ⟨hnf _, hnf _, ?_⟩
    intro f hf
    rw [hrf] at hf
    obtain ⟨y, hy, rfl⟩ := List.mem_map.1 hf
    obtain ⟨x, hm, rfl⟩ := List.mem_map.1 hy
    exact (hx x hm).2.1
  obtain ⟨outs, hex, hf⟩ := filmFrom_screening K o hs hce hr (List.replicate ((s :: ss).length + k) .read) _
    (Nat.le_of_eq (seeks_reads _)) hsane (.inr (by intro a ha; exact .inr (List.eq_of_mem_replicate ha)))
  have hfilm := follows_nil (hf hr (more := []) (by simp))
  rw [hrf] at hex
  rw [filmFrom_session, hraw'] at hfilm
  simp only [List.cons_append, screening] at hfilm
  have hw := watch_roll (K := K) o.colorOutput o.memoryLimit s.2.1 k ((s :: ss).map fun x => (x.2.2.1, x.2.2.2)) outs s.2.1 none hex
    (by
      intro y hy px hpx
      obtain ⟨x, hm, rfl⟩ := List.mem_map.1 hy
      rw [hpal]
      exact scene_deliver K o hs hce hg (hall x hm) (hx x hm).2.1 (hx x hm).2.2 px hpx)
    ((List.map (fun x => x.2.2) (ss.map fun x => (x.1, x.2.1, x.2.2.1))).getLast?.getD s.2.2.1)
  rw [List.length_map] at hw
  rw [hw, ← List.map_cons] at hfilm
  have hinj : ∀ (a b : List Seen), a.map Got.seen = b.map Got.seen → a = b := by
    intro a
    induction a with
    | nil => intro b h; cases b with
      | nil => rfl
      | cons _ _ => cases h
    | cons x a ih => intro b h; cases b with
      | nil => cases h
      | cons y b =>
        simp only [List.map_cons, List.cons.injEq, Got.seen.injEq] at h
        rw [h.1, ih b h.2]
  rw [hinj _ _ hfilm]
  simp only [List.map_map, List.map_cons, List.getLast?_cons, Option.getD_some]
  rfl

end Gif.Decoder
