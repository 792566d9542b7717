import Verif.Model.Access
import Verif.Props.RoundTrip
import Verif.Props.ReencodeRun
import Verif.Props.Damage
import Verif.Props.EncoderFile
/-!
# C80: the writer behind an encoder
-/

namespace Gif

open Spec Encoder

variable {C : Codec}

/-! ## Nothing depends on what was written before -/

/-- The same encoder on a writer that has accepted `pre` before all else. -/
structure Encoder.After (pre : List UInt8) (e e' : Encoder) : Prop where
  w : ∃ s, e.w = some s ∧ e'.w = some { s with written := pre ++ s.written }
  palette : e'.globalPalette = e.globalPalette

theorem writeAll_after (pre bs : List UInt8) (s : Sink) :
    W.writeAll bs { s with written := pre ++ s.written } =
      ({ (W.writeAll bs s).1 with written := pre ++ (W.writeAll bs s).1.written }, (W.writeAll bs s).2) := by
  obtain ⟨wr, plan⟩ := s
  unfold W.writeAll
  by_cases hb : bs.isEmpty = true
  · simp only [if_pos hb]
  · simp only [if_neg hb]
    cases plan with
    | nil => simp
    | cons p plan =>
      cases p with
      | none => simp
      | some p => simp

theorem runChunks_after (pre : List UInt8) : ∀ (cs : List (List UInt8)) (s : Sink),
    runChunks cs { s with written := pre ++ s.written } =
      ({ (runChunks cs s).1 with written := pre ++ (runChunks cs s).1.written }, (runChunks cs s).2)
  | [], s => rfl
  | c :: cs, s => by
    unfold runChunks W.bind
    rw [writeAll_after]
    generalize W.writeAll c s = x
    obtain ⟨s', out⟩ := x
    cases out with
    | ok a => exact runChunks_after pre cs s'
    | err e => rfl
    | panic => rfl

theorem Encoder.Does.after {α : Type} {e e' : Encoder} {res res' : Encoder × EOut α} {c : List (List UInt8)} {r : EOut α}
    {pre : List UInt8} (h : Does e res c r) (h' : Does e' res' c r) (hp : After pre e e') :
    After pre res.1 res'.1 ∧ res'.2 = res.2 := by
  obtain ⟨⟨s, hs, hs'⟩, hpal⟩ := hp
  obtain ⟨a1, a2⟩ := h.run s hs
  obtain ⟨b1, b2⟩ := h'.run _ hs'
  have hx : W.bind (runChunks c) (fun _ => W.ofOut r) { s with written := pre ++ s.written } =
      ({ (W.bind (runChunks c) (fun _ => W.ofOut r) s).1 with
        written := pre ++ (W.bind (runChunks c) (fun _ => W.ofOut r) s).1.written },
        (W.bind (runChunks c) (fun _ => W.ofOut r) s).2) := by
    unfold W.bind
    rw [runChunks_after]
    generalize runChunks c s = x
    obtain ⟨s', out⟩ := x
    cases out <;> rfl
  rw [hx] at b1 b2
  exact ⟨⟨⟨_, a1, b1⟩, by rw [h'.palette, h.palette, hpal]⟩, b2.trans a2.symm⟩

/-- A call does the same, whatever the writer accepted before. -/
theorem EncOp.run_after {pre : List UInt8} {e e' : Encoder} (op : EncOp) (h : After pre e e') :
    After pre (op.run C e).1 (op.run C e').1 ∧ (op.run C e').2 = (op.run C e).2 := by
  obtain ⟨⟨s, hs, hs'⟩, hpal⟩ := id h
  by_cases hsane : op.Sane
  · have d := does_op C e op (by simp [hs]) hsane
    have d' := does_op C e' op (by simp [hs']) hsane
    rw [hpal] at d'
    exact d.after d' h
  · cases op with
    | frame f =>
      have hn : ¬ ((f.width > 0 ∧ f.height > 0) ∨ f.buffer.isEmpty = true) := by
        intro hx
        exact hsane (hx.imp id (fun hx => List.isEmpty_iff.mp hx))
      show After pre (e.writeFrame C f).1 (e'.writeFrame C f).1 ∧ (e'.writeFrame C f).2 = (e.writeFrame C f).2
      unfold Encoder.writeFrame
      by_cases hb : f.buffer.length < f.width.toNat * f.height.toNat
      · rw [if_pos hb, if_pos hb]; exact ⟨h, rfl⟩
      · rw [if_neg hb, if_neg hb, if_pos hn, if_pos hn]; exact ⟨h, rfl⟩
    | _ => exact absurd trivial hsane

theorem runOps_after {pre : List UInt8} : ∀ (ops : List EncOp) {e e' : Encoder}, After pre e e' →
    After pre (runOps C e ops).1 (runOps C e' ops).1 ∧ (runOps C e' ops).2 = (runOps C e ops).2
  | [], _, _, h => ⟨h, rfl⟩
  | op :: ops, e, e', h => by
    obtain ⟨h1, h2⟩ := op.run_after (C := C) h
    obtain ⟨h3, h4⟩ := runOps_after ops h1
    exact ⟨h3, by simp only [runOps, h4, h2]⟩

theorem Encoder.intoInner_after (np : Bool) {pre : List UInt8} {e e' : Encoder} (h : After pre e e') :
    (∃ s, (e.intoInner np).2 = .ok s ∧ (e'.intoInner np).2 = .ok { s with written := pre ++ s.written }) ∨
    ((∀ s, (e.intoInner np).2 ≠ .ok s) ∧ (e'.intoInner np).2 = (e.intoInner np).2) := by
  obtain ⟨hd, hr⟩ := (does_writeTrailer e).after (does_writeTrailer e') h
  unfold Encoder.intoInner
  generalize e.writeTrailer = x at *
  generalize e'.writeTrailer = x' at *
  obtain ⟨e1, out⟩ := x
  obtain ⟨e1', out'⟩ := x'
  simp only at hr hd
  subst hr
  obtain ⟨⟨s, hs, hs'⟩, _⟩ := id hd
  cases out' with
  | ok a =>
    left
    refine ⟨s, ?_, ?_⟩
    · simp [hs, Encoder.drop]
    · simp [hs', Encoder.drop]
  | panic => exact .inr ⟨by simp, rfl⟩
  | err err =>
    right
    obtain ⟨hd2, hr2⟩ := (does_writeTrailer e1).after (does_writeTrailer e1') hd
    simp only [Encoder.drop, hs, hs']
    generalize e1.writeTrailer = y at *
    generalize e1'.writeTrailer = y' at *
    obtain ⟨e2, o2⟩ := y
    obtain ⟨e2', o2'⟩ := y'
    simp only at hr2
    subst hr2
    cases o2' <;> cases np <;> simp

/-! ## Access is always there -/

theorem EncOp.run_some (op : EncOp) {e : Encoder} (h : e.w ≠ none) : (op.run C e).1.w ≠ none := by
  obtain ⟨s, hs⟩ := Option.ne_none_iff_exists'.1 h
  have := (op.run_after (C := C) (pre := []) (e := e) (e' := e) ⟨⟨s, hs, by simpa using hs⟩, rfl⟩).1
  obtain ⟨⟨s', hs', _⟩, _⟩ := this
  simp [hs']

theorem EncStep.run_some (st : EncStep) {e : Encoder} (h : e.w ≠ none) : (st.run C e).1.w ≠ none := by
  cases st with
  | call op => exact op.run_some h
  | look => exact h
  | touch f =>
    obtain ⟨s, hs⟩ := Option.ne_none_iff_exists'.1 h
    simp [EncStep.run, getMut, hs]

theorem runSteps_some : ∀ (sts : List EncStep) {e : Encoder}, e.w ≠ none → (runSteps C e sts).1.w ≠ none
  | [], _, h => h
  | st :: sts, _, h => runSteps_some sts (st.run_some h)

theorem runSteps_access : ∀ (sts : List EncStep) {e : Encoder}, e.w ≠ none →
    ∀ g ∈ (runSteps C e sts).2, g ≠ .shown .panic ∧ g ≠ .touched .panic
  | [], _, _ => by simp [runSteps]
  | st :: sts, e, h => by
    intro g hg
    simp only [runSteps, List.mem_cons] at hg
    rcases hg with rfl | hg
    · obtain ⟨s, hs⟩ := Option.ne_none_iff_exists'.1 h
      cases st with
      | call op => simp [EncStep.run]
      | look => simp [EncStep.run, getRef, hs]
      | touch f => simp [EncStep.run, getMut, hs]
    · exact runSteps_access sts (st.run_some h) g hg

theorem Encoder.new_some {np : Bool} {s : Sink} {w h : UInt16} {pal : List UInt8} {e : Encoder}
    (hnew : Encoder.new np s w h pal = (e, .ok ())) : e.w ≠ none := by
  by_cases hpal : pal.length / 3 ≤ 256
  · obtain ⟨s', h1, _⟩ := new_written np hpal hnew []
    simp [h1]
  · have hc : checkColorTable pal = .err (.format .tooManyColors) := by
      unfold checkColorTable
      rw [if_pos (by omega)]
    unfold Encoder.new writeGlobalPalette at hnew
    rw [hc] at hnew
    simp only at hnew
    split at hnew <;> cases hnew

/-- **C80** Whatever a program does with an encoder and with the writer behind it (also putting another one in its place), and
however the writer fails: `get_ref` and `get_mut` do not panic. -/
theorem access_never_panics {np : Bool} {s : Sink} {w h : UInt16} {pal : List UInt8} {e : Encoder}
    (hnew : Encoder.new np s w h pal = (e, .ok ())) (steps : List EncStep) :
    ∀ g ∈ (runSteps C e steps).2, g ≠ .shown .panic ∧ g ≠ .touched .panic :=
  runSteps_access steps (new_some hnew)

/-- **C80** At any time `get_ref` shows the writer that `into_inner` would return, but for the trailer. -/
theorem get_ref_shows {np : Bool} {s : Sink} {w h : UInt16} {pal : List UInt8} {e : Encoder}
    (hnew : Encoder.new np s w h pal = (e, .ok ())) (steps : List EncStep) :
    ∃ s', (runSteps C e steps).1.getRef = .ok s' ∧
      ((∀ p ∈ s'.plan, p = none) → ∃ s'', ((runSteps C e steps).1.intoInner np).2 = .ok s'') ∧
      ∀ s'', ((runSteps C e steps).1.intoInner np).2 = .ok s'' → s''.written = s'.written ++ [0x3B] := by
  obtain ⟨s', hs'⟩ := Option.ne_none_iff_exists'.1 (runSteps_some (C := C) steps (new_some hnew))
  refine ⟨s', by simp [getRef, hs'], ?_⟩
  rcases Encoder.intoInner_either np hs' with ⟨e', s'', h1, h2⟩ | ⟨e', code, h0, h1⟩
  · rw [h1]
    exact ⟨fun _ => ⟨_, rfl⟩, fun _ hx => by cases hx; exact h2⟩
  · refine ⟨fun hw => absurd hw h0, fun _ hx => ?_⟩
    rcases h1 with h1 | ⟨_, h1⟩ <;> rw [h1] at hx <;> cases hx

/-! ## Touching the writer does not change results -/

/-- The calls among the steps. -/
def callsOf (steps : List EncStep) : List EncOp := steps.filterMap fun | .call op => some op | _ => none

/-- The results of the calls. -/
def resultsOf (gs : List EncGot) : List (EOut Unit) := gs.filterMap fun | .result r => some r | _ => none

theorem runSteps_results : ∀ (steps : List EncStep) {e e' : Encoder} {s s' : Sink}, e.w = some s → e'.w = some s' → s.Working →
    s'.Working → e.globalPalette = e'.globalPalette → (∀ op, .call op ∈ steps → op.Sane) →
    (∀ f, .touch f ∈ steps → ∀ s : Sink, s.Working → (f s).Working) →
    resultsOf (runSteps C e steps).2 = (runOps C e' (callsOf steps)).2
  | [], _, _, _, _, _, _, _, _, _, _, _ => rfl
  | st :: steps, e, e', s, s', hs, hs', hw, hw', hp, hc, hf => by
    have hc' : ∀ op, .call op ∈ steps → op.Sane := fun op h => hc op (List.mem_cons_of_mem _ h)
    have hf' : ∀ f, .touch f ∈ steps → ∀ s : Sink, s.Working → (f s).Working := fun f h => hf f (List.mem_cons_of_mem _ h)
    cases st with
    | call op =>
      have d := does_op C e op (by simp [hs]) (hc op List.mem_cons_self)
      have d' := does_op C e' op (by simp [hs']) (hc op List.mem_cons_self)
      obtain ⟨s1, a1, _, a3, a4⟩ := d.working hs hw
      obtain ⟨s2, b1, _, b3, b4⟩ := d'.working hs' hw'
      have ih := runSteps_results steps a1 b1 a3 b3 (by rw [d.palette, d'.palette, hp]) hc' hf'
      simp only [runSteps, EncStep.run, resultsOf, callsOf, List.filterMap_cons, runOps] at ih ⊢
      rw [ih, a4, b4, hp]
    | look =>
      have ih := runSteps_results steps hs hs' hw hw' hp hc' hf'
      simp only [runSteps, EncStep.run, resultsOf, callsOf, List.filterMap_cons] at ih ⊢
      exact ih
    | touch f =>
      have ih := runSteps_results steps (e := (e.getMut fun s => (f s, ())).1) (s := f s) (by simp [getMut, hs]) hs'
        (hf f List.mem_cons_self s hw) hw' (by rw [← hp]; simp [getMut, hs]) hc' hf'
      simp only [runSteps, EncStep.run, resultsOf, callsOf, List.filterMap_cons] at ih ⊢
      exact ih

/-- **C80** Whatever is done with a writer that does not fail, as long as it does not begin to fail: all calls return what they
return when nothing is done with it. -/
theorem results_despite_touch {np : Bool} {s : Sink} {w h : UInt16} {pal : List UInt8} {e : Encoder}
    (hnew : Encoder.new np s w h pal = (e, .ok ())) (hw : ∀ p ∈ s.plan, p = none) {steps : List EncStep}
    (hc : ∀ op, .call op ∈ steps → op.Sane)
    (hf : ∀ f, .touch f ∈ steps → ∀ s : Sink, (∀ p ∈ s.plan, p = none) → ∀ p ∈ (f s).plan, p = none) :
    resultsOf (runSteps C e steps).2 = (runOps C e (callsOf steps)).2 := by
  by_cases hpal : pal.length / 3 ≤ 256
  · have d := does_writeGlobalPalette s w h pal hpal
    obtain ⟨s', h1, h2, h3, h4⟩ := d.working rfl hw
    have he : e = ((fresh s w h false).writeGlobalPalette pal).1 := by
      have : Encoder.new np s w h pal = match (fresh s w h false).writeGlobalPalette pal with
        | (e, .ok ()) => (e, .ok ())
        | (e, .err err) =>
          match e.drop np with
          | (e, .panic) => (e, .panic)
          | (e, _) => (e, .err err)
        | (e, .panic) => (e, .panic) := rfl
      rw [this] at hnew
      generalize (fresh s w h false).writeGlobalPalette pal = x at *
      obtain ⟨e1, out⟩ := x
      simp only at h4
      subst h4
      cases hnew
      rfl
    rw [← he] at h1
    exact runSteps_results steps h1 h1 h3 h3 rfl hc hf
  · obtain ⟨s0, h0⟩ := Option.ne_none_iff_exists'.1 (new_some hnew)
    exact absurd hnew (by
      obtain ⟨e', s', h1, _⟩ := C30_negation np s hw w h pal (by omega)
      rw [h1]; intro h; cases h)

/-! ## Taking what was written -/

theorem takeWritten_after {e e' : Encoder} {pre : List UInt8} (h : After pre e e') :
    ∃ bs, e.takeWritten.2 = .ok bs ∧ After (pre ++ bs) e.takeWritten.1 e' := by
  obtain ⟨⟨s, hs, hs'⟩, hp⟩ := h
  refine ⟨s.written, by simp [takeWritten, getMut, hs], ⟨⟨{ s with written := [] }, by simp [takeWritten, getMut, hs], ?_⟩, ?_⟩⟩
  · rw [hs']; simp
  · rw [hp]; simp [takeWritten, getMut, hs]

theorem allOk_map {α : Type} : ∀ l : List α, allOk (l.map EOut.ok) = some l
  | [] => rfl
  | a :: l => by simp only [List.map_cons, allOk, allOk_map l, Option.map_some]

theorem runTaking_after : ∀ (ops : List EncOp) {e e' : Encoder} {pre : List UInt8}, After pre e e' →
    (runTaking C e ops).2.1 = (runOps C e' ops).2 ∧
    ∃ bss : List (List UInt8), (runTaking C e ops).2.2 = bss.map .ok ∧ After (pre ++ bss.flatten) (runTaking C e ops).1 (runOps C e' ops).1
  | [], _, _, _, h => ⟨rfl, [], rfl, by simpa [runTaking, runOps] using h⟩
  | op :: ops, e, e', pre, h => by
    obtain ⟨h1, h2⟩ := op.run_after (C := C) h
    obtain ⟨bs, h3, h4⟩ := takeWritten_after h1
    obtain ⟨h5, bss, h6, h7⟩ := runTaking_after ops h4
    refine ⟨?_, bs :: bss, ?_, ?_⟩
    · simp only [runTaking, runOps, h5, h2]
    · simp only [runTaking, h3, h6, List.map_cons]
    · simpa [runTaking, runOps] using h7

/-- **C80** A program that takes the written bytes out of the writer after each call, with any writer, whether it fails or not:
the calls return the same, and the pieces with what is left in the writer are what a program that takes nothing finds in it. -/
theorem taking_any_writer {np : Bool} {s : Sink} {w h : UInt16} {pal : List UInt8} {e : Encoder}
    (hnew : Encoder.new np s w h pal = (e, .ok ())) (ops : List EncOp) :
    (runTaking C e ops).2.1 = (runOps C e ops).2 ∧
    ∃ (bss : List (List UInt8)) (last all : Sink), (runTaking C e ops).2.2 = bss.map .ok ∧ (runTaking C e ops).1.getRef = .ok last ∧
      (runOps C e ops).1.getRef = .ok all ∧ bss.flatten ++ last.written = all.written ∧ last.plan = all.plan := by
  obtain ⟨s, hs⟩ := Option.ne_none_iff_exists'.1 (new_some hnew)
  obtain ⟨h1, bss, h2, ⟨⟨s1, h3, h4⟩, _⟩⟩ := runTaking_after (C := C) ops (e := e) (e' := e) (pre := [])
    ⟨⟨s, hs, by simpa using hs⟩, rfl⟩
  refine ⟨h1, bss, s1, { s1 with written := [] ++ bss.flatten ++ s1.written }, h2, by simp [getRef, h3], by simp only [getRef, h4], by simp, rfl⟩

/-- **C80** The pieces that such a program takes, one after the other, are the file. -/
theorem taking_file (np : Bool) (w h : UInt16) (pal : List UInt8) (ops : List EncOp) :
    (encodeTaking C np w h pal ops).1.map List.flatten = (encodeFile C np w h pal ops).1 ∧
    (encodeTaking C np w h pal ops).2 = (encodeFile C np w h pal ops).2 := by
  unfold encodeTaking encodeFile
  rcases hnew : Encoder.new np { written := [], plan := [] } w h pal with ⟨e, out⟩
  cases out with
  | ok a =>
    obtain ⟨s, hs⟩ := Option.ne_none_iff_exists'.1 (new_some hnew)
    obtain ⟨head, h1, h2⟩ := takeWritten_after (e := e) (e' := e) (pre := []) ⟨⟨s, hs, by simpa using hs⟩, rfl⟩
    rcases ht : e.takeWritten with ⟨e1, out1⟩
    rw [ht] at h1 h2
    simp only at h1 h2
    subst h1
    obtain ⟨h3, bss, h4, h5⟩ := runTaking_after (C := C) ops h2
    rcases hr : runTaking C e1 ops with ⟨e2, rs, bs⟩
    rcases hr' : runOps C e ops with ⟨e3, rs'⟩
    rw [hr, hr'] at h3 h5
    rw [hr] at h4
    simp only at h3 h4 h5
    subst h3
    simp only [ht, hr, hr', h4, allOk_map, Option.map_some]
    rcases hi : e2.intoInner np with ⟨e4, out4⟩
    rcases hi' : e3.intoInner np with ⟨e5, out5⟩
    rcases Encoder.intoInner_after np h5 with ⟨s', h6, h7⟩ | ⟨h6, h7⟩
    · rw [hi] at h6
      rw [hi'] at h7
      simp only at h6 h7
      subst h6 h7
      simp
    · rw [hi] at h6 h7
      rw [hi'] at h7
      simp only at h6 h7
      subst h7
      cases out5 with
      | ok s => exact absurd rfl (h6 s)
      | err _ => simp
      | panic => simp
  | err _ => exact ⟨rfl, rfl⟩
  | panic => exact ⟨rfl, rfl⟩

/-! ## Writing past the encoder -/

/-- The bytes that a call adds to a file, told from the file in which it is the only call. -/
def aloneBytes (C : Codec) (np : Bool) (w h : UInt16) (pal : List UInt8) (op : EncOp) : List UInt8 :=
  (((encodeFile C np w h pal [op]).1.getD []).drop (((encodeFile C np w h pal []).1.getD []).length - 1)).dropLast

/-- A step that adds to the file: a call, or a direct write of some bytes. -/
inductive Piece where
  | call (op : EncOp)
  | raw (bytes : List UInt8)

/-- The step. -/
def Piece.step : Piece → EncStep
  | .call op => .call op
  | .raw bytes => .past bytes

/-- What it adds to the file. -/
def Piece.bytes (C : Codec) (np : Bool) (w h : UInt16) (pal : List UInt8) : Piece → List UInt8
  | .call op => aloneBytes C np w h pal op
  | .raw bytes => bytes

theorem aloneBytes_eq (np : Bool) (w h : UInt16) {pal : List UInt8} (hpal : pal.length / 3 ≤ 256) {op : EncOp} (hs : op.Sane) :
    aloneBytes C np w h pal op = (opChunks C (3 ≤ pal.length) op).flatten := by
  unfold aloneBytes
  rw [encodeFile_eq C np w h pal [op] hpal (by simpa using hs), encodeFile_eq C np w h pal [] hpal (by simp), opChunks_flatten]
  simp only [Option.getD_some, File.render, List.flatMap_cons, List.flatMap_nil, List.append_nil]
  have hh : ∀ bs bs', (fileOf w h pal bs).renderHead = (fileOf w h pal bs').renderHead := fun _ _ => rfl
  rw [hh (opBlks C (decide (3 ≤ pal.length)) op) []]
  have hb : ∀ bs, (fileOf w h pal bs).blocks = bs := fun _ => rfl
  simp only [hb, renderBlks, List.flatMap_nil, List.append_nil, List.length_append, List.length_cons, List.length_nil]
  rw [List.append_assoc, List.drop_left' (by omega), List.dropLast_concat]

theorem runSteps_past (np : Bool) (w h : UInt16) {pal : List UInt8} (hpal : pal.length / 3 ≤ 256) : ∀ (ps : List Piece) {e : Encoder} {s : Sink},
    e.w = some s → s.Working → e.globalPalette = decide (3 ≤ pal.length) → (∀ op, Piece.call op ∈ ps → op.Sane) →
    ∃ s', (runSteps C e (ps.map Piece.step)).1.w = some s' ∧ s'.Working ∧
      s'.written = s.written ++ ps.flatMap (Piece.bytes C np w h pal)
  | [], e, s, hs, hw, _, _ => ⟨s, hs, hw, by simp⟩
  | p :: ps, e, s, hs, hw, hp, hc => by
    have hc' : ∀ op, Piece.call op ∈ ps → op.Sane := fun op h => hc op (List.mem_cons_of_mem _ h)
    cases p with
    | call op =>
      have hsane := hc op List.mem_cons_self
      have d := does_op C e op (by simp [hs]) hsane
      obtain ⟨s1, a1, a2, a3, a4⟩ := d.working hs hw
      obtain ⟨s2, b1, b2, b3⟩ := runSteps_past np w h hpal ps a1 a3 (by rw [d.palette, hp]) hc'
      refine ⟨s2, b1, b2, ?_⟩
      rw [b3, a2, hp, List.flatMap_cons, ← List.append_assoc, Piece.bytes, aloneBytes_eq np w h hpal hsane]
    | raw bytes =>
      obtain ⟨s1, a1, a2, a3⟩ := writeAll_working bytes s hw
      obtain ⟨s2, b1, b2, b3⟩ := runSteps_past np w h hpal ps (e := ((Piece.step (.raw bytes)).run C e).1) (s := s1)
        (by simp [Piece.step, EncStep.past, EncStep.run, getMut, hs, a1]) a3
        (by rw [← hp]; simp [Piece.step, EncStep.past, EncStep.run, getMut, hs]) hc'
      refine ⟨s2, b1, b2, ?_⟩
      rw [b3, a2, List.flatMap_cons, ← List.append_assoc, Piece.bytes]

/-- **C80** Bytes written past the encoder stand in the file where they were written, and change nothing else: the file is the file
without calls, with the bytes of the calls and the bytes written directly, one after the other, before its trailer. -/
theorem past_file (np : Bool) (w h : UInt16) {pal : List UInt8} (hpal : pal.length / 3 ≤ 256) {ps : List Piece}
    (hc : ∀ op, Piece.call op ∈ ps → op.Sane) :
    ∃ head, (encodeFile C np w h pal []).1 = some (head ++ [0x3B]) ∧
      (encodeSteps C np w h pal (ps.map Piece.step)).1 = some (head ++ ps.flatMap (Piece.bytes C np w h pal) ++ [0x3B]) := by
  refine ⟨(fileOf w h pal []).renderHead, ?_, ?_⟩
  · rw [encodeFile_eq C np w h pal [] hpal (by simp)]
    simp [File.render, renderBlks, fileOf]
  · have d := does_writeGlobalPalette { written := [], plan := [] } w h pal hpal
    have hw0 : Sink.Working { written := [], plan := [] } := by intro p hp; simp at hp
    obtain ⟨s1, a1, a2, a3, a4⟩ := d.working (s := { written := [], plan := [] }) rfl hw0
    have hnew : Encoder.new np { written := [], plan := [] } w h pal =
        (((fresh { written := [], plan := [] } w h false).writeGlobalPalette pal).1, .ok ()) := by
      have hx : (fresh { written := [], plan := [] } w h false).writeGlobalPalette pal =
          (((fresh { written := [], plan := [] } w h false).writeGlobalPalette pal).1, .ok ()) := by rw [← a4]
      unfold fresh at hx ⊢
      unfold Encoder.new
      rw [hx]
    obtain ⟨s', b1, b2, b3⟩ := new_written np hpal hnew []
    rw [a1] at b1
    cases b1
    obtain ⟨s2, c1, c2, c3⟩ := runSteps_past (C := C) np w h hpal ps a1 a3 b3 hc
    unfold encodeSteps
    rw [hnew]
    simp only
    generalize runSteps C ((fresh { written := [], plan := [] } w h false).writeGlobalPalette pal).1 (ps.map Piece.step) = x at *
    obtain ⟨e2, gs⟩ := x
    simp only at c1 ⊢
    rcases Encoder.intoInner_either np c1 with ⟨e', s'', h1, h2⟩ | ⟨e', code, h0, _⟩
    · rw [h1]
      simp only [h2, c3, b2, List.nil_append]
    · exact absurd c2 h0

theorem subsOf_small {b : List UInt8} (h1 : 1 ≤ b.length) (h2 : b.length ≤ 255) : subsOf b = [b] := by
  have : (b.length + 254) / 255 = 1 := by omega
  unfold subsOf
  rw [this, cut, cut, List.take_of_length_le h2]

/-- **C80** An extension can as well be written past the encoder: its introducer, its label, and its sub-blocks, each behind a byte
with its length, and a zero, make the same file as `write_raw_extension`. -/
theorem past_extension (np : Bool) (w h : UInt16) {pal : List UInt8} (hpal : pal.length / 3 ≤ 256) {before after : List Piece}
    (hb : ∀ op, Piece.call op ∈ before → op.Sane) (ha : ∀ op, Piece.call op ∈ after → op.Sane) (label : UInt8)
    {subs : List (List UInt8)} (hsub : ∀ b ∈ subs, 1 ≤ b.length ∧ b.length ≤ 255) :
    (encodeSteps C np w h pal ((before ++ .raw ([0x21, label] ++ subs.flatMap (fun b => UInt8.ofNat b.length :: b) ++ [0]) :: after).map
      Piece.step)).1 =
    (encodeSteps C np w h pal ((before ++ .call (.rawExtension label subs) :: after).map Piece.step)).1 ∧
    ∃ file, (encodeSteps C np w h pal ((before ++ .call (.rawExtension label subs) :: after).map Piece.step)).1 = some file := by
  have hc : ∀ (p : Piece), (∀ op, p = .call op → op.Sane) → ∀ op, Piece.call op ∈ before ++ p :: after → op.Sane := by
    intro p hp op hop
    rcases List.mem_append.mp hop with h | h
    · exact hb op h
    · rcases List.mem_cons.mp h with h | h
      · exact hp op h.symm
      · exact ha op h
  obtain ⟨head, h1, h2⟩ := past_file (C := C) np w h hpal (hc (.call (.rawExtension label subs)) (by rintro op ⟨⟩; trivial))
  obtain ⟨head', h1', h2'⟩ := past_file (C := C) np w h hpal
    (hc (.raw ([0x21, label] ++ subs.flatMap (fun b => UInt8.ofNat b.length :: b) ++ [0])) (by rintro op ⟨⟩))
  have hh : head' = head := by
    rw [h1] at h1'
    simpa using h1'.symm
  subst hh
  refine ⟨?_, _, h2⟩
  rw [h2, h2']
  have he : aloneBytes C np w h pal (.rawExtension label subs) =
      [0x21, label] ++ subs.flatMap (fun b => UInt8.ofNat b.length :: b) ++ [0] := by
    have hs : subs.flatMap subsOf = subs := by
      clear h2 h2' hc
      induction subs with
      | nil => rfl
      | cons b subs ih =>
        rw [List.flatMap_cons, ih (fun b hb => hsub b (List.mem_cons_of_mem _ hb)),
          subsOf_small (hsub b List.mem_cons_self).1 (hsub b List.mem_cons_self).2]
        rfl
    rw [aloneBytes_eq np w h hpal (op := .rawExtension label subs) trivial, opChunks, rawExtChunks_flatten, hs]
    simp [Blk.render, renderSubs]
  simp only [List.flatMap_append, List.flatMap_cons, Piece.bytes, he]

/-- Calls alone make the file of `encodeFile`. -/
theorem steps_calls (np : Bool) (w h : UInt16) {pal : List UInt8} (ops : List EncOp) :
    (encodeSteps C np w h pal (ops.map .call)).1 = (encodeFile C np w h pal ops).1 := by
  have hr : ∀ (ops : List EncOp) (e : Encoder), (runSteps C e (ops.map .call)).1 = (runOps C e ops).1 := by
    intro ops
    induction ops with
    | nil => intro e; rfl
    | cons op ops ih =>
      intro e
      simp only [List.map_cons, runSteps, EncStep.run, runOps]
      exact ih _
  unfold encodeSteps encodeFile
  generalize Encoder.new np { written := [], plan := [] } w h pal = z
  obtain ⟨e, out⟩ := z
  cases out with
  | ok a =>
    have := hr ops e
    simp only
    generalize runSteps C e (ops.map .call) = x at *
    generalize runOps C e ops = y at *
    obtain ⟨e1, _⟩ := x
    obtain ⟨e2, _⟩ := y
    simp only at this
    subst this
    simp only
    generalize e1.intoInner np = z
    obtain ⟨_, out⟩ := z
    cases out <;> rfl
  | err _ => rfl
  | panic => rfl

/-- **C80** Why "it is inadvisable to directly write to the underlying writer": a trailer written past the encoder hides all that
is written after it, though the calls go on to succeed. The file is the one without the later calls, and some bytes that no
decoder takes for part of it. -/
theorem past_trailer (np : Bool) (w h : UInt16) {pal : List UInt8} (hpal : pal.length / 3 ≤ 256) {ops : List EncOp}
    (ho : ∀ op ∈ ops, op.Sane) {after : List Piece} (ha : ∀ op, Piece.call op ∈ after → op.Sane) :
    ∃ file junk, (encodeFile C np w h pal ops).1 = some file ∧
      (encodeSteps C np w h pal ((ops.map Piece.call ++ .raw [0x3B] :: after).map Piece.step)).1 = some (file ++ junk) ∧
      junk = after.flatMap (Piece.bytes C np w h pal) ++ [0x3B] := by
  have hs0 : ∀ op, Piece.call op ∈ ops.map Piece.call → op.Sane := by
    intro op hop
    obtain ⟨op', h1, h2⟩ := List.mem_map.mp hop
    cases h2
    exact ho op h1
  obtain ⟨head, h1, h2⟩ := past_file (C := C) np w h hpal hs0
  obtain ⟨head', h1', h2'⟩ := past_file (C := C) np w h hpal (ps := ops.map Piece.call ++ .raw [0x3B] :: after) (by
    intro op hop
    rcases List.mem_append.mp hop with h | h
    · exact hs0 op h
    · rcases List.mem_cons.mp h with h | h
      · cases h
      · exact ha op h)
  have hh : head' = head := by
    rw [h1] at h1'
    simpa using h1'.symm
  subst hh
  have hm : (ops.map Piece.call).map Piece.step = ops.map .call := by
    rw [List.map_map]; rfl
  rw [hm, steps_calls] at h2
  refine ⟨_, _, h2, ?_, rfl⟩
  rw [h2']
  simp [Piece.bytes]

/-- **C80** What a decoder reads from such a file: the frames written before the trailer, and no others. -/
theorem past_trailer_hides (K : C.Contract) {o : DecodeOptions} (np : Bool) {w h : UInt16} {pal : List UInt8}
    (hpal : pal.length / 3 ≤ 256) {ops : List EncOp} (hsane : ∀ op ∈ ops, op.Sane) (hpl : ∀ op ∈ ops, Plain o op)
    {after : List Piece} (ha : ∀ op, Piece.call op ∈ after → op.Sane) {file rs}
    (henc : encodeFile C np w h pal ops = (some file, rs))
    (had : ∀ op ∈ written ops rs, Admissible C o w h op)
    (hld : ∀ op ∈ written ops rs, Held C o op) (hne : (encodeFile C np w h pal []).1 ≠ some file)
    {r : Reader} (hr : r.Reliable)
    (hb : (encodeSteps C np w h pal ((ops.map Piece.call ++ .raw [0x3B] :: after).map Piece.step)).1 = some r.bytes) (k : Nat) :
    Decoder.rawFilm C o r ((written ops rs).length + k) =
      projection w h pal (repetitions ops rs (.finite 0)) ((written ops rs).map fun op => readRaw (compressed C op)) k := by
  obtain ⟨file', junk, h1, h2, _⟩ := past_trailer (C := C) np w h hpal hsane ha
  rw [henc] at h1
  cases h1
  rw [h2] at hb
  exact roundtrip_raw K np hpal hsane hpl henc had hld hne hr (Option.some.inj hb).symm k

end Gif
