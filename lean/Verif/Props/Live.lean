import Verif.Lemmas.Resume
import Verif.Props.Ahead
import Verif.Props.RoundTrip
import Verif.Props.Damage
/-!
# Following a file while it is being written

A program that writes an animation into one end of a pipe and a program that reads frames from the other end. Whenever the
reading program has caught up with the writing one, its reader reports the end of the file or an error; it then calls
`read_next_frame` again. It gets every frame exactly once.
-/

namespace Gif.Live

variable {C : Codec}

open Decoder

/-- Nothing but a header and frames. -/
def Smooth (l : List Seen) : Prop := ∀ x ∈ l, (∀ e, x ≠ .failed e) ∧ x ≠ .crashed

/-! ## Waiting -/

theorem waitRead_ok {n : Nat} {d d' : Decoder C} {f : Option Frame} (h : d.readNextFrame = (d', .ok f)) :
    d.waitRead n = (d', .ok f) := by
  cases n with
  | zero => exact h
  | succ n => unfold waitRead; rw [h]

theorem waitRead_pause {n : Nat} {d d' : Decoder C} {ev : ReadEv} (h : d.readNextFrame = (d', .err ev.failure)) :
    d.waitRead (n + 1) = d'.waitRead n := by
  rw [waitRead, h]
  cases ev <;> rfl

theorem waitRead_congr {n : Nat} {d e : Decoder C} (h : d.readNextFrame = e.readNextFrame) : d.waitRead n = e.waitRead n := by
  cases n with
  | zero => exact h
  | succ n => rw [waitRead, waitRead, h]

theorem waitRead_more : ∀ {n : Nat} {d d' : Decoder C} {f : Option Frame}, d.waitRead n = (d', .ok f) →
    d.waitRead (n + 1) = (d', .ok f)
  | 0, d, d', f, h => waitRead_ok h
  | n + 1, d, d', f, h => by
    rw [waitRead] at h ⊢
    generalize hx : d.readNextFrame = x at *
    obtain ⟨d1, out⟩ := x
    split at h
    · rename_i he; cases he; exact waitRead_more h
    · rename_i he; cases he; exact waitRead_more h
    · cases h; rfl

/-- In this state the decoder returns what it has, and then comes to the end of its reader between two frames. -/
def Calm : Nat → Decoder C → Prop
  | 0, _ => True
  | k + 1, d => (∃ d' f, d.readNextFrame = (d', .ok f) ∧ Calm k d') ∨ d.nextFrameInfo.2 = .ioErr .unexpectedEof

theorem follow_pause (hS : C.Safe) {ev : ReadEv} (hev : ev.gave = false) (B : List ReadEv) (N : Nat) : ∀ (k : Nat) (d : Decoder C)
    (T : List Seen), d.Inv → d.rd.reader.Reliable → Calm k d → Smooth T →
    (∀ n, N ≤ n → follow n k (d.ahead B) = T) → ∀ n, N ≤ n → follow (n + 1) k (d.ahead (ev :: B)) = T
  | 0, d, T, _, _, _, _, h, n, hn => by rw [← h n hn]; rfl
  | k + 1, d, T, hi, hr, hc, hT, h, n, hn => by
    rcases hc with ⟨d', f, hok, hc⟩ | heof
    · have hi' : d'.Inv := by have := (readNextFrame_spec hS d hi).1; rwa [hok] at this
      have hr' : d'.rd.reader.Reliable := by
        have := (readNextFrame_left d).reliable hr
        rwa [hok] at this
      have key : ∀ m B', follow m (k + 1) (d.ahead B') = .frame f d'.view :: follow m k (d'.ahead B') := by
        intro m B'
        rw [follow, waitRead_ok (readNextFrame_ahead B' hok (Outcome.here_ok _))]
        rfl
      have h0 := h N (Nat.le_refl _)
      rw [key] at h0
      rw [key, ← h0]
      congr 1
      refine follow_pause hS hev B N k d' _ hi' hr' hc ?_ ?_ n hn
      · intro x hx
        refine hT x ?_
        rw [← h0]
        exact List.mem_cons_of_mem _ hx
      · intro m hm
        have := h m hm
        rw [key, ← h0, List.cons.injEq] at this
        exact this.2
    · obtain ⟨e, he⟩ : ∃ e, d.nextFrameInfo = (e, .ioErr .unexpectedEof) := ⟨_, Prod.ext rfl heof⟩
      obtain ⟨r1, r2⟩ := read_resume hS hev B hi hr he
      have h1 : (d.ahead (ev :: B)).waitRead (n + 1) = (d.ahead B).waitRead n := by
        rw [waitRead_pause r1, waitRead_congr r2]
      have h0 := h n hn
      have h2 := h (n + 1) (by omega)
      rw [follow] at h0 h2 ⊢
      rw [h1]
      match hw : (d.ahead B).waitRead n with
      | (d2, .ok f) =>
        rw [waitRead_more hw] at h2
        exact h2
      | (d2, .err e) =>
        rw [hw] at h0
        exact absurd rfl ((hT (.failed e) (by rw [← h0]; simp)).1 e)
      | (d2, .panic) =>
        rw [hw] at h0
        exact absurd rfl ((hT .crashed (by rw [← h0]; simp)).2)
      | (d2, .diverge) =>
        rw [hw] at h0
        exact absurd rfl ((hT .crashed (by rw [← h0]; simp)).2)

theorem follow_session (n : Nat) : ∀ (k : Nat) (d : Decoder C), Smooth (session (List.replicate k .read) d) →
    follow n k d = session (List.replicate k .read) d
  | 0, _, _ => rfl
  | k + 1, d, h => by
    rw [List.replicate_succ, session] at h ⊢
    unfold see at h ⊢
    rw [follow]
    match hx : d.readNextFrame with
    | (d', .ok f) =>
      rw [hx] at h
      rw [waitRead_ok hx]
      simp only at h ⊢
      rw [follow_session n k d' (fun x hx => h x (List.mem_cons_of_mem _ hx))]
    | (d', .err e) =>
      rw [hx] at h
      exact absurd rfl ((h (.failed e) (by simp)).1 e)
    | (d', .panic) =>
      rw [hx] at h
      exact absurd rfl ((h .crashed (by simp)).2)
    | (d', .diverge) =>
      rw [hx] at h
      exact absurd rfl ((h .crashed (by simp)).2)

/-- The same for a program that opens the file. -/
def Calms (C : Codec) (o : DecodeOptions) (r : Reader) : Prop := ∃ d, readInfo C o r = (d, .ok ()) ∧ ∀ k, Calm k d

/-! ## Removing the pauses one by one -/

theorem first_pause : ∀ (src : List ReadEv), (∀ ev ∈ src, ev.gave = true) ∨
    ∃ pre ev post, src = pre ++ ev :: post ∧ ev.gave = false ∧ ∀ ev ∈ pre, ev.gave = true
  | [] => .inl (by simp)
  | ev :: src => by
    cases hev : ev.gave with
    | false => exact .inr ⟨[], ev, src, rfl, hev, by simp⟩
    | true =>
      rcases first_pause src with h | ⟨pre, p, post, rfl, h1, h2⟩
      · exact .inl (by simpa [hev] using h)
      · exact .inr ⟨ev :: pre, p, post, rfl, h1, by simpa [hev] using h2⟩

theorem reliable_of_gave {r : Reader} (h : ∀ ev ∈ r.src, ev.gave = true) : r.Reliable := by
  intro ev hev
  have := h ev hev
  cases ev with
  | data bs => exact ⟨bs, rfl, by rintro rfl; cases this⟩
  | err c => cases this

theorem bytes_pause {ev : ReadEv} (h : ev.gave = false) (buf : List UInt8) (a b : List ReadEv) :
    Reader.bytes ⟨buf, a ++ ev :: b⟩ = Reader.bytes ⟨buf, a ++ b⟩ := by
  cases ev with
  | data bs =>
    cases bs with
    | nil => simp [Reader.bytes]
    | cons => cases h
  | err c => simp [Reader.bytes]

theorem pauses_drop {ev : ReadEv} (h : ev.gave = false) (buf : List UInt8) (a b : List ReadEv) :
    Reader.pauses ⟨buf, a ++ ev :: b⟩ = Reader.pauses ⟨buf, a ++ b⟩ + 1 := by
  simp [Reader.pauses, h]
  omega

theorem inStep_drop {stops : List UInt8 → Prop} {ev : ReadEv} (h : ev.gave = false) {buf : List UInt8} {a b : List ReadEv}
    (ha : ∀ ev ∈ a, ev.gave = true) (hs : Reader.InStep ⟨buf, a ++ ev :: b⟩ stops) : Reader.InStep ⟨buf, a ++ b⟩ stops := by
  intro pre p post he hp
  simp only at he
  rcases List.append_eq_append_iff.mp he with ⟨c, h1, h2⟩ | ⟨c, h1, h2⟩
  · subst h1
    subst h2
    have := hs (a ++ ev :: c) p post (by simp) hp
    rwa [bytes_pause h] at this
  · cases c with
    | nil =>
      simp only [List.append_nil] at h1
      simp only [List.nil_append] at h2
      subst h1
      subst h2
      have := hs (a ++ [ev]) p post (by simp) hp
      rw [bytes_pause h] at this
      simpa using this
    | cons x c =>
      simp only [List.cons_append, List.cons.injEq] at h2
      obtain ⟨rfl, _⟩ := h2
      have := ha p (by rw [h1]; simp)
      rw [hp] at this; cases this

theorem follow_core (hS : C.Safe) {o : DecodeOptions} {stops : List UInt8 → Prop} {all : List UInt8} {k : Nat} {T : List Seen}
    (hT : Smooth T) (hall : ∀ r : Reader, r.Reliable → r.bytes = all → sessionFrom C o r (List.replicate k .read) = T)
    (hstop : ∀ r : Reader, r.Reliable → stops r.bytes → Calms C o r) : ∀ (p : Nat) (r : Reader), r.pauses = p → r.bytes = all →
    r.InStep stops → ∀ n, p ≤ n → followFrom C o r n k = T := by
  intro p
  induction p with
  | zero =>
    intro r hp hb hs n _
    have hr : r.Reliable := by
      apply reliable_of_gave
      intro ev hev
      cases hg : ev.gave with
      | true => rfl
      | false =>
        have : ev ∈ r.src.filter fun ev => !ev.gave := List.mem_filter.mpr ⟨hev, by simp [hg]⟩
        unfold Reader.pauses at hp
        rw [List.length_eq_zero_iff.mp hp] at this
        cases this
    have h0 := hall r hr hb
    have h1 := hT
    rw [← h0] at h1 ⊢
    unfold sessionFrom at h1 ⊢
    unfold followFrom
    match hx : readInfo C o r with
    | (d, .ok ()) =>
      rw [hx] at h1
      simp only
      rw [follow_session n k d (fun x hx => h1 x (List.mem_cons_of_mem _ hx))]
    | (d, .err e) => rfl
    | (d, .panic) => rfl
    | (d, .diverge) => rfl
  | succ p ih =>
    intro r hp hb hs n hn
    obtain ⟨buf, src⟩ := r
    rcases first_pause src with h | ⟨pre, ev, post, rfl, hev, hpre⟩
    · have : Reader.pauses ⟨buf, src⟩ = 0 := by
        unfold Reader.pauses
        rw [List.length_eq_zero_iff, List.filter_eq_nil_iff]
        intro ev hev
        simp [h ev hev]
      omega
    · obtain ⟨m, rfl⟩ : ∃ m, n = m + 1 := ⟨n - 1, by omega⟩
      have hr0 : Reader.Reliable ⟨buf, pre⟩ := reliable_of_gave hpre
      obtain ⟨d, h1, h2⟩ := hstop ⟨buf, pre⟩ hr0 (hs pre ev post rfl hev)
      have ih' := ih ⟨buf, pre ++ post⟩ (by have := pauses_drop hev buf pre post; omega) (by rw [← hb, bytes_pause hev])
        (inStep_drop hev hpre hs)
      have hi : d.Inv := by have := (inv_readInfo (C := C) hS o ⟨buf, pre⟩).1; rwa [h1] at this
      have hr : d.rd.reader.Reliable := by
        have := (readInfo_left (C := C) o ⟨buf, pre⟩).reliable hr0
        rwa [h1] at this
      have key : ∀ B m, followFrom C o ⟨buf, pre ++ B⟩ m k = .opened d.view :: follow m k (d.ahead B) := by
        intro B m
        unfold followFrom
        have := readInfo_ahead B h1 (Outcome.here_ok _)
        rw [show (⟨buf, pre ++ B⟩ : Reader) = Reader.ahead B ⟨buf, pre⟩ from rfl, this]
        rfl
      have h0 := ih' p (Nat.le_refl _)
      rw [key] at h0
      rw [key, ← h0]
      congr 1
      refine follow_pause hS hev post p k d _ hi hr (h2 k) ?_ ?_ m (by omega)
      · intro x hx
        exact hT x (by rw [← h0]; exact List.mem_cons_of_mem _ hx)
      · intro m hm
        have := ih' m hm
        rw [key, ← h0, List.cons.injEq] at this
        exact this.2

/-! ## Between two frames -/

theorem calm_eof : ∀ (k : Nat) {d : Decoder C}, d.rd.atEof = true → Calm k d
  | 0, _, _ => trivial
  | k + 1, d, h => .inl ⟨d, none, by unfold readNextFrame; rw [atEof_info h], calm_eof k h⟩

theorem calm_session (hS : C.Safe) (ext : List ReadEv) {v : View} : ∀ (m : Nat) (d : Decoder C), d.Inv →
    Smooth (session (List.replicate m .read) d) →
    session (List.replicate (m + 1) .read) (d.ahead ext) = session (List.replicate m .read) d ++ [.frame none v] → ∀ k, Calm k d
  | 0, d, hi, _, h, 0 => trivial
  | m + 1, d, hi, _, h, 0 => trivial
  | 0, d, hi, _, h, k + 1 => by
    have hn : (d.ahead ext).readNextFrame.2 = .ok none := by
      rw [List.replicate_succ, session] at h
      unfold see at h
      generalize (d.ahead ext).readNextFrame = x at *
      obtain ⟨d', out⟩ := x
      cases out with
      | ok f => simp [session] at h; simp [h.1]
      | _ => simp [session] at h
    have hret := (inv_nextFrameInfo hS d hi).2
    match hx : d.nextFrameInfo with
    | (d', .ok true) =>
      exfalso
      unfold readNextFrame at hn
      rw [nextFrameInfo_ahead ext hx (Outcome.here_ok _)] at hn
      simp only at hn
      split at hn
      · split at hn <;> simp at hn
      · split at hn <;> simp at hn
    | (d', .ok false) =>
      refine .inl ⟨d', none, by unfold readNextFrame; rw [hx], ?_⟩
      have h1 := (readNextFrame_spec hS d hi).2.2.2.2.2.2
      have h2 : d.readNextFrame = (d', .ok none) := by unfold readNextFrame; rw [hx]
      rw [h2] at h1
      exact calm_eof k (h1 rfl).1
    | (d', .err e) =>
      right
      by_cases he : e = .io .unexpectedEof
      · rw [hx, he]
      · exfalso
        unfold readNextFrame at hn
        rw [nextFrameInfo_ahead ext hx ⟨by simp, by simpa using he⟩] at hn
        simp at hn
    | (d', .panic) => rw [hx] at hret; cases hret
    | (d', .diverge) => rw [hx] at hret; cases hret
  | m + 1, d, hi, hs, h, k + 1 => by
    rw [List.replicate_succ (n := m + 1), session] at h
    rw [List.replicate_succ, session] at h hs
    unfold see at h hs
    match hx : d.readNextFrame with
    | (d', .ok f) =>
      rw [readNextFrame_ahead ext hx (Outcome.here_ok _)] at h
      rw [hx] at h hs
      simp only [List.cons_append, List.cons.injEq] at h hs
      have hi' : d'.Inv := by have := (readNextFrame_spec hS d hi).1; rwa [hx] at this
      exact .inl ⟨d', f, hx, calm_session hS ext m d' hi' (fun x hx => hs x (List.mem_cons_of_mem _ hx)) h.2 k⟩
    | (d', .err e) =>
      rw [hx] at hs
      exact absurd rfl ((hs (.failed e) (by simp)).1 e)
    | (d', .panic) =>
      rw [hx] at hs
      exact absurd rfl ((hs .crashed (by simp)).2)
    | (d', .diverge) =>
      rw [hx] at hs
      exact absurd rfl ((hs .crashed (by simp)).2)

theorem calms_of (hS : C.Safe) {o : DecodeOptions} {r : Reader} {ext : List ReadEv} {m : Nat} {T : List Seen} {v : View}
    (hT : Smooth T) (h1 : sessionFrom C o r (List.replicate m .read) = T)
    (h2 : sessionFrom C o (r.ahead ext) (List.replicate (m + 1) .read) = T ++ [.frame none v]) : Calms C o r := by
  rw [← h1] at hT h2
  unfold sessionFrom at hT h2
  match hx : readInfo C o r with
  | (d, .ok ()) =>
    have hi : d.Inv := by have := (inv_readInfo (C := C) hS o r).1; rwa [hx] at this
    rw [readInfo_ahead ext hx (Outcome.here_ok _), hx] at h2
    rw [hx] at hT
    simp only [List.cons_append, List.cons.injEq] at h2 hT
    exact ⟨d, hx, calm_session hS ext m d hi (fun x hx => hT x (List.mem_cons_of_mem _ hx)) h2.2⟩
  | (d, .err e) =>
    rw [hx] at hT
    exact absurd rfl ((hT (.failed e) (by simp)).1 e)
  | (d, .panic) =>
    rw [hx] at hT
    exact absurd rfl ((hT .crashed (by simp)).2)
  | (d, .diverge) =>
    rw [hx] at hT
    exact absurd rfl ((hT .crashed (by simp)).2)

theorem calm_all : ∀ (k : Nat) (d : Decoder C), Smooth (session (List.replicate k .read) d) → Calm k d
  | 0, _, _ => trivial
  | k + 1, d, h => by
    rw [List.replicate_succ, session] at h
    unfold see at h
    match hx : d.readNextFrame with
    | (d', .ok f) =>
      rw [hx] at h
      exact .inl ⟨d', f, hx, calm_all k d' (fun x hx => h x (List.mem_cons_of_mem _ hx))⟩
    | (d', .err e) =>
      rw [hx] at h
      exact absurd rfl ((h (.failed e) (by simp)).1 e)
    | (d', .panic) =>
      rw [hx] at h
      exact absurd rfl ((h .crashed (by simp)).2)
    | (d', .diverge) =>
      rw [hx] at h
      exact absurd rfl ((h .crashed (by simp)).2)

theorem calms_all {o : DecodeOptions} {r : Reader} (m : Nat) (h : ∀ k, Smooth (sessionFrom C o r (List.replicate (m + k) .read))) :
    Calms C o r := by
  unfold sessionFrom at h
  match hx : readInfo C o r with
  | (d, .ok ()) =>
    rw [hx] at h
    refine ⟨d, hx, fun k => ?_⟩
    have := calm_all (m + k) d (fun x hx => h k x (List.mem_cons_of_mem _ hx))
    have mono : ∀ (m k : Nat) (d : Decoder C), Calm (m + k) d → Calm m d := by
      intro m
      induction m with
      | zero => intro k d _; trivial
      | succ m ih =>
        intro k d hc
        rw [Nat.succ_add] at hc
        rcases hc with ⟨d', f, h1, h2⟩ | h1
        · exact .inl ⟨d', f, h1, ih k d' h2⟩
        · exact .inr h1
    exact mono k m d (by rw [Nat.add_comm]; exact this)
  | (d, .err e) =>
    have := h 0
    rw [hx] at this
    exact absurd rfl ((this (.failed e) (by simp)).1 e)
  | (d, .panic) =>
    have := h 0
    rw [hx] at this
    exact absurd rfl ((this .crashed (by simp)).2)
  | (d, .diverge) =>
    have := h 0
    rw [hx] at this
    exact absurd rfl ((this .crashed (by simp)).2)

theorem smooth_play (g : Spec.File) (fs : List Frame) (k : Nat) : Smooth (g.screenplay fs k) := by
  intro x hx
  simp only [Spec.File.screenplay, List.cons_append, List.mem_cons, List.mem_append, List.mem_map, List.mem_replicate] at hx
  rcases hx with rfl | ⟨f, _, rfl⟩ | ⟨_, rfl⟩ <;> simp

theorem play_more (g : Spec.File) (fs : List Frame) : g.screenplay fs 1 =
    g.screenplay fs 0 ++ [.frame none (g.view (fs.getLast?.getD Frame.default))] := by
  simp [Spec.File.screenplay]

/-! ## The beginning of a file -/

open Spec

theorem skippable_take {o : DecodeOptions} : ∀ (bs : List Blk) (i : Nat) (label : UInt8) (n : Nat),
    Skippable o label n bs → Skippable o label n (bs.take i)
  | _, 0, _, _, _ => by rw [List.take_zero]; trivial
  | [], i + 1, _, _, _ => trivial
  | .control _ :: bs, i + 1, _, _, h => skippable_take bs i _ _ h
  | .ext _ _ :: bs, i + 1, _, _, h => skippable_take bs i _ _ h
  | .image _ :: bs, i + 1, _, _, h => skippable_take bs i _ _ h
  | .unknown _ _ :: bs, i + 1, _, _, h => ⟨h.1, h.2.1, h.2.2.1, skippable_take bs i _ _ h.2.2.2⟩

theorem frames_take : ∀ (bs : List Blk) (i : Nat) (c : Graphic), frames c (bs.take i) <+: frames c bs
  | _, 0, _ => by rw [List.take_zero]; exact List.nil_prefix
  | [], i + 1, _ => List.prefix_rfl
  | .control _ :: bs, i + 1, _ => frames_take bs i _
  | .ext _ _ :: bs, i + 1, _ => frames_take bs i _
  | .image _ :: bs, i + 1, _ => List.prefix_cons_inj _ |>.mpr (frames_take bs i _)
  | .unknown _ _ :: bs, i + 1, _ => frames_take bs i _

/-- The first `i` blocks of a file. -/
def upTo (g : File) (i : Nat) : File := { g with blocks := g.blocks.take i }

theorem upTo_readable {o : DecodeOptions} {g : File} (hg : g.Readable o) {i : Nat} (hne : (upTo g i).frames ≠ []) :
    (upTo g i).Readable o := by
  obtain ⟨h1, h2, h3, h4⟩ := hg.ok
  refine ⟨⟨h1, h2, h3, fun b hb => h4 b (List.mem_of_mem_take hb)⟩, ?_, fun b hb => hg.fits b (List.mem_of_mem_take hb),
    skippable_take _ _ _ _ hg.skips⟩
  intro hn
  apply hne
  unfold File.frames
  rw [hn]
  rfl

theorem upTo_shows (K : C.Contract) {o : DecodeOptions} {g : File} (i : Nat) {pxs : List (List UInt8)}
    (hpx : g.ShowAll K o g.frames pxs) : (upTo g i).ShowAll K o (upTo g i).frames (pxs.take (upTo g i).frames.length) := by
  have key : ∀ (xs ys : List (Graphic × Image)) (pxs : List (List UInt8)), xs <+: ys → g.ShowAll K o ys pxs →
      (upTo g i).ShowAll K o xs (pxs.take xs.length) := by
    intro xs
    induction xs with
    | nil => intro ys pxs _ _; rw [List.length_nil, List.take_zero]; trivial
    | cons x xs ih =>
      intro ys pxs hp h
      cases ys with
      | nil => simp at hp
      | cons y ys =>
        obtain ⟨rfl, hp'⟩ := List.cons_prefix_cons.mp hp
        cases pxs with
        | nil => exact h.elim
        | cons px pxs => exact ⟨h.1, ih ys pxs hp' h.2⟩
  exact key _ _ _ (frames_take _ _ _) hpx

/-- The places of a file between two frames: after some of its blocks, with at least one image among them; and after its end. -/
def Between (g : File) (got : List UInt8) : Prop :=
  (∃ i, (upTo g i).frames ≠ [] ∧ got = g.renderHead ++ renderBlks (g.blocks.take i)) ∨ g.render <+: got

theorem calms_between (K : C.Contract) {o : DecodeOptions} (hs : o.skipFrameDecoding = false)
    (hce : o.checkForEndCode = false) {g : File} (hg : g.Readable o) {pxs : List (List UInt8)}
    (hpx : g.ShowAll K o g.frames pxs) {r : Reader} (hr : r.Reliable) (hb : Between g r.bytes) : Calms C o r := by
  rcases hb with ⟨i, hne, hb⟩ | ⟨junk, hb⟩
  · have hg' := upTo_readable hg hne
    have hpx' := upTo_shows K i hpx
    have hr2 : (r.ahead [.data [0x3B]]).Reliable := by
      intro ev hev
      rcases List.mem_append.mp hev with h | h
      · exact hr ev h
      · simp only [List.mem_singleton] at h; exact ⟨_, h, by simp⟩
    refine calms_of K.safe (smooth_play _ _ 0) (ext := [.data [0x3B]])
      (damage_frames K hs hce hg' hne hpx' (rest := []) hr ?_)
      ((grammar_frames_partial K hs hce hg' hpx' (junk := []) hr2 ?_ 1).trans (play_more _ _))
    · rw [hb, List.append_nil]; rfl
    · have : (r.ahead [.data [0x3B]]).bytes = r.bytes ++ [0x3B] := by simp [Reader.bytes, Reader.ahead]
      rw [this, hb, List.append_nil]; rfl
  · refine calms_all g.frames.length fun k => ?_
    rw [grammar_frames_partial K hs hce hg hpx hr hb.symm k]
    exact smooth_play _ _ k

/-- **C93** A reader that has bytes missing only between two frames: a program that repeats `read_next_frame` gets what it would
have got from the whole file. -/
theorem follow_file (K : C.Contract) {o : DecodeOptions} (hs : o.skipFrameDecoding = false)
    (hce : o.checkForEndCode = false) {g : File} (hg : g.Readable o) {pxs : List (List UInt8)}
    (hpx : g.ShowAll K o g.frames pxs) {junk : List UInt8} {r : Reader} (hstep : r.InStep (Between g))
    (hb : r.bytes = g.render ++ junk) (k n : Nat) (hn : r.pauses ≤ n) :
    followFrom C o r n (g.frames.length + k) = g.screenplay (g.pictures o.colorOutput pxs) k :=
  follow_core K.safe (smooth_play _ _ _) (fun _ hr hb => grammar_frames_partial K hs hce hg hpx hr hb k)
    (fun _ hr h => calms_between K hs hce hg hpx hr h) _ r rfl hb hstep n hn

theorem calms_between_raw (hS : C.Safe) {o : DecodeOptions} {g : File} (hg : g.Readable o)
    (hacc : ∀ x ∈ g.frames, g.verdict o x.2 = none) {r : Reader} (hr : r.Reliable) (hb : Between g r.bytes) :
    Calms C { o with skipFrameDecoding := true } r := by
  rcases hb with ⟨i, hne, hb⟩ | ⟨junk, hb⟩
  · have hg' := upTo_readable hg hne
    have hacc' : ∀ x ∈ (upTo g i).frames, (upTo g i).verdict o x.2 = none :=
      fun x hx => hacc x ((frames_take g.blocks i .default).subset hx)
    have hr2 : (r.ahead [.data [0x3B]]).Reliable := by
      intro ev hev
      rcases List.mem_append.mp hev with h | h
      · exact hr ev h
      · simp only [List.mem_singleton] at h; exact ⟨_, h, by simp⟩
    refine calms_of hS (smooth_play _ _ 0) (ext := [.data [0x3B]])
      (damage_raw hS hg' hne hacc' (rest := []) hr ?_)
      ((grammar_raw_frames hS hg' hacc' (junk := []) hr2 ?_ 1).trans (play_more _ _))
    · rw [hb, List.append_nil]; rfl
    · have : (r.ahead [.data [0x3B]]).bytes = r.bytes ++ [0x3B] := by simp [Reader.bytes, Reader.ahead]
      rw [this, hb, List.append_nil]; rfl
  · refine calms_all g.frames.length fun k => ?_
    have := grammar_raw_frames hS hg hacc hr hb.symm k
    unfold rawFilm at this
    rw [this]
    exact smooth_play _ _ k

/-- **C93** The same with `skip_frame_decoding`, for the compressed data. -/
theorem follow_raw (hS : C.Safe) {o : DecodeOptions} {g : File} (hg : g.Readable o)
    (hacc : ∀ x ∈ g.frames, g.verdict o x.2 = none) {junk : List UInt8} {r : Reader} (hstep : r.InStep (Between g))
    (hb : r.bytes = g.render ++ junk) (k n : Nat) (hn : r.pauses ≤ n) :
    followFrom C { o with skipFrameDecoding := true } r n (g.frames.length + k) = g.screenplay (g.frames.map rawFrame) k :=
  follow_core hS (smooth_play _ _ _) (fun _ hr hb => grammar_raw_frames hS hg hacc hr hb k)
    (fun _ hr h => calms_between_raw hS hg hacc hr h) _ r rfl hb hstep n hn

/-! ## The encoder at the other end -/

theorem sent_eq (np : Bool) {w h : UInt16} {pal : List UInt8} (hpal : pal.length / 3 ≤ 256) {ops : List EncOp}
    (hsane : ∀ op ∈ ops, op.Sane) :
    sentBy C np w h pal ops = some ((madeFile C w h pal ops).renderHead ++ renderBlks (madeFile C w h pal ops).blocks) := by
  have d := Encoder.does_writeGlobalPalette { written := [], plan := [] } w h pal hpal
  have hw0 : Sink.Working { written := [], plan := [] } := by intro p hp; simp at hp
  obtain ⟨s1, a1, a2, a3, a4⟩ := d.working (s := { written := [], plan := [] }) rfl hw0
  have hp := d.palette
  unfold sentBy
  have hnew : Encoder.new np { written := [], plan := [] } w h pal =
      (((Encoder.fresh { written := [], plan := [] } w h false).writeGlobalPalette pal).1, .ok ()) := by
    have hx : (Encoder.fresh { written := [], plan := [] } w h false).writeGlobalPalette pal =
        (((Encoder.fresh { written := [], plan := [] } w h false).writeGlobalPalette pal).1, .ok ()) := by rw [← a4]
    unfold Encoder.fresh at hx ⊢
    unfold Encoder.new
    rw [hx]
  rw [hnew]
  generalize ((Encoder.fresh { written := [], plan := [] } w h false).writeGlobalPalette pal).1 = e at *
  obtain ⟨s2, b1, b2, b3, b4⟩ := runOps_working C ops e s1 a1 a3 hsane
  simp only
  rw [b1, Option.map_some, b3, a2, hp, headerChunks_flatten w h pal hpal (ops.flatMap (opBlks C (3 ≤ pal.length)))]
  rfl

theorem take_results {g : Bool} (ops : List EncOp) (j : Nat) : (ops.map (opResult g)).take j = (ops.take j).map (opResult g) := by
  rw [List.map_take]

theorem made_upTo (w h : UInt16) (pal : List UInt8) (ops : List EncOp) (j : Nat) :
    ∃ i, upTo (madeFile C w h pal ops) i = madeFile C w h pal (ops.take j) := by
  refine ⟨((ops.take j).flatMap (opBlks C (3 ≤ pal.length))).length, ?_⟩
  have : (ops.flatMap (opBlks C (3 ≤ pal.length))).take ((ops.take j).flatMap (opBlks C (3 ≤ pal.length))).length =
      (ops.take j).flatMap (opBlks C (3 ≤ pal.length)) := by
    conv => lhs; arg 2; rw [← List.take_append_drop j ops]
    rw [List.flatMap_append]
    exact List.take_left
  exact congrArg (fileOf w h pal) this

/-- The reader of a pipe, whenever it has nothing to give: what has come through is what the encoder had written after one of
the calls, and a frame was among them; or it is the file. -/
def Caught (C : Codec) (np : Bool) (w h : UInt16) (pal : List UInt8) (ops : List EncOp) (rs : List (EOut Unit)) (file : List UInt8)
    (got : List UInt8) : Prop :=
  (∃ j, written (ops.take j) (rs.take j) ≠ [] ∧ sentBy C np w h pal (ops.take j) = some got) ∨ file <+: got

/-- **C93** A program that follows an encoder: it gets each frame that the encoder accepted exactly once, in order, with its
pixels, however often it finds nothing to read between two calls of the encoder. -/
theorem follow_encoder (K : C.Contract) {o : DecodeOptions} (hs : o.skipFrameDecoding = false) (hce : o.checkForEndCode = false)
    (np : Bool) {w h : UInt16} {pal : List UInt8}
    (hpal : pal.length / 3 ≤ 256) {ops : List EncOp} (hsane : ∀ op ∈ ops, op.Sane) (hpl : ∀ op ∈ ops, Plain o op)
    {file : List UInt8} {rs : List (EOut Unit)} (henc : encodeFile C np w h pal ops = (some file, rs))
    (had : ∀ op ∈ written ops rs, Admissible C o w h op) (hne : (encodeFile C np w h pal []).1 ≠ some file) {pxs : List (List UInt8)}
    (hc : Contents K o (written ops rs) pxs) {junk : List UInt8} {r : Reader}
    (hstep : r.InStep (Caught C np w h pal ops rs file)) (hb : r.bytes = file ++ junk) (k n : Nat) (hn : r.pauses ≤ n) :
    followFrom C o r n ((written ops rs).length + k) =
      projection w h pal (repetitions ops rs (.finite 0))
        (List.zipWith (fun op px => readBack o.colorOutput pal (compressed C op) px) (written ops rs) pxs) k := by
  refine follow_core K.safe ?_ (fun r hr hb => roundtrip_pixels K hs hce np hpal hsane hpl henc had hne hc hr hb k)
    (fun r hr hgot => ?_) _ r rfl hb hstep n hn
  · intro x hx
    simp only [projection, List.cons_append, List.mem_cons, List.mem_append, List.mem_map, List.mem_replicate] at hx
    rcases hx with rfl | ⟨f, _, rfl⟩ | ⟨_, rfl⟩ <;> simp
  · have henc' := encodeFile_eq C np w h pal ops hpal hsane
    rw [henc] at henc'
    simp only [Prod.mk.injEq, Option.some.injEq] at henc'
    obtain ⟨rfl, rfl⟩ := henc'
    have hfr := made_frames (C := C) w h pal ops
    have hrd := made_readable K (h := h) hpal hpl had (made_blocks np hpal hne)
    have hshow := contents_show K (pal := pal) (all := ops) _ _ (fun op hop => by
      obtain ⟨_, m2, m3⟩ := written_mem _ ops op hop
      exact ⟨m2, m3, had op hop⟩) hc
    rw [← hfr] at hshow
    refine calms_between K hs hce hrd hshow hr ?_
    rcases hgot with ⟨j, h1, h2⟩ | hgot
    · left
      obtain ⟨i, hi⟩ := made_upTo (C := C) w h pal ops j
      rw [take_results] at h1
      rw [sent_eq np hpal (fun op ho => hsane op (List.mem_of_mem_take ho)), Option.some.injEq] at h2
      refine ⟨i, ?_, ?_⟩
      · rw [hi, made_frames]; simpa using h1
      · rw [← h2, ← hi]; rfl
    · exact .inr hgot

/-- **C93** The frames are there at once: when the encoder has returned from some calls and the reader has what was written, the
frames accepted so far can be read, without a further `read` call. -/
theorem follow_at_once (K : C.Contract) {o : DecodeOptions} (hs : o.skipFrameDecoding = false) (hce : o.checkForEndCode = false)
    (np : Bool) {w h : UInt16} {pal : List UInt8}
    (hpal : pal.length / 3 ≤ 256) {ops : List EncOp} (hsane : ∀ op ∈ ops, op.Sane) (hpl : ∀ op ∈ ops, Plain o op)
    {sent : List UInt8} {file : Option (List UInt8)} {rs : List (EOut Unit)} (hsent : sentBy C np w h pal ops = some sent)
    (henc : encodeFile C np w h pal ops = (file, rs))
    (had : ∀ op ∈ written ops rs, Admissible C o w h op) (hne : written ops rs ≠ []) {pxs : List (List UInt8)}
    (hc : Contents K o (written ops rs) pxs) {rest : List UInt8} {r : Reader} (hr : r.Reliable) (hb : r.bytes = sent ++ rest)
    (later : List ReadEv) :
    sessionFrom C o { r with src := r.src ++ later } (List.replicate (written ops rs).length .read) =
      projection w h pal (repetitions ops rs (.finite 0))
        (List.zipWith (fun op px => readBack o.colorOutput pal (compressed C op) px) (written ops rs) pxs) 0 ∧
    later <:+ (afterReads (written ops rs).length (readInfo C o { r with src := r.src ++ later }).1).intoInner.src := by
  rw [sent_eq np hpal hsane, Option.some.injEq] at hsent
  have henc' := encodeFile_eq C np w h pal ops hpal hsane
  rw [henc] at henc'
  simp only [Prod.mk.injEq] at henc'
  obtain ⟨rfl, rfl⟩ := henc'
  have hch := made_changed (C := C) np hpal hsane henc hne
  have hfr := made_frames (C := C) w h pal ops
  have hrd := made_readable K (h := h) hpal hpl had (made_blocks np hpal hch)
  have hshow := contents_show K (pal := pal) (all := ops) _ _ (fun op hop => by
    obtain ⟨_, m2, m3⟩ := written_mem _ ops op hop
    exact ⟨m2, m3, had op hop⟩) hc
  rw [← hfr] at hshow
  have hlen : (madeFile C w h pal ops).frames.length = (written ops (ops.map (opResult (3 ≤ pal.length)))).length := by
    rw [hfr, List.length_map]
  have h1 := prompt_frames K hs hce hrd (by rw [hfr]; simpa using hne) hshow hr (rest := rest) (by rw [hb, ← hsent]) later
  have h2 := grammar_frames_partial (C := C) K hs hce hrd hshow (Reader.whole_reliable _) (junk := [])
    (by rw [Reader.whole_bytes, List.append_nil]) 0
  rw [Nat.add_zero] at h2
  have h3 := roundtrip_pixels K hs hce np hpal hsane hpl henc had hch hc (Reader.whole_reliable _) (junk := [])
    (by rw [Reader.whole_bytes, List.append_nil]) 0
  rw [← h2, hlen] at h1
  exact ⟨h1.1.trans h3, h1.2⟩

end Gif.Live
