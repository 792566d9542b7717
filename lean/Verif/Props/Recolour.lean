import Verif.Props.Alike
import Verif.Spec.Recolour
/-!
# C105: where the colours are stored makes no difference
-/

namespace Gif.Recolour

open Spec Spec.Descent Decoder Gif.Remark Gif.Alike

/-! ## From raw frames to pixels -/

/-- What two calls showed is the same but for colour tables, and the colours that apply to a frame are the same if they matter. -/
inductive ShownOne (c : ColorOutput) : Seen → Seen → Prop
  | opened {v v' : View} (hv : fadeView v = fadeView v') : ShownOne c (.opened v) (.opened v')
  | info {v v' : View} (x : Bool) (hv : fadeView v = fadeView v') : ShownOne c (.info x v) (.info x v')
  | none {v v' : View} (hv : fadeView v = fadeView v') : ShownOne c (.frame none v) (.frame none v')
  | frame {v v' : View} {f f' : Frame} (hf : fadeFrame f = fadeFrame f') (hv : fadeView v = fadeView v')
      (hp : c = .rgba → paletteOf v.globalPalette f = paletteOf v'.globalPalette f') : ShownOne c (.frame (some f) v) (.frame (some f') v')
  | failed (e : DecodingError) : ShownOne c (.failed e) (.failed e)

/-- The same for all calls. -/
inductive Shown (c : ColorOutput) : List Seen → List Seen → Prop
  | nil : Shown c [] []
  | cons {x y : Seen} {a b : List Seen} (h : ShownOne c x y) (ht : Shown c a b) : Shown c (x :: a) (y :: b)

theorem shown_one {c : ColorOutput} {x y : Seen} (h : ShownOne c x y) : fadeSeen x = fadeSeen y := by
  cases h with
  | opened hv => simp only [fadeSeen, hv]
  | info x hv => simp only [fadeSeen, hv]
  | none hv => simp only [fadeSeen, hv, Option.map_none]
  | frame hf hv hp => simp only [fadeSeen, hv, hf, Option.map_some]
  | failed e => rfl

theorem shown_fade {c : ColorOutput} {a b : List Seen} (h : Shown c a b) : a.map fadeSeen = b.map fadeSeen := by
  induction h with
  | nil => rfl
  | cons h ht ih => simp only [List.map_cons, shown_one h, ih]

theorem fade_view {v v' : View} {f f' : Frame} (hv : fadeView v = fadeView v') (hf : fadeFrame f = fadeFrame f') :
    fadeView { v with currentFrame := f } = fadeView { v' with currentFrame := f' } := by
  have : v.repetition = v'.repetition := (show (fadeView v).repetition = (fadeView v').repetition by rw [hv])
  simp only [fadeView, this, hf]

theorem fade_current {v v' : View} (hv : fadeView v = fadeView v') : fadeFrame v.currentFrame = fadeFrame v'.currentFrame :=
  show (fadeView v).currentFrame = (fadeView v').currentFrame by rw [hv]

theorem fade_bare {f f' : Frame} (hf : fadeFrame f = fadeFrame f') : fadeFrame (bare f) = fadeFrame (bare f') :=
  show bare (fadeFrame f) = bare (fadeFrame f') by rw [hf]

theorem colours_same {c : ColorOutput} {p p' : List UInt8} (h : c = .rgba → p = p') (t : Option UInt8) (l : List UInt8) :
    colours c p t l = colours c p' t l := by
  cases c with
  | indexed => rfl
  | rgba => rw [h rfl]

theorem picture_same {c : ColorOutput} {g g' : Option (List UInt8)} {f f' : Frame} (hf : fadeFrame f = fadeFrame f')
    (h : c = .rgba → paletteOf g f = paletteOf g' f') (px : List UInt8) : picture c g f px = picture c g' f' px := by
  have h1 : f.transparent = f'.transparent := (show (fadeFrame f).transparent = (fadeFrame f').transparent by rw [hf])
  have h2 : f.interlaced = f'.interlaced := (show (fadeFrame f).interlaced = (fadeFrame f').interlaced by rw [hf])
  have h3 : f.width = f'.width := (show (fadeFrame f).width = (fadeFrame f').width by rw [hf])
  have h4 : f.height = f'.height := (show (fadeFrame f).height = (fadeFrame f').height by rw [hf])
  unfold picture pixelOrder
  rw [h1, h2, h3, h4, colours_same h]

theorem shown_same {c : ColorOutput} {g g' : Option (List UInt8)} {f f' : Frame} (hf : fadeFrame f = fadeFrame f')
    (h : c = .rgba → paletteOf g f = paletteOf g' f') (px : List UInt8) : fadeFrame (shown c g f px) = fadeFrame (shown c g' f' px) := by
  unfold shown
  rw [picture_same hf h]
  generalize picture c g' f' px = l
  exact congrArg (fun f : Frame => ({ f with buffer := l, ownedCap := some l.length, interlaced := false } : Frame)) hf

theorem deliver_same {c : ColorOutput} {limit : MemoryLimit} {g g' : Option (List UInt8)} {f f' : Frame} (hf : fadeFrame f = fadeFrame f')
    (h : c = .rgba → paletteOf g f = paletteOf g' f') (px : Pixels) :
    Both (fun a b => fadeFrame a = fadeFrame b) (deliver c limit g f px) (deliver c limit g' f' px) := by
  have h3 : f.width = f'.width := (show (fadeFrame f).width = (fadeFrame f').width by rw [hf])
  have h4 : f.height = f'.height := (show (fadeFrame f).height = (fadeFrame f').height by rw [hf])
  unfold deliver
  rw [h3, h4]
  split
  · rfl
  · split
    · rfl
    · split
      · rfl
      · exact shown_same hf h _

theorem watch_shown (c : ColorOutput) (limit : MemoryLimit) : ∀ (acts : List Act) (v v' : View) (live : Option (List UInt8)) (raw raw' : List Seen)
    (outs : List Pixels), fadeView v = fadeView v' →
    (live ≠ none → c = .rgba → paletteOf v.globalPalette v.currentFrame = paletteOf v'.globalPalette v'.currentFrame) → Shown c raw raw' →
    (watch c limit acts v live raw outs).map fadeGot = (watch c limit acts v' live raw' outs).map fadeGot := by
  intro acts
  induction acts with
  | nil => intros; simp only [watch]
  | cons a acts ih =>
    intro v v' live raw raw' outs hv hl hs
    cases a with
    | info =>
      cases hs with
      | nil => simp only [watch]
      | cons h ht =>
        cases h with
        | opened h => simp only [watch]
        | info x h => simp only [watch]
        | failed e => simp only [watch]
        | none h =>
          have := fade_view h (fade_current hv)
          simp only [watch, List.map_cons, fadeGot, fadeSeen, this]
          rw [ih _ _ _ _ _ _ this (fun h => absurd rfl h) ht]
        | frame hf h hp =>
          cases outs with
          | nil => simp only [watch]
          | cons px outs =>
            have := fade_view h (fade_bare hf)
            simp only [watch, List.map_cons, fadeGot, fadeSeen, this]
            rw [ih _ _ _ _ _ _ this (fun _ => hp) ht]
    | read =>
      cases hs with
      | nil => simp only [watch]
      | cons h ht =>
        cases h with
        | opened h => simp only [watch]
        | info x h => simp only [watch]
        | failed e => simp only [watch]
        | none h =>
          have := fade_view h (fade_current hv)
          simp only [watch, List.map_cons, fadeGot, fadeSeen, this, Option.map_none]
          rw [ih _ _ _ _ _ _ this (fun h => absurd rfl h) ht]
        | @frame v0 v0' f f' hf h hp =>
          cases outs with
          | nil => simp only [watch]
          | cons px outs =>
            have hd := deliver_same (limit := limit) hf hp px
            simp only [watch]
            generalize deliver c limit v0.globalPalette f px = x at *
            generalize deliver c limit v0'.globalPalette f' px = y at *
            match x, y, hd with
            | .error e, .error _, rfl => rfl
            | .ok g, .ok g', hg =>
              have hg : fadeFrame g = fadeFrame g' := hg
              have := fade_view h hg
              simp only [List.map_cons, fadeGot, fadeSeen, this, Option.map_some, hg]
              rw [ih _ _ _ _ _ _ this (fun h => absurd rfl h) ht]
    | fill n =>
      cases live with
      | none =>
        simp only [watch]
        exact ih _ _ _ _ _ _ hv hl hs
      | some px =>
        have ht : v.currentFrame.transparent = v'.currentFrame.transparent :=
          (show (fadeFrame v.currentFrame).transparent = (fadeFrame v'.currentFrame).transparent by rw [fade_current hv])
        have hcol := fun l => colours_same (hl (by simp)) v'.currentFrame.transparent l
        simp only [watch]
        split
        · simp only [List.map_cons, fadeGot, ht, hcol]
          rw [ih _ _ _ _ _ _ hv (fun _ => hl (by simp)) hs]
        · simp only [List.map_cons, fadeGot, ht, hcol]
          rw [ih _ _ _ _ _ _ hv (fun h => absurd rfl h) hs]
    | into =>
      cases live with
      | none =>
        simp only [watch]
        exact ih _ _ _ _ _ _ hv hl hs
      | some px =>
        have hf := fade_current hv
        have h3 : v.currentFrame.width = v'.currentFrame.width := (show (fadeFrame v.currentFrame).width = (fadeFrame v'.currentFrame).width by rw [hf])
        have h4 : v.currentFrame.height = v'.currentFrame.height := (show (fadeFrame v.currentFrame).height = (fadeFrame v'.currentFrame).height by rw [hf])
        simp only [watch, h3, h4]
        split
        · simp only [List.map_cons, fadeGot, picture_same hf (hl (by simp))]
          rw [ih _ _ _ _ _ _ hv (fun _ => hl (by simp)) hs]
        · rfl

theorem frames_shown {c : ColorOutput} {a b : List Seen} (h : Shown c a b) : (rawFrames a).map fadeFrame = (rawFrames b).map fadeFrame := by
  induction h with
  | nil => rfl
  | cons h ht ih =>
    cases h with
    | opened h => simp only [rawFrames]; exact ih
    | info x h => simp only [rawFrames]; exact ih
    | none h => simp only [rawFrames]; exact ih
    | frame hf h hp => simp only [rawFrames, List.map_cons, hf, ih]
    | failed e => simp only [rawFrames]; exact ih

theorem failed_shown {c : ColorOutput} {e : DecodingError} {a b : List Seen} (h : Shown c a b) (hb : .failed e ∈ b) : .failed e ∈ a := by
  induction h with
  | nil => cases hb
  | cons h ht ih =>
    rcases List.mem_cons.1 hb with hb | hb
    · subst hb
      cases h
      exact List.mem_cons_self
    · exact List.mem_cons_of_mem _ (ih hb)

theorem expand_shown {C : Codec} (K : C.Contract) : ∀ {fs gs : List Frame} {outs : List Pixels}, fs.map fadeFrame = gs.map fadeFrame →
    ExpandAll K fs outs → ExpandAll K gs outs
  | [], [], _, _, h => h
  | f :: fs, g :: gs, px :: outs, h, ⟨hx, hr⟩ => by
    simp only [List.map_cons, List.cons.injEq] at h
    have h1 : f.buffer = g.buffer := (show (fadeFrame f).buffer = (fadeFrame g).buffer by rw [h.1])
    have h3 : f.width = g.width := (show (fadeFrame f).width = (fadeFrame g).width by rw [h.1])
    have h4 : f.height = g.height := (show (fadeFrame f).height = (fadeFrame g).height by rw [h.1])
    refine ⟨?_, expand_shown K h.2 hr⟩
    unfold Expands at hx ⊢
    rw [← h1, ← h3, ← h4]
    exact hx
  | [], _ :: _, _, h, _ => by cases h
  | _ :: _, [], _, h, _ => by cases h

theorem film_shown {C : Codec} (K : C.Contract) {o : DecodeOptions} (hs : o.skipFrameDecoding = false) (hce : o.checkForEndCode = false)
    {r1 r2 : Reader} (hr1 : r1.Reliable) (hr2 : r2.Reliable) (acts : List Act)
    (h : Shown o.colorOutput (rawFilm C o r1 (Spec.seeks acts)) (rawFilm C o r2 (Spec.seeks acts)))
    (hsane : Sane K o r1 (Spec.seeks acts)) (hok : Spec.Gentle K acts (rawFrames (rawFilm C o r1 (Spec.seeks acts)))) :
    (filmFrom C o r1 acts).map fadeGot = (filmFrom C o r2 acts).map fadeGot := by
  have hbad : ∀ e, .failed e ∈ rawFilm C o r1 (Spec.seeks acts) → e ≠ .io .unexpectedEof ∧ e ≠ .format .memoryLimit :=
    fun e he => ⟨fun h => hsane.whole (h ▸ he), fun h => hsane.small (h ▸ he)⟩
  obtain ⟨outs, hex⟩ := Spec.expand_all K _ (rawFilm_buffer K.safe o r1 _) hsane.regular
  have hok' := hok.imp (Spec.expand_all_valid K _ _ hex) id
  have f1 := follows_nil (filmFrom_watch K o hs hce hr1 hr1 (by simp) acts _ (Nat.le_refl _) outs hbad hex hok')
  have f2 := follows_nil (filmFrom_watch K o hs hce hr2 hr2 (by simp) acts _ (Nat.le_refl _) outs
    (fun e he => hbad e (failed_shown h he)) (expand_shown K (frames_shown h) hex) hok')
  rw [f1, f2]
  generalize rawFilm C o r1 (Spec.seeks acts) = x at h
  generalize rawFilm C o r2 (Spec.seeks acts) = y at h
  have hmap : ∀ l : List Seen, (l.map Got.seen).map fadeGot = (l.map fadeSeen).map Got.seen := fun l => by
    rw [List.map_map, List.map_map]; rfl
  have hall := shown_fade h
  cases h with
  | nil => rfl
  | cons h ht =>
    cases h with
    | opened hv =>
      simp only [List.map_cons, fadeGot, fadeSeen, hv]
      rw [watch_shown _ _ _ _ _ _ _ _ _ hv (fun h => absurd rfl h) ht]
    | info x hv => simp only [hmap]; rw [hall]
    | none hv => simp only [hmap]; rw [hall]
    | frame hf hv hp => simp only [hmap]; rw [hall]
    | failed e => simp only [hmap]; rw [hall]

/-! ## From bytes to raw frames -/

variable {o : DecodeOptions} {c : ColorOutput} {T T' : Option (List UInt8)}

/-- Corresponding blocks and then the same bytes, which begin with the trailer, or nothing. -/
inductive Rest (c : ColorOutput) (T T' : Option (List UInt8)) : List UInt8 → List UInt8 → Prop
  | nil : Rest c T T' [] []
  | trailer (l : List UInt8) : Rest c T T' (0x3B :: l) (0x3B :: l)
  | more {x y a b : List UInt8} (h : Recoloured c T T' x y) (ht : Rest c T T' a b) : Rest c T T' (x ++ a) (y ++ b)

/-- After the introducer of an image. -/
inductive After (c : ColorOutput) (T T' : Option (List UInt8)) : List UInt8 → List UInt8 → Prop
  | image {a b place colours colours' : List UInt8} {p p' k len : UInt8} {D d : List UInt8} (hl : place.length = 8)
      (hc : colours.length = (if 128 ≤ p.toNat then 3 * 2 ^ (p.toNat % 8 + 1) else 0))
      (hc' : colours'.length = (if 128 ≤ p'.toNat then 3 * 2 ^ (p'.toNat % 8 + 1) else 0))
      (hi : p.toNat / 64 % 2 = p'.toNat / 64 % 2)
      (hs : (applies T p colours).isSome = (applies T' p' colours').isSome)
      (he : c = .rgba → applies T p colours = applies T' p' colours') (h : SubBlocks len D d) (ht : Rest c T T' a b) :
      After c T T' (place ++ p :: (colours ++ k :: len :: (D ++ a))) (place ++ p' :: (colours' ++ k :: len :: (D ++ b)))

def Sought (c : ColorOutput) (T T' : Option (List UInt8)) : Option (Notes × List UInt8) → Option (Notes × List UInt8) → Prop
  | none, none => True
  | some (n, l), some (n', l') => n.graphic = n'.graphic ∧ After c T T' l l'
  | _, _ => False

theorem seek_rest {a b : List UInt8} (h : Rest c T T' a b) :
    ∀ (f1 f2 : Nat) (n n' : Notes), a.length < f1 → b.length < f2 → n.graphic = n'.graphic →
    Both (Sought c T T') (seek o f1 n a) (seek o f2 n' b) := by
  induction h with
  | nil =>
    intro f1 f2 n n' h1 h2 hn
    match f1, f2, h1, h2 with
    | f1 + 1, f2 + 1, h1, h2 => rfl
  | trailer l =>
    intro f1 f2 n n' h1 h2 hn
    match f1, f2, h1, h2 with
    | f1 + 1, f2 + 1, h1, h2 =>
      rw [seek, if_pos rfl, seek, if_pos rfl]
      trivial
  | @more x y a b h ht ih =>
    intro f1 f2 n n' h1 h2 hn
    match f1, f2, h1, h2 with
    | f1 + 1, f2 + 1, h1, h2 =>
      cases h with
      | @extension label len D d h =>
        simp only [List.cons_append, List.length_cons, List.length_append] at h1 h2 ⊢
        rw [seek, if_neg (by decide), if_neg (by decide), if_pos rfl, seek, if_neg (by decide), if_neg (by decide), if_pos rfl,
          extension_same hn.symm]
        rcases extension_step (limit := o.memoryLimit) (label := label) h n with ⟨e, he⟩ | ⟨n1, he⟩
        · rw [he, he]; rfl
        · rw [he, he]
          exact ih _ _ _ _ (by omega) (by omega) rfl
      | image hl hc hc' hi hs he h =>
        simp only [List.cons_append, List.append_assoc]
        rw [seek, if_neg (by decide), if_pos rfl, seek, if_neg (by decide), if_pos rfl]
        exact ⟨hn, .image hl hc hc' hi hs he h ht⟩

/-- Two images that look the same. -/
structure Looks (c : ColorOutput) (T T' : Option (List UInt8)) (i i' : Image) : Prop where
  frame : ∀ gr, fadeFrame (headFrame (gr, i)) = fadeFrame (headFrame (gr, i'))
  code : i.minCode = i'.minCode
  some : (i.table <|> T).isSome = (i'.table <|> T').isSome
  same : c = .rgba → (i.table <|> T) = (i'.table <|> T')

inductive InData (c : ColorOutput) (T T' : Option (List UInt8)) (len : UInt8) : List UInt8 → List UInt8 → Prop
  | mk {a b D d : List UInt8} (h : SubBlocks len D d) (ht : Rest c T T' a b) : InData c T T' len (D ++ a) (D ++ b)

/-- The two screens. -/
structure Screens (o : DecodeOptions) (g g' : File) : Prop where
  size : o.checkFrameConsistency = false ∨ (g.width = g'.width ∧ g.height = g'.height)

def Headed (c : ColorOutput) (T T' : Option (List UInt8)) (x y : Image × UInt8 × List UInt8) : Prop :=
  Looks c T T' x.1 y.1 ∧ x.2.1 = y.2.1 ∧ InData c T T' x.2.1 x.2.2 y.2.2

theorem table_applies (T : Option (List UInt8)) (p : UInt8) (colours : List UInt8) :
    ((if 128 ≤ p.toNat then some colours else none) <|> T) = applies T p colours := by
  unfold applies
  split <;> rfl

theorem head_rest {g g' : File} (hg : Screens o g g') {a b : List UInt8} (h : After c T T' a b) :
    Both (Headed c T T') (imageHead o g a) (imageHead o g' b) := by
  cases h with
  | @image a b place colours colours' p p' k len D d hl hc hc' hi hs he h ht =>
    match place, hl with
    | [l0, l1, t0, t1, w0, w1, h0, h1], _ =>
      simp only [List.cons_append, List.nil_append, imageHead, table_exact hc, table_exact hc', File.Contains]
      have hcond : (o.checkFrameConsistency = true ∧ ¬ ((number l0 l1).toNat + (number w0 w1).toNat ≤ g.width.toNat ∧
          (number t0 t1).toNat + (number h0 h1).toNat ≤ g.height.toNat)) ↔
          (o.checkFrameConsistency = true ∧ ¬ ((number l0 l1).toNat + (number w0 w1).toNat ≤ g'.width.toNat ∧
          (number t0 t1).toNat + (number h0 h1).toNat ≤ g'.height.toNat)) := by
        rcases hg.size with h | ⟨h1, h2⟩
        · simp [h]
        · rw [h1, h2]
      by_cases hcc : (o.checkFrameConsistency = true ∧ ¬ ((number l0 l1).toNat + (number w0 w1).toNat ≤ g.width.toNat ∧
          (number t0 t1).toNat + (number h0 h1).toNat ≤ g.height.toNat))
      · rw [if_pos hcc, if_pos (hcond.1 hcc)]; rfl
      · rw [if_neg hcc, if_neg (fun h => hcc (hcond.2 h))]
        split
        · rfl
        · refine ⟨⟨fun gr => ?_, rfl, ?_, fun hr => ?_⟩, rfl, .mk h ht⟩
          · simp only [headFrame, fadeFrame, hi]
          · show ((if 128 ≤ p.toNat then some colours else none) <|> T).isSome = ((if 128 ≤ p'.toNat then some colours' else none) <|> T').isSome
            rw [table_applies, table_applies, hs]
          · show ((if 128 ≤ p.toNat then some colours else none) <|> T) = ((if 128 ≤ p'.toNat then some colours' else none) <|> T')
            rw [table_applies, table_applies, he hr]

def Nexted (c : ColorOutput) (T T' : Option (List UInt8)) :
    Option (Notes × Image × UInt8 × List UInt8) → Option (Notes × Image × UInt8 × List UInt8) → Prop
  | none, none => True
  | some (n, i, len, l), some (n', i', len', l') => n.graphic = n'.graphic ∧ Looks c T T' i i' ∧ len = len' ∧ InData c T T' len l l'
  | _, _ => False

theorem none_iff (i : Option (List UInt8)) : (i = none ∧ T = none) ↔ (i <|> T).isSome = false := by
  cases i <;> cases T <;> simp

theorem next_rest {g g' : File} (hg : Screens o g g') {a b : List UInt8} (h : Rest c g.table g'.table a b) {n n' : Notes}
    (hn : n.graphic = n'.graphic) : Both (Nexted c g.table g'.table) (next o g n a) (next o g' n' b) := by
  have hs := seek_rest (o := o) h (a.length + 1) (b.length + 1) n n' (Nat.lt_succ_self _) (Nat.lt_succ_self _) hn
  unfold next
  generalize seek o (a.length + 1) n a = x at *
  generalize seek o (b.length + 1) n' b = y at *
  match x, y, hs with
  | .error e, .error _, rfl => rfl
  | .ok none, .ok none, _ => trivial
  | .ok (some (m, l)), .ok (some (m', l')), ⟨h1, h2⟩ =>
    have hh := head_rest hg h2
    simp only
    generalize imageHead o g l = x at *
    generalize imageHead o g' l' = y at *
    match x, y, hh with
    | .error e, .error _, rfl => rfl
    | .ok (i, len, l), .ok (i', len', l'), ⟨q1, q2, q3⟩ =>
      simp only at q1 q2 q3
      subst q2
      have hiff : (i.table = none ∧ g.table = none) ↔ (i'.table = none ∧ g'.table = none) := by
        rw [none_iff, none_iff, q1.some]
      by_cases hc : i.table = none ∧ g.table = none
      · simp only [if_pos hc, if_pos (hiff.1 hc)]; rfl
      · simp only [if_neg hc, if_neg (fun h => hc (hiff.2 h))]
        exact ⟨h1, q1, rfl, q3⟩

inductive At (c : ColorOutput) (T T' : Option (List UInt8)) : Pos → Pos → Prop
  | block {n n' : Notes} {a b : List UInt8} (hn : n.graphic = n'.graphic) (h : Rest c T T' a b) : At c T T' (.block n a) (.block n' b)
  | data {n n' : Notes} {len : UInt8} {a b : List UInt8} (h : InData c T T' len a b) : At c T T' (.data n len a) (.data n' len b)
  | done : At c T T' .done .done

theorem advance_rest {g g' : File} (hg : Screens o g g') {p q : Pos} (h : At c g.table g'.table p q) :
    Both (Nexted c g.table g'.table) (advance o g p) (advance o g' q) := by
  cases h with
  | block hn h => exact next_rest hg h hn
  | data h =>
    cases h with
    | mk h ht =>
      simp only [advance]
      rw [blocks_more_some _ _ _ h, blocks_more_some _ _ _ h]
      exact next_rest hg ht rfl
  | done => trivial

theorem fade_g {g g' : File} {f f' : Frame} (loops : Loops) (hf : fadeFrame f = fadeFrame f') :
    fadeView { g.view f with repetition := loopsOf loops } = fadeView { g'.view f' with repetition := loopsOf loops } := by
  simp only [fadeView, File.view, hf]

theorem raw_fade {i i' : Image} (h : Looks c T T' i i') (gr : Graphic) (d : List UInt8) :
    fadeFrame (rawFrame (gr, { i with subs := [d] })) = fadeFrame (rawFrame (gr, { i' with subs := [d] })) := by
  have h2 : ({ i with subs := [d] } : Image).data = ({ i' with subs := [d] } : Image).data := by
    show i.minCode :: _ = i'.minCode :: _
    rw [h.code]
  unfold rawFrame
  simp only
  rw [h2]
  generalize ({ i' with subs := [d] } : Image).data = l
  exact congrArg (fun f : Frame => ({ f with buffer := l, ownedCap := some l.length } : Frame)) (h.frame gr)

theorem reading_rest {g g' : File} (hg : Screens o g g') (loops : Loops) :
    ∀ (cs : List Call) (cur cur' : Frame) {p q : Pos}, fadeFrame cur = fadeFrame cur' → At c g.table g'.table p q →
    Shown c (reading o g loops cs cur p) (reading o g' loops cs cur' q) := by
  intro cs
  induction cs with
  | nil => intros; exact .nil
  | cons act cs ih =>
    intro cur cur' p q hf h
    have ha := advance_rest hg h
    simp only [reading]
    generalize advance o g p = x at *
    generalize advance o g' q = y at *
    match x, y, ha with
    | .error e, .error _, rfl => exact .cons (.failed e) .nil
    | .ok none, .ok none, _ =>
      cases act with
      | info => exact .cons (.info _ (fade_g loops hf)) (ih _ _ hf .done)
      | read => exact .cons (.none (fade_g loops hf)) (ih _ _ hf .done)
    | .ok (some (n, i, len, l)), .ok (some (n', i', _, l')), ⟨h1, h2, rfl, h3⟩ =>
      cases act with
      | info =>
        simp only [h1]
        exact .cons (.info _ (fade_g loops (h2.frame _))) (ih _ _ (h2.frame _) (.data h3))
      | read =>
        simp only [h1]
        cases h3 with
        | mk h ht =>
          rcases payload_same (limit := o.memoryLimit) (used := 1) h with ⟨e, he⟩ | he
          · rw [he, he]; exact .cons (.failed e) .nil
          · rw [he, he]
            refine .cons (.frame (raw_fade h2 _ _) (fade_g loops (raw_fade h2 _ _)) fun hc => ?_) (ih _ _ (raw_fade h2 _ _) (.block rfl ht))
            show (i.table <|> g.table).getD [] = (i'.table <|> g'.table).getD []
            rw [h2.same hc]

def Led (c : ColorOutput) (T T' : Option (List UInt8)) (x y : Loops × Notes × List UInt8) : Prop :=
  x.1 = y.1 ∧ x.2.1.graphic = y.2.1.graphic ∧ Rest c T T' x.2.2 y.2.2

theorem lead_rest {a b : List UInt8} (h : Rest c T T' a b) :
    ∀ (f1 f2 : Nat) (first : Bool) (loops : Loops) (n : Notes), a.length < f1 → b.length < f2 →
    Both (Led c T T') (lead o f1 first loops n a) (lead o f2 first loops n b) := by
  induction h with
  | nil =>
    intro f1 f2 first loops n h1 h2
    match f1, f2, h1, h2 with
    | f1 + 1, f2 + 1, h1, h2 => rfl
  | trailer l =>
    intro f1 f2 first loops n h1 h2
    match f1, f2, h1, h2 with
    | f1 + 1, f2 + 1, h1, h2 =>
      rw [lead.eq_def o (f1 + 1), lead.eq_def o (f2 + 1)]
      simp only [show ((0x3B : UInt8) = 0x21) = False by decide, if_false]
      split
      · rfl
      · exact ⟨rfl, rfl, .trailer l⟩
  | @more x y a b h ht ih =>
    intro f1 f2 first loops n h1 h2
    match f1, f2, h1, h2 with
    | f1 + 1, f2 + 1, h1, h2 =>
      have hT : Rest c T T' (x ++ a) (y ++ b) := .more h ht
      cases h with
      | @extension label len D d h =>
        simp only [List.cons_append, List.length_cons, List.length_append] at h1 h2 ⊢
        rw [lead.eq_def o (f1 + 1), lead.eq_def o (f2 + 1)]
        simp only [if_true]
        rcases extension_step (limit := o.memoryLimit) (label := label) h n with ⟨e, he⟩ | ⟨n1, he⟩
        · rw [he, he]; rfl
        · rw [he, he]
          exact ih _ _ _ _ _ (by omega) (by omega)
      | image hl hc hc' hi hs he h =>
        simp only [List.cons_append, List.append_assoc] at hT ⊢
        rw [lead.eq_def o (f1 + 1), lead.eq_def o (f2 + 1)]
        simp only [show ((0x2C : UInt8) = 0x21) = False by decide, if_false]
        rw [if_neg (by simp), if_neg (by simp)]
        exact ⟨rfl, rfl, hT⟩

theorem screen_exact {head : List UInt8} (h : IsHead head) : ∃ g : File, (∀ l, screen (head ++ l) = .ok (g, l)) ∧ g.table = headTable head ∧
    ∃ w0 w1 h0 h1, headSize head = [w0, w1, h0, h1] ∧ g.width = number w0 w1 ∧ g.height = number h0 h1 := by
  obtain ⟨a1, a2, a3⟩ := h
  match head, a2 with
  | s0 :: s1 :: s2 :: s3 :: s4 :: s5 :: w0 :: w1 :: y0 :: y1 :: packed :: bg :: asp :: tbl, _ =>
    simp only [List.take_succ_cons, List.take_zero, List.length_cons, List.getD_cons_succ, List.getD_cons_zero] at a1 a3
    have htab := table_exact (packed := packed) (colours := tbl) (by omega)
    refine ⟨{
      v89 := decide ([s0, s1, s2, s3, s4, s5] = [0x47, 0x49, 0x46, 0x38, 0x39, 0x61])
      width := number w0 w1, height := number y0 y1
      misc := packed.toNat / 8 % 16, size := packed.toNat % 8, table := if 128 ≤ packed.toNat then some tbl else none
      background := bg, aspect := asp, blocks := [] }, fun l => ?_, rfl, w0, w1, y0, y1, rfl, rfl, rfl⟩
    have : item 6 (s0 :: s1 :: s2 :: s3 :: s4 :: s5 :: w0 :: w1 :: y0 :: y1 :: packed :: bg :: asp :: (tbl ++ l)) =
        .ok ([s0, s1, s2, s3, s4, s5], w0 :: w1 :: y0 :: y1 :: packed :: bg :: asp :: (tbl ++ l)) := by
      unfold item
      rw [if_pos (by simp)]
      rfl
    simp only [List.cons_append]
    unfold screen
    rw [this]
    simp only [htab]
    rw [if_pos (by simpa using a1)]

theorem rest_blocks {post : List UInt8} (hp : post = [] ∨ ∃ t, post = 0x3B :: t) : ∀ {xs ys : List (List UInt8)},
    RecolouredAll c T T' xs ys → Rest c T T' (xs.flatten ++ post) (ys.flatten ++ post)
  | [], [], _ => by
    rcases hp with rfl | ⟨t, rfl⟩
    · exact .nil
    · exact .trailer t
  | x :: xs, y :: ys, h => by
    simp only [List.flatten_cons, List.append_assoc]
    exact .more h.1 (rest_blocks hp h.2)

theorem gif_recolour {head head' post : List UInt8} (hh : IsHead head) (hh' : IsHead head')
    (hsize : o.checkFrameConsistency = false ∨ headSize head = headSize head') (hp : post = [] ∨ ∃ t, post = 0x3B :: t)
    {xs ys : List (List UInt8)} (hx : RecolouredAll c (headTable head) (headTable head') xs ys) (cs : List Call) :
    Shown c (gif o (head ++ (xs.flatten ++ post)) cs) (gif o (head' ++ (ys.flatten ++ post)) cs) := by
  obtain ⟨g, hg, ht, w0, w1, h0, h1, hz, hw, hh⟩ := screen_exact hh
  obtain ⟨g', hg', ht', w0', w1', h0', h1', hz', hw', hh'⟩ := screen_exact hh'
  have hs : Screens o g g' := ⟨hsize.imp id fun h => by
    rw [hz, hz'] at h
    cases h
    exact ⟨by rw [hw, hw'], by rw [hh, hh']⟩⟩
  rw [← ht, ← ht'] at hx
  unfold gif
  rw [hg, hg']
  have := lead_rest (o := o) (rest_blocks hp hx) _ _ true (.finite 0) .blank (Nat.lt_succ_self _) (Nat.lt_succ_self _)
  simp only
  generalize lead o _ true (.finite 0) .blank (xs.flatten ++ post) = x at *
  generalize lead o _ true (.finite 0) .blank (ys.flatten ++ post) = y at *
  match x, y, this with
  | .error e, .error _, rfl => exact .cons (.failed e) .nil
  | .ok (loops, n, l), .ok (loops', n', l'), ⟨h1, h2, h3⟩ =>
    simp only at h1 h2 h3
    subst h1
    exact .cons (.opened (fade_g loops rfl)) (reading_rest hs loops cs _ _ rfl (.block h2 h3))

/-- **C105**, raw frames: the colours are not looked at at all. -/
theorem recolour_session {C : Codec} (hS : C.Safe) (hsk : o.skipFrameDecoding = true) {head head' post : List UInt8} (hh : IsHead head)
    (hh' : IsHead head') (hsize : o.checkFrameConsistency = false ∨ headSize head = headSize head') (hp : post = [] ∨ ∃ t, post = 0x3B :: t)
    {xs ys : List (List UInt8)} (hx : RecolouredAll .indexed (headTable head) (headTable head') xs ys)
    {r1 r2 : Reader} (hr1 : r1.Reliable) (hr2 : r2.Reliable) (h1 : r1.bytes = head ++ (xs.flatten ++ post))
    (h2 : r2.bytes = head' ++ (ys.flatten ++ post)) (cs : List Call) :
    (sessionFrom C o r1 cs).map fadeSeen = (sessionFrom C o r2 cs).map fadeSeen := by
  rw [raw_reading hS o hsk hr1, raw_reading hS o hsk hr2, h1, h2]
  exact shown_fade (gif_recolour hh hh' hsize hp hx cs)

/-- **C105**, opening, with all options. -/
theorem recolour_open {C : Codec} (K : C.Contract) {head head' post : List UInt8} (hh : IsHead head)
    (hh' : IsHead head') (hsize : o.checkFrameConsistency = false ∨ headSize head = headSize head') (hp : post = [] ∨ ∃ t, post = 0x3B :: t)
    {xs ys : List (List UInt8)} (hx : RecolouredAll .indexed (headTable head) (headTable head') xs ys)
    {r1 r2 : Reader} (hr1 : r1.Reliable) (hr2 : r2.Reliable) (h1 : r1.bytes = head ++ (xs.flatten ++ post))
    (h2 : r2.bytes = head' ++ (ys.flatten ++ post)) :
    (sessionFrom C o r1 []).map fadeSeen = (sessionFrom C o r2 []).map fadeSeen := by
  rw [open_reading K o hr1, open_reading K o hr2, h1, h2]
  exact shown_fade (gif_recolour hh hh' hsize hp hx [])

/-- **C105**. Two files in which the same colours apply to each image, wherever they are stored, or any colours if they are not looked at:
all calls give the same pixels and the same errors, with the restrictions of `remark_film`. -/
theorem recolour_film {C : Codec} (K : C.Contract) (hs : o.skipFrameDecoding = false) (hce : o.checkForEndCode = false)
    {head head' post : List UInt8} (hh : IsHead head)
    (hh' : IsHead head') (hsize : o.checkFrameConsistency = false ∨ headSize head = headSize head') (hp : post = [] ∨ ∃ t, post = 0x3B :: t)
    {xs ys : List (List UInt8)} (hx : RecolouredAll o.colorOutput (headTable head) (headTable head') xs ys)
    {r1 r2 : Reader} (hr1 : r1.Reliable) (hr2 : r2.Reliable) (h1 : r1.bytes = head ++ (xs.flatten ++ post))
    (h2 : r2.bytes = head' ++ (ys.flatten ++ post)) (acts : List Act) (hsane : Sane K o r1 (Spec.seeks acts))
    (hok : Spec.Gentle K acts (rawFrames (rawFilm C o r1 (Spec.seeks acts)))) :
    (filmFrom C o r1 acts).map fadeGot = (filmFrom C o r2 acts).map fadeGot := by
  refine film_shown K hs hce hr1 hr2 acts ?_ hsane hok
  rw [rawFilm_gif K.safe o hr1, rawFilm_gif K.safe o hr2, h1, h2]
  exact gif_recolour hh hh' hsize hp hx _

end Gif.Recolour
