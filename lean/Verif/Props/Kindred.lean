import Verif.Props.Alike
import Verif.Spec.Kindred
import Verif.Props.Recolour
/-!
# C106: what pixels depend on
-/

namespace Gif.Kindred

open Spec Spec.Descent Decoder Gif.Remark Gif.Alike

/-! ## From raw frames to pixels -/

/-- The colours are the same, if they matter. -/
def Dyed (c : ColorOutput) (g : Option (List UInt8)) (f : Frame) (g' : Option (List UInt8)) (f' : Frame) : Prop :=
  c = .rgba → paletteOf g f = paletteOf g' f' ∧ f.transparent = f'.transparent

/-- What two calls showed is the same as far as pixels depend on it. -/
inductive ShownOne (c : ColorOutput) : Seen → Seen → Prop
  | opened {v v' : View} (hv : pixView v = pixView v') : ShownOne c (.opened v) (.opened v')
  | info {v v' : View} (x : Bool) (hv : pixView v = pixView v') : ShownOne c (.info x v) (.info x v')
  | none {v v' : View} (hv : pixView v = pixView v') : ShownOne c (.frame none v) (.frame none v')
  | frame {v v' : View} {f f' : Frame} (hf : pixFrame f = pixFrame f') (hv : pixView v = pixView v')
      (hp : Dyed c v.globalPalette f v'.globalPalette f') : ShownOne c (.frame (some f) v) (.frame (some f') v')
  | failed (e : DecodingError) : ShownOne c (.failed e) (.failed e)

/-- The same for all calls. -/
inductive Shown (c : ColorOutput) : List Seen → List Seen → Prop
  | nil : Shown c [] []
  | cons {x y : Seen} {a b : List Seen} (h : ShownOne c x y) (ht : Shown c a b) : Shown c (x :: a) (y :: b)

theorem shown_one {c : ColorOutput} {x y : Seen} (h : ShownOne c x y) : pixSeen x = pixSeen y := by
  cases h with
  | opened hv => simp only [pixSeen, hv]
  | info x hv => simp only [pixSeen, hv]
  | none hv => simp only [pixSeen, hv, Option.map_none]
  | frame hf hv hp => simp only [pixSeen, hv, hf, Option.map_some]
  | failed e => rfl

theorem shown_fade {c : ColorOutput} {a b : List Seen} (h : Shown c a b) : a.map pixSeen = b.map pixSeen := by
  induction h with
  | nil => rfl
  | cons h ht ih => simp only [List.map_cons, shown_one h, ih]

theorem fade_view {v v' : View} {f f' : Frame} (_ : pixView v = pixView v') (hf : pixFrame f = pixFrame f') :
    pixView { v with currentFrame := f } = pixView { v' with currentFrame := f' } := by
  simp only [pixView, hf]

theorem fade_current {v v' : View} (hv : pixView v = pixView v') : pixFrame v.currentFrame = pixFrame v'.currentFrame :=
  show (pixView v).currentFrame = (pixView v').currentFrame by rw [hv]

theorem fade_bare {f f' : Frame} (hf : pixFrame f = pixFrame f') : pixFrame (bare f) = pixFrame (bare f') :=
  show bare (pixFrame f) = bare (pixFrame f') by rw [hf]

theorem colours_same {c : ColorOutput} {g g' : Option (List UInt8)} {f f' : Frame} (h : Dyed c g f g' f') (l : List UInt8) :
    colours c (paletteOf g f) f.transparent l = colours c (paletteOf g' f') f'.transparent l := by
  cases c with
  | indexed => rfl
  | rgba => rw [(h rfl).1, (h rfl).2]

theorem picture_same {c : ColorOutput} {g g' : Option (List UInt8)} {f f' : Frame} (hf : pixFrame f = pixFrame f')
    (h : Dyed c g f g' f') (px : List UInt8) : picture c g f px = picture c g' f' px := by
  have h2 : f.interlaced = f'.interlaced := (show (pixFrame f).interlaced = (pixFrame f').interlaced by rw [hf])
  have h3 : f.width = f'.width := (show (pixFrame f).width = (pixFrame f').width by rw [hf])
  have h4 : f.height = f'.height := (show (pixFrame f).height = (pixFrame f').height by rw [hf])
  unfold picture pixelOrder
  rw [h2, h3, h4, colours_same h]

theorem shown_same {c : ColorOutput} {g g' : Option (List UInt8)} {f f' : Frame} (hf : pixFrame f = pixFrame f')
    (h : Dyed c g f g' f') (px : List UInt8) : pixFrame (shown c g f px) = pixFrame (shown c g' f' px) := by
  unfold shown
  rw [picture_same hf h]
  generalize picture c g' f' px = l
  exact congrArg (fun f : Frame => ({ f with buffer := l, ownedCap := some l.length, interlaced := false } : Frame)) hf

theorem deliver_same {c : ColorOutput} {limit : MemoryLimit} {g g' : Option (List UInt8)} {f f' : Frame} (hf : pixFrame f = pixFrame f')
    (h : Dyed c g f g' f') (px : Pixels) :
    Both (fun a b => pixFrame a = pixFrame b) (deliver c limit g f px) (deliver c limit g' f' px) := by
  have h3 : f.width = f'.width := (show (pixFrame f).width = (pixFrame f').width by rw [hf])
  have h4 : f.height = f'.height := (show (pixFrame f).height = (pixFrame f').height by rw [hf])
  unfold deliver
  rw [h3, h4]
  split
  · rfl
  · split
    · rfl
    · split
      · rfl
      · exact shown_same hf h _

theorem watch_shown (c : ColorOutput) (limit : MemoryLimit) : ∀ (acts : List Act) (v v' : View) (live : Option (List UInt8)) (raw raw' : List Seen)
    (outs : List Pixels), pixView v = pixView v' →
    (live ≠ none → Dyed c v.globalPalette v.currentFrame v'.globalPalette v'.currentFrame) → Shown c raw raw' →
    (watch c limit acts v live raw outs).map pixGot = (watch c limit acts v' live raw' outs).map pixGot := by
  intro acts
  induction acts with
  | nil => intros; simp only [watch]
  | cons a acts ih =>
    intro v v' live raw raw' outs hv hl hs
    cases a with
    | info =>
      cases hs with
      | nil => simp only [watch]
      | cons h ht =>
        cases h with
        | opened h => simp only [watch]
        | info x h => simp only [watch]
        | failed e => simp only [watch]
        | none h =>
          have := fade_view h (fade_current hv)
          simp only [watch, List.map_cons, pixGot, pixSeen, this]
          rw [ih _ _ _ _ _ _ this (fun h => absurd rfl h) ht]
        | frame hf h hp =>
          cases outs with
          | nil => simp only [watch]
          | cons px outs =>
            have := fade_view h (fade_bare hf)
            simp only [watch, List.map_cons, pixGot, pixSeen, this]
            rw [ih _ _ _ _ _ _ this (fun _ => hp) ht]
    | read =>
      cases hs with
      | nil => simp only [watch]
      | cons h ht =>
        cases h with
        | opened h => simp only [watch]
        | info x h => simp only [watch]
        | failed e => simp only [watch]
        | none h =>
          have := fade_view h (fade_current hv)
          simp only [watch, List.map_cons, pixGot, pixSeen, this, Option.map_none]
          rw [ih _ _ _ _ _ _ this (fun h => absurd rfl h) ht]
        | @frame v0 v0' f f' hf h hp =>
          cases outs with
          | nil => simp only [watch]
          | cons px outs =>
            have hd := deliver_same (limit := limit) hf hp px
            simp only [watch]
            generalize deliver c limit v0.globalPalette f px = x at *
            generalize deliver c limit v0'.globalPalette f' px = y at *
            match x, y, hd with
            | .error e, .error _, rfl => rfl
            | .ok g, .ok g', hg =>
              have hg : pixFrame g = pixFrame g' := hg
              have := fade_view h hg
              simp only [List.map_cons, pixGot, pixSeen, this, Option.map_some, hg]
              rw [ih _ _ _ _ _ _ this (fun h => absurd rfl h) ht]
    | fill n =>
      cases live with
      | none =>
        simp only [watch]
        exact ih _ _ _ _ _ _ hv hl hs
      | some px =>
        have hcol := fun l => colours_same (hl (by simp)) l
        simp only [watch]
        split
        · simp only [List.map_cons, pixGot, hcol]
          rw [ih _ _ _ _ _ _ hv (fun _ => hl (by simp)) hs]
        · simp only [List.map_cons, pixGot, hcol]
          rw [ih _ _ _ _ _ _ hv (fun h => absurd rfl h) hs]
    | into =>
      cases live with
      | none =>
        simp only [watch]
        exact ih _ _ _ _ _ _ hv hl hs
      | some px =>
        have hf := fade_current hv
        have h3 : v.currentFrame.width = v'.currentFrame.width := (show (pixFrame v.currentFrame).width = (pixFrame v'.currentFrame).width by rw [hf])
        have h4 : v.currentFrame.height = v'.currentFrame.height := (show (pixFrame v.currentFrame).height = (pixFrame v'.currentFrame).height by rw [hf])
        simp only [watch, h3, h4]
        split
        · simp only [List.map_cons, pixGot, picture_same hf (hl (by simp))]
          rw [ih _ _ _ _ _ _ hv (fun _ => hl (by simp)) hs]
        · rfl

theorem frames_shown {c : ColorOutput} {a b : List Seen} (h : Shown c a b) : (rawFrames a).map pixFrame = (rawFrames b).map pixFrame := by
  induction h with
  | nil => rfl
  | cons h ht ih =>
    cases h with
    | opened h => simp only [rawFrames]; exact ih
    | info x h => simp only [rawFrames]; exact ih
    | none h => simp only [rawFrames]; exact ih
    | frame hf h hp => simp only [rawFrames, List.map_cons, hf, ih]
    | failed e => simp only [rawFrames]; exact ih

theorem failed_shown {c : ColorOutput} {e : DecodingError} {a b : List Seen} (h : Shown c a b) (hb : .failed e ∈ b) : .failed e ∈ a := by
  induction h with
  | nil => cases hb
  | cons h ht ih =>
    rcases List.mem_cons.1 hb with hb | hb
    · subst hb
      cases h
      exact List.mem_cons_self
    · exact List.mem_cons_of_mem _ (ih hb)

theorem expand_shown {C : Codec} (K : C.Contract) : ∀ {fs gs : List Frame} {outs : List Pixels}, fs.map pixFrame = gs.map pixFrame →
    ExpandAll K fs outs → ExpandAll K gs outs
  | [], [], _, _, h => h
  | f :: fs, g :: gs, px :: outs, h, ⟨hx, hr⟩ => by
    simp only [List.map_cons, List.cons.injEq] at h
    have h1 : f.buffer = g.buffer := (show (pixFrame f).buffer = (pixFrame g).buffer by rw [h.1])
    have h3 : f.width = g.width := (show (pixFrame f).width = (pixFrame g).width by rw [h.1])
    have h4 : f.height = g.height := (show (pixFrame f).height = (pixFrame g).height by rw [h.1])
    refine ⟨?_, expand_shown K h.2 hr⟩
    unfold Expands at hx ⊢
    rw [← h1, ← h3, ← h4]
    exact hx
  | [], _ :: _, _, h, _ => by cases h
  | _ :: _, [], _, h, _ => by cases h

theorem film_shown {C : Codec} (K : C.Contract) {o : DecodeOptions} (hs : o.skipFrameDecoding = false) (hce : o.checkForEndCode = false)
    {r1 r2 : Reader} (hr1 : r1.Reliable) (hr2 : r2.Reliable) (acts : List Act)
    (h : Shown o.colorOutput (rawFilm C o r1 (Spec.seeks acts)) (rawFilm C o r2 (Spec.seeks acts)))
    (hsane : Sane K o r1 (Spec.seeks acts)) (hok : Spec.Gentle K acts (rawFrames (rawFilm C o r1 (Spec.seeks acts)))) :
    (filmFrom C o r1 acts).map pixGot = (filmFrom C o r2 acts).map pixGot := by
  have hbad : ∀ e, .failed e ∈ rawFilm C o r1 (Spec.seeks acts) → e ≠ .io .unexpectedEof ∧ e ≠ .format .memoryLimit :=
    fun e he => ⟨fun h => hsane.whole (h ▸ he), fun h => hsane.small (h ▸ he)⟩
  obtain ⟨outs, hex⟩ := Spec.expand_all K _ (rawFilm_buffer K.safe o r1 _) hsane.regular
  have hok' := hok.imp (Spec.expand_all_valid K _ _ hex) id
  have f1 := follows_nil (filmFrom_watch K o hs hce hr1 hr1 (by simp) acts _ (Nat.le_refl _) outs hbad hex hok')
  have f2 := follows_nil (filmFrom_watch K o hs hce hr2 hr2 (by simp) acts _ (Nat.le_refl _) outs
    (fun e he => hbad e (failed_shown h he)) (expand_shown K (frames_shown h) hex) hok')
  rw [f1, f2]
  generalize rawFilm C o r1 (Spec.seeks acts) = x at h
  generalize rawFilm C o r2 (Spec.seeks acts) = y at h
  have hmap : ∀ l : List Seen, (l.map Got.seen).map pixGot = (l.map pixSeen).map Got.seen := fun l => by
    rw [List.map_map, List.map_map]; rfl
  have hall := shown_fade h
  cases h with
  | nil => rfl
  | cons h ht =>
    cases h with
    | opened hv =>
      simp only [List.map_cons, pixGot, pixSeen, hv]
      rw [watch_shown _ _ _ _ _ _ _ _ _ hv (fun h => absurd rfl h) ht]
    | info x hv => simp only [hmap]; rw [hall]
    | none hv => simp only [hmap]; rw [hall]
    | frame hf hv hp => simp only [hmap]; rw [hall]
    | failed e => simp only [hmap]; rw [hall]

/-! ## From bytes to raw frames -/

variable {o : DecodeOptions} {c : ColorOutput} {T T' : Option (List UInt8)}

/-- Corresponding blocks and then the trailer, or nothing. -/
inductive Rest (c : ColorOutput) (T T' : Option (List UInt8)) : List UInt8 → List UInt8 → Prop
  | nil : Rest c T T' [] []
  | trailer {l l' : List UInt8} (h : l = [] ↔ l' = []) : Rest c T T' (0x3B :: l) (0x3B :: l')
  | more {x y a b : List UInt8} (h : Kindred c T T' x y) (ht : Rest c T T' a b) : Rest c T T' (x ++ a) (y ++ b)

/-- After the introducer of an image. -/
inductive After (c : ColorOutput) (T T' : Option (List UInt8)) : List UInt8 → List UInt8 → Prop
  | image {a b place place' size colours colours' : List UInt8} {p p' k len len' : UInt8} {D D' d : List UInt8} (hl : place.length = 4)
      (hl' : place'.length = 4) (hz : size.length = 4) (hc : colours.length = (if 128 ≤ p.toNat then 3 * 2 ^ (p.toNat % 8 + 1) else 0))
      (hc' : colours'.length = (if 128 ≤ p'.toNat then 3 * 2 ^ (p'.toNat % 8 + 1) else 0))
      (hi : p.toNat / 64 % 2 = p'.toNat / 64 % 2)
      (hs : (applies T p colours).isSome = (applies T' p' colours').isSome)
      (he : c = .rgba → applies T p colours = applies T' p' colours') (h : SubBlocks len D d) (h' : SubBlocks len' D' d) (ht : Rest c T T' a b) :
      After c T T' (place ++ (size ++ p :: (colours ++ k :: len :: (D ++ a)))) (place' ++ (size ++ p' :: (colours' ++ k :: len' :: (D' ++ b))))

/-- What is known about transparency. -/
def Clear (c : ColorOutput) (gr gr' : Graphic) : Prop := c = .rgba → gr.transparent = gr'.transparent

theorem kindred_step {n n' : Notes} (hn : Clear c n.graphic n'.graphic) {x y : List UInt8} (h : Kindred c T T' (0x21 :: x) (0x21 :: y)) :
    (∃ e, (∀ u, extension o.memoryLimit n (x ++ u) = .error e) ∧ ∀ u, extension o.memoryLimit n' (y ++ u) = .error e) ∨
    ∃ m m', Clear c m.graphic m'.graphic ∧
      (∀ u, extension o.memoryLimit n (x ++ u) = .ok (m, u)) ∧ ∀ u, extension o.memoryLimit n' (y ++ u) = .ok (m', u) := by
  cases h with
  | @other label label' len len' D D' d d' hk hk' h h' hd =>
    simp only [List.cons_append]
    have hb : ∀ u, blocks len.toNat (D ++ u) = (d, some u) := fun u => blocks_more_some D _ u h
    have hb' : ∀ u, blocks len'.toNat (D' ++ u) = (d', some u) := fun u => blocks_more_some D' _ u h'
    have hne : d ≠ [] ↔ d' ≠ [] := by
      rw [← List.length_pos_iff, ← List.length_pos_iff, hd]
    have k1 : label = 0x01 ∨ label = 0xF9 ∨ label = 0xFE ∨ label = 0xFF := by
      rcases hk with h | h | h <;> simp [h]
    have k1' : label' = 0x01 ∨ label' = 0xF9 ∨ label' = 0xFE ∨ label' = 0xFF := by
      rcases hk' with h | h | h <;> simp [h]
    have k2 : label ≠ 0xF9 := by
      rcases hk with h | h | h <;> simp [h]
    have k2' : label' ≠ 0xF9 := by
      rcases hk' with h | h | h <;> simp [h]
    by_cases hl : d ≠ [] ∧ o.memoryLimit.sizeOk (1 + d.length) = false
    · refine .inl ⟨.format .memoryLimit, fun u => ?_, fun u => ?_⟩
      · rw [extension, if_pos k1]
        simp only [payload, hb]
        rw [if_pos hl]
      · rw [extension, if_pos k1']
        simp only [payload, hb']
        rw [if_pos (by rw [← hne, ← hd]; exact hl)]
    · refine .inr ⟨{ n with label := label, data := len :: d }, { n' with label := label', data := len' :: d' }, hn, fun u => ?_, fun u => ?_⟩
      · rw [extension, if_pos k1]
        simp only [payload, hb]
        rw [if_neg hl]
        simp only [Notes.finish, if_neg k2]
      · rw [extension, if_pos k1']
        simp only [payload, hb']
        rw [if_neg (by rw [← hne, ← hd]; exact hl)]
        simp only [Notes.finish, if_neg k2']
  | @control len len' p p' d0 d1 d0' d1' t t' D D' h h' ht =>
    simp only [List.cons_append]
    have hb : ∀ u, blocks len.toNat (D ++ u) = ([p, d0, d1, t], some u) := fun u => blocks_more_some D _ u h
    have hb' : ∀ u, blocks len'.toNat (D' ++ u) = ([p', d0', d1', t'], some u) := fun u => blocks_more_some D' _ u h'
    by_cases hl : o.memoryLimit.sizeOk 5 = false
    · refine .inl ⟨.format .memoryLimit, fun u => ?_, fun u => ?_⟩
      · rw [extension, if_pos (by decide)]
        simp only [payload, hb]
        rw [if_pos ⟨by simp, hl⟩]
      · rw [extension, if_pos (by decide)]
        simp only [payload, hb']
        rw [if_pos ⟨by simp, hl⟩]
    · refine .inr ⟨{ label := 0xF9, data := [len, p, d0, d1, t], graphic := Control.graphic ⟨p, number d0 d1, t⟩ },
        { label := 0xF9, data := [len', p', d0', d1', t'], graphic := Control.graphic ⟨p', number d0' d1', t'⟩ },
        fun hc => ?_, fun u => ?_, fun u => ?_⟩
      · obtain ⟨h1, h2⟩ := ht hc
        show (if p.toNat % 2 = 1 then some t else none) = if p'.toNat % 2 = 1 then some t' else none
        rw [← h1]
        split
        · rename_i h; rw [h2 h]
        · rfl
      · rw [extension, if_pos (by decide)]
        simp only [payload, hb]
        rw [if_neg (fun h => hl h.2)]
        simp only [Notes.finish, if_true]
      · rw [extension, if_pos (by decide)]
        simp only [payload, hb']
        rw [if_neg (fun h => hl h.2)]
        simp only [Notes.finish, if_true]

theorem kindred_kind {x y : List UInt8} (h : Kindred c T T' x y) : (∃ x' y', x = 0x21 :: x' ∧ y = 0x21 :: y' ∧ x' ≠ [] ∧ y' ≠ []) ∨
    ∃ x' y', x = 0x2C :: x' ∧ y = 0x2C :: y' ∧ x' ≠ [] ∧ y' ≠ [] ∧ ∀ a b, Rest c T T' a b → After c T T' (x' ++ a) (y' ++ b) := by
  cases h with
  | other hk hk' h h' hd => exact .inl ⟨_, _, rfl, rfl, by simp, by simp⟩
  | control h h' ht => exact .inl ⟨_, _, rfl, rfl, by simp, by simp⟩
  | image hl hl' hz hc hc' hi hs he h h' =>
    refine .inr ⟨_, _, rfl, rfl, by simp, by simp, fun a b ht => ?_⟩
    simp only [List.append_assoc, List.cons_append]
    exact .image hl hl' hz hc hc' hi hs he h h' ht

def Sought (c : ColorOutput) (T T' : Option (List UInt8)) : Option (Notes × List UInt8) → Option (Notes × List UInt8) → Prop
  | none, none => True
  | some (n, l), some (n', l') => Clear c n.graphic n'.graphic ∧ After c T T' l l'
  | _, _ => False

theorem seek_rest {a b : List UInt8} (h : Rest c T T' a b) :
    ∀ (f1 f2 : Nat) (n n' : Notes), a.length < f1 → b.length < f2 → Clear c n.graphic n'.graphic →
    Both (Sought c T T') (seek o f1 n a) (seek o f2 n' b) := by
  induction h with
  | nil =>
    intro f1 f2 n n' h1 h2 hn
    match f1, f2, h1, h2 with
    | f1 + 1, f2 + 1, h1, h2 => rfl
  | @trailer l l' h =>
    intro f1 f2 n n' h1 h2 hn
    match f1, f2, h1, h2 with
    | f1 + 1, f2 + 1, h1, h2 =>
      rw [seek, if_pos rfl, seek, if_pos rfl]
      trivial
  | @more x y a b h ht ih =>
    intro f1 f2 n n' h1 h2 hn
    match f1, f2, h1, h2 with
    | f1 + 1, f2 + 1, h1, h2 =>
      rcases kindred_kind h with ⟨x', y', rfl, rfl, hx, hy⟩ | ⟨x', y', rfl, rfl, hx, hy, hh⟩
      · simp only [List.cons_append, List.length_cons, List.length_append] at h1 h2 ⊢
        rw [seek, if_neg (by decide), if_neg (by decide), if_pos rfl, seek, if_neg (by decide), if_neg (by decide), if_pos rfl]
        rcases kindred_step (o := o) hn h with ⟨e, he, he'⟩ | ⟨m, m', hm, he, he'⟩
        · rw [he, he']; rfl
        · rw [he, he']
          exact ih _ _ _ _ (by omega) (by omega) hm
      · simp only [List.cons_append]
        rw [seek, if_neg (by decide), if_pos rfl, seek, if_neg (by decide), if_pos rfl]
        exact ⟨hn, hh _ _ ht⟩

/-- Two images that look the same. -/
structure Looks (c : ColorOutput) (T T' : Option (List UInt8)) (i i' : Image) : Prop where
  frame : ∀ gr gr', pixFrame (headFrame (gr, i)) = pixFrame (headFrame (gr', i'))
  code : i.minCode = i'.minCode
  some : (i.table <|> T).isSome = (i'.table <|> T').isSome
  same : c = .rgba → (i.table <|> T) = (i'.table <|> T')

inductive InData (c : ColorOutput) (T T' : Option (List UInt8)) : UInt8 → List UInt8 → UInt8 → List UInt8 → Prop
  | mk {len len' : UInt8} {a b D D' d : List UInt8} (h : SubBlocks len D d) (h' : SubBlocks len' D' d) (ht : Rest c T T' a b) :
      InData c T T' len (D ++ a) len' (D' ++ b)

def Headed (c : ColorOutput) (T T' : Option (List UInt8)) (x y : Image × UInt8 × List UInt8) : Prop :=
  Looks c T T' x.1 y.1 ∧ InData c T T' x.2.1 x.2.2 y.2.1 y.2.2

theorem head_rest (hg : o.checkFrameConsistency = false) (g g' : File) {a b : List UInt8} (h : After c T T' a b) :
    Both (Headed c T T') (imageHead o g a) (imageHead o g' b) := by
  cases h with
  | @image a b place place' size colours colours' p p' k len len' D D' d hl hl' hz hc hc' hi hs he h h' ht =>
    match place, hl, place', hl', size, hz with
    | [l0, l1, t0, t1], _, [l0', l1', t0', t1'], _, [w0, w1, h0, h1], _ =>
      simp only [List.cons_append, List.nil_append, imageHead, table_exact hc, table_exact hc', hg, Bool.false_eq_true, false_and, if_false]
      split
      · rfl
      · refine ⟨⟨fun gr gr' => ?_, rfl, ?_, fun hr => ?_⟩, .mk h h' ht⟩
        · simp only [headFrame, pixFrame, graphicFrame, Frame.default, hi]
        · show ((if 128 ≤ p.toNat then some colours else none) <|> T).isSome = ((if 128 ≤ p'.toNat then some colours' else none) <|> T').isSome
          rw [Recolour.table_applies, Recolour.table_applies, hs]
        · show ((if 128 ≤ p.toNat then some colours else none) <|> T) = ((if 128 ≤ p'.toNat then some colours' else none) <|> T')
          rw [Recolour.table_applies, Recolour.table_applies, he hr]

def Nexted (c : ColorOutput) (T T' : Option (List UInt8)) :
    Option (Notes × Image × UInt8 × List UInt8) → Option (Notes × Image × UInt8 × List UInt8) → Prop
  | none, none => True
  | some (n, i, len, l), some (n', i', len', l') => Clear c n.graphic n'.graphic ∧ Looks c T T' i i' ∧ InData c T T' len l len' l'
  | _, _ => False

theorem next_rest (hg : o.checkFrameConsistency = false) {g g' : File} {a b : List UInt8} (h : Rest c g.table g'.table a b) {n n' : Notes}
    (hn : Clear c n.graphic n'.graphic) : Both (Nexted c g.table g'.table) (next o g n a) (next o g' n' b) := by
  have hs := seek_rest (o := o) h (a.length + 1) (b.length + 1) n n' (Nat.lt_succ_self _) (Nat.lt_succ_self _) hn
  unfold next
  generalize seek o (a.length + 1) n a = x at *
  generalize seek o (b.length + 1) n' b = y at *
  match x, y, hs with
  | .error e, .error _, rfl => rfl
  | .ok none, .ok none, _ => trivial
  | .ok (some (m, l)), .ok (some (m', l')), ⟨h1, h2⟩ =>
    have hh := head_rest hg g g' h2
    simp only
    generalize imageHead o g l = x at *
    generalize imageHead o g' l' = y at *
    match x, y, hh with
    | .error e, .error _, rfl => rfl
    | .ok (i, len, l), .ok (i', len', l'), ⟨q1, q3⟩ =>
      simp only at q1 q3
      have hiff : (i.table = none ∧ g.table = none) ↔ (i'.table = none ∧ g'.table = none) := by
        rw [Recolour.none_iff, Recolour.none_iff, q1.some]
      by_cases hc : i.table = none ∧ g.table = none
      · simp only [if_pos hc, if_pos (hiff.1 hc)]; rfl
      · simp only [if_neg hc, if_neg (fun h => hc (hiff.2 h))]
        exact ⟨h1, q1, q3⟩

inductive At (c : ColorOutput) (T T' : Option (List UInt8)) : Pos → Pos → Prop
  | block {n n' : Notes} {a b : List UInt8} (hn : Clear c n.graphic n'.graphic) (h : Rest c T T' a b) : At c T T' (.block n a) (.block n' b)
  | data {n n' : Notes} {len len' : UInt8} {a b : List UInt8} (h : InData c T T' len a len' b) : At c T T' (.data n len a) (.data n' len' b)
  | done : At c T T' .done .done

theorem advance_rest (hg : o.checkFrameConsistency = false) {g g' : File} {p q : Pos} (h : At c g.table g'.table p q) :
    Both (Nexted c g.table g'.table) (advance o g p) (advance o g' q) := by
  cases h with
  | block hn h => exact next_rest hg h hn
  | data h =>
    cases h with
    | mk h h' ht =>
      simp only [advance]
      rw [blocks_more_some _ _ _ h, blocks_more_some _ _ _ h']
      exact next_rest hg ht (fun _ => rfl)
  | done => trivial

theorem fade_g {g g' : File} {f f' : Frame} (loops loops' : Loops) (hf : pixFrame f = pixFrame f') :
    pixView { g.view f with repetition := loopsOf loops } = pixView { g'.view f' with repetition := loopsOf loops' } := by
  simp only [pixView, File.view, hf]

theorem raw_fade {i i' : Image} (h : Looks c T T' i i') (gr gr' : Graphic) (d : List UInt8) :
    pixFrame (rawFrame (gr, { i with subs := [d] })) = pixFrame (rawFrame (gr', { i' with subs := [d] })) := by
  have h2 : ({ i with subs := [d] } : Image).data = ({ i' with subs := [d] } : Image).data := by
    show i.minCode :: _ = i'.minCode :: _
    rw [h.code]
  unfold rawFrame
  simp only
  rw [h2]
  generalize ({ i' with subs := [d] } : Image).data = l
  exact congrArg (fun f : Frame => ({ f with buffer := l, ownedCap := some l.length } : Frame)) (h.frame gr gr')

theorem reading_rest (hg : o.checkFrameConsistency = false) {g g' : File} (loops loops' : Loops) :
    ∀ (cs : List Call) (cur cur' : Frame) {p q : Pos}, pixFrame cur = pixFrame cur' → At c g.table g'.table p q →
    Shown c (reading o g loops cs cur p) (reading o g' loops' cs cur' q) := by
  intro cs
  induction cs with
  | nil => intros; exact .nil
  | cons act cs ih =>
    intro cur cur' p q hf h
    have ha := advance_rest hg h
    simp only [reading]
    generalize advance o g p = x at *
    generalize advance o g' q = y at *
    match x, y, ha with
    | .error e, .error _, rfl => exact .cons (.failed e) .nil
    | .ok none, .ok none, _ =>
      cases act with
      | info => exact .cons (.info _ (fade_g _ _ hf)) (ih _ _ hf .done)
      | read => exact .cons (.none (fade_g _ _ hf)) (ih _ _ hf .done)
    | .ok (some (n, i, len, l)), .ok (some (n', i', len', l')), ⟨h1, h2, h3⟩ =>
      cases act with
      | info => exact .cons (.info _ (fade_g _ _ (h2.frame _ _))) (ih _ _ (h2.frame _ _) (.data h3))
      | read =>
        cases h3 with
        | mk h h' ht =>
          simp only
          rcases payload_step (limit := o.memoryLimit) (used := 1) h h' with ⟨e, he, he'⟩ | ⟨he, he'⟩
          · rw [he, he']; exact .cons (.failed e) .nil
          · rw [he, he']
            refine .cons (.frame (raw_fade h2 _ _ _) (fade_g _ _ (raw_fade h2 _ _ _)) fun hc => ⟨?_, h1 hc⟩)
              (ih _ _ (raw_fade h2 _ _ _) (.block (fun _ => rfl) ht))
            show (i.table <|> g.table).getD [] = (i'.table <|> g'.table).getD []
            rw [h2.same hc]

def Led (c : ColorOutput) (T T' : Option (List UInt8)) (x y : Loops × Notes × List UInt8) : Prop :=
  Clear c x.2.1.graphic y.2.1.graphic ∧ Rest c T T' x.2.2 y.2.2

theorem lead_rest {a b : List UInt8} (h : Rest c T T' a b) :
    ∀ (f1 f2 : Nat) (first : Bool) (loops loops' : Loops) (n n' : Notes), a.length < f1 → b.length < f2 → Clear c n.graphic n'.graphic →
    Both (Led c T T') (lead o f1 first loops n a) (lead o f2 first loops' n' b) := by
  induction h with
  | nil =>
    intro f1 f2 first loops loops' n n' h1 h2 hn
    match f1, f2, h1, h2 with
    | f1 + 1, f2 + 1, h1, h2 => rfl
  | @trailer l l' h =>
    intro f1 f2 first loops loops' n n' h1 h2 hn
    match f1, f2, h1, h2 with
    | f1 + 1, f2 + 1, h1, h2 =>
      rw [lead.eq_def o (f1 + 1), lead.eq_def o (f2 + 1)]
      simp only [show ((0x3B : UInt8) = 0x21) = False by decide, if_false, h]
      split
      · rfl
      · exact ⟨hn, .trailer h⟩
  | @more x y a b h ht ih =>
    intro f1 f2 first loops loops' n n' h1 h2 hn
    match f1, f2, h1, h2 with
    | f1 + 1, f2 + 1, h1, h2 =>
      have hT : Rest c T T' (x ++ a) (y ++ b) := .more h ht
      rcases kindred_kind h with ⟨x', y', rfl, rfl, hx, hy⟩ | ⟨x', y', rfl, rfl, hx, hy, hh⟩
      · simp only [List.cons_append, List.length_cons, List.length_append] at h1 h2 ⊢
        rw [lead.eq_def o (f1 + 1), lead.eq_def o (f2 + 1)]
        simp only [if_true]
        rcases kindred_step (o := o) hn h with ⟨e, he, he'⟩ | ⟨m, m', hm, he, he'⟩
        · rw [he, he']; rfl
        · rw [he, he']
          exact ih _ _ _ _ _ _ _ (by omega) (by omega) hm
      · simp only [List.cons_append] at hT ⊢
        rw [lead.eq_def o (f1 + 1), lead.eq_def o (f2 + 1)]
        simp only [show ((0x2C : UInt8) = 0x21) = False by decide, if_false]
        rw [if_neg (by simp [hx]), if_neg (by simp [hy])]
        exact ⟨hn, hT⟩

/-- Both files end behind the blocks, or with the trailer and any bytes behind it in both, or with the trailer alone in both. -/
def Ends (post post' : List UInt8) : Prop :=
  (post = [] ∧ post' = []) ∨ ∃ t t', post = 0x3B :: t ∧ post' = 0x3B :: t' ∧ (t = [] ↔ t' = [])

theorem rest_blocks {post post' : List UInt8} (hp : Ends post post') : ∀ {xs ys : List (List UInt8)},
    KindredAll c T T' xs ys → Rest c T T' (xs.flatten ++ post) (ys.flatten ++ post')
  | [], [], _ => by
    rcases hp with ⟨rfl, rfl⟩ | ⟨t, t', rfl, rfl, h⟩
    · exact .nil
    · exact .trailer h
  | x :: xs, y :: ys, h => by
    simp only [List.flatten_cons, List.append_assoc]
    exact .more h.1 (rest_blocks hp h.2)

theorem gif_kindred (hc : o.checkFrameConsistency = false) {head head' post post' : List UInt8} (hh : IsHead head) (hh' : IsHead head')
    (hp : Ends post post') {xs ys : List (List UInt8)} (hx : KindredAll c (headTable head) (headTable head') xs ys) (cs : List Call) :
    Shown c (gif o (head ++ (xs.flatten ++ post)) cs) (gif o (head' ++ (ys.flatten ++ post')) cs) := by
  obtain ⟨g, hg, ht, -⟩ := Recolour.screen_exact hh
  obtain ⟨g', hg', ht', -⟩ := Recolour.screen_exact hh'
  rw [← ht, ← ht'] at hx
  unfold gif
  rw [hg, hg']
  have := lead_rest (o := o) (rest_blocks hp hx) _ _ true (.finite 0) (.finite 0) .blank .blank (Nat.lt_succ_self _) (Nat.lt_succ_self _)
    (fun _ => rfl)
  simp only
  generalize lead o _ true (.finite 0) .blank (xs.flatten ++ post) = x at *
  generalize lead o _ true (.finite 0) .blank (ys.flatten ++ post') = y at *
  match x, y, this with
  | .error e, .error _, rfl => exact .cons (.failed e) .nil
  | .ok (loops, n, l), .ok (loops', n', l'), ⟨h2, h3⟩ =>
    exact .cons (.opened (fade_g _ _ rfl)) (reading_rest hc _ _ cs _ _ rfl (.block h2 h3))

/-- **C106**, raw frames: neither colours nor transparency are looked at. -/
theorem kindred_session {C : Codec} (hS : C.Safe) (hsk : o.skipFrameDecoding = true) (hc : o.checkFrameConsistency = false)
    {head head' post post' : List UInt8} (hh : IsHead head) (hh' : IsHead head') (hp : Ends post post')
    {xs ys : List (List UInt8)} (hx : KindredAll .indexed (headTable head) (headTable head') xs ys)
    {r1 r2 : Reader} (hr1 : r1.Reliable) (hr2 : r2.Reliable) (h1 : r1.bytes = head ++ (xs.flatten ++ post))
    (h2 : r2.bytes = head' ++ (ys.flatten ++ post')) (cs : List Call) :
    (sessionFrom C o r1 cs).map pixSeen = (sessionFrom C o r2 cs).map pixSeen := by
  rw [raw_reading hS o hsk hr1, raw_reading hS o hsk hr2, h1, h2]
  exact shown_fade (gif_kindred hc hh hh' hp hx cs)

/-- **C106**, opening: the same error in both files, or none. -/
theorem kindred_open {C : Codec} (K : C.Contract) (hc : o.checkFrameConsistency = false)
    {head head' post post' : List UInt8} (hh : IsHead head) (hh' : IsHead head') (hp : Ends post post')
    {xs ys : List (List UInt8)} (hx : KindredAll .indexed (headTable head) (headTable head') xs ys)
    {r1 r2 : Reader} (hr1 : r1.Reliable) (hr2 : r2.Reliable) (h1 : r1.bytes = head ++ (xs.flatten ++ post))
    (h2 : r2.bytes = head' ++ (ys.flatten ++ post')) :
    (sessionFrom C o r1 []).map pixSeen = (sessionFrom C o r2 []).map pixSeen := by
  rw [open_reading K o hr1, open_reading K o hr2, h1, h2]
  exact shown_fade (gif_kindred hc hh hh' hp hx [])

/-- **C106**. The pixels, read in any way, and the errors depend only on the sizes, interlace flags and data of the images, and with RGBA
output on the colour tables that apply and the transparent colours; with the restrictions of `remark_film`. -/
theorem kindred_film {C : Codec} (K : C.Contract) (hs : o.skipFrameDecoding = false) (hce : o.checkForEndCode = false)
    (hc : o.checkFrameConsistency = false) {head head' post post' : List UInt8} (hh : IsHead head) (hh' : IsHead head')
    (hp : Ends post post') {xs ys : List (List UInt8)} (hx : KindredAll o.colorOutput (headTable head) (headTable head') xs ys)
    {r1 r2 : Reader} (hr1 : r1.Reliable) (hr2 : r2.Reliable) (h1 : r1.bytes = head ++ (xs.flatten ++ post))
    (h2 : r2.bytes = head' ++ (ys.flatten ++ post')) (acts : List Act) (hsane : Sane K o r1 (Spec.seeks acts))
    (hok : Spec.Gentle K acts (rawFrames (rawFilm C o r1 (Spec.seeks acts)))) :
    (filmFrom C o r1 acts).map pixGot = (filmFrom C o r2 acts).map pixGot := by
  refine film_shown K hs hce hr1 hr2 acts ?_ hsane hok
  rw [rawFilm_gif K.safe o hr1, rawFilm_gif K.safe o hr2, h1, h2]
  exact gif_kindred hc hh hh' hp hx _

end Gif.Kindred
