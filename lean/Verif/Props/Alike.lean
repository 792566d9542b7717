import Verif.Props.Remark
import Verif.Spec.Alike
/-!
# C104: sub-block boundaries and bits without meaning make no difference
-/

namespace Gif.Alike

open Spec Spec.Descent Decoder Gif.Remark

variable {o : DecodeOptions}

/-- The same bytes after blocks that mean the same. -/
inductive Tail : List UInt8 → List UInt8 → Prop
  | same (l : List UInt8) : Tail l l
  | more {x y a b : List UInt8} (h : Like x y) (ht : Tail a b) : Tail (x ++ a) (y ++ b)

/-- Within the data of an image. -/
inductive Data : UInt8 → List UInt8 → UInt8 → List UInt8 → Prop
  | same (len : UInt8) (l : List UInt8) : Data len l len l
  | later {len len' : UInt8} {a b D D' d : List UInt8} (h : SubBlocks len D d) (h' : SubBlocks len' D' d) (ht : Tail a b) :
      Data len (D ++ a) len' (D' ++ b)

/-- After the introducer of an image. -/
inductive Head : List UInt8 → List UInt8 → Prop
  | same (l : List UInt8) : Head l l
  | later {a b place colours : List UInt8} {p p' k len len' : UInt8} {D D' d : List UInt8} (hl : place.length = 8)
      (hc : colours.length = (if 128 ≤ p.toNat then 3 * 2 ^ (p.toNat % 8 + 1) else 0)) (hp : p.toNat / 64 = p'.toNat / 64)
      (hs : 128 ≤ p.toNat → p.toNat % 8 = p'.toNat % 8) (h : SubBlocks len D d) (h' : SubBlocks len' D' d) (ht : Tail a b) :
      Head (place ++ p :: (colours ++ k :: len :: (D ++ a))) (place ++ p' :: (colours ++ k :: len' :: (D' ++ b)))

/-- Notes that mean the same. -/
def Noted (n n' : Notes) : Prop := n.graphic = n'.graphic ∧ n.label = n'.label ∧ n.data.drop 1 = n'.data.drop 1

theorem payload_step {limit : MemoryLimit} {used : Nat} {len len' : UInt8} {D D' d : List UInt8} (h : SubBlocks len D d)
    (h' : SubBlocks len' D' d) : (∃ e, (∀ u, payload limit used len (D ++ u) = .error e) ∧ ∀ u, payload limit used len' (D' ++ u) = .error e) ∨
      (∀ u, payload limit used len (D ++ u) = .ok (d, u)) ∧ ∀ u, payload limit used len' (D' ++ u) = .ok (d, u) := by
  have hb : ∀ u, blocks len.toNat (D ++ u) = (d, some u) := fun u => blocks_more_some D _ u h
  have hb' : ∀ u, blocks len'.toNat (D' ++ u) = (d, some u) := fun u => blocks_more_some D' _ u h'
  unfold payload
  by_cases hl : d ≠ [] ∧ limit.sizeOk (used + d.length) = false
  · exact .inl ⟨.format .memoryLimit, fun u => by rw [hb]; exact if_pos hl, fun u => by rw [hb']; exact if_pos hl⟩
  · exact .inr ⟨fun u => by rw [hb]; exact if_neg hl, fun u => by rw [hb']; exact if_neg hl⟩

/-- Reading an extension from two files. -/
def Steps (o : DecodeOptions) (n n' : Notes) (x y : List UInt8) : Prop :=
  (∃ e, (∀ u, extension o.memoryLimit n (x ++ u) = .error e) ∧ ∀ u, extension o.memoryLimit n' (y ++ u) = .error e) ∨
    ∃ m m', Noted m m' ∧ (∀ u, extension o.memoryLimit n (x ++ u) = .ok (m, u)) ∧ ∀ u, extension o.memoryLimit n' (y ++ u) = .ok (m', u)

theorem extension_like {n n' : Notes} (hn : n.graphic = n'.graphic) {label len len' : UInt8} {D D' d : List UInt8} (h : SubBlocks len D d)
    (h' : SubBlocks len' D' d) : Steps o n n' (label :: len :: D) (label :: len' :: D') := by
  unfold Steps
  simp only [List.cons_append]
  by_cases hk : label = 0x01 ∨ label = 0xF9 ∨ label = 0xFE ∨ label = 0xFF
  · rcases payload_step (limit := o.memoryLimit) (used := 1) h h' with ⟨e, he, he'⟩ | ⟨he, he'⟩
    · exact .inl ⟨e, fun u => by rw [extension, if_pos hk]; simp only [he], fun u => by rw [extension, if_pos hk]; simp only [he']⟩
    · by_cases hl : label = 0xF9
      · subst hl
        match d with
        | [p, d0, d1, t] =>
          refine .inr ⟨{ label := 0xF9, data := [len, p, d0, d1, t], graphic := Control.graphic ⟨p, number d0 d1, t⟩ },
            { label := 0xF9, data := [len', p, d0, d1, t], graphic := Control.graphic ⟨p, number d0 d1, t⟩ }, ?_,
            fun u => by rw [extension, if_pos hk]; simp only [he, Notes.finish, if_true],
            fun u => by rw [extension, if_pos hk]; simp only [he', Notes.finish, if_true]⟩
          exact ⟨rfl, rfl, rfl⟩
        | [] | [_] | [_, _] | [_, _, _] | _ :: _ :: _ :: _ :: _ :: _ =>
          exact .inl ⟨_, fun u => by rw [extension, if_pos hk]; simp only [he, Notes.finish, if_true]; rfl,
            fun u => by rw [extension, if_pos hk]; simp only [he', Notes.finish, if_true]⟩
      · refine .inr ⟨{ n with label := label, data := len :: d }, { n' with label := label, data := len' :: d }, ?_,
          fun u => by rw [extension, if_pos hk]; simp only [he, Notes.finish, if_neg hl],
          fun u => by rw [extension, if_pos hk]; simp only [he', Notes.finish, if_neg hl]⟩
        exact ⟨hn, rfl, rfl⟩
  · exact .inl ⟨.format .unknownBlock, fun u => by rw [extension, if_neg hk], fun u => by rw [extension, if_neg hk]⟩

theorem graphic_like {p p' d0 d1 t t' : UInt8} (hp : p.toNat % 32 = p'.toNat % 32) (ht : p.toNat % 2 = 1 → t = t') :
    ({ packed := p, delay := number d0 d1, trns := t } : Control).graphic =
      ({ packed := p', delay := number d0 d1, trns := t' } : Control).graphic := by
  have h1 : p.toNat / 4 % 8 = p'.toNat / 4 % 8 := by omega
  have h2 : p.toNat / 2 % 2 = p'.toNat / 2 % 2 := by omega
  have h3 : p.toNat % 2 = p'.toNat % 2 := by omega
  have h4 : (if p.toNat % 2 = 1 then some t else none) = if p'.toNat % 2 = 1 then some t' else none := by
    rw [← h3]
    split
    · rename_i h; rw [ht h]
    · rfl
  simp only [Control.graphic, h1, h2, h4]

theorem control_like {n n' : Notes} {len len' p p' d0 d1 t t' : UInt8} {D D' : List UInt8} (h : SubBlocks len D [p, d0, d1, t])
    (h' : SubBlocks len' D' [p', d0, d1, t']) (hp : p.toNat % 32 = p'.toNat % 32) (ht : p.toNat % 2 = 1 → t = t') :
    (∃ e, (∀ u, extension o.memoryLimit n (0xF9 :: len :: (D ++ u)) = .error e) ∧ ∀ u, extension o.memoryLimit n' (0xF9 :: len' :: (D' ++ u)) = .error e) ∨
    ∃ m m', (m.graphic = m'.graphic ∧ m.label = 0xF9 ∧ m'.label = 0xF9) ∧ (∀ u, extension o.memoryLimit n (0xF9 :: len :: (D ++ u)) = .ok (m, u)) ∧
      ∀ u, extension o.memoryLimit n' (0xF9 :: len' :: (D' ++ u)) = .ok (m', u) := by
  have hb : ∀ u, blocks len.toNat (D ++ u) = ([p, d0, d1, t], some u) := fun u => blocks_more_some D _ u h
  have hb' : ∀ u, blocks len'.toNat (D' ++ u) = ([p', d0, d1, t'], some u) := fun u => blocks_more_some D' _ u h'
  by_cases hl : o.memoryLimit.sizeOk 5 = false
  · refine .inl ⟨.format .memoryLimit, fun u => ?_, fun u => ?_⟩
    · rw [extension, if_pos (by decide)]
      simp only [payload, hb]
      rw [if_pos ⟨by simp, hl⟩]
    · rw [extension, if_pos (by decide)]
      simp only [payload, hb']
      rw [if_pos ⟨by simp, hl⟩]
  · refine .inr ⟨{ label := 0xF9, data := [len, p, d0, d1, t], graphic := Control.graphic ⟨p, number d0 d1, t⟩ },
      { label := 0xF9, data := [len', p', d0, d1, t'], graphic := Control.graphic ⟨p', number d0 d1, t'⟩ },
      ⟨graphic_like hp ht, rfl, rfl⟩, fun u => ?_, fun u => ?_⟩
    · rw [extension, if_pos (by decide)]
      simp only [payload, hb]
      rw [if_neg (fun h => hl h.2)]
      simp only [Notes.finish, if_true]
    · rw [extension, if_pos (by decide)]
      simp only [payload, hb']
      rw [if_neg (fun h => hl h.2)]
      simp only [Notes.finish, if_true]

/-- What an extension does, for both kinds. -/
theorem like_step {n n' : Notes} (hn : n.graphic = n'.graphic) {x y : List UInt8} (h : Like (0x21 :: x) (0x21 :: y)) :
    (∃ e, (∀ u, extension o.memoryLimit n (x ++ u) = .error e) ∧ ∀ u, extension o.memoryLimit n' (y ++ u) = .error e) ∨
    ∃ m m', (m.graphic = m'.graphic ∧ ∀ loops : Loops, (if m.label = 0xFF then (netscape [m.data.drop 1]).getD loops else loops) =
        if m'.label = 0xFF then (netscape [m'.data.drop 1]).getD loops else loops) ∧
      (∀ u, extension o.memoryLimit n (x ++ u) = .ok (m, u)) ∧ ∀ u, extension o.memoryLimit n' (y ++ u) = .ok (m', u) := by
  cases h with
  | extension h h' =>
    rcases extension_like (o := o) hn h h' with he | ⟨m, m', ⟨h1, h2, h3⟩, h4⟩
    · exact .inl he
    · exact .inr ⟨m, m', ⟨h1, fun loops => by rw [h2, h3]⟩, h4⟩
  | control h h' hp ht =>
    simp only [List.cons_append]
    rcases control_like (o := o) (n := n) (n' := n') h h' hp ht with he | ⟨m, m', ⟨h1, h2, h3⟩, h4⟩
    · exact .inl he
    · exact .inr ⟨m, m', ⟨h1, fun loops => by rw [h2, h3]; rfl⟩, h4⟩

/-- A block is an extension or an image. -/
theorem like_kind {x y : List UInt8} (h : Like x y) : (∃ x' y', x = 0x21 :: x' ∧ y = 0x21 :: y') ∨
    ∃ x' y', x = 0x2C :: x' ∧ y = 0x2C :: y' ∧ x' ≠ [] ∧ y' ≠ [] ∧ ∀ a b, Tail a b → Head (x' ++ a) (y' ++ b) := by
  cases h with
  | extension h h' => exact .inl ⟨_, _, rfl, rfl⟩
  | control h h' hp ht => exact .inl ⟨_, _, rfl, rfl⟩
  | image hl hc hp hs h h' =>
    refine .inr ⟨_, _, rfl, rfl, by simp, by simp, fun a b ht => ?_⟩
    simp only [List.append_assoc, List.cons_append]
    exact .later hl hc hp hs h h' ht

theorem extra_eq {a b : List UInt8} (h : Extra [] (fun _ => False) a b) : a = b := by
  induction h with
  | same l => rfl
  | here l hl => exact hl.elim
  | ext h ht ih => rw [ih]
  | picture hp hc h ht ih => rw [ih]

theorem head_eq {a b : List UInt8} (h : ExtraHead [] (fun _ => False) a b) : a = b := by
  cases h with
  | same l => rfl
  | later hp hc h ht => rw [extra_eq ht]

def Sought : Option (Notes × List UInt8) → Option (Notes × List UInt8) → Prop
  | none, none => True
  | some (n, l), some (n', l') => n.graphic = n'.graphic ∧ Head l l'
  | _, _ => False

theorem seek_like (ho : o.allowUnknownBlocks = false) {a b : List UInt8} (h : Tail a b) :
    ∀ (f1 f2 : Nat) (n n' : Notes), a.length < f1 → b.length < f2 → n.graphic = n'.graphic →
    Both Sought (seek o f1 n a) (seek o f2 n' b) := by
  induction h with
  | same l =>
    intro f1 f2 n n' h1 h2 hn
    have := seek_same ho [] (fun _ => False) _ f1 f2 n n' l (Nat.le_refl _) h1 h2 hn
    generalize seek o f1 n l = x at *
    generalize seek o f2 n' l = y at *
    match x, y, this with
    | .error e, .error _, rfl => rfl
    | .ok none, .ok none, _ => trivial
    | .ok (some (m, l)), .ok (some (m', l')), ⟨h1, h2⟩ =>
      refine ⟨h1, ?_⟩
      rw [head_eq h2]
      exact .same _
  | @more x y a b h ht ih =>
    intro f1 f2 n n' h1 h2 hn
    match f1, f2, h1, h2 with
    | f1 + 1, f2 + 1, h1, h2 =>
      rcases like_kind h with ⟨x', y', rfl, rfl⟩ | ⟨x', y', rfl, rfl, hx, hy, hh⟩
      · simp only [List.cons_append, List.length_cons, List.length_append] at h1 h2 ⊢
        rw [seek, if_neg (by decide), if_neg (by decide), if_pos rfl, seek, if_neg (by decide), if_neg (by decide), if_pos rfl]
        rcases like_step (o := o) hn h with ⟨e, he, he'⟩ | ⟨m, m', ⟨hm, -⟩, he, he'⟩
        · rw [he, he']; rfl
        · rw [he, he']
          exact ih _ _ _ _ (by omega) (by omega) hm
      · simp only [List.cons_append]
        rw [seek, if_neg (by decide), if_pos rfl, seek, if_neg (by decide), if_pos rfl]
        exact ⟨hn, hh _ _ ht⟩

/-- Two images that mean the same. -/
def Pictured (i i' : Image) : Prop :=
  (∀ gr, headFrame (gr, i) = headFrame (gr, i')) ∧ i.table = i'.table ∧ i.minCode = i'.minCode

def Headed (x y : Image × UInt8 × List UInt8) : Prop := Pictured x.1 y.1 ∧ Data x.2.1 x.2.2 y.2.1 y.2.2

theorem table_like {p p' : UInt8} (hp : p.toNat / 64 = p'.toNat / 64) (hs : 128 ≤ p.toNat → p.toNat % 8 = p'.toNat % 8) (l : List UInt8) :
    table p l = table p' l := by
  have h1 : p.toNat / 128 = p'.toNat / 128 := by omega
  unfold table
  rw [← h1]
  by_cases h : p.toNat / 128 = 1
  · rw [if_pos h, if_pos h, hs (by omega)]
  · rw [if_neg h, if_neg h]

theorem head_like (g : File) {a b : List UInt8} (h : Head a b) : Both Headed (imageHead o g a) (imageHead o g b) := by
  cases h with
  | same l =>
    cases imageHead o g a with
    | error e => rfl
    | ok x => exact ⟨⟨fun _ => rfl, rfl, rfl⟩, .same _ _⟩
  | @later a b place colours p p' k len len' D D' d hl hc hp hs h h' ht =>
    match place, hl with
    | [l0, l1, t0, t1, w0, w1, h0, h1], _ =>
      obtain ⟨t, htab⟩ := table_step hc
      have hi : p.toNat / 64 % 2 = p'.toNat / 64 % 2 := by rw [hp]
      have htab' : ∀ u, table p' (colours ++ u) = .ok (t, u) := fun u => by rw [← table_like hp hs, htab]
      simp only [List.cons_append, List.nil_append, imageHead, htab, htab', File.Contains]
      split
      · rfl
      · split
        · rfl
        · exact ⟨⟨fun gr => by simp only [headFrame, hi], rfl, rfl⟩, .later h h' ht⟩

def Nexted : Option (Notes × Image × UInt8 × List UInt8) → Option (Notes × Image × UInt8 × List UInt8) → Prop
  | none, none => True
  | some (n, i, len, l), some (n', i', len', l') => n.graphic = n'.graphic ∧ Pictured i i' ∧ Data len l len' l'
  | _, _ => False

theorem next_like (ho : o.allowUnknownBlocks = false) (g : File) {a b : List UInt8} (h : Tail a b) {n n' : Notes}
    (hn : n.graphic = n'.graphic) : Both Nexted (next o g n a) (next o g n' b) := by
  have hs := seek_like ho h (a.length + 1) (b.length + 1) n n' (Nat.lt_succ_self _) (Nat.lt_succ_self _) hn
  unfold next
  generalize seek o (a.length + 1) n a = x at *
  generalize seek o (b.length + 1) n' b = y at *
  match x, y, hs with
  | .error e, .error _, rfl => rfl
  | .ok none, .ok none, _ => trivial
  | .ok (some (m, l)), .ok (some (m', l')), ⟨h1, h2⟩ =>
    have hh := head_like (o := o) g h2
    simp only
    generalize imageHead o g l = x at *
    generalize imageHead o g l' = y at *
    match x, y, hh with
    | .error e, .error _, rfl => rfl
    | .ok (i, len, l), .ok (i', len', l'), ⟨q1, q2⟩ =>
      simp only at q1 q2
      simp only [← q1.2.1]
      split
      · rfl
      · exact ⟨h1, q1, q2⟩

inductive At : Pos → Pos → Prop
  | block {n n' : Notes} {a b : List UInt8} (hn : n.graphic = n'.graphic) (h : Tail a b) : At (.block n a) (.block n' b)
  | data {n n' : Notes} {len len' : UInt8} {a b : List UInt8} (h : Data len a len' b) : At (.data n len a) (.data n' len' b)
  | done : At .done .done

theorem blocks_like {len len' : UInt8} {a b : List UInt8} (h : Data len a len' b) :
    (blocks len.toNat a).1 = (blocks len'.toNat b).1 ∧
    ((blocks len.toNat a).2 = none ∧ (blocks len'.toNat b).2 = none ∨
      ∃ u v, (blocks len.toNat a).2 = some u ∧ (blocks len'.toNat b).2 = some v ∧ Tail u v) := by
  cases h with
  | same =>
    refine ⟨rfl, ?_⟩
    cases (blocks len.toNat a).2 with
    | none => exact .inl ⟨rfl, rfl⟩
    | some u => exact .inr ⟨u, u, rfl, rfl, .same _⟩
  | later h h' ht =>
    rw [blocks_more_some _ _ _ h, blocks_more_some _ _ _ h']
    exact ⟨rfl, .inr ⟨_, _, rfl, rfl, ht⟩⟩

theorem advance_like (ho : o.allowUnknownBlocks = false) (g : File) {p q : Pos} (h : At p q) :
    Both Nexted (advance o g p) (advance o g q) := by
  cases h with
  | block hn h => exact next_like ho g h hn
  | data h =>
    simp only [advance]
    rcases (blocks_like h).2 with ⟨h1, h2⟩ | ⟨u, v, h1, h2, h3⟩
    · rw [h1, h2]; rfl
    · rw [h1, h2]
      exact next_like ho g h3 rfl
  | done => trivial

theorem payload_like {limit : MemoryLimit} {used : Nat} {len len' : UInt8} {a b : List UInt8} (h : Data len a len' b) :
    Both (fun x y => x.1 = y.1 ∧ Tail x.2 y.2) (payload limit used len a) (payload limit used len' b) := by
  obtain ⟨b1, b2⟩ := blocks_like h
  unfold payload
  rw [← b1]
  simp only
  by_cases hc : (blocks len.toNat a).1 ≠ [] ∧ limit.sizeOk (used + (blocks len.toNat a).1.length) = false
  · rw [if_pos hc, if_pos hc]; rfl
  · rw [if_neg hc, if_neg hc]
    rcases b2 with ⟨b2, b3⟩ | ⟨u, v, b2, b3, b4⟩
    · rw [b2, b3]; rfl
    · rw [b2, b3]; exact ⟨rfl, b4⟩

theorem raw_like {i i' : Image} (h : Pictured i i') (gr : Graphic) (d : List UInt8) :
    rawFrame (gr, { i with subs := [d] }) = rawFrame (gr, { i' with subs := [d] }) := by
  have h1 : headFrame (gr, { i with subs := [d] }) = headFrame (gr, { i' with subs := [d] }) := h.1 gr
  have h2 : ({ i with subs := [d] } : Image).data = ({ i' with subs := [d] } : Image).data := by
    show i.minCode :: _ = i'.minCode :: _
    rw [h.2.2]
  unfold rawFrame
  simp only
  rw [h1, h2]

theorem reading_like (ho : o.allowUnknownBlocks = false) (g : File) (loops : Loops) :
    ∀ (cs : List Call) (cur : Frame) {p q : Pos}, At p q →
    reading o g loops cs cur p = reading o g loops cs cur q := by
  intro cs
  induction cs with
  | nil => intros; rfl
  | cons c cs ih =>
    intro cur p q h
    have ha := advance_like ho g h
    simp only [reading]
    generalize advance o g p = x at *
    generalize advance o g q = y at *
    match x, y, ha with
    | .error e, .error _, rfl => rfl
    | .ok none, .ok none, _ =>
      simp only
    | .ok (some (n, i, len, l)), .ok (some (n', i', len', l')), ⟨h1, h2, h3⟩ =>
      cases c with
      | info =>
        simp only [h1, h2.1]
        rw [ih _ (.data h3)]
      | read =>
        simp only [h1]
        have hp := payload_like (limit := o.memoryLimit) (used := 1) h3
        generalize payload o.memoryLimit 1 len l = x at *
        generalize payload o.memoryLimit 1 len' l' = y at *
        match x, y, hp with
        | .error e, .error _, rfl => rfl
        | .ok (d1, u), .ok (d2, v), ⟨q1, q2⟩ =>
          simp only at q1 q2
          subst q1
          simp only [raw_like h2]
          rw [ih _ (.block (n := { n with graphic := .default }) (n' := { n' with graphic := .default }) rfl q2)]

def Led (x y : Loops × Notes × List UInt8) : Prop := x.1 = y.1 ∧ x.2.1.graphic = y.2.1.graphic ∧ Tail x.2.2 y.2.2

theorem lead_like {a b : List UInt8} (h : Tail a b) :
    ∀ (f1 f2 : Nat) (first : Bool) (loops : Loops) (n n' : Notes), a.length < f1 → b.length < f2 → n.graphic = n'.graphic →
    Both Led (lead o f1 first loops n a) (lead o f2 first loops n' b) := by
  induction h with
  | same l =>
    intro f1 f2 first loops n n' h1 h2 hn
    have := lead_same (o := o) [] (fun _ => False) _ f1 f2 first first loops n n' l (Nat.le_refl _) h1 h2 hn (.inl rfl)
    generalize lead o f1 first loops n l = x at *
    generalize lead o f2 first loops n' l = y at *
    match x, y, this with
    | .error e, .error _, rfl => rfl
    | .ok (q, m, l), .ok (q', m', l'), ⟨h1, h2, h3⟩ =>
      simp only at h1 h2 h3
      have h3 := extra_eq h3
      subst h3
      exact ⟨h1, h2, .same _⟩
  | @more x y a b h ht ih =>
    intro f1 f2 first loops n n' h1 h2 hn
    match f1, f2, h1, h2 with
    | f1 + 1, f2 + 1, h1, h2 =>
      rcases like_kind h with ⟨x', y', rfl, rfl⟩ | ⟨x', y', rfl, rfl, hx, hy, hh⟩
      · simp only [List.cons_append, List.length_cons, List.length_append] at h1 h2 ⊢
        rw [lead.eq_def o (f1 + 1), lead.eq_def o (f2 + 1)]
        simp only [if_true]
        rcases like_step (o := o) hn h with ⟨e, he, he'⟩ | ⟨m, m', ⟨hm, hq⟩, he, he'⟩
        · rw [he, he']; rfl
        · rw [he, he']
          simp only [hq]
          exact ih _ _ _ _ _ _ (by omega) (by omega) hm
      · have hT : Tail (0x2C :: x' ++ a) (0x2C :: y' ++ b) := .more h ht
        simp only [List.cons_append] at hT ⊢
        rw [lead.eq_def o (f1 + 1), lead.eq_def o (f2 + 1)]
        simp only [show ((0x2C : UInt8) = 0x21) = False by decide, if_false]
        rw [if_neg (by simp [hx]), if_neg (by simp [hy])]
        exact ⟨rfl, hn, hT⟩

theorem advance_g (g : File) (v : Bool) (m s : Nat) (a : UInt8) (p : Pos) :
    advance o { g with v89 := v, misc := m, size := s, aspect := a } p = advance o g p := by
  unfold advance next imageHead
  rfl

theorem reading_g (g : File) (v : Bool) (m s : Nat) (a : UInt8) (loops : Loops) : ∀ (cs : List Call) (cur : Frame) (p : Pos),
    reading o { g with v89 := v, misc := m, size := s, aspect := a } loops cs cur p = reading o g loops cs cur p := by
  intro cs
  induction cs with
  | nil => intros; rfl
  | cons c cs ih =>
    intro cur p
    simp only [reading, advance_g, ih]
    rfl

theorem table_exact {packed : UInt8} {colours : List UInt8}
    (hc : colours.length = (if 128 ≤ packed.toNat then 3 * 2 ^ (packed.toNat % 8 + 1) else 0)) (u : List UInt8) :
    table packed (colours ++ u) = .ok (if 128 ≤ packed.toNat then some colours else none, u) := by
  have hp : packed.toNat < 256 := packed.toNat_lt
  by_cases h : 128 ≤ packed.toNat
  · rw [if_pos h] at hc ⊢
    have h1 : packed.toNat / 128 = 1 := by omega
    unfold table item
    rw [if_pos h1, ← hc, if_pos (by simp)]
    simp
  · rw [if_neg h] at hc ⊢
    have h1 : ¬ packed.toNat / 128 = 1 := by omega
    have : colours = [] := List.eq_nil_of_length_eq_zero hc
    subst this
    unfold table
    rw [if_neg h1]
    rfl

theorem screen_like {a b : List UInt8} (h : LikeHead a b) : ∃ (g : File) (v : Bool) (m s : Nat) (asp : UInt8), ∀ l,
    screen (a ++ l) = .ok (g, l) ∧ screen (b ++ l) = .ok ({ g with v89 := v, misc := m, size := s, aspect := asp }, l) := by
  obtain ⟨⟨a1, a2, a3⟩, ⟨b1, b2, b3⟩, hp, hw, hb, ht⟩ := h
  match a, b, a2, b2 with
  | s0 :: s1 :: s2 :: s3 :: s4 :: s5 :: w0 :: w1 :: y0 :: y1 :: packed :: bg :: asp :: tbl,
    s0' :: s1' :: s2' :: s3' :: s4' :: s5' :: w0' :: w1' :: y0' :: y1' :: packed' :: bg' :: asp' :: tbl', _, _ =>
    simp only [List.take_succ_cons, List.take_zero, List.length_cons, List.getD_cons_succ, List.getD_cons_zero,
      List.drop_succ_cons, List.drop_zero, List.cons.injEq, and_true] at a1 a3 b1 b3 hp hw hb ht
    obtain ⟨rfl, rfl, rfl, rfl⟩ := hw
    subst hb ht
    have hi : ∀ (s0 s1 s2 s3 s4 s5 : UInt8) (r l : List UInt8), item 6 (s0 :: s1 :: s2 :: s3 :: s4 :: s5 :: (r ++ l)) =
        .ok ([s0, s1, s2, s3, s4, s5], r ++ l) := by
      intro s0 s1 s2 s3 s4 s5 r l
      unfold item
      rw [if_pos (by simp)]
      rfl
    have htab := table_exact (packed := packed) (colours := tbl) (by omega)
    have htab' := table_exact (packed := packed') (colours := tbl) (by omega)
    have hsame : (128 ≤ packed'.toNat) = (128 ≤ packed.toNat) := by
      have := packed.toNat_lt
      have := packed'.toNat_lt
      exact propext ⟨fun h => by omega, fun h => by omega⟩
    simp only [hsame] at htab'
    refine ⟨{
      v89 := decide ([s0, s1, s2, s3, s4, s5] = [0x47, 0x49, 0x46, 0x38, 0x39, 0x61])
      width := number w0 w1, height := number y0 y1
      misc := packed.toNat / 8 % 16, size := packed.toNat % 8, table := if 128 ≤ packed.toNat then some tbl else none
      background := bg, aspect := asp, blocks := [] },
      decide ([s0', s1', s2', s3', s4', s5'] = [0x47, 0x49, 0x46, 0x38, 0x39, 0x61]), packed'.toNat / 8 % 16, packed'.toNat % 8, asp',
      fun l => ⟨?_, ?_⟩⟩
    · have := hi s0 s1 s2 s3 s4 s5 (w0 :: w1 :: y0 :: y1 :: packed :: bg :: asp :: tbl) l
      simp only [List.cons_append] at this ⊢
      unfold screen
      rw [this]
      simp only [htab]
      rw [if_pos (by simpa using a1)]
    · have := hi s0' s1' s2' s3' s4' s5' (w0 :: w1 :: y0 :: y1 :: packed' :: bg :: asp' :: tbl) l
      simp only [List.cons_append] at this ⊢
      unfold screen
      rw [this]
      simp only [htab']
      rw [if_pos (by simpa using b1)]

theorem tail_blocks {post : List UInt8} : ∀ {xs ys : List (List UInt8)}, LikeAll xs ys →
    Tail (xs.flatten ++ post) (ys.flatten ++ post)
  | [], [], _ => .same _
  | x :: xs, y :: ys, h => by
    simp only [List.flatten_cons, List.append_assoc]
    exact .more h.1 (tail_blocks h.2)

theorem gif_like (ho : o.allowUnknownBlocks = false) {head head' post : List UInt8} (hh : LikeHead head head') {xs ys : List (List UInt8)}
    (hx : LikeAll xs ys) (cs : List Call) :
    gif o (head ++ (xs.flatten ++ post)) cs = gif o (head' ++ (ys.flatten ++ post)) cs := by
  obtain ⟨g, v, m, s, asp, hg⟩ := screen_like hh
  unfold gif
  rw [(hg _).1, (hg _).2]
  have := lead_like (o := o) (tail_blocks (post := post) hx) _ _ true (.finite 0) .blank .blank (Nat.lt_succ_self _) (Nat.lt_succ_self _) rfl
  simp only
  generalize lead o _ true (.finite 0) .blank (xs.flatten ++ post) = x at *
  generalize lead o _ true (.finite 0) .blank (ys.flatten ++ post) = y at *
  match x, y, this with
  | .error e, .error _, rfl => rfl
  | .ok (loops, n, l), .ok (loops', n', l'), ⟨h1, h2, h3⟩ =>
    simp only at h1 h2 h3
    subst h1
    simp only [reading_g]
    rw [reading_like ho g loops cs _ (.block h2 h3)]
    rfl

/-- **C104**. Two files whose heads and first blocks mean the same, with the same bytes after them: all calls give the same, with
`skip_frame_decoding`. -/
theorem like_session {C : Codec} (hS : C.Safe) (hsk : o.skipFrameDecoding = true) (ho : o.allowUnknownBlocks = false)
    {head head' post : List UInt8} (hh : LikeHead head head')
    {xs ys : List (List UInt8)} (hx : LikeAll xs ys) {r1 r2 : Reader} (hr1 : r1.Reliable) (hr2 : r2.Reliable)
    (h1 : r1.bytes = head ++ (xs.flatten ++ post)) (h2 : r2.bytes = head' ++ (ys.flatten ++ post)) (cs : List Call) :
    sessionFrom C o r1 cs = sessionFrom C o r2 cs := by
  rw [raw_reading hS o hsk hr1, raw_reading hS o hsk hr2, h1, h2]
  exact gif_like ho hh hx cs

/-- **C104**, opening a file with any options. -/
theorem like_open {C : Codec} (K : C.Contract) (ho : o.allowUnknownBlocks = false)
    {head head' post : List UInt8} (hh : LikeHead head head')
    {xs ys : List (List UInt8)} (hx : LikeAll xs ys) {r1 r2 : Reader} (hr1 : r1.Reliable) (hr2 : r2.Reliable)
    (h1 : r1.bytes = head ++ (xs.flatten ++ post)) (h2 : r2.bytes = head' ++ (ys.flatten ++ post)) :
    sessionFrom C o r1 [] = sessionFrom C o r2 [] := by
  rw [open_reading K o hr1, open_reading K o hr2, h1, h2]
  exact gif_like ho hh hx []

/-- **C104**, pixels, with the restrictions of `remark_film`. -/
theorem like_film {C : Codec} (K : C.Contract) (hs : o.skipFrameDecoding = false) (hce : o.checkForEndCode = false)
    (ho : o.allowUnknownBlocks = false) {head head' post : List UInt8} (hh : LikeHead head head')
    {xs ys : List (List UInt8)} (hx : LikeAll xs ys) {r1 r2 : Reader} (hr1 : r1.Reliable) (hr2 : r2.Reliable)
    (h1 : r1.bytes = head ++ (xs.flatten ++ post)) (h2 : r2.bytes = head' ++ (ys.flatten ++ post))
    (acts : List Act) (hsane : Sane K o r1 (Spec.seeks acts)) (hok : Spec.Gentle K acts (rawFrames (rawFilm C o r1 (Spec.seeks acts)))) :
    filmFrom C o r1 acts = filmFrom C o r2 acts := by
  refine film_same K hs hce hr1 hr2 (fun cs => ?_) acts hsane hok
  rw [h1, h2]
  exact gif_like ho hh hx cs

end Gif.Alike
