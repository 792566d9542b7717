import Verif.Props.Scene
import Verif.Props.Descent
import Verif.Lemmas.DescentGrammar
import Verif.Spec.Remark
/-!
# C102: comments and data of applications do not matter
-/

namespace Gif.Remark

open Spec Spec.Descent Decoder

/-! ## Parts of the specification -/

theorem notes_same {n n' : Notes} (h : n.graphic = n'.graphic) (label : UInt8) (data : List UInt8) :
    ({ n with label := label, data := data } : Notes) = { n' with label := label, data := data } := by
  rw [show ({ n with label := label, data := data } : Notes) = ⟨label, data, n.graphic⟩ from rfl, h]

theorem extension_same {limit : MemoryLimit} {n n' : Notes} (h : n.graphic = n'.graphic) (l : List UInt8) :
    extension limit n l = extension limit n' l := by
  unfold extension
  simp only [notes_same h]

theorem stranger_same {o : DecodeOptions} (ho : o.allowUnknownBlocks = false) (n n' : Notes) (l : List UInt8) :
    stranger o n l = stranger o n' l := by
  unfold stranger
  simp [ho]

theorem payload_same {limit : MemoryLimit} {used : Nat} {len : UInt8} {D d : List UInt8} (h : SubBlocks len D d) :
    (∃ e, ∀ u, payload limit used len (D ++ u) = .error e) ∨ ∀ u, payload limit used len (D ++ u) = .ok (d, u) := by
  have hb : ∀ u, blocks len.toNat (D ++ u) = (d, some u) := fun u => blocks_more_some D _ u h
  unfold payload
  by_cases hl : d ≠ [] ∧ limit.sizeOk (used + d.length) = false
  · exact .inl ⟨.format .memoryLimit, fun u => by rw [hb]; exact if_pos hl⟩
  · exact .inr fun u => by rw [hb]; exact if_neg hl

theorem extension_step {limit : MemoryLimit} {label len : UInt8} {D d : List UInt8} (h : SubBlocks len D d) (n : Notes) :
    (∃ e, ∀ u, extension limit n (label :: len :: (D ++ u)) = .error e) ∨
      ∃ n1, ∀ u, extension limit n (label :: len :: (D ++ u)) = .ok (n1, u) := by
  by_cases hk : label = 0x01 ∨ label = 0xF9 ∨ label = 0xFE ∨ label = 0xFF
  · rcases payload_same (limit := limit) (used := 1) h with ⟨e, he⟩ | he
    · exact .inl ⟨e, fun u => by rw [extension, if_pos hk]; simp only [he]⟩
    · cases hf : Notes.finish { n with label := label, data := len :: d } with
      | error e => exact .inl ⟨e, fun u => by rw [extension, if_pos hk]; simp only [he, hf]⟩
      | ok n1 => exact .inr ⟨n1, fun u => by rw [extension, if_pos hk]; simp only [he, hf]⟩
  · exact .inl ⟨.format .unknownBlock, fun u => by rw [extension, if_neg hk]⟩

theorem remark_step {o : DecodeOptions} {label len : UInt8} {D d : List UInt8} (h : Remark o label len D d) (n : Notes) (u : List UInt8) :
    extension o.memoryLimit n (label :: len :: (D ++ u)) = .ok ({ n with label := label, data := len :: d }, u) := by
  have hk : label = 0x01 ∨ label = 0xF9 ∨ label = 0xFE ∨ label = 0xFF := by
    rcases h.label with h | h | h
    · exact .inl h
    · exact .inr (.inr (.inl h))
    · exact .inr (.inr (.inr h))
  have hn : label ≠ 0xF9 := by
    rcases h.label with h | h | h <;> (rw [h]; decide)
  have hp : payload o.memoryLimit 1 len (D ++ u) = .ok (d, u) := by
    have hb : blocks len.toNat (D ++ u) = (d, some u) := blocks_more_some D _ u h.data
    unfold payload
    rw [hb]
    simp only
    rw [if_neg]
    rintro ⟨h1, h2⟩
    rcases h.limit with h3 | h3
    · exact h1 h3
    · rw [h3] at h2; cases h2
  rw [extension, if_pos hk]
  simp only [hp, Notes.finish, if_neg hn]

/-! ## A remark in one of two files -/

/-- The same bytes, or `E` is put between blocks in the second of them, before bytes with `P`. -/
inductive Extra (E : List UInt8) (P : List UInt8 → Prop) : List UInt8 → List UInt8 → Prop
  | same (l : List UInt8) : Extra E P l l
  | here (l : List UInt8) (hl : P l) : Extra E P l (E ++ l)
  | ext {a b : List UInt8} {label len : UInt8} {D d : List UInt8} (h : SubBlocks len D d) (ht : Extra E P a b) :
      Extra E P (0x21 :: label :: len :: (D ++ a)) (0x21 :: label :: len :: (D ++ b))
  | picture {a b place colours : List UInt8} {packed k len : UInt8} {D d : List UInt8} (hp : place.length = 8)
      (hc : colours.length = (if 128 ≤ packed.toNat then 3 * 2 ^ (packed.toNat % 8 + 1) else 0)) (h : SubBlocks len D d) (ht : Extra E P a b) :
      Extra E P (0x2C :: (place ++ packed :: (colours ++ k :: len :: (D ++ a)))) (0x2C :: (place ++ packed :: (colours ++ k :: len :: (D ++ b))))

/-- The same within the data of an image. -/
inductive ExtraData (E : List UInt8) (P : List UInt8 → Prop) (len : UInt8) : List UInt8 → List UInt8 → Prop
  | same (l : List UInt8) : ExtraData E P len l l
  | later {a b D d : List UInt8} (h : SubBlocks len D d) (ht : Extra E P a b) : ExtraData E P len (D ++ a) (D ++ b)

/-- The same after the introducer of an image. -/
inductive ExtraHead (E : List UInt8) (P : List UInt8 → Prop) : List UInt8 → List UInt8 → Prop
  | same (l : List UInt8) : ExtraHead E P l l
  | later {a b place colours : List UInt8} {packed k len : UInt8} {D d : List UInt8} (hp : place.length = 8)
      (hc : colours.length = (if 128 ≤ packed.toNat then 3 * 2 ^ (packed.toNat % 8 + 1) else 0)) (h : SubBlocks len D d) (ht : Extra E P a b) :
      ExtraHead E P (place ++ packed :: (colours ++ k :: len :: (D ++ a))) (place ++ packed :: (colours ++ k :: len :: (D ++ b)))

/-- Two results that agree. -/
def Both {α β : Type} (R : α → β → Prop) : Parse α → Parse β → Prop
  | .error e, .error e' => e = e'
  | .ok x, .ok y => R x y
  | _, _ => False

def SeekRel (E : List UInt8) (P : List UInt8 → Prop) : Option (Notes × List UInt8) → Option (Notes × List UInt8) → Prop
  | none, none => True
  | some (n, l), some (n', l') => n.graphic = n'.graphic ∧ ExtraHead E P l l'
  | _, _ => False

variable {o : DecodeOptions} {E : List UInt8} {P : List UInt8 → Prop}

/-- Up to the next image `E` makes no difference. -/
def Skips (o : DecodeOptions) (E : List UInt8) (P : List UInt8 → Prop) : Prop :=
  ∀ l, P l → ∀ (f1 f2 : Nat) (n n' : Notes), l.length < f1 → (E ++ l).length < f2 → n.graphic = n'.graphic →
    Both (SeekRel E P) (seek o f1 n l) (seek o f2 n' (E ++ l))

theorem seek_same (ho : o.allowUnknownBlocks = false) (E : List UInt8) (P : List UInt8 → Prop) : ∀ (m : Nat) (f1 f2 : Nat) (n n' : Notes) (l : List UInt8),
    l.length ≤ m → l.length < f1 → l.length < f2 → n.graphic = n'.graphic → Both (SeekRel E P) (seek o f1 n l) (seek o f2 n' l) := by
  intro m
  induction m with
  | zero =>
    intro f1 f2 n n' l hm h1 h2 _
    have : l = [] := List.eq_nil_of_length_eq_zero (by omega)
    subst this
    cases f1 <;> cases f2 <;> rfl
  | succ m ih =>
    intro f1 f2 n n' l hm h1 h2 hn
    match f1, f2, h1, h2 with
    | f1 + 1, f2 + 1, h1, h2 =>
      cases l with
      | nil => rfl
      | cons t l =>
        rw [List.length_cons] at hm h1 h2
        simp only [seek]
        split
        · trivial
        · split
          · exact ⟨hn, .same _⟩
          · have hs : (if t = 0x21 then extension o.memoryLimit n' l else stranger o n' l) =
                if t = 0x21 then extension o.memoryLimit n l else stranger o n l := by
              rw [extension_same hn.symm, stranger_same ho n' n]
            have hl : ∀ n' l', (if t = 0x21 then extension o.memoryLimit n l else stranger o n l) = .ok (n', l') → l'.length < l.length := by
              intro n' l' h
              split at h
              · exact extension_shorter h
              · exact stranger_shorter h
            rw [hs]
            generalize (if t = 0x21 then extension o.memoryLimit n l else stranger o n l) = x at hl
            cases x with
            | error e => rfl
            | ok x =>
              obtain ⟨n1, l1⟩ := x
              have := hl _ _ rfl
              exact ih _ _ _ _ _ (by omega) (by omega) (by omega) rfl

theorem seek_extra (ho : o.allowUnknownBlocks = false) (hE : Skips o E P) {a b : List UInt8}
    (h : Extra E P a b) : ∀ (f1 f2 : Nat) (n n' : Notes), a.length < f1 → b.length < f2 → n.graphic = n'.graphic →
    Both (SeekRel E P) (seek o f1 n a) (seek o f2 n' b) := by
  induction h with
  | same l => exact fun f1 f2 n n' h1 h2 hn => seek_same ho _ _ _ _ _ _ _ _ (Nat.le_refl _) h1 h2 hn
  | here l hl => exact fun f1 f2 n n' h1 h2 hn => hE l hl f1 f2 n n' h1 h2 hn
  | @ext a b label' len' D' d' h ht ih =>
    intro f1 f2 n n' h1 h2 hn
    match f1, f2, h1, h2 with
    | f1 + 1, f2 + 1, h1, h2 =>
      simp only [List.length_cons, List.length_append] at h1 h2
      rw [seek, if_neg (by decide), if_neg (by decide), if_pos rfl, seek, if_neg (by decide), if_neg (by decide), if_pos rfl,
        extension_same hn.symm]
      rcases extension_step (limit := o.memoryLimit) (label := label') h n with ⟨e, he⟩ | ⟨n1, he⟩
      · rw [he, he]; rfl
      · rw [he, he]
        exact ih _ _ _ _ (by omega) (by omega) rfl
  | @picture a b place colours packed k len' D' d' hp hc h ht ih =>
    intro f1 f2 n n' h1 h2 hn
    match f1, f2, h1, h2 with
    | f1 + 1, f2 + 1, h1, h2 =>
      rw [seek, if_neg (by decide), if_pos rfl, seek, if_neg (by decide), if_pos rfl]
      exact ⟨hn, .later hp hc h ht⟩

def HeadRel (E : List UInt8) (P : List UInt8 → Prop) (x y : Image × UInt8 × List UInt8) : Prop := x.1 = y.1 ∧ x.2.1 = y.2.1 ∧ ExtraData E P x.2.1 x.2.2 y.2.2

theorem table_step {packed : UInt8} {colours : List UInt8}
    (hc : colours.length = (if 128 ≤ packed.toNat then 3 * 2 ^ (packed.toNat % 8 + 1) else 0)) :
    ∃ t, ∀ u, table packed (colours ++ u) = .ok (t, u) := by
  have hp : packed.toNat < 256 := packed.toNat_lt
  by_cases h : 128 ≤ packed.toNat
  · rw [if_pos h] at hc
    have h1 : packed.toNat / 128 = 1 := by omega
    refine ⟨some colours, fun u => ?_⟩
    unfold table item
    rw [if_pos h1, ← hc, if_pos (by simp)]
    simp
  · rw [if_neg h] at hc
    have h1 : ¬ packed.toNat / 128 = 1 := by omega
    have : colours = [] := List.eq_nil_of_length_eq_zero hc
    subst this
    exact ⟨none, fun u => by unfold table; rw [if_neg h1]; rfl⟩

theorem head_extra (g : File) {E a b : List UInt8} (h : ExtraHead E P a b) : Both (HeadRel E P) (imageHead o g a) (imageHead o g b) := by
  cases h with
  | same l =>
    cases imageHead o g a with
    | error e => rfl
    | ok x => exact ⟨rfl, rfl, .same _⟩
  | @later a b place colours packed k len' D' d' hp hc h ht =>
    match place, hp with
    | [l0, l1, t0, t1, w0, w1, h0, h1], _ =>
      obtain ⟨t, htab⟩ := table_step hc
      simp only [List.cons_append, List.nil_append, imageHead, htab]
      split
      · rfl
      · split
        · rfl
        · exact ⟨rfl, rfl, .later h ht⟩

def NextRel (E : List UInt8) (P : List UInt8 → Prop) : Option (Notes × Image × UInt8 × List UInt8) → Option (Notes × Image × UInt8 × List UInt8) → Prop
  | none, none => True
  | some (n, i, len, l), some (n', i', len', l') => n.graphic = n'.graphic ∧ i = i' ∧ len = len' ∧ ExtraData E P len l l'
  | _, _ => False

theorem next_extra (ho : o.allowUnknownBlocks = false) (hE : Skips o E P) (g : File) {a b : List UInt8}
    (h : Extra E P a b) {n n' : Notes} (hn : n.graphic = n'.graphic) :
    Both (NextRel E P) (next o g n a) (next o g n' b) := by
  have hs := seek_extra ho hE h (a.length + 1) (b.length + 1) n n' (Nat.lt_succ_self _) (Nat.lt_succ_self _) hn
  unfold next
  generalize seek o (a.length + 1) n a = x at *
  generalize seek o (b.length + 1) n' b = y at *
  match x, y, hs with
  | .error e, .error _, rfl => rfl
  | .ok none, .ok none, _ => trivial
  | .ok (some (m, l)), .ok (some (m', l')), ⟨h1, h2⟩ =>
    have hh := head_extra (o := o) g h2
    simp only
    generalize imageHead o g l = x at *
    generalize imageHead o g l' = y at *
    match x, y, hh with
    | .error e, .error _, rfl => rfl
    | .ok (i, len, l), .ok (i', len', l'), ⟨q1, q2, q3⟩ =>
      simp only at q1 q2 q3
      subst q1 q2
      simp only
      split
      · rfl
      · exact ⟨h1, rfl, rfl, q3⟩

inductive PosRel (E : List UInt8) (P : List UInt8 → Prop) : Pos → Pos → Prop
  | block {n n' : Notes} {a b : List UInt8} (hn : n.graphic = n'.graphic) (h : Extra E P a b) : PosRel E P (.block n a) (.block n' b)
  | data {n n' : Notes} {len : UInt8} {a b : List UInt8} (h : ExtraData E P len a b) : PosRel E P (.data n len a) (.data n' len b)
  | done : PosRel E P .done .done

theorem blocks_extra {E : List UInt8} {len : UInt8} {a b : List UInt8} (h : ExtraData E P len a b) :
    (blocks len.toNat a).1 = (blocks len.toNat b).1 ∧
    ((blocks len.toNat a).2 = none ∧ (blocks len.toNat b).2 = none ∨
      ∃ u v, (blocks len.toNat a).2 = some u ∧ (blocks len.toNat b).2 = some v ∧ Extra E P u v) := by
  cases h with
  | same l =>
    refine ⟨rfl, ?_⟩
    cases (blocks len.toNat a).2 with
    | none => exact .inl ⟨rfl, rfl⟩
    | some u => exact .inr ⟨u, u, rfl, rfl, .same _⟩
  | @later a b D d h ht =>
    rw [blocks_more_some D _ a h, blocks_more_some D _ b h]
    exact ⟨rfl, .inr ⟨a, b, rfl, rfl, ht⟩⟩

theorem advance_extra (ho : o.allowUnknownBlocks = false) (hE : Skips o E P) (g : File) {p q : Pos}
    (h : PosRel E P p q) : Both (NextRel E P) (advance o g p) (advance o g q) := by
  cases h with
  | block hn h => exact next_extra ho hE g h hn
  | data h =>
    simp only [advance]
    rcases (blocks_extra h).2 with ⟨h1, h2⟩ | ⟨u, v, h1, h2, h3⟩
    · rw [h1, h2]; rfl
    · rw [h1, h2]
      exact next_extra ho hE g h3 rfl
  | done => trivial

theorem payload_extra {limit : MemoryLimit} {used : Nat} {E : List UInt8} {len : UInt8} {a b : List UInt8} (h : ExtraData E P len a b) :
    Both (fun x y => x.1 = y.1 ∧ Extra E P x.2 y.2) (payload limit used len a) (payload limit used len b) := by
  obtain ⟨b1, b2⟩ := blocks_extra h
  unfold payload
  rw [← b1]
  simp only
  by_cases hc : (blocks len.toNat a).1 ≠ [] ∧ limit.sizeOk (used + (blocks len.toNat a).1.length) = false
  · rw [if_pos hc, if_pos hc]; rfl
  · rw [if_neg hc, if_neg hc]
    rcases b2 with ⟨b2, b3⟩ | ⟨u, v, b2, b3, b4⟩
    · rw [b2, b3]; rfl
    · rw [b2, b3]; exact ⟨rfl, b4⟩

theorem reading_extra (ho : o.allowUnknownBlocks = false) (hE : Skips o E P) (g : File) (loops : Loops) :
    ∀ (cs : List Call) (cur : Frame) {p q : Pos}, PosRel E P p q →
    reading o g loops cs cur p = reading o g loops cs cur q := by
  intro cs
  induction cs with
  | nil => intros; rfl
  | cons c cs ih =>
    intro cur p q h
    have ha := advance_extra ho hE g h
    simp only [reading]
    generalize advance o g p = x at *
    generalize advance o g q = y at *
    match x, y, ha with
    | .error e, .error _, rfl => rfl
    | .ok none, .ok none, _ =>
      simp only
    | .ok (some (n, i, len', l)), .ok (some (n', _, _, l')), ⟨h1, rfl, rfl, h4⟩ =>
      cases c with
      | info =>
        simp only [h1]
        rw [ih _ (.data h4)]
      | read =>
        simp only [h1]
        have hp := payload_extra (limit := o.memoryLimit) (used := 1) h4
        generalize payload o.memoryLimit 1 len' l = x at *
        generalize payload o.memoryLimit 1 len' l' = y at *
        match x, y, hp with
        | .error e, .error _, rfl => rfl
        | .ok (d1, u), .ok (d2, v), ⟨q1, q2⟩ =>
          simp only at q1 q2
          subst q1
          simp only
          rw [ih _ (.block (n := { n with graphic := .default }) (n' := { n' with graphic := .default }) rfl q2)]

/-! ## Before the first image -/

def LeadRel (E : List UInt8) (P : List UInt8 → Prop) (x y : Loops × Notes × List UInt8) : Prop :=
  x.1 = y.1 ∧ x.2.1.graphic = y.2.1.graphic ∧ Extra E P x.2.2 y.2.2

theorem lead_same (E : List UInt8) (P : List UInt8 → Prop) : ∀ (m : Nat) (f1 f2 : Nat) (first first' : Bool) (loops : Loops) (n n' : Notes) (l : List UInt8),
    l.length ≤ m → l.length < f1 → l.length < f2 → n.graphic = n'.graphic → (first = first' ∨ l ≠ [0x3B]) →
    Both (LeadRel E P) (lead o f1 first loops n l) (lead o f2 first' loops n' l) := by
  intro m
  induction m with
  | zero =>
    intro f1 f2 first first' loops n n' l hm h1 h2 _ _
    have : l = [] := List.eq_nil_of_length_eq_zero (by omega)
    subst this
    cases f1 <;> cases f2 <;> rfl
  | succ m ih =>
    intro f1 f2 first first' loops n n' l hm h1 h2 hn hf
    match f1, f2, h1, h2 with
    | f1 + 1, f2 + 1, h1, h2 =>
      cases l with
      | nil => rfl
      | cons t l =>
        rw [List.length_cons] at hm h1 h2
        simp only [lead]
        split
        · rw [extension_same hn.symm]
          cases he : extension o.memoryLimit n l with
          | error e => rfl
          | ok x =>
            obtain ⟨n1, l1⟩ := x
            have := extension_shorter he
            exact ih _ _ _ _ _ _ _ _ (by omega) (by omega) (by omega) rfl (.inl rfl)
        · have hc : (l = [] ∧ (first = true ∨ t ≠ 0x3B)) ↔ (l = [] ∧ (first' = true ∨ t ≠ 0x3B)) := by
            rcases hf with rfl | hf
            · exact Iff.rfl
            · constructor <;>
              · rintro ⟨h1, _⟩
                subst h1
                exact ⟨rfl, .inr fun h => hf (by rw [h])⟩
          by_cases h : l = [] ∧ (first = true ∨ t ≠ 0x3B)
          · rw [if_pos h, if_pos (hc.1 h)]; rfl
          · rw [if_neg h, if_neg (fun h' => h (hc.2 h'))]
            exact ⟨rfl, hn, .same _⟩

/-- Before the first image `E` makes no difference. -/
def Leads (o : DecodeOptions) (E : List UInt8) (P : List UInt8 → Prop) (post : List UInt8) : Prop :=
  ∀ (f1 f2 : Nat) (first : Bool) (loops : Loops) (n : Notes), post.length < f1 → (E ++ post).length < f2 →
    (first = false ∨ post ≠ [0x3B]) → Both (LeadRel E P) (lead o f1 first loops n post) (lead o f2 first loops n (E ++ post))

theorem extra_blocks {post : List UInt8} (hP : P post) : ∀ (xs : List (List UInt8)), (∀ x ∈ xs, IsExtension x ∨ IsPicture x) →
    Extra E P (xs.flatten ++ post) (xs.flatten ++ (E ++ post)) := by
  intro xs
  induction xs with
  | nil => exact fun _ => .here _ hP
  | cons x xs ih =>
    intro h
    have hr := ih fun y hy => h y (List.mem_cons_of_mem _ hy)
    rcases h x List.mem_cons_self with ⟨label, len, D, d, rfl, hs⟩ | ⟨place, packed, colours, k, len, D, d, rfl, hp, hc, hs⟩
    · simp only [List.flatten_cons, List.cons_append, List.append_assoc]
      exact .ext hs hr
    · simp only [List.flatten_cons, List.cons_append, List.append_assoc]
      exact .picture hp hc hs hr

theorem lead_extra {post : List UInt8} (hP : P post) : ∀ (xs : List (List UInt8)),
    (∀ x ∈ xs, IsExtension x ∨ IsPicture x) → (Leads o E P post ∨ ∃ x ∈ xs, IsPicture x) →
    ∀ (f1 f2 : Nat) (first : Bool) (loops : Loops) (n : Notes), (xs.flatten ++ post).length < f1 →
    (xs.flatten ++ (E ++ post)).length < f2 → (first = false ∨ xs ≠ [] ∨ post ≠ [0x3B]) →
    Both (LeadRel E P) (lead o f1 first loops n (xs.flatten ++ post)) (lead o f2 first loops n (xs.flatten ++ (E ++ post))) := by
  intro xs
  induction xs with
  | nil =>
    intro _ hl f1 f2 first loops n h1 h2 hf
    rcases hl with hl | ⟨x, hx, _⟩
    · refine hl f1 f2 first loops n h1 h2 ?_
      rcases hf with hf | hf | hf
      · exact .inl hf
      · exact absurd rfl hf
      · exact .inr hf
    · cases hx
  | cons x xs ih =>
    intro h hl f1 f2 first loops n h1 h2 hf
    have hrest := fun y hy => h y (List.mem_cons_of_mem _ hy)
    match f1, f2, h1, h2 with
    | f1 + 1, f2 + 1, h1, h2 =>
      rcases h x List.mem_cons_self with ⟨label', len', D', d', rfl, hs⟩ | ⟨place, packed, colours, k, len', D', d', rfl, hp, hc, hs⟩
      · simp only [List.flatten_cons, List.cons_append, List.append_assoc, List.length_cons, List.length_append] at h1 h2 ⊢
        rw [lead.eq_def o (f1 + 1), lead.eq_def o (f2 + 1)]
        simp only [if_true]
        rcases extension_step (limit := o.memoryLimit) (label := label') hs n with ⟨e, he⟩ | ⟨n1, he⟩
        · rw [he, he]; rfl
        · rw [he, he]
          refine ih hrest ?_ _ _ _ _ _ (by simp only [List.length_append]; omega)
            (by simp only [List.length_append, List.length_cons, List.cons_append]; omega) (.inl rfl)
          rcases hl with h | ⟨y, hy, hy'⟩
          · exact .inl h
          · rcases List.mem_cons.1 hy with rfl | hy
            · obtain ⟨_, _, _, _, _, _, _, hy', _⟩ := hy'
              cases hy'
            · exact .inr ⟨y, hy, hy'⟩
      · have hx := extra_blocks (E := E) hP _ h
        simp only [List.flatten_cons, List.cons_append, List.append_assoc] at hx ⊢
        rw [lead.eq_def o (f1 + 1), lead.eq_def o (f2 + 1)]
        simp only [show ((0x2C : UInt8) = 0x21) = False by decide, if_false]
        rw [if_neg (by simp), if_neg (by simp)]
        exact ⟨rfl, rfl, hx⟩

/-- The specification of reading does not see `E`. -/
theorem gif_extra (ho : o.allowUnknownBlocks = false) (hE : Skips o E P) {head post : List UInt8} (hP : P post) (hh : IsHead head)
    (xs : List (List UInt8)) (hx : ∀ x ∈ xs, IsExtension x ∨ IsPicture x)
    (hl : Leads o E P post ∨ ∃ x ∈ xs, IsPicture x) (hp : xs ≠ [] ∨ post ≠ [0x3B]) (cs : List Call) :
    gif o (head ++ (xs.flatten ++ post)) cs = gif o (head ++ (xs.flatten ++ (E ++ post))) cs := by
  obtain ⟨g, hg⟩ := screen_head hh
  unfold gif
  rw [hg, hg]
  have := lead_extra hP xs hx hl _ _ true (.finite 0) .blank (Nat.lt_succ_self _) (Nat.lt_succ_self _) (.inr hp)
  simp only
  generalize lead o _ true (.finite 0) .blank (xs.flatten ++ post) = x at *
  generalize lead o _ true (.finite 0) .blank (xs.flatten ++ (E ++ post)) = y at *
  match x, y, this with
  | .error e, .error _, rfl => rfl
  | .ok (loops, n, l), .ok (loops', n', l'), ⟨h1, h2, h3⟩ =>
    simp only at h1 h2 h3
    subst h1
    simp only
    rw [reading_extra ho hE g loops cs _ (.block h2 h3)]

/-- The raw frames do not show `E`: so do the pixels. -/
theorem film_same {C : Codec} (K : C.Contract) (hs : o.skipFrameDecoding = false) (hce : o.checkForEndCode = false)
    {r1 r2 : Reader} (hr1 : r1.Reliable) (hr2 : r2.Reliable) (h : ∀ cs, gif o r1.bytes cs = gif o r2.bytes cs)
    (acts : List Act) (hsane : Sane K o r1 (Spec.seeks acts)) (hok : Spec.Gentle K acts (rawFrames (rawFilm C o r1 (Spec.seeks acts)))) :
    filmFrom C o r1 acts = filmFrom C o r2 acts := by
  have hraw : rawFilm C o r2 (Spec.seeks acts) = rawFilm C o r1 (Spec.seeks acts) := by
    rw [rawFilm_gif K.safe o hr1, rawFilm_gif K.safe o hr2, h]
  have hbad : ∀ e, .failed e ∈ rawFilm C o r1 (Spec.seeks acts) → e ≠ .io .unexpectedEof ∧ e ≠ .format .memoryLimit :=
    fun e he => ⟨fun h => hsane.whole (h ▸ he), fun h => hsane.small (h ▸ he)⟩
  obtain ⟨outs, hex⟩ := Spec.expand_all K _ (rawFilm_buffer K.safe o r1 _) hsane.regular
  have hok' := hok.imp (Spec.expand_all_valid K _ _ hex) id
  have f1 := follows_nil (filmFrom_watch K o hs hce hr1 hr1 (by simp) acts _ (Nat.le_refl _) outs hbad hex hok')
  have f2 := follows_nil (filmFrom_watch K o hs hce hr2 hr2 (by simp) acts _ (Nat.le_refl _) outs (by rw [hraw]; exact hbad)
    (by rw [hraw]; exact hex) hok')
  rw [f1, f2, hraw]

/-! ## Remarks -/

variable {label len : UInt8} {D d : List UInt8}

theorem remark_skips (ho : o.allowUnknownBlocks = false) (hr : Remark o label len D d) :
    Skips o (0x21 :: label :: len :: D) (fun _ => True) := by
  intro l _ f1 f2 n n' h1 h2 hn
  match f2, h2 with
  | f2 + 1, h2 =>
    simp only [List.cons_append, List.length_cons, List.length_append] at h2
    have : seek o (f2 + 1) n' (0x21 :: label :: len :: (D ++ l)) = seek o f2 { n' with label := label, data := len :: d } l := by
      rw [seek, if_neg (by decide), if_neg (by decide), if_pos rfl, remark_step hr]
    simp only [List.cons_append]
    rw [this]
    exact seek_same ho _ _ _ _ _ _ _ _ (Nat.le_refl _) h1 (by omega) hn

theorem remark_leads (hr : Remark o label len D d) (hl : label = 0xFF → netscape [d] = none) (post : List UInt8) :
    Leads o (0x21 :: label :: len :: D) (fun _ => True) post := by
  intro f1 f2 first loops n h1 h2 hf
  match f2, h2 with
  | f2 + 1, h2 =>
    simp only [List.cons_append, List.length_cons, List.length_append] at h1 h2 ⊢
    rw [lead.eq_def o (f2 + 1)]
    simp only [if_true, remark_step hr]
    have hloops : (if label = 0xFF then (netscape [(len :: d).drop 1]).getD loops else loops) = loops := by
      split
      · rename_i hk
        rw [show (len :: d).drop 1 = d from rfl, hl hk]; rfl
      · rfl
    rw [hloops]
    exact lead_same _ _ _ _ _ _ _ _ _ _ _ (Nat.le_refl _) h1 (by omega) rfl hf

/-- The specification of reading does not see the remark. -/
theorem gif_remark (ho : o.allowUnknownBlocks = false) (hr : Remark o label len D d) {head post : List UInt8} (hh : IsHead head)
    (xs : List (List UInt8)) (hx : ∀ x ∈ xs, IsExtension x ∨ IsPicture x)
    (hl : label = 0xFF → netscape [d] = none ∨ ∃ x ∈ xs, IsPicture x) (hp : xs ≠ [] ∨ post ≠ [0x3B]) (cs : List Call) :
    gif o (head ++ (xs.flatten ++ post)) cs = gif o (head ++ (xs.flatten ++ ((0x21 :: label :: len :: D) ++ post))) cs := by
  refine gif_extra (P := fun _ => True) ho (remark_skips ho hr) trivial hh xs hx ?_ hp cs
  by_cases h : ∃ x ∈ xs, IsPicture x
  · exact .inr h
  · exact .inl (remark_leads hr (fun hk => (hl hk).resolve_right h) post)

/-- **C102**. A comment, plain text or data of an application is put between blocks of a file: with `skip_frame_decoding` all calls give
the same, the same frames and the same errors, and all accessors show the same. The file is arbitrary but for the lengths of the blocks
before; the bytes after it are arbitrary. -/
theorem remark_session {C : Codec} (hS : C.Safe) (hsk : o.skipFrameDecoding = true) (ho : o.allowUnknownBlocks = false)
    (hr : Remark o label len D d) {head post : List UInt8} (hh : IsHead head) (xs : List (List UInt8))
    (hx : ∀ x ∈ xs, IsExtension x ∨ IsPicture x) (hl : label = 0xFF → netscape [d] = none ∨ ∃ x ∈ xs, IsPicture x)
    (hp : xs ≠ [] ∨ post ≠ [0x3B]) {r1 r2 : Reader} (hr1 : r1.Reliable) (hr2 : r2.Reliable)
    (h1 : r1.bytes = head ++ (xs.flatten ++ post)) (h2 : r2.bytes = head ++ (xs.flatten ++ ((0x21 :: label :: len :: D) ++ post)))
    (cs : List Call) : sessionFrom C o r1 cs = sessionFrom C o r2 cs := by
  rw [raw_reading hS o hsk hr1, raw_reading hS o hsk hr2, h1, h2]
  exact gif_remark ho hr hh xs hx hl hp cs

/-- **C102**, opening a file: `read_info` returns the same and the accessors show the same, with all options. -/
theorem remark_open {C : Codec} (K : C.Contract) (ho : o.allowUnknownBlocks = false)
    (hr : Remark o label len D d) {head post : List UInt8} (hh : IsHead head) (xs : List (List UInt8))
    (hx : ∀ x ∈ xs, IsExtension x ∨ IsPicture x) (hl : label = 0xFF → netscape [d] = none ∨ ∃ x ∈ xs, IsPicture x)
    (hp : xs ≠ [] ∨ post ≠ [0x3B]) {r1 r2 : Reader} (hr1 : r1.Reliable) (hr2 : r2.Reliable)
    (h1 : r1.bytes = head ++ (xs.flatten ++ post)) (h2 : r2.bytes = head ++ (xs.flatten ++ ((0x21 :: label :: len :: D) ++ post))) :
    sessionFrom C o r1 [] = sessionFrom C o r2 [] := by
  rw [open_reading K o hr1, open_reading K o hr2, h1, h2]
  exact gif_remark ho hr hh xs hx hl hp []

/-- **C102**, pixels: all calls give the same, if the raw frames of the file without the remark have pixels and their data are whole,
within the memory limit, and have no invalid code after the last pixel (and none at all, if buffers are filled in pieces). -/
theorem remark_film {C : Codec} (K : C.Contract) (hs : o.skipFrameDecoding = false) (hce : o.checkForEndCode = false)
    (ho : o.allowUnknownBlocks = false) (hr : Remark o label len D d) {head post : List UInt8} (hh : IsHead head) (xs : List (List UInt8))
    (hx : ∀ x ∈ xs, IsExtension x ∨ IsPicture x) (hl : label = 0xFF → netscape [d] = none ∨ ∃ x ∈ xs, IsPicture x)
    (hp : xs ≠ [] ∨ post ≠ [0x3B]) {r1 r2 : Reader} (hr1 : r1.Reliable) (hr2 : r2.Reliable)
    (h1 : r1.bytes = head ++ (xs.flatten ++ post)) (h2 : r2.bytes = head ++ (xs.flatten ++ ((0x21 :: label :: len :: D) ++ post)))
    (acts : List Act) (hsane : Sane K o r1 (Spec.seeks acts)) (hok : Spec.Gentle K acts (rawFrames (rawFilm C o r1 (Spec.seeks acts)))) :
    filmFrom C o r1 acts = filmFrom C o r2 acts := by
  refine film_same K hs hce hr1 hr2 (fun cs => ?_) acts hsane hok
  rw [h1, h2]
  exact gif_remark ho hr hh xs hx hl hp cs

end Gif.Remark
