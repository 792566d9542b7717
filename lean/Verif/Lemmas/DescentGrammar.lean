import Verif.Spec.Descent
/-!
# The recursive descent on the files of the grammar

Two specifications compared: `Spec.Descent.gif`, which reads bytes, and the meaning of the abstract syntax.
-/

namespace Gif.Spec.Descent

open Spec

/-! ## Sub-blocks -/

theorem blocks_subs : ∀ (subs : List (List UInt8)), SubsOk subs → ∀ rest,
    blocks 0 (renderSubs subs ++ rest) = (subs.flatten, some rest)
  | [], _, rest => by simp [renderSubs, blocks_end]
  | b :: subs, h, rest => by
    obtain ⟨h1, h2⟩ := h b (by simp)
    have hn : (UInt8.ofNat b.length).toNat = b.length := by rw [UInt8.toNat_ofNat']; omega
    have hz : UInt8.ofNat b.length ≠ 0 := by
      intro hx
      rw [← UInt8.toNat_inj, hn] at hx
      have : b.length = 0 := hx
      omega
    have he : renderSubs (b :: subs) ++ rest = UInt8.ofNat b.length :: (b ++ (renderSubs subs ++ rest)) := by
      simp [renderSubs]
    rw [he, blocks_next hz, hn, blocks_append b _ b.length (Nat.le_refl _), Nat.sub_self,
      blocks_subs subs (fun x hx => h x (by simp [hx])) rest]
    rfl

/-- The first length byte, and what follows it. -/
theorem subs_first {subs : List (List UInt8)} (h : SubsOk subs) (hne : subs ≠ []) :
    ∃ len l, len ≠ 0 ∧ renderSubs subs = len :: l ∧ ∀ rest, blocks len.toNat (l ++ rest) = (subs.flatten, some rest) := by
  cases subs with
  | nil => exact absurd rfl hne
  | cons b subs =>
    obtain ⟨h1, h2⟩ := h b (by simp)
    have hn : (UInt8.ofNat b.length).toNat = b.length := by rw [UInt8.toNat_ofNat']; omega
    refine ⟨UInt8.ofNat b.length, b ++ renderSubs subs, ?_, by simp [renderSubs], fun rest => ?_⟩
    · intro hx
      rw [← UInt8.toNat_inj, hn] at hx
      have : b.length = 0 := hx
      omega
    · rw [List.append_assoc, hn, blocks_append b _ b.length (Nat.le_refl _), Nat.sub_self,
        blocks_subs subs (fun x hx => h x (by simp [hx])) rest]
      rfl

theorem payload_subs {limit : MemoryLimit} {used : Nat} {len : UInt8} {l d rest : List UInt8}
    (hb : blocks len.toNat l = (d, some rest)) (hl : limit.sizeOk (used + d.length) = true) :
    payload limit used len l = .ok (d, rest) := by
  unfold payload
  simp only [hb]
  rw [if_neg (by rw [hl]; simp)]

theorem number_le16 (n : UInt16) (l : List UInt8) : ∃ a b, le16 n ++ l = a :: b :: l ∧ number a b = n := by
  refine ⟨_, _, rfl, ?_⟩
  unfold number
  apply UInt16.toNat_inj.mp
  have := n.toNat_lt
  simp only [UInt16.toNat_ofNat', UInt8.toNat_ofNat']
  omega

/-! ## Extensions -/

/-- What is remembered after a control or other extension. -/
def noted (n : Notes) : Blk → Notes
  | .control c => { label := 0xF9, data := 4 :: c.packed :: (le16 c.delay ++ [c.trns]), graphic := c.graphic }
  | .ext label subs => { n with label := label, data := UInt8.ofNat (subs.headD []).length :: subs.flatten }
  | .image _ => { n with graphic := .default }
  | .unknown _ subs => { n with data := n.data ++ subs.flatten }

/-- A control or other extension. -/
def isExt : Blk → Bool
  | .control _ => true
  | .ext _ _ => true
  | _ => false

theorem extension_blk {o : DecodeOptions} (n : Notes) {b : Blk} (he : isExt b = true) (hok : b.Ok) (hf : b.Fits o) :
    ∃ l, b.render = 0x21 :: l ∧ ∀ rest, extension o.memoryLimit n (l ++ rest) = .ok (noted n b, rest) := by
  cases b with
  | image i => cases he
  | unknown t subs => cases he
  | control c =>
    refine ⟨_, rfl, fun rest => ?_⟩
    obtain ⟨a, b, h1, h2⟩ := number_le16 c.delay ([c.trns, 0] ++ rest)
    have hb : blocks (4 : UInt8).toNat (c.packed :: (le16 c.delay ++ ([c.trns, 0] ++ rest))) =
        (c.packed :: a :: b :: [c.trns], some rest) := by
      rw [h1]
      show blocks 4 (c.packed :: a :: b :: c.trns :: 0 :: rest) = _
      simp only [blocks, if_true]
    have h4 : le16 c.delay = [a, b] := by
      have : le16 c.delay ++ ([c.trns, 0] ++ rest) = [a, b] ++ ([c.trns, 0] ++ rest) := h1
      exact List.append_cancel_right this
    have hs : ([0xF9, 4, c.packed] ++ le16 c.delay ++ [c.trns, 0] ++ rest : List UInt8) =
        0xF9 :: 4 :: c.packed :: (le16 c.delay ++ ([c.trns, 0] ++ rest)) := by simp
    show extension o.memoryLimit n ([0xF9, 4, c.packed] ++ le16 c.delay ++ [c.trns, 0] ++ rest) = _
    rw [hs]
    unfold extension
    simp only [or_true, true_or, if_true]
    rw [payload_subs hb (by simpa [Blk.Fits] using hf)]
    simp only [Notes.finish, if_true, h2]
    simp only [noted, h4]
    rfl
  | ext label subs =>
    obtain ⟨hl, hne, hs⟩ := hok
    obtain ⟨len, l, hz, h1, h2⟩ := subs_first hs hne
    have hlen : len = UInt8.ofNat (subs.headD []).length := by
      cases subs with
      | nil => exact absurd rfl hne
      | cons b subs =>
        simp only [renderSubs, List.flatMap_cons, List.cons_append, List.append_assoc, List.cons.injEq] at h1
        exact h1.1.symm
    refine ⟨label :: len :: l, by simp [Blk.render, h1], fun rest => ?_⟩
    show extension o.memoryLimit n (label :: len :: (l ++ rest)) = _
    have hl' : label = 0x01 ∨ label = 0xF9 ∨ label = 0xFE ∨ label = 0xFF := by
      rcases hl with h | h | h
      · exact .inl h
      · exact .inr (.inr (.inl h))
      · exact .inr (.inr (.inr h))
    unfold extension
    simp only
    rw [if_pos hl', payload_subs (h2 rest) hf]
    simp only [Notes.finish]
    rw [if_neg (by rcases hl with h | h | h <;> rw [h] <;> decide)]
    simp only [noted, hlen]

/-! ## Up to the first image -/

theorem netscape_flatten (subs : List (List UInt8)) : netscape [subs.flatten] = netscape subs := by
  unfold netscape
  simp

/-- What is remembered when the first image is there. -/
def noteLead : Notes → List Blk → Notes
  | n, b :: bs => if isExt b then noteLead (noted n b) bs else n
  | n, [] => n

/-- The blocks from the first image on. -/
def fromImage : List Blk → List Blk
  | b :: bs => if isExt b then fromImage bs else b :: bs
  | [] => []

theorem lead_blks {o : DecodeOptions} {t : UInt8} {tail : List UInt8} (ht : t ≠ 0x21) (htail : tail ≠ []) :
    ∀ (bs : List Blk) (fuel : Nat) (first : Bool) (loops : Loops) (n : Notes), (∀ b ∈ bs, b.Ok ∧ b.Fits o) →
    (∀ b ∈ bs, ∀ t subs, b ≠ .unknown t subs) → (renderBlks bs ++ t :: tail).length < fuel →
    lead o fuel first loops n (renderBlks bs ++ t :: tail) =
      .ok (loopCount loops bs, noteLead n bs, renderBlks (fromImage bs) ++ t :: tail)
  | [], fuel, first, loops, n, _, _, hfuel => by
    cases fuel with
    | zero => cases hfuel
    | succ fuel =>
      show lead o (fuel + 1) first loops n (t :: tail) = .ok (loopCount loops [], n, t :: tail)
      unfold lead
      rw [if_neg ht, if_neg (fun h => htail h.1)]
      rfl
  | b :: bs, fuel, first, loops, n, hok, hun, hfuel => by
    cases fuel with
    | zero => cases hfuel
    | succ fuel =>
      obtain ⟨hok1, hf1⟩ := hok b (by simp)
      have hr : renderBlks (b :: bs) ++ t :: tail = b.render ++ (renderBlks bs ++ t :: tail) := by simp [renderBlks]
      cases he : isExt b with
      | true =>
        obtain ⟨l, h1, h2⟩ := extension_blk n he hok1 hf1
        rw [hr, h1, List.cons_append, List.length_cons] at hfuel
        rw [hr, h1, List.cons_append, lead, if_pos rfl, h2]
        simp only
        rw [lead_blks ht htail bs fuel _ _ _ (fun x hx => hok x (by simp [hx])) (fun x hx => hun x (by simp [hx]))
          (by simp only [List.length_append] at hfuel ⊢; omega)]
        have hloop : loopCount (if (noted n b).label = 0xFF then (netscape [(noted n b).data.drop 1]).getD loops else loops) bs =
            loopCount loops (b :: bs) := by
          cases b with
          | image i => cases he
          | unknown t subs => cases he
          | control c => rfl
          | ext label subs => simp only [noted, List.drop_succ_cons, List.drop_zero, netscape_flatten]; rfl
        rw [hloop]
        simp only [noteLead, fromImage, he, if_true]
      | false =>
        cases b with
        | control c => cases he
        | ext l s => cases he
        | unknown u s => exact absurd rfl (hun _ (by simp) u s)
        | image i =>
          have hd : renderBlks (.image i :: bs) ++ t :: tail = 0x2C :: (i.render.tail ++ (renderBlks bs ++ t :: tail)) := by
            rw [hr]; rfl
          rw [hd, lead, if_neg (by decide), if_neg (by simp)]
          simp only [noteLead, fromImage, isExt, Bool.false_eq_true, if_false]
          rw [hd]
          rfl

/-! ## From block to block -/

theorem blocks_shorter : ∀ (l : List UInt8) (n : Nat) {d l' : List UInt8}, blocks n l = (d, some l') → l'.length < l.length := by
  intro l
  induction l with
  | nil => intro n d l' h; rw [blocks_nil] at h; cases h
  | cons b l ih =>
    intro n d l' h
    cases n with
    | zero =>
      by_cases hb : b = 0
      · subst hb; rw [blocks_end] at h; cases h; simp
      · rw [blocks_next hb] at h
        have := ih _ h
        rw [List.length_cons]; omega
    | succ n =>
      rw [blocks] at h
      simp only [Prod.mk.injEq] at h
      have := ih n (d := (blocks n l).1) (l' := l') (by rw [← h.2])
      rw [List.length_cons]; omega

theorem payload_shorter {limit : MemoryLimit} {used : Nat} {len : UInt8} {l d l' : List UInt8}
    (h : payload limit used len l = .ok (d, l')) : l'.length < l.length := by
  unfold payload at h
  rcases hb : blocks len.toNat l with ⟨d', r⟩
  rw [hb] at h
  simp only at h
  split at h
  · cases h
  · cases r with
    | none => cases h
    | some l2 =>
      cases h
      exact blocks_shorter l _ hb

theorem extension_shorter {limit : MemoryLimit} {n n' : Notes} {l l' : List UInt8}
    (h : extension limit n l = .ok (n', l')) : l'.length < l.length := by
  unfold extension at h
  split at h
  · cases h
  · rename_i label l
    split at h
    · split at h
      · cases h
      · rename_i len l
        split at h
        · cases h
        · rename_i d l2 hp
          have := payload_shorter hp
          split at h
          · cases h
          · cases h
            simp only [List.length_cons]
            omega
    · cases h

theorem stranger_shorter {o : DecodeOptions} {n n' : Notes} {l l' : List UInt8}
    (h : stranger o n l = .ok (n', l')) : l'.length < l.length := by
  unfold stranger at h
  split at h
  · cases h
  · rename_i len l
    split at h
    · split at h
      · cases h
      · rename_i d l2 hp
        have := payload_shorter hp
        split at h
        · cases h
        · cases h
          simp only [List.length_cons]
          omega
    · cases h

/-- Enough fuel is enough. -/
theorem seek_fuel (o : DecodeOptions) : ∀ (m : Nat) (f1 f2 : Nat) (n : Notes) (l : List UInt8), l.length ≤ m → l.length < f1 →
    l.length < f2 → seek o f1 n l = seek o f2 n l := by
  intro m
  induction m with
  | zero =>
    intro f1 f2 n l hm h1 h2
    have : l = [] := List.eq_nil_of_length_eq_zero (by omega)
    subst this
    cases f1 <;> cases f2 <;> rfl
  | succ m ih =>
    intro f1 f2 n l hm h1 h2
    cases f1 with
    | zero => omega
    | succ f1 =>
      cases f2 with
      | zero => omega
      | succ f2 =>
        cases l with
        | nil => rfl
        | cons t l =>
          rw [List.length_cons] at hm h1 h2
          simp only [seek]
          split
          · rfl
          · split
            · rfl
            · have hs : ∀ n' l', (if t = 0x21 then extension o.memoryLimit n l else stranger o n l) = .ok (n', l') →
                  l'.length < l.length := by
                intro n' l' h
                split at h
                · exact extension_shorter h
                · exact stranger_shorter h
              generalize (if t = 0x21 then extension o.memoryLimit n l else stranger o n l) = x at hs
              cases x with
              | error e => rfl
              | ok x =>
                obtain ⟨n', l'⟩ := x
                have := hs n' l' rfl
                exact ih f1 f2 n' l' (by omega) (by omega) (by omega)

theorem next_ext {o : DecodeOptions} (g : File) (n : Notes) {b : Blk} (he : isExt b = true) (hok : b.Ok) (hf : b.Fits o) (rest : List UInt8) :
    next o g n (b.render ++ rest) = next o g (noted n b) rest := by
  obtain ⟨l, h1, h2⟩ := extension_blk n he hok hf
  unfold next
  have : seek o ((b.render ++ rest).length + 1) n (b.render ++ rest) = seek o (rest.length + 1) (noted n b) rest := by
    rw [h1, List.cons_append, seek, if_neg (by decide), if_neg (by decide), if_pos rfl, h2]
    simp only
    exact seek_fuel o _ _ _ _ _ (Nat.le_refl _) (by simp only [List.length_cons, List.length_append]; omega) (by omega)
  rw [this]

theorem reading_ext {o : DecodeOptions} (g : File) (loops : Loops) (cs : List Call) (cur : Frame) (n : Notes) {b : Blk} (he : isExt b = true)
    (hok : b.Ok) (hf : b.Fits o) (rest : List UInt8) :
    reading o g loops cs cur (.block n (b.render ++ rest)) = reading o g loops cs cur (.block (noted n b) rest) := by
  cases cs with
  | nil => rfl
  | cons c cs => simp only [reading, advance, next_ext g n he hok hf rest]

/-! ## Images -/

theorem image_bits {i : Image} (h : i.Ok) : (i.packed.toNat / 128 = 1 ↔ i.table.isSome = true) ∧
    (i.packed.toNat / 64 % 2 = 1 ↔ i.interlaced = true) ∧ i.packed.toNat % 8 = i.size := by
  obtain ⟨h1, h2, _⟩ := h
  unfold Image.packed
  rw [UInt8.toNat_ofNat']
  cases i.table <;> cases i.interlaced <;> simp <;> omega

theorem file_bits {g : File} (h : g.Ok) : (g.packed.toNat / 128 = 1 ↔ g.table.isSome = true) ∧
    g.packed.toNat % 8 = g.size ∧ g.packed.toNat / 8 % 16 = g.misc := by
  obtain ⟨h1, h2, _⟩ := h
  unfold File.packed
  rw [UInt8.toNat_ofNat']
  cases g.table <;> simp <;> omega

theorem table_render {packed : UInt8} {t : Option (List UInt8)} (h1 : packed.toNat / 128 = 1 ↔ t.isSome = true)
    (h2 : ∀ x, t = some x → x.length = 3 * 2 ^ (packed.toNat % 8 + 1)) (rest : List UInt8) :
    table packed (t.getD [] ++ rest) = .ok (t, rest) := by
  unfold table item
  cases t with
  | none => rw [if_neg (by simpa using h1)]; rfl
  | some x =>
    have hx := h2 x rfl
    rw [if_pos (h1.2 rfl), ← hx]
    simp

/-- Image descriptor and colour table, without the code size. -/
def descriptor (i : Image) : List UInt8 :=
  [0x2C] ++ le16 i.left ++ le16 i.top ++ le16 i.width ++ le16 i.height ++ [i.packed] ++ i.table.getD []

/-- The head of an image, whatever is at the place of the code size and of the first length byte. -/
theorem imageHead_blk {o : DecodeOptions} {g : File} {i : Image} (hok : i.Ok)
    (hin : ¬ (o.checkFrameConsistency = true ∧ ¬ g.Contains i)) :
    ∃ l, descriptor i = 0x2C :: l ∧ ∃ j : Image, j.left = i.left ∧ j.top = i.top ∧ j.width = i.width ∧ j.height = i.height ∧
      j.interlaced = i.interlaced ∧ j.table = i.table ∧
      (∀ (m len : UInt8) (rest : List UInt8), imageHead o g (l ++ m :: len :: rest) =
        if m.toNat < 1 ∨ 11 < m.toNat then .error (.format .invalidMinCodeSize) else .ok ({ j with minCode := m }, len, rest)) ∧
      ∀ x : List UInt8, x.length < 2 → imageHead o g (l ++ x) = cut := by
  refine ⟨_, rfl, ?_⟩
  obtain ⟨a1, b1, e1, n1⟩ := number_le16 i.left []
  obtain ⟨a2, b2, e2, n2⟩ := number_le16 i.top []
  obtain ⟨a3, b3, e3, n3⟩ := number_le16 i.width []
  obtain ⟨a4, b4, e4, n4⟩ := number_le16 i.height []
  rw [List.append_nil] at e1 e2 e3 e4
  obtain ⟨p1, p2, p3⟩ := image_bits hok
  have hpar : ∀ rest, table i.packed (i.table.getD [] ++ rest) = .ok (i.table, rest) :=
    table_render p1 (fun x hx => by rw [p3]; exact hok.2.2.1 x hx)
  have hcont : ∀ j : Image, j.left = i.left → j.top = i.top → j.width = i.width → j.height = i.height →
      ¬ (o.checkFrameConsistency = true ∧ ¬ g.Contains j) := by
    intro j h1 h2 h3 h4 h
    apply hin
    refine ⟨h.1, fun hc => h.2 ?_⟩
    unfold File.Contains at hc ⊢
    rw [h1, h2, h3, h4]; exact hc
  have hdec : decide (i.packed.toNat / 64 % 2 = 1) = i.interlaced := by
    cases hi : i.interlaced with
    | true => exact decide_eq_true (p2.2 hi)
    | false => exact decide_eq_false (fun h => by rw [p2.1 h] at hi; cases hi)
  refine ⟨{ left := number a1 b1, top := number a2 b2, width := number a3 b3, height := number a4 b4
            interlaced := decide (i.packed.toNat / 64 % 2 = 1), misc := i.packed.toNat / 8 % 8, size := i.packed.toNat % 8
            table := i.table, minCode := 0, subs := [] }, n1, n2, n3, n4, hdec, rfl, ?_, ?_⟩
  · intro m len rest
    rw [e1, e2, e3, e4]
    show imageHead o g (a1 :: b1 :: a2 :: b2 :: a3 :: b3 :: a4 :: b4 :: i.packed :: (i.table.getD [] ++ m :: len :: rest)) = _
    unfold imageHead
    simp only
    rw [if_neg (hcont _ n1 n2 n3 n4), hpar]
  · intro x hx
    rw [e1, e2, e3, e4]
    show imageHead o g (a1 :: b1 :: a2 :: b2 :: a3 :: b3 :: a4 :: b4 :: i.packed :: (i.table.getD [] ++ x)) = _
    unfold imageHead
    simp only
    rw [if_neg (hcont _ n1 n2 n3 n4), hpar]
    match x, hx with
    | [], _ => rfl
    | [_], _ => rfl
    | _ :: _ :: _, hx => simp only [List.length_cons] at hx; omega

theorem next_image {o : DecodeOptions} {g : File} (n : Notes) (l : List UInt8) :
    next o g n (0x2C :: l) = match imageHead o g l with
      | .error e => .error e
      | .ok (i, len, l) => if i.table = none ∧ g.table = none then .error (.format .noColorTable) else .ok (some (n, i, len, l)) := by
  unfold next
  rw [seek, if_neg (by decide), if_pos rfl]
  rfl

theorem verdict_none {o : DecodeOptions} {g : File} {i : Image} (h : g.verdict o i = none) :
    ¬ (o.checkFrameConsistency = true ∧ ¬ g.Contains i) ∧ ¬ (i.minCode.toNat < 1 ∨ 11 < i.minCode.toNat) ∧
    ¬ (i.table = none ∧ g.table = none) ∧ o.memoryLimit.sizeOk i.data.length = true := by
  unfold File.verdict File.headVerdict at h
  by_cases h1 : o.checkFrameConsistency = true ∧ ¬ g.Contains i
  · rw [if_pos h1] at h; cases h
  · rw [if_neg h1] at h
    by_cases h2 : i.minCode.toNat < 1 ∨ 11 < i.minCode.toNat
    · rw [if_pos h2] at h; cases h
    · rw [if_neg h2] at h
      by_cases h3 : i.table = none ∧ g.table = none
      · rw [if_pos h3] at h; cases h
      · rw [if_neg h3] at h
        by_cases h4 : o.memoryLimit.sizeOk i.data.length = true
        · exact ⟨h1, h2, h3, h4⟩
        · simp only at h
          rw [if_neg h4] at h; cases h

theorem reading_image {o : DecodeOptions} {g : File} (loops : Loops) (k : Nat) (cur : Frame) (n : Notes) {i : Image} (hok : i.Ok)
    (hne : i.subs ≠ []) (hv : g.verdict o i = none) (rest : List UInt8) :
    reading o g loops (List.replicate (k + 1) .read) cur (.block n (i.render ++ rest)) =
      .frame (some (rawFrame (n.graphic, i))) { g.view (rawFrame (n.graphic, i)) with repetition := loopsOf loops } ::
      reading o g loops (List.replicate k .read) (rawFrame (n.graphic, i)) (.block { n with graphic := .default } rest) := by
  obtain ⟨v1, v2, v3, v4⟩ := verdict_none hv
  obtain ⟨l, h1, j, j1, j2, j3, j4, j5, j6, h2, _⟩ := imageHead_blk (o := o) (g := g) hok v1
  obtain ⟨len, sl, _, s1, s2⟩ := subs_first hok.2.2.2 hne
  have hr : i.render ++ rest = 0x2C :: (l ++ i.minCode :: len :: (sl ++ rest)) := by
    have : i.render = descriptor i ++ i.minCode :: renderSubs i.subs := by simp [Image.render, Image.renderHead, descriptor]
    rw [this, h1, s1]
    simp
  rw [hr, List.replicate_succ]
  simp only [reading, advance]
  rw [next_image, h2, if_neg v2]
  simp only
  rw [if_neg (by rw [j6]; exact v3)]
  simp only
  rw [payload_subs (s2 rest) (by
    have : 1 + i.subs.flatten.length = i.data.length := by simp [Image.data]; omega
    rw [this]; exact v4)]
  have hf : rawFrame (n.graphic, { j with minCode := i.minCode, subs := [i.subs.flatten] }) = rawFrame (n.graphic, i) := by
    simp [rawFrame, headFrame, Image.data, j1, j2, j3, j4, j5, j6]
  simp only [hf]

/-- The blocks of a file, whatever follows them. -/
theorem reading_blks {o : DecodeOptions} {g : File} (loops : Loops) (tail : List UInt8) (k : Nat) :
    ∀ (bs : List Blk) (n : Notes) (cur : Frame), (∀ b ∈ bs, b.Ok ∧ b.Fits o) → (∀ b ∈ bs, ∀ t subs, b ≠ .unknown t subs) →
    (∀ x ∈ frames n.graphic bs, g.verdict o x.2 = none) →
    ∃ n' cur', reading o g loops (List.replicate ((frames n.graphic bs).length + k) .read) cur (.block n (renderBlks bs ++ tail)) =
      (frames n.graphic bs).map (fun x => .frame (some (rawFrame x)) { g.view (rawFrame x) with repetition := loopsOf loops }) ++
      reading o g loops (List.replicate k .read) cur' (.block n' tail)
  | [], n, cur, _, _, _ => ⟨n, cur, by simp [frames, renderBlks]⟩
  | b :: bs, n, cur, hok, hun, hv => by
    have hr : renderBlks (b :: bs) ++ tail = b.render ++ (renderBlks bs ++ tail) := by simp [renderBlks]
    obtain ⟨o1, o2⟩ := hok b (by simp)
    have hok' : ∀ b ∈ bs, b.Ok ∧ b.Fits o := fun x hx => hok x (by simp [hx])
    have hun' : ∀ b ∈ bs, ∀ t subs, b ≠ .unknown t subs := fun x hx => hun x (by simp [hx])
    rw [hr]
    cases b with
    | unknown t s => exact absurd rfl (hun _ (by simp) t s)
    | control c =>
      rw [reading_ext g loops _ cur n (b := .control c) rfl o1 o2]
      exact reading_blks loops tail k bs (noted n (.control c)) cur hok' hun' hv
    | ext label subs =>
      rw [reading_ext g loops _ cur n (b := .ext label subs) rfl o1 o2]
      exact reading_blks loops tail k bs (noted n (.ext label subs)) cur hok' hun' hv
    | image i =>
      obtain ⟨n', cur', h⟩ := reading_blks loops tail k bs { n with graphic := .default } (rawFrame (n.graphic, i)) hok' hun'
        (fun x hx => hv x (List.mem_cons_of_mem _ hx))
      refine ⟨n', cur', ?_⟩
      have hl : (frames n.graphic (.image i :: bs)).length + k = (frames .default bs).length + k + 1 := by
        show ((n.graphic, i) :: frames .default bs).length + k = _
        rw [List.length_cons]; omega
      rw [hl]
      have := reading_image (o := o) (g := g) loops ((frames .default bs).length + k) cur n (i := i) o1 o2
        (hv (n.graphic, i) List.mem_cons_self) (renderBlks bs ++ tail)
      refine this.trans ?_
      rw [h]
      rfl

theorem screen_render {g : File} (hok : g.Ok) (rest : List UInt8) :
    screen (g.renderHead ++ rest) = .ok ({ g with blocks := [] }, rest) := by
  obtain ⟨a1, b1, e1, n1⟩ := number_le16 g.width []
  obtain ⟨a2, b2, e2, n2⟩ := number_le16 g.height []
  rw [List.append_nil] at e1 e2
  obtain ⟨p1, p2, p3⟩ := file_bits hok
  have ht : table g.packed (g.table.getD [] ++ rest) = .ok (g.table, rest) :=
    table_render p1 (fun x hx => by rw [p2]; exact hok.2.2.1 x hx) rest
  have hr : g.renderHead ++ rest = [0x47, 0x49, 0x46, 0x38, if g.v89 then 0x39 else 0x37, 0x61] ++
      a1 :: b1 :: a2 :: b2 :: g.packed :: g.background :: g.aspect :: (g.table.getD [] ++ rest) := by
    unfold File.renderHead
    rw [e1, e2]
    simp
  rw [hr]
  unfold screen item
  rw [if_pos (by simp)]
  simp only [List.take_append_of_le_length, List.length_cons, List.length_nil, Nat.le_refl, List.drop_append_of_le_length]
  have hsig : ([0x47, 0x49, 0x46, 0x38, if g.v89 then 0x39 else 0x37, 0x61] : List UInt8).take 6 =
      [0x47, 0x49, 0x46, 0x38, if g.v89 then 0x39 else 0x37, 0x61] := rfl
  rw [if_pos (by cases g.v89 <;> simp)]
  simp only [List.drop_succ_cons, List.drop_zero, List.nil_append]
  rw [ht]
  simp only [n1, n2, p2, p3]
  cases g with
  | mk v89 width height misc size table background aspect blocks =>
    cases v89 <;> simp

theorem frames_lead : ∀ (bs : List Blk) (n : Notes), (∀ b ∈ bs, ∀ t subs, b ≠ .unknown t subs) →
    frames (noteLead n bs).graphic (fromImage bs) = frames n.graphic bs
  | [], _, _ => rfl
  | b :: bs, n, hun => by
    cases b with
    | unknown t s => exact absurd rfl (hun _ (by simp) t s)
    | image i => rfl
    | control c => exact frames_lead bs (noted n (.control c)) (fun x hx => hun x (by simp [hx]))
    | ext label subs => exact frames_lead bs (noted n (.ext label subs)) (fun x hx => hun x (by simp [hx]))

theorem fromImage_mem : ∀ {bs : List Blk} {b : Blk}, b ∈ fromImage bs → b ∈ bs
  | [], _, h => h
  | b :: bs, x, h => by
    unfold fromImage at h
    split at h
    · exact List.mem_cons_of_mem _ (fromImage_mem h)
    · exact h

/-- A file of the grammar without unknown blocks, in which something that is no extension follows the last block: header, frames,
and then what follows. -/
theorem gif_blks {o : DecodeOptions} {g : File} (hok : g.Ok) (hfit : ∀ b ∈ g.blocks, b.Fits o)
    (hun : ∀ b ∈ g.blocks, ∀ t subs, b ≠ .unknown t subs) (hv : ∀ x ∈ g.frames, g.verdict o x.2 = none) {t : UInt8} {tail : List UInt8}
    (ht : t ≠ 0x21) (htail : tail ≠ []) (k : Nat) :
    ∃ n cur, gif o (g.renderHead ++ renderBlks g.blocks ++ t :: tail) (List.replicate (g.frames.length + k) .read) =
      .opened (g.view Frame.default) :: g.frames.map (fun x => .frame (some (rawFrame x)) (g.view (rawFrame x))) ++
        reading o g g.loops (List.replicate k .read) cur (.block n (t :: tail)) := by
  have hblk : ∀ b ∈ g.blocks, b.Ok ∧ b.Fits o := fun b hb => ⟨hok.2.2.2 b hb, hfit b hb⟩
  unfold gif
  rw [List.append_assoc, screen_render hok]
  simp only
  rw [lead_blks ht htail g.blocks _ true _ _ hblk hun (by omega)]
  simp only
  have hv0 : ∀ b : List Blk, ({ g with blocks := b } : File).Contains = g.Contains := fun _ => rfl
  have hfr := frames_lead g.blocks .blank hun
  have hg0 : ∀ i, File.verdict o { g with blocks := [] } i = g.verdict o i := fun i => rfl
  have hreq : reading o { g with blocks := [] } = reading o g := by
    funext loops cs
    induction cs with
    | nil => rfl
    | cons c cs ih =>
      funext cur p
      have hadv : advance o { g with blocks := [] } p = advance o g p := by cases p <;> rfl
      simp only [reading, ih, hadv]
      rfl
  obtain ⟨n, cur, h⟩ := reading_blks (o := o) (g := g) g.loops (t :: tail) k (fromImage g.blocks) (noteLead .blank g.blocks)
    Frame.default (fun b hb => hblk b (fromImage_mem hb)) (fun b hb => hun b (fromImage_mem hb))
    (by rw [hfr]; exact hv)
  rw [hfr] at h
  refine ⟨n, cur, ?_⟩
  rw [hreq]
  show _ :: reading o g g.loops (List.replicate (g.frames.length + k) .read) Frame.default _ = _
  have h' : reading o g g.loops (List.replicate (g.frames.length + k) .read) Frame.default
      (.block (noteLead .blank g.blocks) (renderBlks (fromImage g.blocks) ++ t :: tail)) = _ := h
  rw [h']
  rfl

/-- An image without code size: what follows its descriptor and colour table cannot be read. -/
theorem reading_torn {o : DecodeOptions} {g : File} (loops : Loops) (cur : Frame) (n : Notes) {i : Image} (hok : i.Ok)
    (hin : o.checkFrameConsistency = true → g.Contains i) {m : UInt8} (hm : 11 < m.toNat) (rest : List UInt8) :
    reading o g loops [.read] cur (.block n (descriptor i ++ m :: rest)) =
      [.failed (if rest = [] then .io .unexpectedEof else .format .invalidMinCodeSize)] := by
  obtain ⟨l, h1, j, _, _, _, _, _, _, h2, h3⟩ := imageHead_blk (o := o) (g := g) hok (fun h => h.2 (hin h.1))
  rw [h1, List.cons_append]
  simp only [reading, advance]
  rw [next_image]
  cases rest with
  | nil => rw [h3 [m] (by simp)]; rfl
  | cons len rest => rw [h2, if_pos (.inr hm)]; rfl

end Gif.Spec.Descent
