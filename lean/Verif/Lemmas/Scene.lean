import Verif.Lemmas.DescentGrammar
import Verif.Spec.Scene
/-!
# Cutting a string of bytes where the data of images end
-/

namespace Gif.Spec.Descent

/-! ## What a part of the reading takes from the front -/

theorem item_front {n : Nat} {l t r : List UInt8} (h : item n l = .ok (t, r)) :
    ∃ c, l = c ++ r ∧ ∀ m, item n (c ++ m) = .ok (t, m) := by
  unfold item at h
  split at h
  · rename_i hn
    cases h
    refine ⟨l.take n, (List.take_append_drop n l).symm, fun m => ?_⟩
    have hlen : (l.take n).length = n := by simp [hn]
    unfold item
    rw [if_pos (by simp; omega), List.take_append_of_le_length (by omega), List.drop_append_of_le_length (by omega)]
    have h1 : (l.take n).take n = l.take n := by rw [List.take_take]; simp
    have h2 : (l.take n).drop n = [] := by rw [List.drop_eq_nil_iff]; omega
    rw [h1, h2]
    rfl
  · cases h

theorem table_front {packed : UInt8} {l r : List UInt8} {t : Option (List UInt8)} (h : table packed l = .ok (t, r)) :
    ∃ c, l = c ++ r ∧ ∀ m, table packed (c ++ m) = .ok (t, m) := by
  unfold table at h
  split at h
  · rename_i hp
    split at h
    · rename_i t' l' hi
      cases h
      obtain ⟨c, h1, h2⟩ := item_front hi
      refine ⟨c, h1, fun m => ?_⟩
      unfold table
      rw [if_pos hp, h2 m]
    · cases h
  · rename_i hp
    cases h
    exact ⟨[], rfl, fun m => by unfold table; rw [if_neg hp]; rfl⟩

theorem blocks_front : ∀ (l : List UInt8) (n : Nat) {d r : List UInt8}, blocks n l = (d, some r) →
    ∃ c, l = c ++ r ∧ ∀ m, blocks n (c ++ m) = (d, some m) := by
  intro l
  induction l with
  | nil => intro n d r h; rw [blocks_nil] at h; cases h
  | cons b l ih =>
    intro n d r h
    cases n with
    | zero =>
      by_cases hb : b = 0
      · subst hb
        rw [blocks_end] at h
        cases h
        exact ⟨[0], rfl, fun m => blocks_end m⟩
      · rw [blocks_next hb] at h
        obtain ⟨c, h1, h2⟩ := ih _ h
        exact ⟨b :: c, by rw [h1]; rfl, fun m => by rw [List.cons_append, blocks_next hb]; exact h2 m⟩
    | succ n =>
      rw [blocks] at h
      simp only [Prod.mk.injEq] at h
      obtain ⟨c, h1, h2⟩ := ih n (d := (blocks n l).1) (r := r) (by rw [← h.2])
      refine ⟨b :: c, by rw [h1]; rfl, fun m => ?_⟩
      rw [List.cons_append, blocks, h2 m]
      simp only [Prod.mk.injEq, and_true]
      exact h.1

theorem payload_front {limit : MemoryLimit} {used : Nat} {n : UInt8} {l d r : List UInt8}
    (h : payload limit used n l = .ok (d, r)) : ∃ c, l = c ++ r ∧ ∀ m, payload limit used n (c ++ m) = .ok (d, m) := by
  unfold payload at h
  rcases hb : blocks n.toNat l with ⟨d', r'⟩
  rw [hb] at h
  simp only at h
  split at h
  · cases h
  · rename_i hl
    cases r' with
    | none => cases h
    | some r' =>
      cases h
      obtain ⟨c, h1, h2⟩ := blocks_front l _ hb
      refine ⟨c, h1, fun m => ?_⟩
      unfold payload
      rw [h2 m]
      simp only [if_neg hl]

/-- An extension replaces what was remembered of the one before. -/
theorem extension_front {limit : MemoryLimit} {n n1 : Notes} {l r : List UInt8} (h : extension limit n l = .ok (n1, r)) :
    ∃ c, l = c ++ r ∧ ∀ n' m, n'.graphic = n.graphic → extension limit n' (c ++ m) = .ok (n1, m) := by
  unfold extension at h
  split at h
  · cases h
  · rename_i label l
    split at h
    · rename_i hk
      split at h
      · cases h
      · rename_i len l
        split at h
        · cases h
        · rename_i d l2 hp
          obtain ⟨c, h1, h2⟩ := payload_front hp
          split at h
          · cases h
          · rename_i n2 hf
            cases h
            refine ⟨label :: len :: c, by rw [h1]; rfl, fun n' m hn => ?_⟩
            rw [List.cons_append, List.cons_append, extension, if_pos hk]
            simp only [h2 m]
            have : ({ n' with label := label, data := len :: d } : Notes) = { n with label := label, data := len :: d } := by
              rw [show ({ n' with label := label, data := len :: d } : Notes) = ⟨label, len :: d, n'.graphic⟩ from rfl, hn]
            rw [this, hf]
    · cases h

/-- Extensions, one after the other; the graphic control extensions change what is said of the next image. -/
inductive Way (limit : MemoryLimit) : Graphic → List UInt8 → Graphic → Prop
  | nil (g : Graphic) : Way limit g [] g
  | cons {g g' : Graphic} {n : Notes} {l c : List UInt8} :
      (∀ n' m, n'.graphic = g → extension limit n' (l ++ m) = .ok (n, m)) → Way limit n.graphic c g' →
      Way limit g (0x21 :: (l ++ c)) g'

theorem way_append {limit : MemoryLimit} {g g1 g2 : Graphic} {c c' : List UInt8} (h : Way limit g c g1) (h' : Way limit g1 c' g2) :
    Way limit g (c ++ c') g2 := by
  induction h with
  | nil g => exact h'
  | cons h1 _ ih =>
    rw [List.cons_append, List.append_assoc]
    exact .cons h1 (ih h')

theorem seek_way {o : DecodeOptions} (hu : o.allowUnknownBlocks = false) : ∀ (fuel : Nat) (n n' : Notes) (l r : List UInt8),
    seek o fuel n l = .ok (some (n', r)) → ∃ c, l = c ++ 0x2C :: r ∧ Way o.memoryLimit n.graphic c n'.graphic := by
  intro fuel
  induction fuel with
  | zero => intro n n' l r h; cases h
  | succ fuel ih =>
    intro n n' l r h
    cases l with
    | nil => cases h
    | cons t l =>
      simp only [seek] at h
      split at h
      · cases h
      · split at h
        · rename_i ht
          subst ht
          cases h
          exact ⟨[], rfl, .nil _⟩
        · by_cases ht : t = 0x21
          · subst ht
            rw [if_pos rfl] at h
            match he : extension o.memoryLimit n l with
            | .error e => rw [he] at h; cases h
            | .ok (n1, l1) =>
              rw [he] at h
              obtain ⟨c, h1, h2⟩ := extension_front he
              obtain ⟨c', h3, h4⟩ := ih n1 n' l1 r h
              refine ⟨0x21 :: (c ++ c'), ?_, .cons h2 h4⟩
              rw [h1, h3, List.cons_append, List.append_assoc]
          · rw [if_neg ht] at h
            have : stranger o n l = cut ∨ stranger o n l = .error (.format .unknownBlock) := by
              cases l with
              | nil => exact .inl rfl
              | cons a l => right; simp [stranger, hu]
            rcases this with h5 | h5 <;> rw [h5] at h <;> cases h

theorem way_seek {o : DecodeOptions} {g g' : Graphic} {c : List UInt8} (h : Way o.memoryLimit g c g') :
    ∀ (n : Notes), n.graphic = g → ∃ n', n'.graphic = g' ∧ ∀ (m : List UInt8) (fuel : Nat), (c ++ 0x2C :: m).length < fuel →
      seek o fuel n (c ++ 0x2C :: m) = .ok (some (n', m)) := by
  induction h with
  | nil g =>
    intro n hn
    refine ⟨n, hn, fun m fuel hf => ?_⟩
    cases fuel with
    | zero => simp at hf
    | succ fuel =>
      rw [List.nil_append, seek, if_neg (by decide), if_pos rfl]
  | @cons g g' n1 l c h1 _ ih =>
    intro n hn
    obtain ⟨n', h2, h3⟩ := ih n1 rfl
    refine ⟨n', h2, fun m fuel hf => ?_⟩
    cases fuel with
    | zero => simp at hf
    | succ fuel =>
      rw [List.cons_append, List.append_assoc, seek, if_neg (by decide), if_neg (by decide), if_pos rfl, h1 n _ hn]
      exact h3 m fuel (by simp only [List.length_cons, List.length_append] at hf ⊢; omega)

theorem lead_way {o : DecodeOptions} : ∀ (fuel : Nat) (first : Bool) (loops loops' : Loops) (n n' : Notes) (l r : List UInt8),
    lead o fuel first loops n l = .ok (loops', n', r) → ∃ c, l = c ++ r ∧ Way o.memoryLimit n.graphic c n'.graphic := by
  intro fuel
  induction fuel with
  | zero => intro first loops loops' n n' l r h; cases h
  | succ fuel ih =>
    intro first loops loops' n n' l r h
    cases l with
    | nil => cases h
    | cons t l =>
      simp only [lead] at h
      split at h
      · rename_i ht
        subst ht
        match he : extension o.memoryLimit n l with
        | .error e => rw [he] at h; cases h
        | .ok (n1, l1) =>
          rw [he] at h
          obtain ⟨c, h1, h2⟩ := extension_front he
          obtain ⟨c', h3, h4⟩ := ih _ _ _ n1 n' l1 r h
          refine ⟨0x21 :: (c ++ c'), ?_, .cons h2 h4⟩
          rw [h1, h3, List.cons_append, List.append_assoc]
      · split at h
        · cases h
        · cases h
          exact ⟨[], rfl, .nil _⟩

theorem way_lead {o : DecodeOptions} {g g' : Graphic} {c : List UInt8} (h : Way o.memoryLimit g c g') :
    ∀ (loops : Loops), ∃ loops', ∀ (first : Bool) (n : Notes) (b : UInt8) (m : List UInt8) (fuel : Nat), n.graphic = g →
      (c ++ 0x2C :: b :: m).length < fuel →
      ∃ n', n'.graphic = g' ∧ lead o fuel first loops n (c ++ 0x2C :: b :: m) = .ok (loops', n', 0x2C :: b :: m) := by
  induction h with
  | nil g =>
    intro loops
    refine ⟨loops, fun first n b m fuel hn hf => ⟨n, hn, ?_⟩⟩
    cases fuel with
    | zero => simp at hf
    | succ fuel =>
      rw [List.nil_append, lead, if_neg (by decide), if_neg (by simp)]
  | @cons g g' n1 l c h1 _ ih =>
    intro loops
    obtain ⟨loops', h2⟩ := ih (if n1.label = 0xFF then (netscape [n1.data.drop 1]).getD loops else loops)
    refine ⟨loops', fun first n b m fuel hn hf => ?_⟩
    cases fuel with
    | zero => simp at hf
    | succ fuel =>
      obtain ⟨n', h3, h4⟩ := h2 false n1 b m fuel rfl (by simp only [List.length_cons, List.length_append] at hf ⊢; omega)
      refine ⟨n', h3, ?_⟩
      rw [List.cons_append, List.append_assoc, lead, if_pos rfl, h1 n _ hn]
      exact h4

theorem imageHead_front {o : DecodeOptions} {g : File} {i : Image} {len : UInt8} {l r : List UInt8}
    (h : imageHead o g l = .ok (i, len, r)) :
    ∃ b c, l = b :: c ++ r ∧ ∀ m, imageHead o g (b :: c ++ m) = .ok (i, len, m) := by
  unfold imageHead at h
  split at h
  · rename_i l0 l1 t0 t1 w0 w1 h0 h1 packed l
    simp only at h
    split at h
    · cases h
    · rename_i hc
      split at h
      · cases h
      · rename_i t minCode len' l' ht
        obtain ⟨c, h2, h3⟩ := table_front ht
        split at h
        · cases h
        · rename_i hm
          cases h
          refine ⟨l0, l1 :: t0 :: t1 :: w0 :: w1 :: h0 :: h1 :: packed :: (c ++ [minCode, len]), by rw [h2]; simp, fun m => ?_⟩
          have : l0 :: l1 :: t0 :: t1 :: w0 :: w1 :: h0 :: h1 :: packed :: (c ++ [minCode, len]) ++ m =
              l0 :: l1 :: t0 :: t1 :: w0 :: w1 :: h0 :: h1 :: packed :: (c ++ minCode :: len :: m) := by simp
          rw [this, imageHead]
          simp only [if_neg hc, h3, if_neg hm]
      · cases h
  · cases h

/-! ## The bytes of a frame -/

/-- Extensions, an image descriptor and data: the bytes of the frame `f`, whatever follows them. -/
def Holds (o : DecodeOptions) (g : File) (s : List UInt8) (f : Frame) : Prop :=
  ∃ c b q y gr i len d, s = c ++ 0x2C :: b :: (q ++ y) ∧ Way o.memoryLimit .default c gr ∧
    (∀ m, imageHead o g (b :: q ++ m) = .ok (i, len, m)) ∧ ¬ (i.table = none ∧ g.table = none) ∧
    (∀ m, payload o.memoryLimit 1 len (y ++ m) = .ok (d, m)) ∧ f = rawFrame (gr, { i with subs := [d] })

theorem holds_next {o : DecodeOptions} {g : File} {s : List UInt8} {f : Frame} (h : Holds o g s f) :
    ∀ (n : Notes), n.graphic = .default → ∃ n' i len d y, rawFrame (n'.graphic, { i with subs := [d] }) = f ∧
      ∀ m, next o g n (s ++ m) = .ok (some (n', i, len, y ++ m)) ∧ payload o.memoryLimit 1 len (y ++ m) = .ok (d, m) := by
  obtain ⟨c, b, q, y, gr, i, len, d, rfl, hw, hi, ht, hp, rfl⟩ := h
  intro n hn
  obtain ⟨n', h1, h2⟩ := way_seek hw n hn
  refine ⟨n', i, len, d, y, by rw [h1], fun m => ⟨?_, hp m⟩⟩
  have := h2 (b :: (q ++ y) ++ m) ((c ++ 0x2C :: b :: (q ++ y) ++ m).length + 1) (by simp)
  unfold next
  rw [show c ++ 0x2C :: b :: (q ++ y) ++ m = c ++ 0x2C :: (b :: (q ++ y) ++ m) by simp] at this ⊢
  rw [this]
  simp only
  rw [show b :: (q ++ y) ++ m = b :: q ++ (y ++ m) by simp, hi]
  simp only [if_neg ht]

/-- Reading the frame, anywhere. -/
theorem holds_reading {o : DecodeOptions} {g : File} {s : List UInt8} {f : Frame} (h : Holds o g s f) (loops : Loops) (cur : Frame)
    (n : Notes) (hn : n.graphic = .default) : ∃ n', n'.graphic = .default ∧ ∀ (m : List UInt8) (cs : List Call),
      reading o g loops (.read :: cs) cur (.block n (s ++ m)) =
        .frame (some f) { g.view f with repetition := loopsOf loops } :: reading o g loops cs f (.block n' m) := by
  obtain ⟨n', i, len, d, y, h1, h2⟩ := holds_next h n hn
  refine ⟨{ n' with graphic := .default }, rfl, fun m cs => ?_⟩
  simp only [reading, advance, (h2 m).1, (h2 m).2, h1]

/-- Reading it as the first frame. -/
theorem holds_lead {o : DecodeOptions} {g : File} {s : List UInt8} {f : Frame} (h : Holds o g s f) :
    ∃ loops, ∀ (m : List UInt8), ∃ n l, lead o ((s ++ m).length + 1) true (.finite 0) .blank (s ++ m) = .ok (loops, n, l) ∧
      ∃ n', n'.graphic = .default ∧ ∀ (cs : List Call) (cur : Frame), reading o g loops (.read :: cs) cur (.block n l) =
        .frame (some f) { g.view f with repetition := loopsOf loops } :: reading o g loops cs f (.block n' m) := by
  obtain ⟨c, b, q, y, gr, i, len, d, rfl, hw, hi, ht, hp, rfl⟩ := h
  obtain ⟨loops, h1⟩ := way_lead hw (.finite 0)
  refine ⟨loops, fun m => ?_⟩
  obtain ⟨n, h2, h3⟩ := h1 true .blank b ((q ++ y) ++ m) ((c ++ 0x2C :: b :: (q ++ y) ++ m).length + 1) rfl (by simp)
  refine ⟨n, _, by rw [← h3]; simp, { n with graphic := .default }, rfl, fun cs cur => ?_⟩
  have h4 : next o g n (0x2C :: b :: ((q ++ y) ++ m)) = .ok (some (n, i, len, y ++ m)) := by
    unfold next
    simp only [List.length_cons, seek]
    rw [if_neg (by decide), if_pos trivial]
    simp only
    rw [show b :: ((q ++ y) ++ m) = b :: q ++ (y ++ m) by simp, hi]
    simp only [if_neg ht]
  simp only [reading, advance, h4, hp m, h2]

/-- What was read as a frame. -/
theorem next_holds {o : DecodeOptions} (hu : o.allowUnknownBlocks = false) {g : File} {n n' : Notes} {l c0 y r : List UInt8} {i : Image}
    {len : UInt8} {d : List UInt8} (hw : Way o.memoryLimit .default c0 n.graphic) (h : next o g n l = .ok (some (n', i, len, y)))
    (hp : payload o.memoryLimit 1 len y = .ok (d, r)) :
    ∃ s, c0 ++ l = s ++ r ∧ Holds o g s (rawFrame (n'.graphic, { i with subs := [d] })) := by
  unfold next at h
  split at h
  · cases h
  · cases h
  · rename_i n1 l1 hs
    obtain ⟨c, h1, h2⟩ := seek_way hu _ _ _ _ _ hs
    split at h
    · cases h
    · rename_i i' len' l2 hi
      split at h
      · cases h
      · rename_i ht
        cases h
        obtain ⟨b, q, h3, h4⟩ := imageHead_front hi
        obtain ⟨z, h5, h6⟩ := payload_front hp
        refine ⟨(c0 ++ c) ++ 0x2C :: b :: (q ++ z), ?_, c0 ++ c, b, q, z, _, i, len, d, rfl, way_append hw h2, h4, ht, h6, rfl⟩
        rw [h1, h3, h5]
        simp

end Gif.Spec.Descent
