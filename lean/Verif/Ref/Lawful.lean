import Verif.Ref.Safe
/-!
The reference codec keeps the whole contract. The main part is that its decoder inverts its encoder.
-/

namespace Gif.Ref

/-! ## Bits -/

theorem bitsOfNat_length (w n : Nat) : (bitsOfNat w n).length = w := by
  induction w generalizing n with
  | zero => rfl
  | succ w ih => simp [bitsOfNat, ih]

theorem natOfBits_bitsOfNat (w n : Nat) (h : n < 2 ^ w) : natOfBits (bitsOfNat w n) = n := by
  induction w generalizing n with
  | zero => simp at h; subst h; rfl
  | succ w ih =>
    rw [bitsOfNat, natOfBits, ih (n / 2) (by rw [Nat.pow_succ] at h; omega)]
    rcases Nat.mod_two_eq_zero_or_one n with h0 | h0 <;> simp [h0] <;> omega

theorem natOfBits_lt (l : List Bool) : natOfBits l < 2 ^ l.length := by
  induction l with
  | nil => simp [natOfBits]
  | cons b l ih =>
    rw [natOfBits, List.length_cons, Nat.pow_succ]
    cases b <;> simp <;> omega

theorem bitsOfNat_natOfBits (l : List Bool) (w : Nat) (h : l.length ≤ w) :
    bitsOfNat w (natOfBits l) = l ++ List.replicate (w - l.length) false := by
  induction l generalizing w with
  | nil =>
    simp only [natOfBits, List.length_nil, Nat.sub_zero, List.nil_append]
    induction w with
    | zero => rfl
    | succ w ih => simp [bitsOfNat, List.replicate_succ, ih]
  | cons b l ih =>
    cases w with
    | zero => simp at h
    | succ w =>
      rw [bitsOfNat, natOfBits]
      have h1 : (b.toNat + 2 * natOfBits l) / 2 = natOfBits l := by cases b <;> simp <;> omega
      have h2 : ((b.toNat + 2 * natOfBits l) % 2 == 1) = b := by cases b <;> simp <;> omega
      rw [h1, h2, ih w (by simpa using h)]
      simp

/-- Unpacking packed bits gives them back, with some padding. -/
theorem unpack_pack (fuel : Nat) (bits : List Bool) (h : bits.length ≤ fuel) :
    ∃ pad, bitsOfBytes (packBits fuel bits) = bits ++ pad := by
  induction fuel generalizing bits with
  | zero =>
    have : bits = [] := List.eq_nil_of_length_eq_zero (by omega)
    subst this
    exact ⟨[], rfl⟩
  | succ fuel ih =>
    cases bits with
    | nil => exact ⟨[], rfl⟩
    | cons b bits =>
      rw [packBits]
      · simp only [bitsOfBytes, List.flatMap_cons]
        have hlt : natOfBits ((b :: bits).take 8) < 256 := by
          have h1 := natOfBits_lt ((b :: bits).take 8)
          have h2 : ((b :: bits).take 8).length ≤ 8 := by rw [List.length_take]; omega
          have h3 : 2 ^ ((b :: bits).take 8).length ≤ 2 ^ 8 := Nat.pow_le_pow_right (by decide) h2
          omega
        have e1 : (UInt8.ofNat (natOfBits ((b :: bits).take 8))).toNat = natOfBits ((b :: bits).take 8) := by
          simp only [UInt8.toNat_ofNat']; omega
        rw [e1, bitsOfNat_natOfBits _ _ (by rw [List.length_take]; omega)]
        by_cases hl : 8 ≤ (b :: bits).length
        · have e2 : 8 - ((b :: bits).take 8).length = 0 := by rw [List.length_take]; omega
          rw [e2]
          obtain ⟨pad, hp⟩ := ih ((b :: bits).drop 8) (by rw [List.length_drop]; omega)
          refine ⟨pad, ?_⟩
          have : bitsOfBytes (packBits fuel ((b :: bits).drop 8)) =
            (packBits fuel ((b :: bits).drop 8)).flatMap fun b => bitsOfNat 8 b.toNat := rfl
          rw [← this, hp, List.replicate_zero, List.append_nil, ← List.append_assoc, List.take_append_drop]
        · rw [List.take_of_length_le (by omega), List.drop_of_length_le (by omega)]
          refine ⟨List.replicate (8 - (b :: bits).length) false, ?_⟩
          cases fuel <;> simp [packBits]
      · intro h; cases h

/-! ## Expansion -/

theorem width_pos (n : Nat) : 0 < width n := by unfold width; omega

theorem core_width_pos (m : Nat) (s : Core) : 0 < s.width m := by
  unfold Core.width; split
  · decide
  · exact width_pos _

theorem core_width {m : Nat} (hm : m ≠ 1) (s : Core) : s.width m = width (firstCode m + s.words.length) := by
  unfold Core.width; rw [if_neg (fun h => hm h.1)]

/-- More fuel than bits changes nothing. -/
theorem expand_fuel (m : Nat) : ∀ (k : Nat) (bits : List Bool), bits.length ≤ k → ∀ (f g : Nat) (s : Core),
    bits.length ≤ f → bits.length ≤ g → expand m f s bits = expand m g s bits := by
  intro k
  induction k with
  | zero =>
    intro bits hb f g s _ _
    have : bits = [] := List.eq_nil_of_length_eq_zero (by omega)
    subst this
    have hw := core_width_pos m s
    have : ∀ f, expand m f s [] = ([], .more s []) := by
      intro f
      cases f with
      | zero => rfl
      | succ f =>
        rw [expand]
        simp only
        rw [if_pos (by simpa using hw)]
    rw [this, this]
  | succ k ih =>
    intro bits hb f g s hf hg
    by_cases h0 : bits = []
    · subst h0; exact ih [] (by simp) f g s hf hg
    · have hpos : 0 < bits.length := List.length_pos_iff.2 h0
      have hw := core_width_pos m s
      match f, g with
      | 0, _ => omega
      | _ + 1, 0 => omega
      | f + 1, g + 1 =>
        rw [expand, expand]
        simp only
        split
        · rfl
        · split
          · rw [ih _ (by rw [List.length_drop]; omega) f g _ (by rw [List.length_drop]; omega) (by rw [List.length_drop]; omega)]
          · rfl
          · rfl

/-- Expansion with the fuel it needs. -/
def run (m : Nat) (s : Core) (bits : List Bool) : List UInt8 × Stop := expand m bits.length s bits

theorem run_eq (m : Nat) (s : Core) (bits : List Bool) :
    run m s bits =
      if bits.length < s.width m then ([], .more s bits)
      else
        match s.step m (natOfBits (bits.take (s.width m))) with
        | .go s' out => (out ++ (run m s' (bits.drop (s.width m))).1,
            (run m s' (bits.drop (s.width m))).2)
        | .ended => ([], .ended)
        | .invalid => ([], .invalid) := by
  have hw := core_width_pos m s
  unfold run
  rw [expand_fuel m bits.length bits (Nat.le_refl _) bits.length (bits.length + 1) s (Nat.le_refl _) (by omega), expand]
  simp only
  split
  · rfl
  · cases hs : s.step m (natOfBits (bits.take (s.width m))) with
    | go s' out =>
      simp only
      rw [expand_fuel m _ (bits.drop (s.width m)) (Nat.le_refl _) bits.length
        (bits.drop (s.width m)).length s' (by rw [List.length_drop]; omega) (Nat.le_refl _)]
    | ended => rfl
    | invalid => rfl

/-- Where to go on after more bits. -/
def resume (m : Nat) (r : List UInt8 × Stop) (x : List Bool) : List UInt8 × Stop :=
  match r.2 with
  | .more s b => (r.1 ++ (run m s (b ++ x)).1, (run m s (b ++ x)).2)
  | _ => r

theorem run_append (m : Nat) : ∀ (k : Nat) (bits : List Bool), bits.length ≤ k → ∀ (s : Core) (x : List Bool),
    run m s (bits ++ x) = resume m (run m s bits) x := by
  intro k
  induction k with
  | zero =>
    intro bits hb s x
    have : bits = [] := List.eq_nil_of_length_eq_zero (by omega)
    subst this
    have hw := core_width_pos m s
    rw [run_eq m s [], if_pos (by simpa using hw)]
    simp [resume]
  | succ k ih =>
    intro bits hb s x
    have hw := core_width_pos m s
    by_cases hl : bits.length < s.width m
    · rw [run_eq m s bits, if_pos hl]
      simp [resume]
    · rw [run_eq m s bits, if_neg hl, run_eq m s (bits ++ x), if_neg (by simp only [List.length_append]; omega),
        List.take_append_of_le_length (by omega), List.drop_append_of_le_length (by omega)]
      split
      · rename_i s' out hs
        have := ih (bits.drop (s.width m)) (by rw [List.length_drop]; omega) s' x
        rw [this]
        unfold resume
        simp only
        split <;> rename_i h <;> simp only [h, List.append_assoc]
      · rfl
      · rfl

/-! ## The decoder -/

/-- What a decoder produces on more input, and where it stops. -/
def Dec.more (d : Dec) (inp : List UInt8) : List UInt8 × Stop :=
  match d.stop with
  | .more s bits => run d.size.toNat s (bits ++ bitsOfBytes inp)
  | .ended => ([], .ended)
  | .invalid => ([], .invalid)

theorem Dec.feed_eq (d : Dec) (inp : List UInt8) :
    d.feed inp = { d with pending := d.pending ++ (d.more inp).1, stop := (d.more inp).2 } := by
  obtain ⟨size, pending, stop⟩ := d
  unfold Dec.feed Dec.more
  cases stop <;> simp [run]

theorem bitsOfBytes_append (p q : List UInt8) : bitsOfBytes (p ++ q) = bitsOfBytes p ++ bitsOfBytes q := by
  simp [bitsOfBytes]

theorem Dec.feed_feed (d : Dec) (p q : List UInt8) : (d.feed p).feed q = d.feed (p ++ q) := by
  rw [Dec.feed_eq, Dec.feed_eq, Dec.feed_eq]
  obtain ⟨size, pending, stop⟩ := d
  cases stop with
  | more s bits =>
    simp only [Dec.more, bitsOfBytes_append]
    rw [← List.append_assoc, run_append _ _ (bits ++ bitsOfBytes p) (Nat.le_refl _) s (bitsOfBytes q)]
    unfold resume
    cases h : (run size.toNat s (bits ++ bitsOfBytes p)).2 <;> simp [h]
  | ended => simp [Dec.more]
  | invalid => simp [Dec.more]

theorem Dec.feed_pending (d : Dec) (p inp : List UInt8) :
    ({ d with pending := p } : Dec).feed inp = { d.feed inp with pending := p ++ (d.more inp).1 } := by
  rw [Dec.feed_eq, Dec.feed_eq]
  rfl

/-- The end of the data as the contract sees it. -/
def Stop.toEnd : Stop → LzwEnd
  | .more _ _ => .starved
  | .ended => .ended
  | .invalid => .invalid

/-- The total output. -/
def Dec.Yields (d : Dec) (inp out : List UInt8) (e : LzwEnd) : Prop :=
  (d.feed inp).pending = out ∧ (d.feed inp).stop.toEnd = e

theorem Dec.ended_feed {d : Dec} (h : d.hasEnded = true) (inp : List UInt8) : d.feed inp = d := by
  simp only [Dec.hasEnded, Bool.and_eq_true, decide_eq_true_eq] at h
  unfold Dec.feed
  rw [h.1]

theorem Dec.decodeBytes_of_not_ended {d : Dec} (h : d.hasEnded = false) (inp : List UInt8) (cap : Nat) :
    d.decodeBytes inp cap =
      { st := { d.feed inp with pending := (d.feed inp).pending.drop cap }
        consumed := inp.length
        out := (d.feed inp).pending.take cap
        status :=
          if (d.feed inp).stop = .invalid ∧ (d.feed inp).pending = [] then .invalidCode
          else if ({ d.feed inp with pending := (d.feed inp).pending.drop cap } : Dec).hasEnded then .done
          else if inp.length = 0 ∧ (d.feed inp).pending.take cap = [] then .noProgress
          else .ok } := by
  unfold Dec.decodeBytes
  rw [if_neg (by simp [h])]

theorem Dec.decodeBytes_of_ended {d : Dec} (h : d.hasEnded = true) (inp : List UInt8) (cap : Nat) :
    d.decodeBytes inp cap = { st := d, consumed := 0, out := [], status := .done } := by
  unfold Dec.decodeBytes
  rw [if_pos h]

theorem Dec.step_yields {s : Dec} {inp rest out : List UInt8} {e : LzwEnd} (cap : Nat) (h : s.Yields (inp ++ rest) out e) :
    ∃ out', out = (s.decodeBytes inp cap).out ++ out' ∧
      (s.decodeBytes inp cap).st.Yields (inp.drop (s.decodeBytes inp cap).consumed ++ rest) out' e := by
  by_cases he : s.hasEnded = true
  · rw [Dec.decodeBytes_of_ended he]
    exact ⟨out, rfl, h⟩
  · rw [Dec.decodeBytes_of_not_ended (by simpa using he)]
    simp only [List.drop_length, List.nil_append]
    obtain ⟨h1, h2⟩ := h
    rw [← Dec.feed_feed] at h1 h2
    have e1 := Dec.feed_eq (s.feed inp) rest
    rw [e1] at h1 h2
    simp only at h1 h2
    have e2 := Dec.feed_pending (s.feed inp) ((s.feed inp).pending.drop cap) rest
    refine ⟨(s.feed inp).pending.drop cap ++ ((s.feed inp).more rest).1, ?_, ?_, ?_⟩
    · rw [← List.append_assoc, List.take_append_drop, h1]
    · rw [e2]
    · rw [e2, e1]; exact h2

theorem Dec.prefix_yields {s : Dec} {p q out : List UInt8} {e : LzwEnd} (h : s.Yields (p ++ q) out e) :
    ∃ out' e', s.Yields p out' e' ∧ (e' = .starved ∧ out' <+: out ∨ out' = out ∧ e' = e) := by
  refine ⟨_, _, ⟨rfl, rfl⟩, ?_⟩
  obtain ⟨h1, h2⟩ := h
  rw [← Dec.feed_feed, Dec.feed_eq (s.feed p)] at h1 h2
  simp only at h1 h2
  cases hs : (s.feed p).stop with
  | more c b => exact .inl ⟨rfl, ⟨_, h1⟩⟩
  | ended =>
    simp only [Dec.more, hs, List.append_nil] at h1 h2
    exact .inr ⟨h1, h2⟩
  | invalid =>
    simp only [Dec.more, hs, List.append_nil] at h1 h2
    exact .inr ⟨h1, h2⟩

/-! ## The encoder -/

theorem lt_width {n c : Nat} (hn : n < 4096) (hc : c ≤ n) : c < 2 ^ width n := by
  unfold width
  by_cases h0 : n = 0
  · subst h0
    have : c = 0 := by omega
    subst this
    exact Nat.pow_pos (by decide)
  · have h1 : n < 2 ^ (Nat.log2 n + 1) := Nat.lt_log2_self
    rcases Nat.le_total 12 (Nat.log2 n + 1) with h | h
    · rw [Nat.min_eq_left h]; omega
    · rw [Nat.min_eq_right h]; omega

/-- The decoder's dictionary is one word behind the encoder's. -/
def Behind (words : List (List UInt8)) (cur : List UInt8) (s : Core) : Prop :=
  words = [] ∧ s = .empty ∨ ∃ p, p ≠ [] ∧ s.prev = some p ∧ words = s.words ++ [p ++ cur.take 1]

theorem behind_length {words : List (List UInt8)} {cur : List UInt8} {s : Core} (h : Behind words cur s) :
    words.length - 1 = s.words.length := by
  rcases h with ⟨rfl, rfl⟩ | ⟨p, _, _, rfl⟩
  · rfl
  · simp

/-- The next code of the encoder, read by the decoder. -/
theorem run_emit (m : Nat) (hm : m ≠ 1) (words : List (List UInt8)) (s : Core) (c : Nat) (x : List Bool)
    (hl : words.length - 1 = s.words.length) (hn : firstCode m + s.words.length < 4096) (hc : c ≤ firstCode m + s.words.length) :
    run m s (emit m words c ++ x) =
      match s.step m c with
      | .go s' out => (out ++ (run m s' x).1, (run m s' x).2)
      | .ended => ([], .ended)
      | .invalid => ([], .invalid) := by
  have hlen : (emit m words c).length = s.width m := by
    rw [emit, bitsOfNat_length, hl, core_width hm]
  rw [run_eq, if_neg (by simp only [List.length_append]; omega), ← hlen, List.take_left, List.drop_left]
  have : natOfBits (emit m words c) = c := by
    rw [emit, hl, natOfBits_bitsOfNat _ _ (lt_width hn hc)]
  rw [this]

theorem clear_ne_end (m : Nat) : clearCode m ≠ endCode m := by unfold clearCode endCode; omega

theorem codeOf_spec {m : Nat} {words : List (List UInt8)} {cur : List UInt8} (hne : cur ≠ [])
    (hk : known words cur = true) (hb : ∀ x ∈ cur, x.toNat < 2 ^ m) :
    (∃ x, cur = [x] ∧ codeOf m words cur = x.toNat ∧ x.toNat < 2 ^ m) ∨
    (2 ≤ cur.length ∧ ∃ i, words[i]? = some cur ∧ codeOf m words cur = firstCode m + i) := by
  match cur, hne with
  | [x], _ => exact .inl ⟨x, rfl, rfl, hb x (by simp)⟩
  | x :: y :: l, _ =>
    have hmem : (x :: y :: l) ∈ words := by simpa [known] using hk
    refine .inr ⟨by simp, words.idxOf (x :: y :: l), ?_, rfl⟩
    rw [List.getElem?_eq_getElem (List.idxOf_lt_length_iff.2 hmem)]
    simp

/-- The decoder understands the code of the encoder's current match. -/
theorem step_code {m : Nat} {words : List (List UInt8)} {cur : List UInt8} {s : Core} (hB : Behind words cur s)
    (hne : cur ≠ []) (hk : known words cur = true) (hb : ∀ x ∈ cur, x.toNat < 2 ^ m)
    (hn : firstCode m + words.length < 4096) :
    codeOf m words cur ≤ firstCode m + s.words.length ∧
      s.step m (codeOf m words cur) = .go { words := words, prev := some cur } cur := by
  have hfc : firstCode m = 2 ^ m + 2 := rfl
  have key : ∀ c, c < 2 ^ m ∨ firstCode m ≤ c → c ≠ clearCode m ∧ c ≠ endCode m := by
    intro c hc; unfold clearCode endCode; omega
  rcases hB with ⟨rfl, rfl⟩ | ⟨p, hp, hpr, hw⟩
  · rcases codeOf_spec hne hk hb with ⟨x, rfl, hc, hx⟩ | ⟨_, i, hi, _⟩
    · rw [hc]
      obtain ⟨k1, k2⟩ := key x.toNat (.inl hx)
      refine ⟨by simp only [Core.empty, List.length_nil]; omega, ?_⟩
      simp only [Core.step, Core.empty]
      rw [if_neg k1, if_neg k2]
      simp [lookup, hx]
    · simp at hi
  · have hlen : words.length = s.words.length + 1 := by rw [hw]; simp
    have hnext : firstCode m + s.words.length < 4096 := by omega
    have hgo : ∀ c, c ≠ clearCode m → c ≠ endCode m →
        (lookup m s.words c = some cur ∨
          lookup m s.words c = none ∧ c = firstCode m + s.words.length ∧ p ++ p.take 1 = cur) →
        s.step m c = .go { words := words, prev := some cur } cur := by
      intro c k1 k2 hc
      simp only [Core.step]
      rw [if_neg k1, if_neg k2, hpr]
      simp only
      rcases hc with hc | ⟨hc, hc2, hc3⟩
      · simp only [hc]
        rw [if_pos hnext, hw]
      · simp only [hc]
        rw [if_pos ⟨hc2, hnext⟩]
        simp only [hc3]
        rw [if_pos hnext, hw]
    rcases codeOf_spec hne hk hb with ⟨x, rfl, hc, hx⟩ | ⟨h2, i, hi, hc⟩
    · obtain ⟨k1, k2⟩ := key x.toNat (.inl hx)
      rw [hc]
      refine ⟨by omega, hgo _ k1 k2 (.inl ?_)⟩
      simp [lookup, hx]
    · obtain ⟨k1, k2⟩ := key (firstCode m + i) (.inr (by omega))
      have hil : i < words.length := (List.getElem?_eq_some_iff.1 hi).1
      rw [hc]
      refine ⟨by omega, hgo _ k1 k2 ?_⟩
      have hlk : lookup m s.words (firstCode m + i) = s.words[i]? := by
        unfold lookup
        rw [if_neg (by omega), if_neg (by omega), Nat.add_sub_cancel_left]
      rw [hlk]
      by_cases h : i < s.words.length
      · left
        rw [hw, List.getElem?_append_left h] at hi
        exact hi
      · right
        have hi' : i = s.words.length := by omega
        subst hi'
        refine ⟨by simp, rfl, ?_⟩
        rw [hw, List.getElem?_append_right (Nat.le_refl _)] at hi
        simp only [Nat.sub_self, List.getElem?_cons_zero, Option.some.injEq] at hi
        rw [← hi]
        congr 1
        match p, hp with
        | a :: p, _ =>
          rw [← hi]
          simp

theorem step_end {m : Nat} (s : Core) : s.step m (endCode m) = .ended := by
  simp only [Core.step]
  rw [if_neg (clear_ne_end m).symm, if_pos trivial]

theorem step_clear {m : Nat} (s : Core) : s.step m (clearCode m) = .go .empty [] := by
  simp only [Core.step]
  rw [if_pos trivial]

/-- The decoder expands what the encoder compressed. -/
theorem run_compress (m : Nat) (h1m : m ≠ 1) (hm : firstCode m + 1 < 4096) (pad : List Bool) : ∀ (rest : List UInt8)
    (words : List (List UInt8)) (cur : List UInt8) (s : Core), Behind words cur s → cur ≠ [] → known words cur = true →
    (∀ x ∈ cur, x.toNat < 2 ^ m) → (∀ x ∈ rest, x.toNat < 2 ^ m) → firstCode m + words.length < 4096 →
    run m s (compress m words cur rest ++ pad) = (cur ++ rest, .ended) := by
  intro rest
  induction rest with
  | nil =>
    intro words cur s hB hne hk hb _ hn
    obtain ⟨h1, h2⟩ := step_code hB hne hk hb hn
    have hl := behind_length hB
    rw [compress, List.append_assoc, run_emit m h1m words s _ _ hl (by omega) h1, h2]
    simp only
    rw [run_emit m h1m (words ++ [cur]) { words := words, prev := some cur } (endCode m) pad (by simp) hn
      (by simp only [endCode, firstCode]; omega), step_end]
  | cons b rest ih =>
    intro words cur s hB hne hk hb hr hn
    have hb' : ∀ x ∈ [b], x.toNat < 2 ^ m := by
      intro x hx; rw [List.mem_singleton] at hx; subst hx; exact hr x List.mem_cons_self
    have hr' : ∀ x ∈ rest, x.toNat < 2 ^ m := fun x hx => hr x (List.mem_cons_of_mem _ hx)
    have htake : (cur ++ [b]).take 1 = cur.take 1 := by
      match cur, hne with
      | a :: l, _ => simp
    rw [compress]
    split
    · rename_i hkn
      rw [ih words (cur ++ [b]) s ?_ (by simp) hkn ?_ hr' hn]
      · simp
      · rcases hB with h | ⟨p, h1, h2, h3⟩
        · exact .inl h
        · exact .inr ⟨p, h1, h2, by rw [htake]; exact h3⟩
      · intro x hx
        rcases List.mem_append.1 hx with h | h
        · exact hb x h
        · exact hb' x h
    · obtain ⟨h1, h2⟩ := step_code hB hne hk hb hn
      have hl := behind_length hB
      rw [List.append_assoc, run_emit m h1m words s _ _ hl (by omega) h1, h2]
      simp only
      split
      · rw [List.append_assoc, run_emit m h1m (words ++ [cur ++ [b]]) { words := words, prev := some cur } (clearCode m) _
          (by simp) hn (by simp only [clearCode, firstCode]; omega), step_clear]
        simp only
        rw [ih [] [b] .empty (.inl ⟨rfl, rfl⟩) (by simp) (by simp [known]) hb' hr' (by simp; omega)]
        simp
      · rename_i hlt
        rw [ih (words ++ [cur ++ [b]]) [b] { words := words, prev := some cur } ?_ (by simp) (by simp [known]) hb' hr'
          (by simp only [List.length_append, List.length_singleton]; omega)]
        · simp
        · exact .inr ⟨cur, hne, rfl, by simp⟩

theorem run_encodeBits (m : Nat) (h1m : m ≠ 1) (hm : m ≤ 8) (data : List UInt8) (hd : ∀ x ∈ data, x.toNat < 2 ^ m) (pad : List Bool) :
    run m .empty (encodeBits m data ++ pad) = (data, .ended) := by
  have hp : 2 ^ m ≤ 2 ^ 8 := Nat.pow_le_pow_right (by decide) hm
  have hf : firstCode m + 1 < 4096 := by unfold firstCode; omega
  unfold encodeBits
  rw [List.append_assoc, run_emit m h1m [] .empty (clearCode m) _ rfl (by simp only [Core.empty, List.length_nil]; omega)
    (by simp only [clearCode, firstCode]; omega), step_clear]
  simp only [List.nil_append]
  cases data with
  | nil =>
    simp only
    rw [run_emit m h1m [] .empty (endCode m) _ rfl (by simp only [Core.empty, List.length_nil]; omega)
      (by simp only [endCode, firstCode]; omega), step_end]
  | cons x rest =>
    simp only
    rw [run_compress m h1m hf pad rest [] [x] .empty (.inl ⟨rfl, rfl⟩) (by simp) (by simp [known])
      (fun y hy => by rw [List.mem_singleton] at hy; subst hy; exact hd y List.mem_cons_self)
      (fun y hy => hd y (List.mem_cons_of_mem _ hy)) (by simp; omega)]
    rfl

theorem roundtrip {m : UInt8} {data : List UInt8} (h2 : 2 ≤ m) (hm : m ≤ 8) (hd : ∀ x ∈ data, x.toNat < 2 ^ m.toNat) :
    (Dec.new m).Yields (encode m data) data .ended := by
  have hm' : m.toNat ≤ 8 := UInt8.le_iff_toNat_le.1 hm
  obtain ⟨pad, hp⟩ := unpack_pack (encodeBits m.toNat data).length (encodeBits m.toNat data) (Nat.le_refl _)
  have : (Dec.new m).more (encode m data) = (data, .ended) := by
    show run m.toNat .empty ([] ++ bitsOfBytes (packBits _ _)) = _
    rw [List.nil_append, hp, run_encodeBits _ (by have := UInt8.le_iff_toNat_le.1 h2; simp at this; omega) hm' data hd]
  unfold Dec.Yields
  rw [Dec.feed_eq, this]
  exact ⟨rfl, rfl⟩

/-- The reference codec keeps the contract. -/
def lzwContract : lzw.Contract where
  Yields := Dec.Yields
  size := Dec.size
  safe := lzw_safe
  size_new _ := rfl
  size_reset _ := rfl
  size_step := by
    intro (s : Dec) inp cap
    show (Dec.decodeBytes s inp cap).st.size = s.size
    by_cases he : s.hasEnded = true
    · rw [Dec.decodeBytes_of_ended he]
    · rw [Dec.decodeBytes_of_not_ended (by simpa using he)]
      simp only [Dec.feed_eq]
  det := by
    intro (s : Dec) inp out out' e e' h h'
    exact ⟨h.1.symm.trans h'.1, h.2.symm.trans h'.2⟩
  total _ _ := ⟨_, _, rfl, rfl⟩
  reset h := h
  nil := by
    intro m
    show (Dec.new m).Yields [] [] .starved
    unfold Dec.Yields
    rw [Dec.feed_eq]
    have : (Dec.new m).more [] = ([], .more .empty []) := by
      show run m.toNat .empty [] = _
      rw [run_eq, if_pos (by simpa using core_width_pos _ _)]
    rw [this]
    exact ⟨rfl, rfl⟩
  prefix_yields := Dec.prefix_yields
  step cap h _ := Dec.step_yields cap h
  invalid := by
    intro (s : Dec) inp out e cap h hs
    change (Dec.decodeBytes s inp cap).status = .invalidCode at hs
    by_cases he : s.hasEnded = true
    · rw [Dec.decodeBytes_of_ended he] at hs; cases hs
    · rw [Dec.decodeBytes_of_not_ended (by simpa using he)] at hs
      simp only at hs
      split at hs
      · rename_i hi
        rw [← h.2, hi.1]; rfl
      · split at hs
        · cases hs
        · split at hs <;> cases hs
  progress := by
    intro (s : Dec) inp out e cap _ hne _ _ hc _
    change (Dec.decodeBytes s inp cap).consumed = 0 at hc
    show (Dec.decodeBytes s inp cap).st.hasEnded = true
    by_cases he : s.hasEnded = true
    · rw [Dec.decodeBytes_of_ended he]; exact he
    · rw [Dec.decodeBytes_of_not_ended (by simpa using he)] at hc
      simp only at hc
      exact absurd (List.eq_nil_of_length_eq_zero hc) hne
  flush := by
    intro (s : Dec) out e cap h hcap hs ho
    change (Dec.decodeBytes s [] cap).status ≠ .invalidCode at hs
    change (Dec.decodeBytes s [] cap).out = [] at ho
    show _ ∧ _ ∧ (_ → (Dec.decodeBytes s [] cap).st.hasEnded = true)
    by_cases he : s.hasEnded = true
    · have hf := Dec.ended_feed he []
      rw [Dec.decodeBytes_of_ended he]
      unfold Dec.Yields at h
      rw [hf] at h
      simp only [Dec.hasEnded, Bool.and_eq_true, decide_eq_true_eq, List.isEmpty_iff] at he
      obtain ⟨h1, h2⟩ := h
      rw [he.2] at h1
      rw [he.1] at h2
      refine ⟨h1.symm, by rw [← h2]; simp [Stop.toEnd], fun _ => by simp [Dec.hasEnded, he]⟩
    · rw [Dec.decodeBytes_of_not_ended (by simpa using he)] at hs ho ⊢
      simp only at hs ho ⊢
      have hp : (s.feed []).pending = [] := by
        rcases List.take_eq_nil_iff.1 ho with h | h
        · omega
        · exact h
      obtain ⟨h1, h2⟩ := h
      rw [hp] at h1
      refine ⟨h1.symm, ?_, ?_⟩
      · intro hi
        apply hs
        rw [hi] at h2
        have : (s.feed []).stop = .invalid := by
          cases hst : (s.feed []).stop <;> rw [hst] at h2 <;> first | rfl | cases h2
        rw [if_pos ⟨this, hp⟩]
      · intro hi
        rw [hi] at h2
        have : (s.feed []).stop = .ended := by
          cases hst : (s.feed []).stop <;> rw [hst] at h2 <;> first | rfl | cases h2
        simp [Dec.hasEnded, this, hp]
  ended := by
    intro (s : Dec) inp he
    change s.hasEnded = true at he
    show s.Yields inp [] .ended
    unfold Dec.Yields
    rw [Dec.ended_feed he]
    simp only [Dec.hasEnded, Bool.and_eq_true, decide_eq_true_eq, List.isEmpty_iff] at he
    exact ⟨he.2, by rw [he.1]; rfl⟩
  ended_step := by
    intro (s : Dec) inp cap he
    change s.hasEnded = true at he
    show (Dec.decodeBytes s inp cap).status = .done ∧ (Dec.decodeBytes s inp cap).st.hasEnded = true
    rw [Dec.decodeBytes_of_ended he]
    exact ⟨rfl, he⟩
  done := by
    intro (s : Dec) inp cap hs
    change (Dec.decodeBytes s inp cap).status = .done at hs
    show (Dec.decodeBytes s inp cap).st.hasEnded = true
    by_cases he : s.hasEnded = true
    · rw [Dec.decodeBytes_of_ended he]; exact he
    · rw [Dec.decodeBytes_of_not_ended (by simpa using he)] at hs ⊢
      simp only at hs ⊢
      split at hs
      · cases hs
      · split at hs
        · assumption
        · split at hs <;> cases hs
  ok := by
    intro (s : Dec) inp cap hs
    change (Dec.decodeBytes s inp cap).status = .ok at hs
    show (Dec.decodeBytes s inp cap).consumed ≠ 0 ∨ (Dec.decodeBytes s inp cap).out ≠ []
    by_cases he : s.hasEnded = true
    · rw [Dec.decodeBytes_of_ended he] at hs; cases hs
    · rw [Dec.decodeBytes_of_not_ended (by simpa using he)] at hs ⊢
      simp only at hs ⊢
      split at hs
      · cases hs
      · split at hs
        · cases hs
        · split at hs
          · cases hs
          · rename_i h
            by_cases h0 : inp.length = 0
            · exact .inr (fun hx => h ⟨h0, hx⟩)
            · exact .inl h0
  noProgress := by
    intro (s : Dec) inp cap hs
    change (Dec.decodeBytes s inp cap).status = .noProgress at hs
    show (Dec.decodeBytes s inp cap).consumed = 0 ∧ (Dec.decodeBytes s inp cap).out = [] ∧
      (Dec.decodeBytes s inp cap).st.hasEnded = false
    by_cases he : s.hasEnded = true
    · rw [Dec.decodeBytes_of_ended he] at hs; cases hs
    · rw [Dec.decodeBytes_of_not_ended (by simpa using he)] at hs ⊢
      simp only at hs ⊢
      split at hs
      · cases hs
      · split at hs
        · cases hs
        · rename_i hne
          split at hs
          · rename_i h
            exact ⟨h.1, h.2, by simpa using hne⟩
          · cases hs
  roundtrip h2 h8 hd := roundtrip h2 h8 hd

end Gif.Ref
