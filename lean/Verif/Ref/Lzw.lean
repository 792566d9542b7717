import Verif.Model.Lzw
/-!
# A reference GIF LZW codec

Not part of /repo: the crate uses `weezl`. This is GIF's variable-width LZW written plainly (bits as lists, the dictionary
as a list of words). It shows that the contract of `Verif/Spec/LzwContract.lean` can be met by a real LZW codec, and it is
the codec of all concrete examples.
-/

namespace Gif.Ref

/-- Number with the given bits, least significant first. -/
def natOfBits : List Bool → Nat
  | [] => 0
  | b :: bs => b.toNat + 2 * natOfBits bs

/-- The `w` low bits of `n`, least significant first. -/
def bitsOfNat : Nat → Nat → List Bool
  | 0, _ => []
  | w + 1, n => (n % 2 == 1) :: bitsOfNat w (n / 2)

/-- The bits of a byte string, least significant first. -/
def bitsOfBytes (l : List UInt8) : List Bool := l.flatMap fun b => bitsOfNat 8 b.toNat

/-- Packs bits into bytes, with zero bits as padding. -/
def packBits : Nat → List Bool → List UInt8
  | 0, _ => []
  | fuel + 1, bits =>
    match bits with
    | [] => []
    | bits => UInt8.ofNat (natOfBits (bits.take 8)) :: packBits fuel (bits.drop 8)

/-- The code that clears the dictionary. -/
def clearCode (m : Nat) : Nat := 2 ^ m

/-- The code that ends the data. -/
def endCode (m : Nat) : Nat := 2 ^ m + 1

/-- The first code of a multi-byte word. -/
def firstCode (m : Nat) : Nat := 2 ^ m + 2

/-- Width of a code when `next` is the next code to be assigned. -/
def width (next : Nat) : Nat := min 12 (Nat.log2 next + 1)

/-- The dictionary between two clear codes: `words` are those with codes `firstCode`, `firstCode + 1`, …;
`prev` is the word of the previous code. -/
structure Core where
  words : List (List UInt8)
  prev : Option (List UInt8)
deriving DecidableEq, Repr

/-- After a clear code. -/
def Core.empty : Core := { words := [], prev := none }

/-- Width of the next code. With code size 1 the first code that can be assigned does not fit the initial width any more. -/
def Core.width (m : Nat) (s : Core) : Nat :=
  if m = 1 ∧ s.prev = none then 2 else Ref.width (firstCode m + s.words.length)

/-- The word of a code. -/
def lookup (m : Nat) (words : List (List UInt8)) (c : Nat) : Option (List UInt8) :=
  if c < 2 ^ m then some [UInt8.ofNat c]
  else if c < firstCode m then none
  else words[c - firstCode m]?

/-- How decoding goes on after a code. -/
inductive Verdict where
  | go (s : Core) (out : List UInt8)
  | ended
  | invalid
deriving DecidableEq, Repr

/-- Expands one code. -/
def Core.step (m : Nat) (s : Core) (c : Nat) : Verdict :=
  if c = clearCode m then .go .empty []
  else if c = endCode m then .ended
  else
    match s.prev with
    | none =>
      match lookup m s.words c with
      | some w => .go { s with prev := some w } w
      | none => .invalid
    | some p =>
      let next := firstCode m + s.words.length
      let word := match lookup m s.words c with
        | some w => some w
        | none => if c = next ∧ next < 4096 then some (p ++ p.take 1) else none
      match word with
      | some w => .go { words := if next < 4096 then s.words ++ [p ++ w.take 1] else s.words, prev := some w } w
      | none => .invalid

/-- How the data ends. -/
inductive Stop where
  | more (s : Core) (bits : List Bool)
  | ended
  | invalid
deriving DecidableEq, Repr

/-- Expands all complete codes of a bit string: the output and where it stops. -/
def expand (m : Nat) : Nat → Core → List Bool → List UInt8 × Stop
  | 0, s, bits => ([], .more s bits)
  | fuel + 1, s, bits =>
    let w := s.width m
    if bits.length < w then ([], .more s bits)
    else
      match s.step m (natOfBits (bits.take w)) with
      | .go s' out =>
        let r := expand m fuel s' (bits.drop w)
        (out ++ r.1, r.2)
      | .ended => ([], .ended)
      | .invalid => ([], .invalid)

/-- The decoder: code size, output not yet delivered, and where decoding stands. -/
structure Dec where
  size : UInt8
  pending : List UInt8
  stop : Stop
deriving DecidableEq, Repr

/-- A new decoder. -/
def Dec.new (size : UInt8) : Dec := { size := size, pending := [], stop := .more .empty [] }

/-- Output and stop after more input. -/
def Dec.feed (d : Dec) (inp : List UInt8) : Dec :=
  match d.stop with
  | .more s bits =>
    let bits := bits ++ bitsOfBytes inp
    let r := expand d.size.toNat bits.length s bits
    { d with pending := d.pending ++ r.1, stop := r.2 }
  | _ => d

/-- All data was delivered and the end code was seen. -/
def Dec.hasEnded (d : Dec) : Bool := decide (d.stop = .ended) && d.pending.isEmpty

/-- Takes all input in, delivers what fits. -/
def Dec.decodeBytes (d : Dec) (inp : List UInt8) (cap : Nat) : LzwResult Dec :=
  if d.hasEnded then { st := d, consumed := 0, out := [], status := .done }
  else
    let d' := d.feed inp
    let out := d'.pending.take cap
    let st := { d' with pending := d'.pending.drop cap }
    { st := st
      consumed := inp.length
      out := out
      status :=
        if d'.stop = .invalid ∧ d'.pending = [] then .invalidCode
        else if st.hasEnded then .done
        else if inp.length = 0 ∧ out = [] then .noProgress
        else .ok }

/-- The code of a word that is in the dictionary. -/
def codeOf (m : Nat) (words : List (List UInt8)) (w : List UInt8) : Nat :=
  match w with
  | [x] => x.toNat
  | w => firstCode m + words.idxOf w

/-- Is a word in the dictionary? -/
def known (words : List (List UInt8)) (w : List UInt8) : Bool := w.length == 1 || words.contains w

/-- Bits of a code, given the encoder's dictionary (the decoder is one word behind). -/
def emit (m : Nat) (words : List (List UInt8)) (c : Nat) : List Bool :=
  bitsOfNat (width (firstCode m + (words.length - 1))) c

/-- Compresses the rest of the data; `cur` is the longest match so far. -/
def compress (m : Nat) : List (List UInt8) → List UInt8 → List UInt8 → List Bool
  | words, cur, [] =>
    emit m words (codeOf m words cur) ++ emit m (words ++ [cur]) (endCode m)
  | words, cur, b :: rest =>
    if known words (cur ++ [b]) then compress m words (cur ++ [b]) rest
    else
      emit m words (codeOf m words cur) ++
        (if firstCode m + words.length + 1 ≥ 4096 then
          emit m (words ++ [cur ++ [b]]) (clearCode m) ++ compress m [] [b] rest
         else compress m (words ++ [cur ++ [b]]) [b] rest)

/-- Compresses everything into bits. -/
def encodeBits (m : Nat) (data : List UInt8) : List Bool :=
  emit m [] (clearCode m) ++ match data with
    | [] => emit m [] (endCode m)
    | x :: rest => compress m [] [x] rest

/-- Compresses everything into bytes. -/
def encode (size : UInt8) (data : List UInt8) : List UInt8 :=
  let bits := encodeBits size.toNat data
  packBits bits.length bits

/-- The reference codec. -/
def lzw : Codec where
  σ := Dec
  new := Dec.new
  reset d := Dec.new d.size
  hasEnded := Dec.hasEnded
  decodeBytes := Dec.decodeBytes
  encode := encode

end Gif.Ref
