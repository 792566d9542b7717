import Verif.Model.Lzw
/-!
# What is assumed about the LZW codec (crate `weezl`)

Every theorem that needs something from the codec has one of these predicates as an explicit hypothesis. They are all
proved for a real GIF LZW codec in `Verif/Ref`.
-/

namespace Gif

/-- Memory safety of `decode_bytes(inp, out)`: it consumes no more than `inp` holds and writes no more than `out` holds. -/
structure Codec.Safe (C : Codec) : Prop where
  consumed_le : ∀ s inp cap, (C.decodeBytes s inp cap).consumed ≤ inp.length
  out_le : ∀ s inp cap, (C.decodeBytes s inp cap).out.length ≤ cap

/-- How compressed data end: with the end code, with an invalid code, or before either of them. -/
inductive LzwEnd where
  | ended | invalid | starved
deriving DecidableEq, Repr

/-- The contract of the codec. `Yields s inp out e` says that a decoder in state `s`, if it is given `inp` and nothing
more, produces `out` in total and then ends as `e` says. The laws say that the pieces in which the data are offered and fetched do not matter, as long as the
codec does not report an invalid code, and that a decoder inverts the encoder. -/
structure Codec.Contract (C : Codec) where
  Yields : C.σ → List UInt8 → List UInt8 → LzwEnd → Prop
  /-- the code size of a decoder -/
  size : C.σ → UInt8
  safe : C.Safe
  size_new : ∀ m, size (C.new m) = m
  size_reset : ∀ s, size (C.reset s) = size s
  size_step : ∀ s inp cap, size (C.decodeBytes s inp cap).st = size s
  det : ∀ {s inp out out' e e'}, Yields s inp out e → Yields s inp out' e' → out = out' ∧ e = e'
  /-- Whatever a new decoder is given, it produces something. -/
  total : ∀ m inp, ∃ out e, Yields (C.new m) inp out e
  /-- `reset` gives a decoder as good as new. -/
  reset : ∀ {s inp out e}, Yields (C.new (size s)) inp out e → Yields (C.reset s) inp out e
  /-- A new decoder has produced nothing. -/
  nil : ∀ m, Yields (C.new m) [] [] .starved
  /-- More input only adds to the output. -/
  prefix_yields : ∀ {s p q out e}, Yields s (p ++ q) out e →
    ∃ out' e', Yields s p out' e' ∧ (e' = .starved ∧ out' <+: out ∨ out' = out ∧ e' = e)
  /-- One call delivers a part of the output and keeps track of the rest. -/
  step : ∀ {s inp rest out e} (cap), Yields s (inp ++ rest) out e → (C.decodeBytes s inp cap).status ≠ .invalidCode →
    ∃ out', out = (C.decodeBytes s inp cap).out ++ out' ∧
      Yields (C.decodeBytes s inp cap).st (inp.drop (C.decodeBytes s inp cap).consumed ++ rest) out' e
  /-- An invalid code is only reported if there is one in the data seen. -/
  invalid : ∀ {s inp out e} (cap), Yields s inp out e → (C.decodeBytes s inp cap).status = .invalidCode → e = .invalid
  /-- With input and room for output there is progress, unless the data have ended. -/
  progress : ∀ {s inp out e} (cap), Yields s inp out e → inp ≠ [] → 0 < cap →
    (C.decodeBytes s inp cap).status ≠ .invalidCode → (C.decodeBytes s inp cap).consumed = 0 →
    (C.decodeBytes s inp cap).out = [] → C.hasEnded (C.decodeBytes s inp cap).st
  /-- Without input, what was held back is delivered. -/
  flush : ∀ {s out e} (cap), Yields s [] out e → 0 < cap → (C.decodeBytes s [] cap).status ≠ .invalidCode →
    (C.decodeBytes s [] cap).out = [] → out = [] ∧ e ≠ .invalid ∧ (e = .ended → C.hasEnded (C.decodeBytes s [] cap).st)
  /-- After the end code, nothing follows. -/
  ended : ∀ {s} (inp), C.hasEnded s → Yields s inp [] .ended
  ended_step : ∀ {s} (inp cap), C.hasEnded s →
    (C.decodeBytes s inp cap).status = .done ∧ C.hasEnded (C.decodeBytes s inp cap).st
  /-- The status says whether there was progress and whether the data have ended. -/
  done : ∀ {s inp cap}, (C.decodeBytes s inp cap).status = .done → C.hasEnded (C.decodeBytes s inp cap).st
  ok : ∀ {s inp cap}, (C.decodeBytes s inp cap).status = .ok →
    (C.decodeBytes s inp cap).consumed ≠ 0 ∨ (C.decodeBytes s inp cap).out ≠ []
  noProgress : ∀ {s inp cap}, (C.decodeBytes s inp cap).status = .noProgress →
    (C.decodeBytes s inp cap).consumed = 0 ∧ (C.decodeBytes s inp cap).out = [] ∧
      C.hasEnded (C.decodeBytes s inp cap).st = false
  /-- Decoding inverts encoding. -/
  roundtrip : ∀ {m : UInt8} {data : List UInt8}, 2 ≤ m → m ≤ 8 → (∀ x ∈ data, x.toNat < 2 ^ m.toNat) →
    Yields (C.new m) (C.encode m data) data .ended

/-- How much of its data a decoder may hold back. A decoder may answer its very first call without output although it took in
all of the data, if these are no more than `n` bytes; apart from that, a call that takes in all of the data and gives no
output means that there is no output left, and no invalid code. With `n = 0` there is no exception. Not part of
the contract: only `FrameDecoder` depends on it. -/
def Codec.Contract.Prompt {C : Codec} (K : C.Contract) (n : Nat) : Prop :=
  ∃ warm : C.σ → Prop,
    (∀ s inp cap, warm s ∨ inp ≠ [] → warm (C.decodeBytes s inp cap).st) ∧
    ∀ {s inp out e} (cap), K.Yields s inp out e → 0 < cap → warm s ∨ n < inp.length →
      (C.decodeBytes s inp cap).status ≠ .invalidCode → (C.decodeBytes s inp cap).out = [] →
      (C.decodeBytes s inp cap).consumed = inp.length → out = [] ∧ e ≠ .invalid

end Gif
