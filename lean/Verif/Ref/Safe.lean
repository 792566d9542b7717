import Verif.Ref.Lzw
import Verif.Spec.LzwContract
/-!
The reference codec is memory safe.
-/

namespace Gif.Ref

theorem lzw_safe : lzw.Safe where
  consumed_le := by
    intro s inp cap
    show (Dec.decodeBytes s inp cap).consumed ≤ inp.length
    unfold Dec.decodeBytes
    split
    · exact Nat.zero_le _
    · exact Nat.le_refl _
  out_le := by
    intro s inp cap
    show (Dec.decodeBytes s inp cap).out.length ≤ cap
    unfold Dec.decodeBytes
    split
    · exact Nat.zero_le _
    · simp only [List.length_take]; omega

end Gif.Ref
