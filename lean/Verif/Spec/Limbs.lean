import Verif.Model.Num

/-!
# What machine words of a field element mean
-/

namespace Fawkes

/-- The words of `x` in Montgomery form: as many words as the field has, least significant first, that stand for the least
number congruent to `x * 2^(64 words)`. -/
structure WordsOf {p : Nat} (w : List UInt64) (x : ZMod p) : Prop where
  length : w.length = nLimbs p
  below : reprNat w < p
  value : (reprNat w : ZMod p) = x * 2 ^ (64 * nLimbs p)

end Fawkes
