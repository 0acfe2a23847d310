import Verif.Spec.R1CS

/-!
# Specification: canonical sparse form of a linear combination
-/

namespace Fawkes

/-- Order of circuit variables: public inputs by number, then auxiliary variables by number. -/
def Index.Before : Index → Index → Prop
  | .input a, .input b => a < b
  | .input _, .aux _ => True
  | .aux _, .input _ => False
  | .aux a, .aux b => a < b

/-- A linear combination is canonical when its variables are strictly increasing (in particular
no variable occurs twice) and no variable other than the constant has coefficient zero. -/
structure LC.Canonical {F : Type} [Field F] (l : LC F) : Prop where
  sorted : l.Pairwise fun a b => a.1.Before b.1
  nonzero : ∀ kv ∈ l, kv.1 ≠ .input 0 → kv.2 ≠ 0

end Fawkes
