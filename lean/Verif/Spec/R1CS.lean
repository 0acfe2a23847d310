import Mathlib.Algebra.Field.Basic

/-!
# Specification vocabulary: variables, linear combinations, satisfaction

Nothing here mentions how the library computes anything.  It fixes what it means for an
assignment of field elements to circuit variables to satisfy a rank-1 constraint system.
-/

namespace Fawkes

/-- src/circuit/num.rs:10-14. A circuit variable: public input number `n` or auxiliary number `n`.
`input 0` is the constant-one variable. -/
inductive Index where
  | input (n : Nat)
  | aux (n : Nat)
  deriving DecidableEq, Repr

/-- src/circuit/num.rs:36: `LinkedList<(Index, Num<F>)>`, a sparse linear combination. -/
abbrev LC (F : Type) := List (Index × F)

/-- The value of a linear combination under an assignment `w`: the sum of coefficient times
variable. -/
def LC.eval {F : Type} [Field F] (w : Index → F) (l : LC F) : F :=
  (l.map fun kv => kv.2 * w kv.1).sum

/-- The variables a linear combination mentions. -/
def LC.keys {F : Type} (l : LC F) : List Index := l.map Prod.fst

/-- An assignment gives the constant variable the value one. -/
def IsAssignment {F : Type} [Field F] (w : Index → F) : Prop := w (.input 0) = 1

end Fawkes
