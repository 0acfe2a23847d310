import Mathlib.LinearAlgebra.Matrix.NonsingularInverse

/-!
# Specification: a list of rows as a matrix
-/

namespace Fawkes

/-- The `t` by `t` matrix with these rows. -/
def matrixOf {F : Type} [Zero F] (t : Nat) (m : List (List F)) : Matrix (Fin t) (Fin t) F :=
  fun i j => (m.getD i.val []).getD j.val 0

end Fawkes
