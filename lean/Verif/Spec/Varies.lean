import Verif.Spec.Circuit
import Verif.Model.CNum

/-!
# Specification: signals that are not constants
-/

namespace Fawkes

variable {F : Type} [Field F]

/-- The signal takes different values under two assignments: it is not a constant in disguise. -/
def Varies (a : CNum F) : Prop :=
  ∃ w w', IsAssignment w ∧ IsAssignment w' ∧ a.lc.eval w ≠ a.lc.eval w'

/-- The signal is not a constant in disguise: if `as_const` does not recognise it as a constant, it varies. (True of
every signal in canonical form.) -/
def Plain (a : CNum F) : Prop := a.asConst = none → Varies a

/-- The linear combination `k₁ a₁ + k₂ a₂ + …` of signals under an assignment. -/
def combine (ks : List F) (l : List (CNum F)) (w : Index → F) : F :=
  (List.zipWith (fun k (a : CNum F) => k * a.lc.eval w) ks l).sum

/-- No non-trivial linear combination of the signals is constant. -/
def Independent (l : List (CNum F)) : Prop :=
  ∀ ks : List F, ks.length = l.length →
    (∀ w w', IsAssignment w → IsAssignment w' → combine ks l w = combine ks l w') → ∀ k ∈ ks, k = 0

end Fawkes
