import Verif.Spec.Varies
import Verif.Model.CEcc

/-!
# Specification vocabulary for the curve gadgets

When a pair of signals stands for a point.
-/

namespace Fawkes

variable {F : Type} [Field F]

/-- Under the assignment `w` the two signals are the coordinates of `R`. -/
def CEdwardsPoint.Is (w : Index → F) (p : CEdwardsPoint F) (R : EdwardsPoint F) : Prop :=
  p.x.lc.eval w = R.x ∧ p.y.lc.eval w = R.y

/-- The witness values of the two signals are the coordinates of `R`. -/
def CEdwardsPoint.Carries (s : CS F) (p : CEdwardsPoint F) (R : EdwardsPoint F) : Prop :=
  Has s p.x R.x ∧ Has s p.y R.y

/-- Both coordinates are built from variables of the circuit `s` and neither is a constant. -/
structure CEdwardsPoint.IsSignal (s : CS F) (p : CEdwardsPoint F) : Prop where
  alloc_x : p.x.lc.Alloc s
  alloc_y : p.y.lc.Alloc s
  varies_x : Varies p.x
  varies_y : Varies p.y

/-- Both coordinates are constants, those of `R`: `as_const` gives them, and so does `get_value`. -/
structure CEdwardsPoint.IsConstant (p : CEdwardsPoint F) (R : EdwardsPoint F) : Prop where
  const_x : p.x.asConst = some R.x
  const_y : p.y.asConst = some R.y
  value_x : p.x.value = some R.x
  value_y : p.y.value = some R.y

/-- Under the assignment `w` the two signals are the coordinates of `R`. -/
def CMontgomeryPoint.Is (w : Index → F) (p : CMontgomeryPoint F) (R : MontgomeryPoint F) : Prop :=
  p.x.lc.eval w = R.x ∧ p.y.lc.eval w = R.y

/-- The witness values of the two signals are the coordinates of `R`. -/
def CMontgomeryPoint.Carries (s : CS F) (p : CMontgomeryPoint F) (R : MontgomeryPoint F) : Prop :=
  Has s p.x R.x ∧ Has s p.y R.y

/-- Both coordinates are built from variables of the circuit `s` and neither is a constant. -/
structure CMontgomeryPoint.IsSignal (s : CS F) (p : CMontgomeryPoint F) : Prop where
  alloc_x : p.x.lc.Alloc s
  alloc_y : p.y.lc.Alloc s
  varies_x : Varies p.x
  varies_y : Varies p.y

end Fawkes
