import Verif.Spec.Montgomery
import Verif.Model.Ecc

/-!
# Specification vocabulary for the native curve arithmetic

What a value of the library's point types stands for in the group `EdPoint C` of `Verif.Spec.Edwards`.
-/

namespace Fawkes

variable {F : Type} [Field F]

/-- The affine coordinates of a curve point, as the library stores them. -/
def EdPoint.affine {C : EdCurve F} (Q : EdPoint C) : EdwardsPoint F := ⟨Q.x, Q.y⟩

/-- The Montgomery coordinates of a curve point, as the library stores them. -/
def EdPoint.mont {C : EdCurve F} (Q : EdPoint C) : MontgomeryPoint F := ⟨Q.montX, Q.montY⟩

/-- `P` is one of the (projective, extended) representatives of the curve point `Q`. -/
def Represents {C : EdCurve F} (P : EdwardsPointEx F) (Q : EdPoint C) : Prop :=
  P.z ≠ 0 ∧ P.x = Q.x * P.z ∧ P.y = Q.y * P.z ∧ P.t = Q.x * Q.y * P.z

/-- What the `ff` crate promises about `sqrt`. -/
structure IsSqrt (sqrt : F → Option F) : Prop where
  sound : ∀ a b, sqrt a = some b → b * b = a
  complete : ∀ a, IsSquare a → ∃ b, sqrt a = some b

/-- The parameters describe the curve `C`: its Edwards and Montgomery coefficients, a non-square for `from_scalar`, a
group of exponent dividing `8 l`, and a base point of prime order `l`. -/
structure JubJubParams.Valid (J : JubJubParams F) (C : EdCurve F) : Prop where
  d_eq : J.d = C.d
  a_eq : J.a = C.a
  b_eq : J.b = C.b
  u_nonsquare : ¬ IsSquare J.u
  l_prime : J.l.Prime
  l_large : 7 < J.l
  exponent : ∀ Q : EdPoint C, (8 * J.l) • Q = 0
  base : ∃ G : EdPoint C, J.g = G.affine ∧ G ≠ 0 ∧ J.l • G = 0

/-- Membership in the subgroup of prime order. -/
def InSubgroup {C : EdCurve F} (l : Nat) (Q : EdPoint C) : Prop := l • Q = 0

end Fawkes
