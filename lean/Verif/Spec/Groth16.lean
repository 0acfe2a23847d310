import Mathlib.Algebra.QuadraticAlgebra.Basic
import Mathlib.AlgebraicGeometry.EllipticCurve.Affine.Point

/-!
# Specification: points of `y² = x³ + b`, the Groth16 equation
-/

namespace Fawkes.Groth16

/-- The curve `y² = x³ + b`. -/
def curve {L : Type} [CommRing L] (b : L) : WeierstrassCurve.Affine L := ⟨0, 0, 0, 0, b⟩

/-- A point is the point at infinity (`none`) or a pair of coordinates. -/
abbrev Coords (L : Type) : Type := Option (L × L)

/-- The coordinates satisfy the equation of the curve; infinity lies on it. -/
def OnCurve {L : Type} [CommRing L] (b : L) : Coords L → Prop
  | none => True
  | some (x, y) => y ^ 2 = x ^ 3 + b

/-- The coordinates of an element of the group of the curve (Mathlib's). -/
def coords {L : Type} [CommRing L] {b : L} : (curve b).Point → Coords L
  | .zero => none
  | .some x y _ => some (x, y)

/-- The point lies on the curve and is killed by `n`. -/
def InSubgroup {L : Type} [Field L] [DecidableEq L] (b : L) (n : Nat) (o : Coords L) : Prop :=
  ∃ P : (curve b).Point, coords P = o ∧ n • P = 0

/-- The Groth16 verification equation for the linear combination `Σ xᵢ·ICᵢ` of the public inputs (`x₀ = 1`), with a
pairing `e` written multiplicatively. -/
def Groth16Equation {G1 G2 T : Type} [AddCommGroup G1] [CommGroup T] {r : Nat} (e : G1 → G2 → T)
    (alpha : G1) (beta gamma delta : G2) (ic0 : G1) (ics : List G1) (a : G1) (b : G2) (c : G1) (inputs : List (ZMod r)) : Prop :=
  e a b = e alpha beta * e (ic0 + (List.zipWith (fun x P => x.val • P) inputs ics).sum) gamma * e c delta

end Fawkes.Groth16
