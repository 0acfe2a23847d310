import Verif.Model.Bellman
import Verif.Spec.Signal

/-!
# Specification: provers that only combine points

A prover that knows the keys and no secret can add the points of the keys and take multiples of them.  Such a prover is given by its
coefficients.
-/

namespace Fawkes.Groth16

/-- The sum of multiples of points; coefficients without a point and points without a coefficient do not count. -/
def combine {G : Type} [AddCommGroup G] {r : Nat} (cs : List (ZMod r)) (ps : List G) : G :=
  (List.zipWith (fun c P => c.val • P) cs ps).sum

/-- Coefficients for all points of the first group: the generator and everything in the keys. -/
structure Combination (r : Nat) where
  one : ZMod r
  alpha : ZMod r
  beta : ZMod r
  delta : ZMod r
  ic : List (ZMod r)
  h : List (ZMod r)
  l : List (ZMod r)
  a : List (ZMod r)
  b : List (ZMod r)

/-- Coefficients for all points of the second group. -/
structure Combination2 (r : Nat) where
  one : ZMod r
  beta : ZMod r
  gamma : ZMod r
  delta : ZMod r
  b : List (ZMod r)

variable {G1 G2 : Type} [AddCommGroup G1] [AddCommGroup G2] {r : Nat}

def Combination.point (c : Combination r) (g1 : G1) (params : Parameters G1 G2) : G1 :=
  c.one.val • g1 + c.alpha.val • params.vk.alphaG1 + c.beta.val • params.vk.betaG1 + c.delta.val • params.vk.deltaG1 +
    combine c.ic params.vk.ic + combine c.h params.h + combine c.l params.l + combine c.a params.a + combine c.b params.bG1

def Combination2.point (c : Combination2 r) (g2 : G2) (params : Parameters G1 G2) : G2 :=
  c.one.val • g2 + c.beta.val • params.vk.betaG2 + c.gamma.val • params.vk.gammaG2 + c.delta.val • params.vk.deltaG2 +
    combine c.b params.bG2

/-- A prover that chooses its coefficients before the keys are made. -/
structure AlgebraicProver (r : Nat) where
  a : Combination r
  b : Combination2 r
  c : Combination r

/-- The proof it makes from the generators and the keys. -/
def AlgebraicProver.proof (S : AlgebraicProver r) (g1 : G1) (g2 : G2) (params : Parameters G1 G2) : Proof G1 G2 where
  a := S.a.point g1 params
  b := S.b.point g2 params
  c := S.c.point g1 params

/-- The extractor: values for all variables of the circuit, read off the public inputs and the coefficients of the prover. -/
def AlgebraicProver.witness (S : AlgebraicProver r) (inputs : List (ZMod r)) : Index → ZMod r
  | .input 0 => 1
  | .input (i + 1) => inputs.getD i 0
  | .aux j => S.c.l.getD j 0

/-- In the circuits of the macros the variables come in this order: the public data, the secret data, the rest.  So these are the extracted
secret data. -/
def AlgebraicProver.secrets (S : AlgebraicProver r) (P Q : Ty) : List (ZMod r) :=
  (List.range Q.width).map fun j => S.c.l.getD (P.width + j) 0

end Fawkes.Groth16
