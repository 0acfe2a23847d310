import Verif.Lemmas.Generators
import Verif.Lemmas.PrimesTwist

/-!
# Certificates: the orders of points of BN256 and of its twist
-/

namespace Fawkes.Props

open Groth16

theorem bnG_multiple : (natOps bnQ 254).isMultiple (1, 2) 256 (bnR - 1) (1, bnQ - 2) = true := by decide +kernel

/-- The cofactor `2q - r` of the twist of BN256. -/
def bnCofactor : Nat := 2 * bnQ - bnR

/-- The coordinates of a point of order `bnCofactor`: the multiple by `r` of a point with abscissa 1. -/
def bnTorsion : (Nat × Nat) × (Nat × Nat) :=
  ((12449809347824824073929964793537538272792066846557360436674515403760722048593,
      6833220850417336253699040162630430029311385334883328197502640595056151302508),
     (12676962405547438761413333211314096723026960849353574309063316773424184031811,
      12628908397913110544468529427854163908017316685594631546736530946916541228307))

theorem bnTorsion_killed : (natOps2 bnQ 254).isMultiple bnTorsion 256 (bnCofactor - 1)
    (bnTorsion.1, (bnQ - bnTorsion.2.1, bnQ - bnTorsion.2.2)) = true := by decide +kernel

/-- Some multiple of the point is finite. -/
def finiteMultiple (k : Nat) : Bool := ((natOps2 bnQ 254).multiple bnTorsion 256 k).isSome

theorem bnTorsion_1 : finiteMultiple (bnCofactor / 10069) = true := by decide +kernel
theorem bnTorsion_2 : finiteMultiple (bnCofactor / 5864401) = true := by decide +kernel
theorem bnTorsion_3 : finiteMultiple (bnCofactor / 1875725156269) = true := by decide +kernel
theorem bnTorsion_4 : finiteMultiple (bnCofactor / 197620364512881247228717050342013327560683201906968909) = true := by decide +kernel

theorem bnCofactor_eq : bnCofactor = 10069 * 5864401 * 1875725156269 * 197620364512881247228717050342013327560683201906968909 := by
  decide +kernel

end Fawkes.Props
