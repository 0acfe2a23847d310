import Verif.Spec.Near
import Verif.Props.Groth16

/-!
# C53: the bytes of points, proofs and keys of the NEAR binding

The round trips of C53 would hold as well if writer and reader agreed on another order.  These theorems fix the order, which contracts
on the chain rely on.
-/

namespace Fawkes.Props

open Groth16 Groth16.Near

variable {p : Nat} [Fact p.Prime]

theorem number_bytes (x : ZMod p) : Num.borshSerialize x = number (8 * nLimbs p) x.val := by
  have hlen : (Num.borshSerialize x).length = 8 * nLimbs p := by
    unfold Num.borshSerialize; rw [writeLE_length, intoRepr_length]
  have hv : leNat (Num.borshSerialize x) = x.val := by
    unfold Num.borshSerialize; rw [leNat_writeLE, reprNat_intoRepr]
  refine leNat_inj (by rw [hlen]; simp [number]) ?_
  have h := leNat_digits (8 * nLimbs p) x.val
  have hlt := leNat_lt (Num.borshSerialize x)
  rw [hlen, hv] at hlt
  rw [hv]
  exact (h.trans (Nat.mod_eq_of_lt hlt)).symm

/-- C53 (layout): points are their numbers in the order of the specification, each in the bytes of the words of the field, the least
significant first. -/
theorem C53_point_layout (P : Affine (ZMod p)) (Q : Affine (Fq2 (ZMod p))) :
    g1Serialize (g1From P) = (numbers1 P).flatMap (number (8 * nLimbs p)) ∧
    g2Serialize (g2From Q) = (numbers2 Q).flatMap (number (8 * nLimbs p)) := by
  constructor
  · unfold g1Serialize g1From numbers1
    split <;> simp [number_bytes]
  · unfold g2Serialize g2From numbers2
    split <;> simp [number_bytes]

/-- C53 (layout): a proof is its three points in the order a, b, c. -/
theorem C53_proof_layout (P : Proof (Affine (ZMod p)) (Affine (Fq2 (ZMod p)))) :
    proofSerialize (proofIntoData P) = (numbers1 P.a ++ numbers2 P.b ++ numbers1 P.c).flatMap (number (8 * nLimbs p)) := by
  unfold proofSerialize proofIntoData
  simp only [(C53_point_layout _ P.b).1, (C53_point_layout P.a _).2, List.flatMap_append]

/-- C53 (layout): a key is the four points alpha, beta, gamma, delta, then the number of the other points in four bytes, then these. -/
theorem C53_vk_layout (v : VK (Affine (ZMod p)) (Affine (Fq2 (ZMod p)))) (h : v.ic.length < 2 ^ 32) :
    vkSerialize (vkIntoData v) = (numbers1 v.alphaG1 ++ numbers2 v.betaG2 ++ numbers2 v.gammaG2 ++ numbers2 v.deltaG2).flatMap (number (8 * nLimbs p)) ++
      number 4 v.ic.length ++ (v.ic.flatMap numbers1).flatMap (number (8 * nLimbs p)) := by
  unfold vkSerialize vkIntoData vecSerialize
  simp only [(C53_point_layout _ v.betaG2).1, (C53_point_layout v.alphaG1 _).2, List.flatMap_append, List.append_assoc, List.length_map,
    Nat.mod_eq_of_lt h, List.flatMap_map, List.flatMap_assoc]
  rfl

local instance instPrime97 : Fact (Nat.Prime 97) := ⟨by norm_num⟩

/-- Two points over the field with 97 elements: eight bytes for every number. -/
example : g1Serialize (g1From (⟨5, 96, false⟩ : Affine (ZMod 97))) = [5, 0, 0, 0, 0, 0, 0, 0, 96, 0, 0, 0, 0, 0, 0, 0] ∧
    (g2Serialize (g2From (⟨⟨1, 2⟩, ⟨3, 4⟩, false⟩ : Affine (Fq2 (ZMod 97))))).filter (· ≠ 0) = [1, 2, 3, 4] := by decide +kernel

end Fawkes.Props
