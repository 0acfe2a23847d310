import Verif.Props.Contract
import Verif.Lemmas.Generators

/-!
# Concrete points for C52 and C66: generators, points outside the subgroups
-/

namespace Fawkes.Props

open Groth16 Groth16.Contract

/-! ### BLS12-381 -/

theorem two_ne_zero_blsQ : (2 : ZMod blsQ) ≠ 0 := by decide +kernel

theorem three_ne_zero_blsQ : (3 : ZMod blsQ) ≠ 0 := by decide +kernel

theorem blsB_ne_zero : blsB ≠ 0 := by rw [C52_constants.2]; decide +kernel

theorem blsB2_ne_zero : blsB2 ≠ 0 := by
  rw [C52_constants_twist.2]
  intro h
  exact absurd (congrArg QuadraticAlgebra.re h) (by decide +kernel)

theorem blsG1_onCurve : Groth16.OnCurve blsB (some ((blsGx : ZMod blsQ), (blsGy : ZMod blsQ))) := by
  rw [C52_constants.2]
  change (blsGy : ZMod blsQ) ^ 2 = (blsGx : ZMod blsQ) ^ 3 + 4
  decide +kernel

/-- C52: the generator of BLS12-381's `G1` lies in the subgroup the conversion tests. -/
theorem C52_bls_g1_generator : Groth16.InSubgroup blsB blsR (some ((blsGx : ZMod blsQ), (blsGy : ZMod blsQ))) := by
  have := killed_nat two_ne_zero_blsQ three_ne_zero_blsQ blsB_ne_zero blsG1_onCurve (by decide +kernel) blsG_multiple
  rwa [show blsR - 1 + 1 = blsR by decide +kernel] at this

theorem blsG2_onCurve :
    Groth16.OnCurve blsB2 (some ((⟨blsG2x.1, blsG2x.2⟩ : Fq2 (ZMod blsQ)), (⟨blsG2y.1, blsG2y.2⟩ : Fq2 (ZMod blsQ)))) := by
  change (⟨blsG2y.1, blsG2y.2⟩ : Fq2 (ZMod blsQ)) ^ 2 = (⟨blsG2x.1, blsG2x.2⟩ : Fq2 (ZMod blsQ)) ^ 3 + blsB2
  rw [pow_two, pow_three]
  decide +kernel

/-- C52: the generator of BLS12-381's `G2` lies in the subgroup the conversion tests. -/
theorem C52_bls_g2_generator : Groth16.InSubgroup blsB2 blsR
    (some ((⟨blsG2x.1, blsG2x.2⟩ : Fq2 (ZMod blsQ)), (⟨blsG2y.1, blsG2y.2⟩ : Fq2 (ZMod blsQ)))) := by
  have := killed_nat2 two_ne_zero_blsQ three_ne_zero_blsQ blsB2_ne_zero blsG2_onCurve (by decide +kernel) blsG2_multiple
  rwa [show blsR - 1 + 1 = blsR by decide +kernel] at this

/-- The hypotheses of `C52_g1_subgroup_round_trip` at the generator. -/
example : ∃ p', g1IntoSubgroup blsB blsR (g1From ⟨(blsGx : ZMod blsQ), (blsGy : ZMod blsQ), false⟩) = .ok p' ∧
    affinePoint p' = some ((blsGx : ZMod blsQ), (blsGy : ZMod blsQ)) := by
  obtain ⟨p', h1, h2, -⟩ := C52_g1_subgroup_round_trip blsB_ne_zero blsR ⟨(blsGx : ZMod blsQ), (blsGy : ZMod blsQ), false⟩
    blsG1_onCurve C52_bls_g1_generator
  exact ⟨p', h1, h2⟩

/-- The hypotheses of `C52_g2_subgroup_round_trip` at the generator. -/
example : ∃ p', g2IntoSubgroup blsB2 blsR (g2From ⟨(⟨blsG2x.1, blsG2x.2⟩ : Fq2 (ZMod blsQ)), ⟨blsG2y.1, blsG2y.2⟩, false⟩) = .ok p' ∧
    affinePoint p' = some ((⟨blsG2x.1, blsG2x.2⟩ : Fq2 (ZMod blsQ)), (⟨blsG2y.1, blsG2y.2⟩ : Fq2 (ZMod blsQ))) := by
  obtain ⟨p', h1, h2, -⟩ := C52_g2_subgroup_round_trip blsB2_ne_zero blsR
    ⟨(⟨blsG2x.1, blsG2x.2⟩ : Fq2 (ZMod blsQ)), ⟨blsG2y.1, blsG2y.2⟩, false⟩ blsG2_onCurve C52_bls_g2_generator
  exact ⟨p', h1, h2⟩

theorem blsThree_onCurve : Groth16.OnCurve blsB (some (((0 : Nat) : ZMod blsQ), ((2 : Nat) : ZMod blsQ))) := by
  rw [C52_constants.2]
  change ((2 : Nat) : ZMod blsQ) ^ 2 = ((0 : Nat) : ZMod blsQ) ^ 3 + 4
  decide +kernel

/-- C52: the point `(0, 2)` of BLS12-381 has order three: it lies on the curve, but its data are rejected. -/
theorem C52_bls_outside : Groth16.OnCurve blsB (g1Point (⟨0, 2⟩ : G1PointData (ZMod blsQ))) ∧
    ∃ e, g1IntoSubgroup blsB blsR (⟨0, 2⟩ : G1PointData (ZMod blsQ)) = .error e := by
  have hpt : g1Point (⟨0, 2⟩ : G1PointData (ZMod blsQ)) = some (((0 : Nat) : ZMod blsQ), ((2 : Nat) : ZMod blsQ)) := by
    decide +kernel
  refine ⟨hpt ▸ blsThree_onCurve, (C52_g1_subgroup_panics blsB blsR _).2 (Or.inr ?_)⟩
  rw [hpt]
  rintro ⟨P, hP, hr⟩
  obtain ⟨Q, hQ, h3⟩ := killed_nat (fuel := 10) (f := 381) (k := 2) two_ne_zero_blsQ three_ne_zero_blsQ blsB_ne_zero blsThree_onCurve
    (by decide +kernel) (by decide +kernel)
  rw [coords_inj (hQ.trans hP.symm)] at h3
  have h1 : P = 0 := by
    have : blsR = 3 * (blsR / 3) + 1 := by decide +kernel
    generalize blsR / 3 = k at this
    rw [this, add_nsmul, mul_nsmul, h3, smul_zero, zero_add, one_smul] at hr
    exact hr
  rw [h1] at hP
  cases hP

/-! ### BN256 -/

/-- The generator of the twist, as data. -/
def bnG2Data : G2PointData (ZMod bnQ) := g2From bnG2

theorem bnG2_inSubgroup : Groth16.InSubgroup bnB2 bnR (g2Point bnG2Data) := by
  have h := killed_nat2 (x := bnG2x) (y := bnG2y) two_ne_zero_bnQ three_ne_zero_bnQ bnB2_ne_zero bnG2_onCurve (by decide +kernel) bnG2_multiple
  rw [show bnR - 1 + 1 = bnR by decide +kernel] at h
  exact h

/-- A point of the twist of BN256 outside the subgroup of order `r`. -/
def bnOutside : G2PointData (ZMod bnQ) :=
  ⟨(0, 1), (5912654199736721486680175016176231956195085055698687135131307249486702594212,
    18278151005453108793778860132295291098363647455926340152056652516292830556603)⟩

/-- The coordinates of `bnOutside`. -/
def bnOutsideXY : (Nat × Nat) × (Nat × Nat) :=
  ((1, 0), (18278151005453108793778860132295291098363647455926340152056652516292830556603,
    5912654199736721486680175016176231956195085055698687135131307249486702594212))

theorem bnOutside_multiple : (natOps2 bnQ 254).isMultiple bnOutsideXY 256 bnR
    ((12449809347824824073929964793537538272792066846557360436674515403760722048593,
      6833220850417336253699040162630430029311385334883328197502640595056151302508),
     (12676962405547438761413333211314096723026960849353574309063316773424184031811,
      12628908397913110544468529427854163908017316685594631546736530946916541228307)) = true := by decide +kernel

theorem bnOutside_point : g2Point bnOutside =
    some ((⟨bnOutsideXY.1.1, bnOutsideXY.1.2⟩ : Fq2 (ZMod bnQ)), (⟨bnOutsideXY.2.1, bnOutsideXY.2.2⟩ : Fq2 (ZMod bnQ))) := by
  decide +kernel

theorem bnOutside_onCurve : Groth16.OnCurve bnB2 (g2Point bnOutside) := by
  rw [bnOutside_point]
  change (⟨bnOutsideXY.2.1, bnOutsideXY.2.2⟩ : Fq2 (ZMod bnQ)) ^ 2 = (⟨bnOutsideXY.1.1, bnOutsideXY.1.2⟩ : Fq2 (ZMod bnQ)) ^ 3 + bnB2
  rw [pow_two, pow_three]
  decide +kernel

theorem bnOutside_not : ¬ Groth16.InSubgroup bnB2 bnR (g2Point bnOutside) := by
  rintro ⟨P, hP, hr⟩
  rw [bnOutside_point, coords_eq_some] at hP
  obtain ⟨h, hP⟩ := hP
  obtain ⟨h', hk⟩ := Ops.at_isMultiple (natOps2_into bnQ 254 (by decide)) (p := bnOutsideXY) ⟨h, hP⟩ 256 bnR bnOutside_multiple
  rw [hr] at hk
  exact WeierstrassCurve.Affine.Point.some_ne_zero h' hk.symm

/-- The conversion of the library takes such a point (for BN256 it tests the equation only), the contract does not answer if
it is part of the proof: the two differ on such data, whatever the pairing. -/
theorem C66_outside_subgroup {T : Type} [CommGroup T] (e : E1 → E2 → T) (hadd : ∀ a a' b, e (a + a') b = e a b * e a' b)
    (vk : VKData (ZMod bnQ)) (mem : Nat → List Word) (a c : G1PointData (ZMod bnQ)) (input : List Word)
    (hlen : input.length + 1 = vk.ic.length) :
    (∃ p, g2Into bnB2 bnOutside = .ok p) ∧ ∀ r, verifyProof e vk mem (proofWords ⟨a, bnOutside, c⟩) input ≠ .ok r := by
  refine ⟨⟨_, (C52_g2_into _ _ _).2 ⟨bnOutside_onCurve, rfl⟩⟩, fun r h => ?_⟩
  rw [C66_returns e vk mem _ _ hadd hlen] at h
  obtain ⟨-, S, hS, -⟩ := h
  have hb := (constantG2_iff bnOutside _).1 hS.b
  exact bnOutside_not ⟨S.b, hb.1, hb.2⟩

/-! A concrete call: a toy pairing that is additive in its first argument, the generators, one public input. -/

/-- A map that is additive in its first argument. -/
def toyE (P : E1) (_ : E2) : Multiplicative E1 := Multiplicative.ofAdd P

/-- A key: `alpha` and the second point of `ic` are the generator `(1, 2)`, the first point of `ic` is infinity. -/
def toyVK : VKData (ZMod bnQ) := ⟨⟨1, 2⟩, bnG2Data, bnG2Data, bnG2Data, [⟨0, 0⟩, ⟨1, 2⟩]⟩

/-- A proof: `A` is twice the generator, `C` is infinity. -/
def toyProof : ProofData (ZMod bnQ) :=
  ⟨⟨1368015179489954701390400359078579693043519447331113978918064868415326638035,
    9918110051302171585080402603319702774565515993150576347155970296011118125764⟩, bnG2Data, ⟨0, 0⟩⟩

/-- The points of the key and the proof, and that `A` is twice the generator. -/
theorem toy_statement : ∃ (S : Statement) (G : E1), S.Of toyVK (proofWords toyProof) ∧ G ≠ 0 ∧ S.a = 2 • G ∧ S.alpha = G ∧
    S.ic0 = 0 ∧ S.ics = [G] ∧ S.c = 0 := by
  have hG : (curve bnB).Nonsingular ((1 : Nat) : ZMod bnQ) ((2 : Nat) : ZMod bnQ) := by
    rw [nonsingular_iff two_ne_zero_bnQ three_ne_zero_bnQ bnB_ne_zero, C52_constants.1]
    decide +kernel
  let G : E1 := .some _ _ hG
  have h2 : Ops.At (fun a : Nat => (a : ZMod bnQ))
      (1368015179489954701390400359078579693043519447331113978918064868415326638035,
       9918110051302171585080402603319702774565515993150576347155970296011118125764) (2 • G) :=
    Ops.at_isMultiple (natOps_into bnQ 254 (by decide) (ZMod.natCast_self bnQ)) (p := (1, 2)) ⟨hG, rfl⟩ 10 2 (by decide +kernel)
  obtain ⟨h2', h2⟩ := h2
  obtain ⟨P2, hP2, hr⟩ := bnG2_inSubgroup
  have hd : coords G = g1Point (⟨1, 2⟩ : G1PointData (ZMod bnQ)) := by
    rw [show g1Point (⟨1, 2⟩ : G1PointData (ZMod bnQ)) = some (((1 : Nat) : ZMod bnQ), ((2 : Nat) : ZMod bnQ)) by decide +kernel]
    rfl
  refine ⟨⟨2 • G, P2, 0, G, P2, P2, P2, 0, [G]⟩, G, ⟨?_, ?_, ?_, hd, ⟨hP2, hr⟩, ⟨hP2, hr⟩, ⟨hP2, hr⟩, ?_⟩,
    WeierstrassCurve.Affine.Point.some_ne_zero _, rfl, rfl, rfl, rfl, rfl⟩
  · refine (constantG1_iff toyProof.a _).2 ?_
    have hp : g1Point toyProof.a = some (((1368015179489954701390400359078579693043519447331113978918064868415326638035 : Nat) : ZMod bnQ),
        ((9918110051302171585080402603319702774565515993150576347155970296011118125764 : Nat) : ZMod bnQ)) := by decide +kernel
    rw [hp]
    dsimp only
    rw [h2]
    rfl
  · exact (constantG2_iff bnG2Data _).2 ⟨hP2, hr⟩
  · refine (constantG1_iff toyProof.c _).2 ?_
    rw [show g1Point toyProof.c = none by decide +kernel]
    rfl
  · refine .cons ?_ (.cons hd .nil)
    rw [show g1Point (⟨0, 0⟩ : G1PointData (ZMod bnQ)) = none by decide +kernel]
    rfl

example (mem : Nat → List Word) : verifyProof toyE toyVK mem (proofWords toyProof) [1] = .ok true := by
  rw [C66_accepts _ _ _ _ _ (fun _ _ _ => rfl) rfl]
  obtain ⟨S, G, hS, -, ha, hal, h0, hs, hc⟩ := toy_statement
  refine ⟨by simp, S, hS, ?_⟩
  unfold Groth16Equation toyE
  rw [ha, hal, h0, hs, hc, ← ofAdd_add, ← ofAdd_add]
  congr 1
  have : ((((1 : Word).toNat : Nat) : ZMod bnR)).val = 1 := by decide +kernel
  simp only [List.map_cons, List.map_nil, List.zipWith_cons_cons, List.zipWith_nil_right, List.sum_cons, List.sum_nil, this]
  rw [two_nsmul, one_smul, zero_add, add_zero, add_zero]

example (mem : Nat → List Word) : verifyProof toyE toyVK mem (proofWords toyProof) [2] = .ok false := by
  rw [C66_returns _ _ _ _ _ (fun _ _ _ => rfl) rfl]
  obtain ⟨S, G, hS, hG, ha, hal, h0, hs, hc⟩ := toy_statement
  refine ⟨by simp; decide, S, hS, ?_⟩
  simp only [Bool.false_eq_true, false_iff]
  unfold Groth16Equation toyE
  rw [ha, hal, h0, hs, hc, ← ofAdd_add, ← ofAdd_add]
  intro h
  have h := Multiplicative.ofAdd.injective h
  have : ((((2 : Word).toNat : Nat) : ZMod bnR)).val = 2 := by decide +kernel
  simp only [List.map_cons, List.map_nil, List.zipWith_cons_cons, List.zipWith_nil_right, List.sum_cons, List.sum_nil, this] at h
  rw [zero_add, add_zero, add_zero] at h
  exact hG (right_eq_add.1 h)

/-- A public input that is not reduced: the contract does not answer. -/
example (mem : Nat → List Word) (r : Bool) :
    verifyProof toyE toyVK mem (proofWords toyProof) [SNARK_SCALAR_FIELD] ≠ .ok r := by
  intro h
  rw [C66_returns _ _ _ _ _ (fun _ _ _ => rfl) rfl] at h
  have := h.1 _ List.mem_cons_self
  exact absurd this (by decide)

end Fawkes.Props
