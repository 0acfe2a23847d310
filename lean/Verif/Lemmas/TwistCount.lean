import Verif.Lemmas.TwistCert
import Verif.Props.PointBytes
import Mathlib.GroupTheory.Perm.Cycle.Type

/-!
# The numbers of points of BN256 and of its twist

A curve `y² = x³ + b` without points of order two has an odd number of points, at most `2·|K| + 1`.  So a multiple of the order of the
group that exceeds a third of this bound is the order.
-/

namespace Fawkes.Props

open Groth16 Groth16.Contract

section count

variable {K : Type} [Field K] [DecidableEq K] {b : K}

open Classical in
/-- One ordinate for every abscissa that has one. -/
noncomputable def someRoot (b x : K) : K := if h : ∃ y : K, y ^ 2 = x ^ 3 + b then h.choose else 0

open Classical in
/-- A point is told by its abscissa and one bit. -/
noncomputable def tag : PointsOf b → Option (K × Bool)
  | .zero => none
  | .some x y _ => some (x, decide (y = someRoot b x))

theorem tag_injective (G : GoodCurve b) : Function.Injective (tag (b := b)) := by
  intro P Q h
  cases P with
  | zero =>
    cases Q with
    | zero => rfl
    | some x y hxy => cases h
  | some x y hxy =>
    cases Q with
    | zero => cases h
    | some x' y' hxy' =>
      simp only [tag, Option.some.injEq, Prod.mk.injEq] at h
      obtain ⟨rfl, h2⟩ := h
      have e1 := (nonsingular_iff G.two G.three G.coeff x y).1 hxy
      have e2 := (nonsingular_iff G.two G.three G.coeff x y').1 hxy'
      have e0 : someRoot b x ^ 2 = x ^ 3 + b := by
        have hex : ∃ y : K, y ^ 2 = x ^ 3 + b := ⟨y, e1⟩
        rw [someRoot, dif_pos hex]
        exact hex.choose_spec
      have hy : y = y' := by
        rcases sq_eq_sq_iff_eq_or_eq_neg.1 (e1.trans e0.symm) with h | h <;>
          rcases sq_eq_sq_iff_eq_or_eq_neg.1 (e2.trans e0.symm) with h' | h'
        · rw [h, h']
        · have : y' = someRoot b x := by
            have := decide_eq_decide.1 h2
            exact this.1 h
          rw [h, this]
        · have : y = someRoot b x := by
            have := decide_eq_decide.1 h2
            exact this.2 h'
          rw [h', this]
        · rw [h, h']
      subst hy
      rfl

theorem finite_points [Finite K] (G : GoodCurve b) : Finite (PointsOf b) := Finite.of_injective _ (tag_injective G)

theorem card_points_le [Finite K] (G : GoodCurve b) : Nat.card (PointsOf b) ≤ 2 * Nat.card K + 1 := by
  have h := Nat.card_le_card_of_injective _ (tag_injective G)
  rwa [Finite.card_option, Nat.card_prod, Nat.card_eq_fintype_card (α := Bool), Fintype.card_bool, mul_comm] at h

theorem not_order_two (G : GoodCurve b) (P : PointsOf b) (h : 2 • P = 0) : P = 0 := by
  cases P with
  | zero => rfl
  | some x y hxy =>
    exfalso
    have h1 : (WeierstrassCurve.Affine.Point.some x y hxy : PointsOf b) = -.some x y hxy := by
      rw [two_nsmul] at h
      exact eq_neg_of_add_eq_zero_left h
    rw [WeierstrassCurve.Affine.Point.neg_some, WeierstrassCurve.Affine.Point.some.injEq] at h1
    have h2 : y = -y := by rw [← Ops.negY_curve (b := b) x y]; exact h1.2
    have h3 : y = 0 := by
      have : 2 * y = 0 := by linear_combination h2
      exact (mul_eq_zero.1 this).resolve_left G.two
    have e1 := (nonsingular_iff G.two G.three G.coeff x y).1 hxy
    exact G.noRoot x (by rw [← e1, h3]; ring)

theorem card_points_odd [Finite K] (G : GoodCurve b) : ¬ 2 ∣ Nat.card (PointsOf b) := by
  intro h
  haveI := finite_points G
  obtain ⟨P, hP⟩ := exists_prime_addOrderOf_dvd_card' 2 h
  have h0 := not_order_two G P (by rw [← hP]; exact addOrderOf_nsmul_eq_zero P)
  rw [h0, addOrderOf_zero] at hP
  exact absurd hP (by decide)

/-- A large divisor of the number of points is the number of points. -/
theorem card_points_eq [Finite K] (G : GoodCurve b) {n : Nat} (hn : n ∣ Nat.card (PointsOf b)) (hbig : 2 * Nat.card K + 1 < 3 * n) :
    Nat.card (PointsOf b) = n := by
  haveI := finite_points G
  obtain ⟨k, hk⟩ := hn
  have hle := card_points_le G
  have hodd := card_points_odd G
  have hpos : 0 < Nat.card (PointsOf b) := Nat.card_pos
  rw [hk] at hle hodd hpos ⊢
  have hk3 : k < 3 := by
    by_contra hc
    have : n * 3 ≤ n * k := Nat.mul_le_mul_left n (by omega)
    omega
  have hk0 : k ≠ 0 := by rintro rfl; simp at hpos
  have hk2 : k ≠ 2 := by rintro rfl; exact hodd ⟨n, by ring⟩
  have : k = 1 := by omega
  rw [this, mul_one]

end count

/-! ### `G1` -/

theorem killed_of {K : Type} [Field K] [DecidableEq K] {b : K} {n : Nat} {o : Coords K} {Q : PointsOf b} (h : Groth16.InSubgroup b n o)
    (hQ : coords Q = o) : n • Q = 0 := by
  obtain ⟨P, hP, hr⟩ := h
  rwa [coords_inj (hP.trans hQ.symm)] at hr

theorem genBn_killed : bnR • genBn = 0 := by
  have h := killed_nat (x := 1) (y := 2) (b := bnB) two_ne_zero_bnQ three_ne_zero_bnQ bnB_ne_zero
    (by rw [C52_constants.1]; show ((2 : Nat) : ZMod bnQ) ^ 2 = ((1 : Nat) : ZMod bnQ) ^ 3 + 3; decide +kernel) (by decide +kernel) bnG_multiple
  rw [show bnR - 1 + 1 = bnR by decide +kernel] at h
  refine killed_of h ?_
  have e1 : ((1 : Nat) : ZMod bnQ) = 1 := Nat.cast_one
  have e2 : ((2 : Nat) : ZMod bnQ) = 2 := Nat.cast_ofNat
  rw [e1, e2]
  rfl

theorem card_bn : Nat.card (PointsOf bnB) = bnR := by
  haveI := finite_points goodBn
  refine card_points_eq goodBn ?_ ?_
  · have h := addOrderOf_eq_prime (p := bnR) genBn_killed (WeierstrassCurve.Affine.Point.some_ne_zero _)
    rw [← h]
    exact addOrderOf_dvd_natCard _
  · rw [Nat.card_zmod]; decide +kernel

/-! ### `G2` -/

theorem bnTorsion_onCurve :
    Groth16.OnCurve bnB2 (some ((⟨bnTorsion.1.1, bnTorsion.1.2⟩ : Fq2 (ZMod bnQ)), (⟨bnTorsion.2.1, bnTorsion.2.2⟩ : Fq2 (ZMod bnQ)))) := by
  change (⟨bnTorsion.2.1, bnTorsion.2.2⟩ : Fq2 (ZMod bnQ)) ^ 2 = (⟨bnTorsion.1.1, bnTorsion.1.2⟩ : Fq2 (ZMod bnQ)) ^ 3 + bnB2
  rw [pow_two, pow_three]
  decide +kernel

/-- The point of the certificate. -/
def torsionPoint : PointsOf bnB2 :=
  .some ⟨bnTorsion.1.1, bnTorsion.1.2⟩ ⟨bnTorsion.2.1, bnTorsion.2.2⟩
    ((nonsingular_iff goodBn2.two goodBn2.three goodBn2.coeff _ _).2 bnTorsion_onCurve)

theorem torsionPoint_killed : bnCofactor • torsionPoint = 0 := by
  have h := killed_nat2 (x := bnTorsion.1) (y := bnTorsion.2) two_ne_zero_bnQ three_ne_zero_bnQ bnB2_ne_zero bnTorsion_onCurve
    (by decide +kernel) bnTorsion_killed
  rw [show bnCofactor - 1 + 1 = bnCofactor by decide +kernel] at h
  exact killed_of h rfl

theorem torsion_ne_zero {k : Nat} (h : finiteMultiple k = true) : k • torsionPoint ≠ 0 := by
  unfold finiteMultiple at h
  obtain ⟨p, hp⟩ := Option.isSome_iff_exists.1 h
  have hq : 0 < bnQ := (Fact.out : bnQ.Prime).pos
  obtain ⟨h1, h2⟩ := Ops.at_multiple (natOps2_into bnQ 254 hq) (b := bnB2) (P := torsionPoint) ⟨_, rfl⟩ 256 k hp
  rw [h2]
  exact WeierstrassCurve.Affine.Point.some_ne_zero _

theorem order_torsion : addOrderOf torsionPoint = bnCofactor := by
  refine addOrderOf_eq_of_nsmul_and_div_prime_nsmul (by decide +kernel) torsionPoint_killed ?_
  intro p hp hd
  rw [bnCofactor_eq] at hd
  have cases4 : p = 10069 ∨ p = 5864401 ∨ p = 1875725156269 ∨ p = 197620364512881247228717050342013327560683201906968909 := by
    rcases (Nat.Prime.dvd_mul hp).1 hd with hd | hd
    · rcases (Nat.Prime.dvd_mul hp).1 hd with hd | hd
      · rcases (Nat.Prime.dvd_mul hp).1 hd with hd | hd
        · exact .inl ((Nat.prime_dvd_prime_iff_eq hp prime_10069).1 hd)
        · exact .inr (.inl ((Nat.prime_dvd_prime_iff_eq hp prime_5864401).1 hd))
      · exact .inr (.inr (.inl ((Nat.prime_dvd_prime_iff_eq hp prime_1875725156269).1 hd)))
    · exact .inr (.inr (.inr ((Nat.prime_dvd_prime_iff_eq hp prime_197620364512881247228717050342013327560683201906968909).1 hd)))
  rcases cases4 with rfl | rfl | rfl | rfl
  · exact torsion_ne_zero bnTorsion_1
  · exact torsion_ne_zero bnTorsion_2
  · exact torsion_ne_zero bnTorsion_3
  · exact torsion_ne_zero bnTorsion_4

/-- The generator of the twist. -/
def genBn2 : PointsOf bnB2 :=
  .some bnG2.x bnG2.y ((nonsingular_iff goodBn2.two goodBn2.three goodBn2.coeff _ _).2 bnG2_onCurve)

theorem genBn2_killed : bnR • genBn2 = 0 := by
  have h := killed_nat2 (x := bnG2x) (y := bnG2y) two_ne_zero_bnQ three_ne_zero_bnQ bnB2_ne_zero bnG2_onCurve (by decide +kernel) bnG2_multiple
  rw [show bnR - 1 + 1 = bnR by decide +kernel] at h
  exact killed_of h rfl

instance finite_fq2 {q : Nat} [NeZero q] : Finite (Fq2 (ZMod q)) :=
  Finite.of_injective (fun x => (x.re, x.im)) fun a b h => by
    rw [Prod.mk.injEq] at h
    exact QuadraticAlgebra.ext h.1 h.2

theorem card_fq2 {q : Nat} [NeZero q] : Nat.card (Fq2 (ZMod q)) = q * q := by
  have e : Fq2 (ZMod q) ≃ ZMod q × ZMod q :=
    ⟨fun x => (x.re, x.im), fun p => ⟨p.1, p.2⟩, fun _ => rfl, fun _ => rfl⟩
  rw [Nat.card_congr e, Nat.card_prod, Nat.card_zmod]

theorem coprime_cofactor : Nat.Coprime bnR bnCofactor := by
  show Nat.gcd bnR bnCofactor = 1
  decide +kernel

theorem card_bn2 : Nat.card (PointsOf bnB2) = bnR * bnCofactor := by
  haveI := finite_points goodBn2
  refine card_points_eq goodBn2 ?_ ?_
  · refine Nat.Coprime.mul_dvd_of_dvd_of_dvd coprime_cofactor ?_ ?_
    · have h := addOrderOf_eq_prime (p := bnR) genBn2_killed (WeierstrassCurve.Affine.Point.some_ne_zero _)
      rw [← h]
      exact addOrderOf_dvd_natCard _
    · rw [← order_torsion]
      exact addOrderOf_dvd_natCard _
  · rw [card_fq2]; decide +kernel

end Fawkes.Props
