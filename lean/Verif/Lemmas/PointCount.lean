import Verif.Lemmas.GroupOrder
import Verif.Lemmas.Params
import Verif.Props.SignatureForm

/-!
# Counting points

Multiplication by eight maps at most eight points to one; with a point of order eight exactly eight, onto the subgroup of order `l`.
-/

namespace Fawkes

open Finset

variable {r : Nat} [Fact r.Prime] {C : EdCurve (ZMod r)}

namespace EdPoint

noncomputable instance : Fintype (EdPoint C) := Fintype.ofFinite _

open Classical in
theorem card_half (S : Finset (EdPoint C)) : (univ.filter fun Q : EdPoint C => 2 • Q ∈ S).card ≤ 2 * S.card := by
  have h := card_le_mul_card_image_of_maps_to (s := univ.filter fun Q : EdPoint C => 2 • Q ∈ S) (t := S) (f := fun Q => 2 • Q)
    (fun Q hQ => (mem_filter.1 hQ).2) 2 ?_
  · exact h
  · intro s _
    by_cases hne : ∃ P : EdPoint C, 2 • P = s
    · obtain ⟨P, rfl⟩ := hne
      refine (card_le_card (t := {P, P + torsion2}) ?_).trans card_le_two
      intro Q hQ
      have hQ := (mem_filter.1 hQ).2
      rw [mem_insert, mem_singleton]
      have : 2 • (Q - P) = 0 := by rw [nsmul_sub, hQ, sub_self]
      rcases (two_nsmul_eq_zero_iff _).1 this with h | h
      · exact .inl (sub_eq_zero.1 h)
      · exact .inr (by rw [← h]; abel)
    · rw [filter_eq_empty_iff.2]
      · simp
      · intro P _ hP; exact hne ⟨P, hP⟩

open Classical in
/-- At most eight points have a given eightfold. -/
theorem card_eight_le (s : EdPoint C) : (univ.filter fun Q : EdPoint C => 8 • Q = s).card ≤ 8 := by
  have h1 := card_half {s}
  have h2 := card_half (univ.filter fun Q : EdPoint C => 2 • Q ∈ ({s} : Finset (EdPoint C)))
  have h3 := card_half (univ.filter fun Q : EdPoint C => 2 • Q ∈ univ.filter fun Q : EdPoint C => 2 • Q ∈ ({s} : Finset (EdPoint C)))
  rw [card_singleton] at h1
  refine le_trans (card_le_card ?_) (h3.trans (by omega))
  intro Q hQ
  have hQ := (mem_filter.1 hQ).2
  simp only [mem_filter, mem_univ, true_and, mem_singleton, ← mul_nsmul']
  exact hQ

open Classical in
/-- With a point of order eight, no or exactly eight points have a given eightfold. -/
theorem card_eight {Q8 : EdPoint C} (h8 : 8 • Q8 = 0) (h4 : 4 • Q8 ≠ 0) (P : EdPoint C) :
    (univ.filter fun Q : EdPoint C => 8 • Q = 8 • P).card = 8 := by
  refine le_antisymm (card_eight_le _) ?_
  have ho : addOrderOf Q8 = 8 := by
    haveI : Fact (Nat.Prime 2) := ⟨Nat.prime_two⟩
    exact addOrderOf_eq_prime_pow (p := 2) (n := 2) h4 h8
  have : ((range 8).image fun i => P + i • Q8).card = 8 := by
    rw [card_image_of_injOn, card_range]
    intro i hi j hj h
    have := add_left_cancel h
    exact nsmul_injOn_Iio_addOrderOf (x := Q8) (by rw [ho]; simpa using hi) (by rw [ho]; simpa using hj) this
  refine this.symm.le.trans (card_le_card ?_)
  intro Q hQ
  obtain ⟨i, -, rfl⟩ := mem_image.1 hQ
  simp only [mem_filter, mem_univ, true_and]
  rw [nsmul_add, nsmul_left_comm, h8, nsmul_zero, add_zero]

end EdPoint

theorem order8_of_cert {l f d q8x q8y gx gy w : Nat} (hd : C.d = d) (h : groupCert r l f d q8x q8y gx gy w = true) :
    ∃ Q : EdPoint C, 8 • Q = 0 ∧ 4 • Q ≠ 0 := by
  unfold groupCert at h
  simp only [Bool.and_eq_true, decide_eq_true_eq, Bool.not_eq_true'] at h
  obtain ⟨⟨⟨⟨⟨⟨⟨⟨⟨⟨⟨h1, h2⟩, h3⟩, h4⟩, h5⟩, h6⟩, h7⟩, h8⟩, h9⟩, h10⟩, h11⟩, h12⟩ := h
  have hQ := natOnCurve_ok hd h5
  rw [natMulCheck_iff hd hQ onCurve_zero_one (by norm_num), ofNat_zero_one] at h7
  rw [← Bool.not_eq_true, natMulCheck_iff hd hQ onCurve_zero_one (by norm_num), ofNat_zero_one] at h8
  exact ⟨_, h7, h8⟩

variable {J : JubJubParams (ZMod r)} [Fact J.l.Prime]

open Props in
open Classical in
/-- The subgroup has `l` elements. -/
theorem card_subgroup (hv : J.Valid C) (hr : r < J.l ^ 2) : (univ.filter fun Q : EdPoint C => InSubgroup J.l Q).card = J.l := by
  obtain ⟨G, hG, -⟩ := hv.base
  have : (univ.filter fun Q : EdPoint C => InSubgroup J.l Q) = (univ : Finset (ZMod J.l)).image fun k => k.val • G := by
    ext Q
    simp only [mem_filter, mem_univ, true_and, mem_image]
    constructor
    · intro h
      obtain ⟨k, hk⟩ := in_base hv hr hG h
      exact ⟨k, hk.symm⟩
    · rintro ⟨k, rfl⟩
      exact base_sub hv hG _
  rw [this, card_image_of_injective _ fun k k' h => base_injective hv hG h, card_univ, ZMod.card]

open Classical in
/-- With a point of order eight, the curve has `8 l` points. -/
theorem card_curve (hv : J.Valid C) (hr : r < J.l ^ 2) {Q8 : EdPoint C} (h8 : 8 • Q8 = 0) (h4 : 4 • Q8 ≠ 0) :
    Fintype.card (EdPoint C) = 8 * J.l := by
  have hl := hv.l_prime
  have hcop : Nat.Coprime 8 J.l := by
    rw [show 8 = 2 ^ 3 by norm_num]
    apply Nat.Coprime.pow_left
    rw [Nat.coprime_primes Nat.prime_two hl]
    have := hv.l_large
    omega
  rw [← card_univ, card_eq_sum_card_fiberwise (f := fun Q : EdPoint C => 8 • Q) (t := univ.filter fun Q : EdPoint C => InSubgroup J.l Q)]
  · rw [sum_congr rfl (g := fun _ => 8), sum_const, card_subgroup hv hr, smul_eq_mul, mul_comm]
    intro s hs
    have hs : J.l • s = 0 := (mem_filter.1 hs).2
    obtain ⟨P, rfl⟩ : ∃ P : EdPoint C, s = 8 • P := by
      obtain ⟨k, -, hk⟩ := Nat.exists_mul_mod_eq_one_of_coprime hcop hl.one_lt
      refine ⟨k • s, ?_⟩
      rw [← mul_nsmul', ← Nat.div_add_mod (8 * k) J.l, hk, add_nsmul, mul_comm J.l, mul_nsmul', hs, nsmul_zero, zero_add, one_nsmul]
    have := EdPoint.card_eight h8 h4 P
    convert this using 2
  · intro Q _
    simp only [coe_filter, mem_univ, true_and, Set.mem_setOf_eq]
    show J.l • (8 • Q) = 0
    rw [← mul_nsmul', mul_comm]
    exact hv.exponent Q

end Fawkes
