import Verif.Props.CEccConst

/-!
# C40 for constants, exactly

The sign that `from_scalar` of a constant gets in the circuit is a matter of the constant alone: the prover has no choice, but for about half
of the constants it is the wrong one.
-/

set_option linter.unusedSectionVars false

namespace Fawkes.Props

open Fawkes CEdwardsPoint

variable {r : Nat} [Fact r.Prime] {C : EdCurve (ZMod r)} {J : JubJubParams (ZMod r)}
  {sqrt : ZMod r → Option (ZMod r)} {s s' : CS (ZMod r)} {w : Index → ZMod r}

/-- The first candidate `x = -(1 + 1/(u (t+1)²))/a` for the Montgomery abscissa belongs to a curve point, and not only the ordinate `y` that the
native function takes is even but also `y / x²`. -/
def Flipped (J : JubJubParams (ZMod r)) (t : ZMod r) : Prop :=
  let x := -(1 + (J.u * (t + 1) ^ 2)⁻¹) / J.a
  ∃ y : ZMod r, y.val % 2 = 0 ∧ J.b * y ^ 2 = x ^ 3 + J.a * x ^ 2 + x ∧ (y / x ^ 2).val % 2 = 0

theorem even_eq {y z : ZMod r} (h2 : r ≠ 2) (hy : y.val % 2 = 0) (hz : z.val % 2 = 0) (h : y ^ 2 = z ^ 2) : y = z := by
  rcases sq_eq_sq_iff_eq_or_eq_neg.1 h with h | h
  · exact h
  · by_cases hz0 : z = 0
    · rw [h, hz0, neg_zero]
    · have := val_neg_odd h2 hz0
      rw [← h] at this
      omega

theorem montY_add_torsion2 (Q : EdPoint C) : (Q + EdPoint.torsion2).montY = -(Q.montY / Q.montX ^ 2) := by
  have hx : (Q + EdPoint.torsion2).x = -Q.x := by rw [EdPoint.add_torsion2]
  unfold EdPoint.montY
  rw [hx, montX_add_torsion2]
  by_cases h0 : Q.montX = 0
  · rw [h0]; simp
  by_cases h1 : Q.x = 0
  · rw [h1]; simp
  field_simp

theorem chooses_inverted_exactly (ha : J.a = C.a) (hb : J.b = C.b) (hu : ¬ IsSquare J.u) {t x2 x3 : ZMod r} (ht : t ≠ -1)
    (hx3 : x3 = -(1 + J.u * (t + 1) ^ 2) / C.a) (h3 : x3 ≠ 0) (hx2 : x2 = J.u * (t + 1) ^ 2 / x3) :
    Chooses C x2 x3 (fun Q => ∃ Q0 : EdPoint C, IsMapped C J.u t Q0 ∧ (Flipped J t → 8 • Q = -(8 • Q0 : EdPoint C)) ∧
      (¬ Flipped J t → 8 • Q = 8 • Q0)) := by
  intro y2 y3 ev2 ev3 hr2 hr3
  have hu0 : J.u ≠ 0 := fun h => hu (h ▸ IsSquare.zero)
  have ht1 : t + 1 ≠ 0 := fun h => ht (by linear_combination h)
  have hs0 : J.u * (t + 1) ^ 2 ≠ 0 := mul_ne_zero hu0 (pow_ne_zero 2 ht1)
  have hinv : x3 / (J.u * (t + 1) ^ 2) = x2⁻¹ := by rw [hx2, inv_div]
  have h20 : x2 ≠ 0 := by rw [hx2]; exact div_ne_zero hs0 h3
  have hcand : -(1 + (J.u * (t + 1) ^ 2)⁻¹) / J.a = x2⁻¹ := by
    have ha0 := C.a_ne_zero
    rw [← hinv, hx3, ha]; field_simp; ring
  obtain ⟨y, hy, hyr⟩ : ∃ y : ZMod r, y.val % 2 = 0 ∧ (IsSquare (rhs C x2⁻¹) → rhs C x2⁻¹ = y ^ 2) := by
    by_cases hS : IsSquare (rhs C x2⁻¹)
    · obtain ⟨y, h⟩ := hS
      obtain ⟨hf, he⟩ := filterEven_spec C.r_ne_two y
      exact ⟨_, he, fun _ => by rw [hf, sq, h]⟩
    · exact ⟨0, by simp, fun h => absurd h hS⟩
  obtain ⟨Q0, hQ0, hx, hy'⟩ := isMapped_of (J := J) (C := C) (t := t) hu ht hx3 hinv.symm hy ev3 hyr hr3
  by_cases hS : IsSquare (rhs C x2)
  · have hS' := (isSquare_rhs_inv h20).2 hS
    obtain ⟨Q, h0, hQ⟩ := mont_surj ((onMont_iff x2 y2).2 (hr2 hS))
    have hQx : Q.montX = x2 := congrArg MontgomeryPoint.x hQ
    have hQy : Q.montY = y2 := congrArg MontgomeryPoint.y hQ
    rw [if_pos hS'] at hx hy'
    have hflip : Flipped J t ↔ (y / x2⁻¹ ^ 2).val % 2 = 0 := by
      unfold Flipped
      rw [hcand]
      constructor
      · rintro ⟨z, hz, hzm, he⟩
        have hz2 : rhs C x2⁻¹ = z ^ 2 := (onMont_iff x2⁻¹ z).1 (by unfold OnMont; rw [← ha, ← hb]; exact hzm)
        rwa [even_eq C.r_ne_two hz hy (hz2.symm.trans (hyr hS'))] at he
      · intro he
        refine ⟨y, hy, ?_, he⟩
        have := (onMont_iff x2⁻¹ y).2 (hyr hS')
        unfold OnMont at this
        rw [ha, hb]; exact this
    have hT : Q0 + EdPoint.torsion2 ≠ 0 := by
      intro h
      have h' : Q0 = EdPoint.torsion2 := by rw [← EdPoint.neg_torsion2]; exact eq_neg_of_add_eq_zero_left h
      have := (EdPoint.montX_eq_zero_iff hQ0.1).2 h'
      rw [hx] at this
      exact inv_ne_zero h20 this
    have hX : Q.montX = (Q0 + EdPoint.torsion2).montX := by rw [montX_add_torsion2, hx, inv_inv, hQx]
    have hTy : (Q0 + EdPoint.torsion2).montY = -(y / x2⁻¹ ^ 2) := by rw [montY_add_torsion2, hx, hy']
    have hsq : y2 ^ 2 = (y / x2⁻¹ ^ 2) ^ 2 := by
      rw [← hr2 hS, div_pow, ← hyr hS', rhs_inv h20]
      field_simp
    have hy20 : y2 ≠ 0 := by
      intro h
      have := hr2 hS
      rw [h, zero_pow two_ne_zero] at this
      exact rhs_ne_zero h20 this
    refine ⟨Q, ⟨Q0, hQ0, fun hf => ?_, fun hf => ?_⟩, h0, by rw [if_pos hS, hQx], by rw [if_pos hS, hQy]⟩
    · have he := even_eq C.r_ne_two ev2 (hflip.1 hf) hsq
      rcases (EdPoint.montX_eq_iff h0 hT).1 hX with h | h
      · exfalso
        rw [h, hTy, ← he] at hQy
        have h2 : y2 + y2 = 0 := by linear_combination -hQy
        rw [← two_mul] at h2
        rcases mul_eq_zero.1 h2 with h2 | h2
        · exact C.two_ne_zero h2
        · exact hy20 h2
      · rw [h, smul_neg, nsmul_add, eight_nsmul_torsion2, add_zero]
    · rcases (EdPoint.montX_eq_iff h0 hT).1 hX with h | h
      · rw [h, nsmul_add, eight_nsmul_torsion2, add_zero]
      · exfalso
        apply hf
        rw [hflip]
        have hm : Q.montY = -(Q0 + EdPoint.torsion2).montY := by rw [h]; exact EdPoint.montY_neg _
        rw [hTy, neg_neg, hQy] at hm
        rw [← hm]; exact ev2
  · have hS' : ¬ IsSquare (rhs C x2⁻¹) := fun h => hS ((isSquare_rhs_inv h20).1 h)
    rw [if_neg hS'] at hx hy'
    refine ⟨Q0, ⟨Q0, hQ0, fun hf => ?_, fun _ => rfl⟩, hQ0.1, by rw [if_neg hS, hx], by rw [if_neg hS, hy']⟩
    exfalso
    obtain ⟨z, -, hz, -⟩ := hf
    rw [hcand] at hz
    have : rhs C x2⁻¹ = z ^ 2 := (onMont_iff x2⁻¹ z).1 (by unfold OnMont; rw [← ha, ← hb]; exact hz)
    exact hS' ⟨z, by rw [this, sq]⟩

/-- C40, constants exactly: whatever the prover does, for a constant `t` the result is the negative `(-x, y)` of the native point if `Flipped J t`,
and the native point if not. -/
theorem C40_constant_exact (hv : J.Valid C) (hsq : IsSqrt sqrt) (h8 : 8 ≤ r) (hs : s.WF) {t : CNum (ZMod r)} {tv : ZMod r}
    (ht : t.asConst = some tv) (htv : t.value = some tv) {o : CEdwardsPoint (ZMod r)} (hw : IsAssignment w)
    (h : (CEdwardsPoint.fromScalar sqrt t J).run s = .ok (o, s')) (hsat : s'.Sat w) :
    tv ≠ -1 ∧ ∃ R, EdwardsPoint.fromScalar sqrt tv J = .ok R ∧ (Flipped J tv → o.Is w ⟨-R.x, R.y⟩) ∧ (¬ Flipped J tv → o.Is w R) := by
  obtain ⟨hne, -⟩ := C40_constant_sound_partial hv hsq h8 hs ht htv hw h hsat
  have ha0 : J.a ≠ 0 := by rw [hv.a_eq]; exact C.a_ne_zero
  obtain ⟨x2, x3, he, c3, n3, c2⟩ := fromScalar_const (sqrt := sqrt) ha0 hv.u_nonsquare C.neg_one_square ⟨ht, htv⟩
  rw [he] at h
  obtain ⟨Q, ⟨Q0, hQ, hf, hnf⟩, h1, -, -⟩ := spec_fromScalarTail (sqrt := sqrt) hw hv.d_eq hv.a_eq hv.b_eq hv.u_nonsquare h8 hs
    (CNum.IsConst.alloc c2) (CNum.IsConst.alloc c3) (switchVaries_consts c2 c3 (inverted_ne hv.u_nonsquare n3))
    (Φ := fun Q => ∃ Q0 : EdPoint C, IsMapped C J.u tv Q0 ∧ (Flipped J tv → 8 • Q = -(8 • Q0 : EdPoint C)) ∧ (¬ Flipped J tv → 8 • Q = 8 • Q0))
    (by
      rw [show x2.eval w = _ from CNum.eval_of_asConst hw c2.1, show x3.eval w = _ from CNum.eval_of_asConst hw c3.1]
      exact chooses_inverted_exactly hv.a_eq hv.b_eq hv.u_nonsquare hne (by rw [hv.a_eq]) n3 rfl) o s' h hsat
  obtain ⟨Q', hQ', hR⟩ := fromScalar_ok hsq hv.a_eq hv.b_eq hv.u_nonsquare hne
  rw [hQ'.unique hQ] at hR
  refine ⟨hne, _, hR, fun h => ?_, fun h => ?_⟩
  · rw [hf h] at h1; exact ed_is h1
  · rw [hnf h] at h1; exact ed_is h1

instance (J : JubJubParams (ZMod 73)) (t : ZMod 73) : Decidable (Flipped J t) := by unfold Flipped; infer_instance

/-- On the small curve: the constant 6 gets the wrong sign, the constants 0 and 1 the right one; the hypotheses are met by the run of the
honest prover. -/
example : Flipped toyParams 6 ∧ ¬ Flipped toyParams 0 ∧ ¬ Flipped toyParams 1 := by decide +kernel

example (t : ZMod 73) (ht : t ≠ -1) : ∃ o s', (CEdwardsPoint.fromScalar toySqrt (CNum.fromConst t) toyParams).run (CS.new .prove) = .ok (o, s') ∧
    s'.Sat s'.assign := by
  obtain ⟨o, s', R, hr, hh, -⟩ := C40_constant_complete_partial (C := toyCurve) (t := CNum.fromConst t) toyParams_valid
    toySqrt_isSqrt (by norm_num) (CS.honest_new (F := ZMod 73) .prove) (CNum.asConst_fromConst _) rfl ht
  exact ⟨o, s', hr, hh.sat⟩

end Fawkes.Props
