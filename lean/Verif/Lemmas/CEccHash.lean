import Verif.Lemmas.CEccConst
import Verif.Lemmas.CEccAssert

/-!
# Hashing a constant to the curve

The division of constants is upside down (`CNum.IsConst.div`), so `from_scalar` of a constant starts from the inverse of the first
candidate.  The points with inverse abscissas differ by the point of order two and a sign; after the cofactor only the sign is left.
-/

set_option linter.unusedSectionVars false

namespace Fawkes

namespace CEdwardsPoint

variable {r : Nat} [Fact r.Prime] {C : EdCurve (ZMod r)} {J : JubJubParams (ZMod r)} {sqrt : ZMod r → Option (ZMod r)}
  {w : Index → ZMod r} {s : CS (ZMod r)}

theorem rhs_inv {x : ZMod r} (hx : x ≠ 0) : rhs C x⁻¹ = rhs C x * (x⁻¹ ^ 2) ^ 2 := by
  have := C.b_ne_zero
  unfold rhs
  field_simp
  ring

theorem isSquare_rhs_inv {x : ZMod r} (hx : x ≠ 0) : IsSquare (rhs C x⁻¹) ↔ IsSquare (rhs C x) := by
  have key : ∀ {x : ZMod r}, x ≠ 0 → IsSquare (rhs C x) → IsSquare (rhs C x⁻¹) := by
    intro x hx h
    rw [rhs_inv hx]
    exact h.mul ⟨x⁻¹ ^ 2, sq _⟩
  refine ⟨fun h => ?_, key hx⟩
  have := key (inv_ne_zero hx) h
  rwa [inv_inv] at this

theorem montX_add_torsion2 (Q : EdPoint C) : (Q + EdPoint.torsion2).montX = Q.montX⁻¹ := by
  rw [EdPoint.add_torsion2]
  unfold EdPoint.montX
  rw [inv_div, sub_neg_eq_add, ← sub_eq_add_neg]

theorem eight_nsmul_torsion2 : 8 • (EdPoint.torsion2 : EdPoint C) = 0 := by
  rw [show 8 = 4 * 2 from rfl, mul_nsmul', EdPoint.two_nsmul_torsion2, nsmul_zero]

theorem chooses_inverted (hu : ¬ IsSquare J.u) {t x2 x3 : ZMod r} (ht : t ≠ -1)
    (hx3 : x3 = -(1 + J.u * (t + 1) ^ 2) / C.a) (h3 : x3 ≠ 0) (hx2 : x2 = J.u * (t + 1) ^ 2 / x3) :
    Chooses C x2 x3 (fun Q => ∃ Q0 : EdPoint C, IsMapped C J.u t Q0 ∧ (8 • Q = 8 • Q0 ∨ 8 • Q = -(8 • Q0 : EdPoint C))) := by
  intro y2 y3 ev2 ev3 hr2 hr3
  have hu0 : J.u ≠ 0 := fun h => hu (h ▸ IsSquare.zero)
  have ht1 : t + 1 ≠ 0 := fun h => ht (by linear_combination h)
  have hs0 : J.u * (t + 1) ^ 2 ≠ 0 := mul_ne_zero hu0 (pow_ne_zero 2 ht1)
  have hinv : x3 / (J.u * (t + 1) ^ 2) = x2⁻¹ := by rw [hx2, inv_div]
  have h20 : x2 ≠ 0 := by rw [hx2]; exact div_ne_zero hs0 h3
  obtain ⟨y, hy, hyr⟩ : ∃ y : ZMod r, y.val % 2 = 0 ∧ (IsSquare (rhs C x2⁻¹) → rhs C x2⁻¹ = y ^ 2) := by
    by_cases hS : IsSquare (rhs C x2⁻¹)
    · obtain ⟨y, h⟩ := hS
      obtain ⟨hf, he⟩ := filterEven_spec C.r_ne_two y
      exact ⟨_, he, fun _ => by rw [hf, sq, h]⟩
    · exact ⟨0, by simp, fun h => absurd h hS⟩
  obtain ⟨Q0, hQ0, hx, hy'⟩ := isMapped_of (J := J) (C := C) (t := t) hu ht hx3 hinv.symm hy ev3 hyr hr3
  by_cases hS : IsSquare (rhs C x2)
  · obtain ⟨Q, h0, hQ⟩ := mont_surj ((onMont_iff x2 y2).2 (hr2 hS))
    have hQx : Q.montX = x2 := congrArg MontgomeryPoint.x hQ
    have hQy : Q.montY = y2 := congrArg MontgomeryPoint.y hQ
    refine ⟨Q, ⟨Q0, hQ0, ?_⟩, h0, by rw [if_pos hS, hQx], by rw [if_pos hS, hQy]⟩
    rw [if_pos ((isSquare_rhs_inv h20).2 hS)] at hx
    have hT : Q0 + EdPoint.torsion2 ≠ 0 := by
      intro h
      have h' : Q0 = EdPoint.torsion2 := by rw [← EdPoint.neg_torsion2]; exact eq_neg_of_add_eq_zero_left h
      have := (EdPoint.montX_eq_zero_iff hQ0.1).2 h'
      rw [hx] at this
      exact inv_ne_zero h20 this
    have hX : Q.montX = (Q0 + EdPoint.torsion2).montX := by rw [montX_add_torsion2, hx, inv_inv, hQx]
    rcases (EdPoint.montX_eq_iff h0 hT).1 hX with h | h
    · left; rw [h, nsmul_add, eight_nsmul_torsion2, add_zero]
    · right; rw [h, smul_neg, nsmul_add, eight_nsmul_torsion2, add_zero]
  · have hS' : ¬ IsSquare (rhs C x2⁻¹) := fun h => hS ((isSquare_rhs_inv h20).1 h)
    rw [if_neg hS'] at hx hy'
    exact ⟨Q0, ⟨Q0, hQ0, Or.inl rfl⟩, hQ0.1, by rw [if_neg hS, hx], by rw [if_neg hS, hy']⟩

/-- Choosing between two different constants by a signal gives a signal. -/
theorem switchVaries_consts {a b : CNum (ZMod r)} {x y : ZMod r} (ha : a.IsConst x) (hb : b.IsConst y) (h : x ≠ y) :
    SwitchVaries a b := by
  intro z s hs a2 a3 az zv
  have zn : z.asConst = .ok none := by unfold CBool.asConst; rw [zv.asConst]
  unfold CNum.switch
  refine Post.bind (Q := fun r s' => s' = s ∧ z.asConst = .ok r) (Post.lift fun _ h => ⟨rfl, h⟩) ?_
  rintro c _ _ ⟨rfl, hr⟩
  rw [zn] at hr
  injection hr with hr
  subst hr
  have key : ∀ {c d e : CNum (ZMod r)} {k l : ZMod r}, Varies c → k ≠ 0 → d.asConst = some k → e.asConst = some l →
      Varies (CNum.addAssign (CNum.mulConst c k) e) := by
    intro c d e k l vc hk _ he
    obtain ⟨w, w', hw, hw', hne⟩ := vc.mulConst hk
    refine ⟨w, w', hw, hw', fun heq => hne ?_⟩
    change (CNum.addAssign (CNum.mulConst c k) e).eval w = (CNum.addAssign (CNum.mulConst c k) e).eval w' at heq
    rw [CNum.eval_addAssign, CNum.eval_addAssign, CNum.eval_of_asConst hw he, CNum.eval_of_asConst hw' he] at heq
    exact add_right_cancel heq
  dsimp only
  split
  · rw [CNum.mul_const_right zv.asConst (ha.sub hb).1, pure_bind]
    exact Post.pure (key zv (sub_ne_zero.2 h) (ha.sub hb).1 hb.1)
  · rw [CNum.mul_const_right (zv.constSub 1).asConst (hb.sub ha).1, pure_bind]
    exact Post.pure (key (zv.constSub 1) (sub_ne_zero.2 (Ne.symm h)) (hb.sub ha).1 ha.1)

/-- What `from_scalar` of a constant does before the square roots. -/
theorem fromScalar_const (ha : J.a ≠ 0) (hu : ¬ IsSquare J.u) (hneg : IsSquare (-1 : ZMod r)) {t : CNum (ZMod r)} {tv : ZMod r} (ht : t.IsConst tv) :
    ∃ x2 x3, fromScalar sqrt t J = fromScalarTail sqrt x2 x3 J ∧
      x3.IsConst (-(1 + J.u * (tv + 1) ^ 2) / J.a) ∧ -(1 + J.u * (tv + 1) ^ 2) / J.a ≠ 0 ∧
      x2.IsConst (J.u * (tv + 1) ^ 2 / (-(1 + J.u * (tv + 1) ^ 2) / J.a)) := by
  obtain ⟨t2, h2, c2⟩ := (ht.addConst 1).mul (ht.addConst 1)
  have h2' : CNum.square (CNum.addConst t 1) = pure t2 := h2
  have c3 := ((c2.mulConst J.u).addConst 1).mulConst (-1 / J.a)
  have e3 : ((tv + 1) * (tv + 1) * J.u + 1) * (-1 / J.a) = -(1 + J.u * (tv + 1) ^ 2) / J.a := by ring
  have e1 : (tv + 1) * (tv + 1) * J.u = J.u * (tv + 1) ^ 2 := by ring
  have n3 : -(1 + J.u * (tv + 1) ^ 2) / J.a ≠ 0 := by
    refine div_ne_zero (neg_ne_zero.2 fun h => ?_) ha
    by_cases h0 : tv + 1 = 0
    · rw [h0] at h; simp at h
    · apply hu
      obtain ⟨i, hi⟩ := hneg
      refine ⟨i / (tv + 1), ?_⟩
      field_simp
      linear_combination h + hi
  rw [e3] at c3
  have c1 := c2.mulConst J.u
  rw [e1] at c1
  obtain ⟨x2, hx2, cx2⟩ := (c3.div c1).2 n3
  refine ⟨x2, _, ?_, c3, n3, cx2⟩
  unfold fromScalar
  dsimp only
  rw [h2']
  simp only [pure_bind]
  rw [Num.div_ok ha]
  show (M.lift (.ok (-1 / J.a)) >>= _) = _
  rw [show (M.lift (.ok (-1 / J.a)) : M (ZMod r) (ZMod r)) = pure (-1 / J.a) from rfl, pure_bind]
  rw [hx2, pure_bind]
  rfl

/-- The image of `-1` would be the excluded point: no square root is accepted for it. -/
theorem spec_fromScalarTail_zero (hw : IsAssignment w) (ha : J.a = C.a) (hb : J.b = C.b) (hu : ¬ IsSquare J.u) (h8 : 8 ≤ r)
    (hs : s.WF) {x2 x3 : CNum (ZMod r)} (a2 : x2.lc.Alloc s) (h0 : x2.eval w = 0) :
    Spec w s (fromScalarTail sqrt x2 x3 J) (fun _ _ => False) := by
  unfold fromScalarTail
  refine Spec.bind (spec_checkAndGetY (sqrt := sqrt) hw ha hb hu h8 hs a2) ?_
  rintro ⟨z, y2⟩ s3 e3 ⟨-, -, -, -, -, -, -, hne⟩
  rw [h0] at hne
  exact absurd (by simp [rhs]) hne

theorem CNum.IsConst.alloc {a : CNum (ZMod r)} {x : ZMod r} (h : a.IsConst x) : a.lc.Alloc s := by
  rcases CNum.asConst_iff.1 h.1 with ⟨h, -⟩ | h <;> rw [h] <;> simp [LC.Alloc]

theorem CNum.IsConst.has {a : CNum (ZMod r)} {x : ZMod r} (h : a.IsConst x) : Has s a x :=
  ⟨CNum.IsConst.alloc h, h.2, CNum.eval_of_asConst s.assign_isAssignment h.1⟩

/-- The two candidates differ: their product is not a square. -/
theorem inverted_ne (hu : ¬ IsSquare J.u) {tv x3 : ZMod r} (n3 : x3 ≠ 0) : J.u * (tv + 1) ^ 2 / x3 ≠ x3 := by
  intro h
  rw [div_eq_iff n3] at h
  by_cases ht : tv + 1 = 0
  · rw [ht, zero_pow two_ne_zero, mul_zero] at h
    exact n3 (mul_self_eq_zero.1 h.symm)
  · refine hu ⟨x3 / (tv + 1), ?_⟩
    rw [div_mul_div_comm, ← h, ← pow_two, mul_div_assoc, div_self (pow_ne_zero 2 ht), mul_one]

/-- Soundness of `from_scalar` for a constant: the point is the native one up to sign, and `-1` is impossible. -/
theorem spec_fromScalar_const (hw : IsAssignment w) (hd : J.d = C.d) (ha : J.a = C.a) (hb : J.b = C.b) (hu : ¬ IsSquare J.u)
    (h8 : 8 ≤ r) (hs : s.WF) {t : CNum (ZMod r)} {tv : ZMod r} (ht : t.IsConst tv) :
    Spec w s (fromScalar sqrt t J) (fun q s' => tv ≠ -1 ∧ ∃ Q Q0 : EdPoint C, IsMapped C J.u tv Q0 ∧
      (8 • Q = 8 • Q0 ∨ 8 • Q = -(8 • Q0 : EdPoint C)) ∧ (specMode w hw).Ed s' q (8 • Q) ∧ FreshVar s q.x ∧ FreshVar s q.y) := by
  have ha0 : J.a ≠ 0 := by rw [ha]; exact C.a_ne_zero
  obtain ⟨x2, x3, he, c3, n3, c2⟩ := fromScalar_const (sqrt := sqrt) ha0 hu C.neg_one_square ht
  rw [he]
  by_cases htne : tv = -1
  · refine (spec_fromScalarTail_zero hw ha hb hu h8 hs (CNum.IsConst.alloc c2) ?_).mono fun q s' _ h => h.elim
    rw [show x2.eval w = _ from CNum.eval_of_asConst hw c2.1, htne]; simp
  · refine (spec_fromScalarTail (sqrt := sqrt) hw hd ha hb hu h8 hs (CNum.IsConst.alloc c2) (CNum.IsConst.alloc c3)
      (switchVaries_consts c2 c3 (inverted_ne hu n3)) (Φ := fun Q => ∃ Q0 : EdPoint C, IsMapped C J.u tv Q0 ∧ (8 • Q = 8 • Q0 ∨ 8 • Q = -(8 • Q0 : EdPoint C)))
      ?_).mono fun q s' _ h => ?_
    · rw [show x2.eval w = _ from CNum.eval_of_asConst hw c2.1, show x3.eval w = _ from CNum.eval_of_asConst hw c3.1]
      exact chooses_inverted hu htne (by rw [ha]) n3 rfl
    · obtain ⟨Q, ⟨Q0, h1, h2⟩, h3⟩ := h
      exact ⟨htne, Q, Q0, h1, h2, h3⟩

/-- The run of `from_scalar` on a constant. -/
theorem runs_fromScalar_const (hsq : IsSqrt sqrt) (hd : J.d = C.d) (ha : J.a = C.a) (hb : J.b = C.b) (hu : ¬ IsSquare J.u)
    (h8 : 8 ≤ r) (hs : s.Honest) {t : CNum (ZMod r)} {tv : ZMod r} (ht : t.IsConst tv) (htne : tv ≠ -1) :
    Runs s (fromScalar sqrt t J) (fun q s' => ∃ Q Q0 : EdPoint C, IsMapped C J.u tv Q0 ∧
      (8 • Q = 8 • Q0 ∨ 8 • Q = -(8 • Q0 : EdPoint C)) ∧ (runsMode (ZMod r)).Ed s' q (8 • Q) ∧ FreshVar s q.x ∧ FreshVar s q.y) := by
  have ha0 : J.a ≠ 0 := by rw [ha]; exact C.a_ne_zero
  have hu0 : J.u ≠ 0 := fun h => hu (h ▸ IsSquare.zero)
  obtain ⟨x2, x3, he, c3, n3, c2⟩ := fromScalar_const (sqrt := sqrt) ha0 hu C.neg_one_square ht
  rw [he]
  have ht1 : tv + 1 ≠ 0 := fun h => htne (by linear_combination h)
  have n2 : J.u * (tv + 1) ^ 2 / (-(1 + J.u * (tv + 1) ^ 2) / J.a) ≠ 0 := div_ne_zero (mul_ne_zero hu0 (pow_ne_zero 2 ht1)) n3
  refine (runs_fromScalarTail (C := C) hsq hd ha hb hu h8 hs (CNum.IsConst.has c2) (CNum.IsConst.has c3) n2 n3
    (switchVaries_consts c2 c3 (inverted_ne hu n3)) (Φ := fun Q => ∃ Q0 : EdPoint C, IsMapped C J.u tv Q0 ∧ (8 • Q = 8 • Q0 ∨ 8 • Q = -(8 • Q0 : EdPoint C)))
    (chooses_inverted hu htne (by rw [ha]) n3 rfl)).mono fun q s' _ _ h => ?_
  obtain ⟨Q, ⟨Q0, h1, h2⟩, h3⟩ := h
  exact ⟨Q, Q0, h1, h2, h3⟩

end CEdwardsPoint

end Fawkes
