import Verif.Lemmas.CEcc

/-!
# Curve gadgets: membership checks, decompression, hashing to the curve
-/

set_option linter.unusedSectionVars false

namespace Fawkes

variable {F : Type} [Field F] [DecidableEq F] {C : EdCurve F} {J : JubJubParams F} {w : Index → F} {s : CS F}

namespace CEdwardsPoint

theorem spec_assertInCurve (hw : IsAssignment w) (p : CEdwardsPoint F) (s : CS F) :
    Spec w s (p.assertInCurve J) (fun _ _ => OnCurve J.d (p.x.eval w) (p.y.eval w)) := by
  unfold assertInCurve
  refine Spec.bind (spec_square hw p.x) fun x2 s1 e1 h1 => ?_
  refine Spec.bind (spec_square hw p.y) fun y2 s2 e2 h2 => ?_
  refine (spec_enforce _ _ _).mono fun _ s3 e3 h3 => ?_
  have h1' := h1
  have h2' := h2
  unfold OnCurve
  rw [CNum.eval_mulConst hw, CNum.eval_subConst hw, CNum.eval_sub, h1', h2'] at h3
  linear_combination -h3

theorem runs_assertInCurve (hs : s.Honest) {p : CEdwardsPoint F} {x y : F} (hx : Has s p.x x) (hy : Has s p.y y)
    (hc : OnCurve J.d x y) : Runs s (p.assertInCurve J) (fun _ _ => True) := by
  unfold assertInCurve
  refine Runs.bind (runs_square hs hx) fun x2 s1 e1 hs1 h1 => ?_
  refine Runs.bind (runs_square hs1 (hy.mono e1)) fun y2 s2 e2 hs2 h2 => ?_
  refine (runs_enforce hs2 (has_mulConst (h1.mono e2) _) h2 (has_subConst (has_sub h2 (h1.mono e2)) 1) ?_).mono
    fun _ _ _ _ _ => trivial
  unfold OnCurve at hc
  linear_combination -hc

theorem post_alloc_point (hs : s.WF) (v : Option (EdwardsPoint F)) :
    Post s (alloc v) (fun p s' => FreshVar s p.x ∧ FreshVar s p.y ∧ p.x.lc.Alloc s' ∧ p.y.lc.Alloc s') := by
  unfold alloc
  refine Post.bind (post_alloc_fresh hs _) fun x s1 e1 h1 => ?_
  refine Post.bind (post_alloc_fresh (e1.wf hs) _) fun y s2 e2 h2 => ?_
  exact Post.pure ⟨h1.1, h2.1.anti e1, h1.2.1.mono e2, h2.2.1⟩

theorem runs_alloc_point (hs : s.Honest) (v : EdwardsPoint F) :
    Runs s (alloc (some v)) (fun p s' => Has s' p.x v.x ∧ Has s' p.y v.y) := by
  unfold alloc
  refine Runs.bind (runs_alloc hs v.x) fun x s1 e1 hs1 h1 => ?_
  refine Runs.bind (runs_alloc hs1 v.y) fun y s2 e2 hs2 h2 => ?_
  exact Runs.pure hs2 ⟨h1.1.mono e2, h2.1⟩

section subgroup

variable [Fact J.l.Prime]

theorem eight_ne_zero (h : 7 < J.l) : (8 : ZMod J.l) ≠ 0 := by
  intro h0
  have h1 : ((8 : Nat) : ZMod J.l) = 0 := by exact_mod_cast h0
  rw [ZMod.natCast_eq_zero_iff, show (8 : Nat) = 2 ^ 3 by norm_num] at h1
  have := Nat.le_of_dvd (by norm_num) ((Fact.out : J.l.Prime).dvd_of_dvd_pow h1)
  omega

/-- The witness: an eighth of the point. -/
theorem eighth_ok (hd : J.d = C.d) (hl : 7 < J.l) {Q : EdPoint C} (hQ : J.l • Q = 0) :
    ∃ P : EdPoint C, eighth Q.affine J = .ok P.affine ∧ 8 • P = Q := by
  have h8 := eight_ne_zero hl
  refine ⟨((8 : ZMod J.l)⁻¹).val • Q, ?_, ?_⟩
  · unfold eighth
    rw [Num.inverse_ok h8]
    exact (mul_represents hd (Represents.of_affine Q) _).intoAffine
  · have h1 : (8 : ZMod J.l).val = 8 := by
      have : ((8 : Nat) : ZMod J.l).val = 8 := by
        rw [ZMod.val_natCast, Nat.mod_eq_of_lt]
        by_contra h
        have h8' : J.l = 8 := by omega
        have := (Fact.out : J.l.Prime)
        rw [h8'] at this
        exact absurd this (by decide)
      exact_mod_cast this
    have := EdPoint.val_mul_nsmul hQ (8 : ZMod J.l) (8 : ZMod J.l)⁻¹
    rw [mul_inv_cancel₀ h8, h1, ZMod.val_one, one_nsmul] at this
    rw [← mul_nsmul, mul_comm]; exact this.symm

theorem spec_assertInSubgroup (hw : IsAssignment w) (hd : J.d = C.d) (hexp : ∀ Q : EdPoint C, (8 * J.l) • Q = 0) (hs : s.WF)
    (p : CEdwardsPoint F) :
    Spec w s (p.assertInSubgroup J) (fun _ _ => ∃ Q : EdPoint C, J.l • Q = 0 ∧ Q.x = p.x.eval w ∧ Q.y = p.y.eval w) := by
  unfold assertInSubgroup
  refine Spec.bind (Q := fun _ s' => s' = s) (Spec.lift fun _ _ => rfl) ?_
  rintro v _ _ rfl
  refine Spec.bind (Spec.of_post (post_alloc_point hs v)) fun pre s1 e1 h1 => ?_
  have hs1 := e1.wf hs
  refine Spec.bind ((spec_assertInCurve hw pre s1)) fun _ s2 e2 h2 => ?_
  rw [hd] at h2
  have hP : (specMode w hw).Ed (C := C) s2 pre ⟨_, _, h2⟩ := ⟨⟨h1.2.2.1.mono e2, rfl⟩, ⟨h1.2.2.2.mono e2, rfl⟩⟩
  refine Spec.bind ((specMode w hw).edMulByCofactor hd (e2.wf hs1) hP h1.1.varies h1.2.1.varies (e2.wf hs1))
    fun p8 s3 e3 h3 => ?_
  refine Spec.bind (spec_assertZero hw _) fun _ s4 e4 h4 => ?_
  refine (spec_assertZero hw _).mono fun _ s5 e5 h5 => ?_
  rw [CNum.eval_sub, sub_eq_zero] at h4 h5
  refine ⟨_, ?_, h3.1.1.2.symm.trans h4.symm, h3.1.2.2.symm.trans h5.symm⟩
  rw [← mul_nsmul]; exact hexp _

theorem runs_assertInSubgroup (hs : s.Honest) (hd : J.d = C.d) (hl : 7 < J.l) {p : CEdwardsPoint F} {Q : EdPoint C}
    (hQ : J.l • Q = 0) (hx : Has s p.x Q.x) (hy : Has s p.y Q.y) : Runs s (p.assertInSubgroup J) (fun _ _ => True) := by
  unfold assertInSubgroup
  obtain ⟨P, hP, h8⟩ := eighth_ok hd hl hQ
  have hv : mapValue (fun q => eighth q J) p.getValue = .ok (some P.affine) := by
    unfold getValue
    rw [hx.value, hy.value]
    have : eighth (⟨Q.x, Q.y⟩ : EdwardsPoint F) J = .ok P.affine := hP
    simp only [mapValue, bind, Option.bind, pure, this, Except.map]
  refine Runs.bind (Runs.lift (Q := fun v s' => v = some P.affine ∧ s' = s) hs hv ⟨rfl, rfl⟩) ?_
  rintro _ s0 _ _ ⟨rfl, h0⟩
  subst s0
  refine Runs.bind ((runs_alloc_point hs P.affine).and_post (post_alloc_point hs.wf _)) fun pre s1 e1 hs1 h1 => ?_
  obtain ⟨⟨h1x, h1y⟩, f1x, f1y, -, -⟩ := h1
  refine Runs.bind (runs_assertInCurve hs1 h1x h1y (by rw [hd]; exact P.on)) fun _ s2 e2 hs2 _ => ?_
  refine Runs.bind ((runsMode F).edMulByCofactor (Q := P) hd hs2 ⟨h1x.mono e2, h1y.mono e2⟩ f1x.varies f1y.varies)
    fun p8 s3 e3 hs3 h3 => ?_
  rw [h8] at h3
  have e03 := (e1.trans e2).trans e3
  have hzx : Has s3 (CNum.sub p.x p8.x) 0 := by
    have := has_sub (hx.mono e03) h3.1.1; rwa [sub_self] at this
  have hzy : Has s3 (CNum.sub p.y p8.y) 0 := by
    have := has_sub (hy.mono e03) h3.1.2; rwa [sub_self] at this
  refine Runs.bind (runs_assertZero hs3 hzx) fun _ s4 e4 hs4 _ => ?_
  exact (runs_assertZero hs4 (hzy.mono e4)).mono fun _ _ _ _ _ => trivial

theorem spec_subgroupDecompress (hw : IsAssignment w) {sqrt : F → Option F} (hd : J.d = C.d)
    (hexp : ∀ Q : EdPoint C, (8 * J.l) • Q = 0) (hs : s.WF) (x : CNum F) :
    Spec w s (subgroupDecompress sqrt x J) (fun q s' => ∃ Q : EdPoint C, J.l • Q = 0 ∧ Q.x = x.eval w ∧
      (specMode w hw).Ed s' q Q ∧ FreshVar s q.x ∧ FreshVar s q.y) := by
  unfold subgroupDecompress
  refine Spec.bind (Q := fun _ s' => s' = s) (Spec.lift fun _ _ => rfl) ?_
  rintro v s0 _ h0
  subst s0
  refine Spec.bind (Spec.of_post (post_alloc_point hs v)) fun pre s1 e1 h1 => ?_
  have hs1 := e1.wf hs
  refine Spec.bind ((spec_assertInCurve hw pre s1)) fun _ s2 e2 h2 => ?_
  rw [hd] at h2
  have hP : (specMode w hw).Ed (C := C) s2 pre ⟨_, _, h2⟩ := ⟨⟨h1.2.2.1.mono e2, rfl⟩, ⟨h1.2.2.2.mono e2, rfl⟩⟩
  refine Spec.bind ((specMode w hw).edMulByCofactor hd (e2.wf hs1) hP h1.1.varies h1.2.1.varies (e2.wf hs1))
    fun p8 s3 e3 h3 => ?_
  refine Spec.bind (spec_assertZero hw _) fun _ s4 e4 h4 => ?_
  rw [CNum.eval_sub, sub_eq_zero] at h4
  refine Spec.pure fun _ => ⟨_, ?_, h3.1.1.2.symm.trans h4.symm, h3.1.mono e4, h3.2.1.anti (e1.trans e2), h3.2.2.anti (e1.trans e2)⟩
  rw [← mul_nsmul]; exact hexp _

theorem runs_subgroupDecompress (hs : s.Honest) {sqrt : F → Option F} (hsq : IsSqrt sqrt) (hd : J.d = C.d) (hl : 7 < J.l)
    {x : CNum F} {Q : EdPoint C} (hQ : J.l • Q = 0) (hx : Has s x Q.x) :
    Runs s (subgroupDecompress sqrt x J) (fun q s' => (runsMode F).Ed s' q Q ∧ FreshVar s q.x ∧ FreshVar s q.y) := by
  unfold subgroupDecompress
  obtain ⟨P, hP, h8⟩ := eighth_ok hd hl hQ
  have hdec : EdwardsPoint.subgroupDecompress sqrt Q.x J = .ok (some Q.affine) := by
    obtain ⟨o, ho, hp⟩ := subgroupDecompress_ok (C := C) hsq hd (Fact.out : J.l.Prime) (by omega) Q.x
    rw [ho, (hp Q.affine).2 ⟨Q, hQ, rfl, rfl⟩]
  have hv : mapValue (decompressValue sqrt J) x.value = .ok (some P.affine) := by
    rw [hx.value]
    simp only [mapValue, decompressValue, hdec, bind, Except.bind, Option.getD_some, hP, Except.map]
  refine Runs.bind (Runs.lift (Q := fun v s' => v = some P.affine ∧ s' = s) hs hv ⟨rfl, rfl⟩) ?_
  rintro _ s0 _ _ ⟨rfl, h0⟩
  subst s0
  refine Runs.bind ((runs_alloc_point hs P.affine).and_post (post_alloc_point hs.wf _)) fun pre s1 e1 hs1 h1 => ?_
  obtain ⟨⟨h1x, h1y⟩, f1x, f1y, -, -⟩ := h1
  refine Runs.bind (runs_assertInCurve hs1 h1x h1y (by rw [hd]; exact P.on)) fun _ s2 e2 hs2 _ => ?_
  refine Runs.bind ((runsMode F).edMulByCofactor (Q := P) hd hs2 ⟨h1x.mono e2, h1y.mono e2⟩ f1x.varies f1y.varies)
    fun p8 s3 e3 hs3 h3 => ?_
  rw [h8] at h3
  have hzx : Has s3 (CNum.sub x p8.x) 0 := by
    have := has_sub (hx.mono ((e1.trans e2).trans e3)) h3.1.1; rwa [sub_self] at this
  refine Runs.bind (runs_assertZero hs3 hzx) fun _ s4 e4 hs4 _ => ?_
  exact Runs.pure hs4 ⟨h3.1.mono e4, h3.2.1.anti (e1.trans e2), h3.2.2.anti (e1.trans e2)⟩

end subgroup

/-! ### Hashing to the curve -/

section hash

variable {r : Nat} [Fact r.Prime] {C : EdCurve (ZMod r)} {J : JubJubParams (ZMod r)} {sqrt : ZMod r → Option (ZMod r)}
  {w : Index → ZMod r} {s : CS (ZMod r)}

/-- The right-hand side of the Montgomery equation over `b`. -/
def rhs (C : EdCurve (ZMod r)) (x : ZMod r) : ZMod r := (x ^ 3 + C.a * x ^ 2 + x) / C.b

theorem rhs_ne_zero {x : ZMod r} (hx : x ≠ 0) : rhs C x ≠ 0 := by
  intro h
  have h0 : OnMont C.a C.b x 0 := by
    unfold OnMont
    unfold rhs at h
    rw [div_eq_zero_iff] at h
    rcases h with h | h
    · rw [h]; ring
    · exact absurd h C.b_ne_zero
  exact EdPoint.mont_v_ne h0 hx rfl

theorem onMont_iff (x y : ZMod r) : OnMont C.a C.b x y ↔ rhs C x = y ^ 2 := by
  unfold OnMont rhs
  rw [div_eq_iff C.b_ne_zero]
  constructor <;> intro h <;> linear_combination -h

theorem head_even {bits : List (CBool (ZMod r))} {b : CBool (ZMod r)} {v : ZMod r} (hr : 8 ≤ r)
    (h : SpellsBits w (b :: bits) (lowBits (numBits r) v.val)) (hb : b.num.eval w = 0) : v.val % 2 = 0 := by
  have h4 : 1 ≤ numBits r := by
    have : 4 ≤ numBits r := Nat.lt_size.2 (by omega)
    omega
  obtain ⟨m, hm⟩ : ∃ m, numBits r = m + 1 := ⟨numBits r - 1, by omega⟩
  rw [hm] at h
  unfold lowBits at h
  rw [List.range_succ_eq_map, List.map_cons] at h
  cases h with
  | cons h0 _ =>
    have h0' : b.num.eval w = if v.val.testBit 0 = true then 1 else 0 := h0
    rw [hb] at h0'
    by_contra hc
    rw [Nat.testBit_zero, if_pos (by simp; omega)] at h0'
    exact zero_ne_one h0'

theorem spec_checkAndGetY (hw : IsAssignment w) (ha : J.a = C.a) (hb : J.b = C.b) (hu : ¬ IsSquare J.u) (h8 : 8 ≤ r) (hs : s.WF)
    {x : CNum (ZMod r)} (hx : x.lc.Alloc s) :
    Spec w s (checkAndGetY sqrt x J) (fun q s' => q.1.num.lc.Alloc s' ∧ Varies q.1.num ∧ FreshVar s q.2 ∧ q.2.lc.Alloc s' ∧
      (q.2.eval w).val % 2 = 0 ∧ q.1.num.eval w = (if IsSquare (rhs C (x.eval w)) then 1 else 0) ∧
      (IsSquare (rhs C (x.eval w)) → rhs C (x.eval w) = q.2.eval w ^ 2) ∧ rhs C (x.eval w) ≠ 0) := by
  unfold checkAndGetY
  have hx' : (specMode w hw).H s x (x.eval w) := ⟨hx, rfl⟩
  refine Spec.bind ((specMode w hw).mul hs hx' hx' hs) fun x2 s1 e1 h1 => ?_
  have hs1 := e1.wf hs
  refine Spec.bind ((specMode w hw).mul hs1 h1 ((specMode w hw).addConst ((specMode w hw).mono e1 hx') J.a) hs1) fun x3 s2 e2 h2 => ?_
  have hs2 := e2.wf hs1
  have hb0 : J.b ≠ 0 := by rw [hb]; exact C.b_ne_zero
  refine Spec.bind ((spec_divConst hb0).and_post (post_divConst _ _)) fun g s3 e3 h3 => ?_
  have hs3 := e3.wf hs2
  have hg : (specMode w hw).H s3 g (rhs C (x.eval w)) := by
    have hxx := (specMode w hw).addAssign h2 ((specMode w hw).mono (e1.trans e2) hx')
    refine ⟨?_, ?_⟩
    · intro k hk
      rw [h3.2.2.1, LC.keys_map] at hk
      exact (hxx.1.mono e3) k hk
    · have h4 := h3.1
      rw [hxx.2] at h4
      unfold rhs
      rw [eq_div_iff C.b_ne_zero, ← hb, h4, ha]; ring
  refine Spec.bind (Q := fun _ s' => s' = s3) (Spec.lift fun _ _ => rfl) ?_
  rintro v s0 _ h0
  subst s0
  refine Spec.bind (Spec.of_post (post_alloc_fresh hs3 v)) fun y s4 e4 h4 => ?_
  have hs4 := e4.wf hs3
  refine Spec.bind (spec_strict hw h8 y s4) fun bits s5 e5 h5 => ?_
  have hs5 := e5.wf hs4
  cases bits with
  | nil => exact Spec.panic
  | cons b bits =>
    dsimp only
    refine Spec.bind (spec_assertConst hw _ _) fun _ s6 e6 h6 => ?_
    have hs6 := e6.wf hs5
    have heven := head_even h8 h5 h6
    have hy : (specMode w hw).H s6 y (y.eval w) := ⟨(h4.2.1.mono e5).mono e6, rfl⟩
    refine Spec.bind ((specMode w hw).mul' hs6 hy hy h4.1.varies h4.1.varies hs6) fun sq s7 e7 h7 => ?_
    have hs7 := e7.wf hs6
    have e37 := ((e4.trans e5).trans e6).trans e7
    have hg7 := (specMode w hw).mono e37 hg
    have hd1 := (specMode w hw).sub hg7 h7.1
    have vd1 : Varies (CNum.sub g sq) := (h7.2.newIn.sub_left ((specMode w hw).alloc ((specMode w hw).mono ((e4.trans e5).trans e6) hg))).varies
    refine Spec.bind ((specMode w hw).post ((specMode w hw).isZero hs7 hd1 trivial) (post_isZero_fresh hs7 hd1.1 vd1) hs7) fun z s8 e8 h8 => ?_
    have hs8 := e8.wf hs7
    have hd2 := (specMode w hw).mono e8 ((specMode w hw).sub ((specMode w hw).mulConst J.u hg7) h7.1)
    refine Spec.bind ((specMode w hw).isZero hs8 hd2 trivial hs8) fun z' s9 e9 h9 => ?_
    have hs9 := e9.wf hs8
    refine Spec.bind (spec_assertZero hw _) fun _ s10 e10 h10 => ?_
    refine Spec.pure fun _ => ?_
    have e910 := e9.trans e10
    rw [CNum.eval_subConst hw, CNum.eval_addAssign, h9.2, h8.1.2] at h10
    have e310 := (e37.trans e8).trans e910
    refine ⟨h8.2.1.mono e910, h8.2.2, h4.1.anti ((e1.trans e2).trans e3), h4.2.1.mono (((((e5.trans e6).trans e7).trans e8)).trans e910), heven, ?_⟩
    dsimp only
    rw [h8.1.2]
    generalize rhs C (x.eval w) = gv at *
    generalize y.eval w = yv at *
    have hu0 : J.u ≠ 0 := fun h => hu (h ▸ IsSquare.zero)
    by_cases h1 : gv - yv * yv = 0
    · have hsq : IsSquare gv := ⟨yv, sub_eq_zero.1 h1⟩
      rw [if_pos h1, if_pos hsq]
      refine ⟨rfl, fun _ => by rw [pow_two]; exact sub_eq_zero.1 h1, ?_⟩
      rintro rfl
      have h2 : 0 * J.u - yv * yv = 0 := by rw [zero_mul]; exact h1
      rw [if_pos h1, if_pos h2, add_sub_cancel_right] at h10
      exact one_ne_zero h10
    · have h2 : gv * J.u - yv * yv = 0 := by
        by_contra h2
        rw [if_neg h1, if_neg h2] at h10
        simp at h10
      have hg0 : gv ≠ 0 := by
        rintro rfl
        rw [zero_mul] at h2
        exact h1 h2
      have hnsq : ¬ IsSquare gv := by
        rintro ⟨t, rfl⟩
        have ht : t ≠ 0 := by rintro rfl; simp at hg0
        apply hu
        refine ⟨yv / t, ?_⟩
        field_simp
        linear_combination h2
      rw [if_neg h1, if_neg hnsq]
      exact ⟨rfl, fun h => absurd h hnsq, hg0⟩

theorem runs_checkAndGetY (hsq : IsSqrt sqrt) (ha : J.a = C.a) (hb : J.b = C.b) (hu : ¬ IsSquare J.u) (h8 : 8 ≤ r) (hs : s.Honest)
    {x : CNum (ZMod r)} {xv : ZMod r} (hx : Has s x xv) (hx0 : xv ≠ 0) :
    Runs s (checkAndGetY sqrt x J) (fun q s' => ∃ yv : ZMod r, yv.val % 2 = 0 ∧
      (IsSquare (rhs C xv) → rhs C xv = yv ^ 2) ∧ Has s' q.1.num (if IsSquare (rhs C xv) then 1 else 0) ∧ Has s' q.2 yv) := by
  unfold checkAndGetY
  refine Runs.bind (runs_square hs hx) fun x2 s1 e1 hs1 h1 => ?_
  refine Runs.bind (runs_mul hs1 h1 (has_addConst (hx.mono e1) J.a)) fun x3 s2 e2 hs2 h2 => ?_
  have hb0 : J.b ≠ 0 := by rw [hb]; exact C.b_ne_zero
  refine Runs.bind (runs_divConst hs2 (has_addAssign h2 (hx.mono (e1.trans e2))) hb0) fun g s3 e3 hs3 h3 => ?_
  have hg : Has s3 g (rhs C xv) := by
    have : rhs C xv = (xv * xv * (xv + J.a) + xv) / J.b := by
      unfold rhs; rw [ha, hb]; congr 1; ring
    rw [this]; exact h3
  have hg0 : rhs C xv ≠ 0 := rhs_ne_zero hx0
  have hu0 : J.u ≠ 0 := fun h => hu (h ▸ IsSquare.zero)
  -- the witness
  obtain ⟨yv, hroot, heven, hy⟩ : ∃ yv, rootValue sqrt J (rhs C xv) = .ok yv ∧ yv.val % 2 = 0 ∧
      ((IsSquare (rhs C xv) ∧ rhs C xv = yv ^ 2) ∨ (¬ IsSquare (rhs C xv) ∧ rhs C xv * J.u = yv ^ 2)) := by
    unfold rootValue
    by_cases hS : IsSquare (rhs C xv)
    · obtain ⟨y, hy⟩ := hsq.complete _ hS
      obtain ⟨hf, he⟩ := filterEven_spec C.r_ne_two y
      rw [hy]
      exact ⟨_, rfl, he, Or.inl ⟨hS, by rw [hf, sq, hsq.sound _ _ hy]⟩⟩
    · rw [(hsq.none_iff _).2 hS]
      obtain ⟨y, hy⟩ := hsq.complete _ (isSquare_mul_of_not hS hu)
      obtain ⟨hf, he⟩ := filterEven_spec C.r_ne_two y
      rw [hy]
      exact ⟨_, rfl, he, Or.inr ⟨hS, by rw [hf, sq, hsq.sound _ _ hy]⟩⟩
  have hv : mapValue (rootValue sqrt J) g.value = .ok (some yv) := by
    rw [hg.value]
    simp only [mapValue, hroot, Except.map]
  refine Runs.bind (Runs.lift (Q := fun v s' => v = some yv ∧ s' = s3) hs3 hv ⟨rfl, rfl⟩) ?_
  rintro _ s0 _ _ ⟨rfl, h0⟩
  subst s0
  refine Runs.bind (runs_alloc hs3 yv) fun y s4 e4 hs4 h4 => ?_
  refine Runs.bind (runs_strict hs4 h8 h4.1) fun bits s5 e5 hs5 h5 => ?_
  have h4' : 4 ≤ numBits r := Nat.lt_size.2 (by omega)
  obtain ⟨m, hm⟩ : ∃ m, numBits r = m + 1 := ⟨numBits r - 1, by omega⟩
  rw [hm] at h5
  unfold lowBits at h5
  rw [List.range_succ_eq_map, List.map_cons] at h5
  obtain ⟨b, bits, hb0', -, rfl⟩ := List.forall₂_cons_right_iff.1 h5
  dsimp only
  have hbz : Has s5 b.num (boolToF false) := by
    have : yv.val.testBit 0 = false := by rw [Nat.testBit_zero]; simp; omega
    rw [this] at hb0'
    simpa [boolToF] using hb0'
  refine Runs.bind (runs_assertConst hs5 hbz) fun _ s6 e6 hs6 _ => ?_
  have hy6 := h4.1.mono (e5.trans e6)
  refine Runs.bind (runs_mul hs6 hy6 hy6) fun sqr s7 e7 hs7 h7 => ?_
  have hg7 := hg.mono (((e4.trans e5).trans e6).trans e7)
  refine Runs.bind (runs_isZero hs7 (has_sub hg7 h7)) fun z s8 e8 hs8 hz => ?_
  refine Runs.bind (runs_isZero hs8 ((has_sub (has_mulConst hg7 J.u) h7).mono e8)) fun z' s9 e9 hs9 hz' => ?_
  have hone : Has s9 (CNum.subConst (CNum.addAssign z'.num z.num) 1) 0 := by
    have := has_subConst (has_addAssign hz' (hz.mono e9)) 1
    have hval : (if rhs C xv * J.u - yv * yv = 0 then (1 : ZMod r) else 0) + (if rhs C xv - yv * yv = 0 then 1 else 0) - 1 = 0 := by
      rcases hy with ⟨hS, hy⟩ | ⟨hS, hy⟩
      · have h1 : rhs C xv - yv * yv = 0 := by rw [hy]; ring
        have h2 : rhs C xv * J.u - yv * yv ≠ 0 := by
          intro h2
          have : rhs C xv * (J.u - 1) = 0 := by linear_combination h2 - h1
          rcases mul_eq_zero.1 this with h | h
          · exact hg0 h
          · apply hu; rw [sub_eq_zero.1 h]; exact IsSquare.one
        rw [if_neg h2, if_pos h1]; ring
      · have h2 : rhs C xv * J.u - yv * yv = 0 := by rw [hy]; ring
        have h1 : rhs C xv - yv * yv ≠ 0 := fun h1 => hS ⟨yv, sub_eq_zero.1 h1⟩
        rw [if_pos h2, if_neg h1]; ring
    rw [hval] at this; exact this
  refine Runs.bind (runs_assertZero hs9 hone) fun _ s10 e10 hs10 _ => ?_
  refine Runs.pure hs10 ⟨yv, heven, ?_, ?_, hy6.mono (((e7.trans e8).trans e9).trans e10)⟩
  · intro hS
    rcases hy with ⟨-, hy⟩ | ⟨hn, -⟩
    · exact hy
    · exact absurd hS hn
  · have := hz.mono (e9.trans e10)
    have hiff : (rhs C xv - yv * yv = 0) ↔ IsSquare (rhs C xv) := by
      constructor
      · intro h; exact ⟨yv, sub_eq_zero.1 h⟩
      · intro hS
        rcases hy with ⟨-, hy⟩ | ⟨hn, -⟩
        · rw [hy]; ring
        · exact absurd hS hn
    simpa only [hiff] using this

/-- The choice between the two candidates. -/
theorem isMapped_of (hu : ¬ IsSquare J.u) {t x2 x3 y2 y3 : ZMod r} (ht : t ≠ -1)
    (hx3 : x3 = -(1 + J.u * (t + 1) ^ 2) / C.a) (hx2 : x2 = x3 / (J.u * (t + 1) ^ 2))
    (he2 : y2.val % 2 = 0) (he3 : y3.val % 2 = 0) (hr2 : IsSquare (rhs C x2) → rhs C x2 = y2 ^ 2)
    (hr3 : IsSquare (rhs C x3) → rhs C x3 = y3 ^ 2) :
    ∃ Q : EdPoint C, IsMapped C J.u t Q ∧ Q.montX = (if IsSquare (rhs C x2) then x2 else x3) ∧
      Q.montY = (if IsSquare (rhs C x2) then y2 else y3) := by
  have ha0 := C.a_ne_zero
  have ht1 : t + 1 ≠ 0 := fun h => ht (by linear_combination h)
  have hu0 : J.u ≠ 0 := by intro h; apply hu; rw [h]; exact IsSquare.zero
  have hs0 : J.u * (t + 1) ^ 2 ≠ 0 := mul_ne_zero hu0 (pow_ne_zero 2 ht1)
  have hsn : ¬ IsSquare (J.u * (t + 1) ^ 2) := by
    rintro ⟨w, hw⟩
    apply hu
    refine ⟨w / (t + 1), ?_⟩
    field_simp; linear_combination hw
  have hX2 : x2 = -(1 + (J.u * (t + 1) ^ 2)⁻¹) / C.a := by
    rw [hx2, hx3]
    generalize J.u * (t + 1) ^ 2 = s at *
    field_simp
    ring
  have hX3 : x3 = J.u * (t + 1) ^ 2 * x2 := by rw [hx2]; field_simp
  have hex : (∃ R : EdPoint C, R ≠ 0 ∧ R.montX = x2) ↔ IsSquare (rhs C x2) := exists_montX_iff x2
  by_cases hS : IsSquare (rhs C x2)
  · obtain ⟨Q, h0, hQ⟩ := mont_surj ((onMont_iff x2 y2).2 (hr2 hS))
    have hQx : Q.montX = x2 := congrArg MontgomeryPoint.x hQ
    have hQy : Q.montY = y2 := congrArg MontgomeryPoint.y hQ
    refine ⟨Q, ⟨h0, by rw [hQy]; exact he2, Or.inl ⟨?_, by rw [hQx, hX2]⟩⟩, by rw [if_pos hS, hQx], by rw [if_pos hS, hQy]⟩
    rw [← hX2]; exact hex.2 hS
  · have hS3 : IsSquare (rhs C x3) := by
      have : rhs C x3 = (J.u * (t + 1) ^ 2) ^ 2 * ((J.u * (t + 1) ^ 2) * rhs C x2) := by
        have hkey : C.a * x2 * (J.u * (t + 1) ^ 2) = -((J.u * (t + 1) ^ 2) + 1) := by
          rw [hX2]; generalize J.u * (t + 1) ^ 2 = s at *; field_simp
        unfold rhs
        rw [hX3]
        generalize J.u * (t + 1) ^ 2 = s at *
        have : (s * x2) ^ 3 + C.a * (s * x2) ^ 2 + s * x2 = s ^ 3 * (x2 ^ 3 + C.a * x2 ^ 2 + x2) := by
          linear_combination (x2 * s - x2 * s ^ 2) * hkey
        rw [this]; ring
      rw [this]
      exact IsSquare.mul ⟨_, sq _⟩ (isSquare_mul_of_not hsn hS)
    obtain ⟨Q, h0, hQ⟩ := mont_surj ((onMont_iff x3 y3).2 (hr3 hS3))
    have hQx : Q.montX = x3 := congrArg MontgomeryPoint.x hQ
    have hQy : Q.montY = y3 := congrArg MontgomeryPoint.y hQ
    refine ⟨Q, ⟨h0, by rw [hQy]; exact he3, Or.inr ⟨?_, by rw [hQx, hX3, hX2]⟩⟩, by rw [if_neg hS, hQx], by rw [if_neg hS, hQy]⟩
    rw [← hX2]; exact fun h => hS (hex.1 h)

/-- `from_scalar` after the two candidates `x2` and `x3` for the abscissa have been computed. -/
def fromScalarTail (sqrt : ZMod r → Option (ZMod r)) (x2 x3 : CNum (ZMod r)) (J : JubJubParams (ZMod r)) :
    M (ZMod r) (CEdwardsPoint (ZMod r)) := do
  let (isValid, y2) ← checkAndGetY sqrt x2 J
  let (_, y3) ← checkAndGetY sqrt x3 J
  let x ← CNum.switch x2 isValid x3
  let y ← CNum.switch y2 isValid y3
  let m : CMontgomeryPoint (ZMod r) := ⟨x, y⟩
  let q ← m.intoEdwards
  q.mulByCofactor J

/-- Choosing between the two candidates by a signal gives a signal. -/
def SwitchVaries (x2 x3 : CNum (ZMod r)) : Prop :=
  ∀ (z : CBool (ZMod r)) (s : CS (ZMod r)), s.WF → x2.lc.Alloc s → x3.lc.Alloc s → z.num.lc.Alloc s → Varies z.num →
    Post s (CNum.switch x2 z x3) (fun x _ => Varies x)

theorem switchVaries_of {x2 x3 : CNum (ZMod r)} (h : Varies (CNum.sub x2 x3)) : SwitchVaries x2 x3 := by
  intro z s hs a2 a3 az zv
  have zn : z.asConst = .ok none := by unfold CBool.asConst; rw [zv.asConst]
  refine (post_switch_cases hs a2 a3 az (Plain.of_varies zv) h).mono fun x s' _ h5 => ?_
  rcases h5 with ⟨-, h⟩ | ⟨-, h⟩ | ⟨h, -⟩
  · rw [zn] at h; cases h
  · rw [zn] at h; cases h
  · exact h.varies

/-- The choice between the two candidates for all even square roots gives a point with the property `Φ`. -/
def Chooses (C : EdCurve (ZMod r)) (x2 x3 : ZMod r) (Φ : EdPoint C → Prop) : Prop :=
  ∀ y2 y3 : ZMod r, y2.val % 2 = 0 → y3.val % 2 = 0 → (IsSquare (rhs C x2) → rhs C x2 = y2 ^ 2) →
    (IsSquare (rhs C x3) → rhs C x3 = y3 ^ 2) →
    ∃ Q : EdPoint C, Φ Q ∧ Q ≠ 0 ∧ Q.montX = (if IsSquare (rhs C x2) then x2 else x3) ∧
      Q.montY = (if IsSquare (rhs C x2) then y2 else y3)

theorem spec_fromScalarTail (hw : IsAssignment w) (hd : J.d = C.d) (ha : J.a = C.a) (hb : J.b = C.b) (hu : ¬ IsSquare J.u) (h8 : 8 ≤ r)
    {s2 : CS (ZMod r)} (hs2 : s2.WF) {x2 x3 : CNum (ZMod r)} (a2 : x2.lc.Alloc s2) (a3 : x3.lc.Alloc s2) (hv : SwitchVaries x2 x3)
    {Φ : EdPoint C → Prop} (hΦ : Chooses C (x2.eval w) (x3.eval w) Φ) :
    Spec w s2 (fromScalarTail sqrt x2 x3 J) (fun q s' => ∃ Q : EdPoint C, Φ Q ∧
      (specMode w hw).Ed s' q (8 • Q) ∧ FreshVar s2 q.x ∧ FreshVar s2 q.y) := by
  unfold fromScalarTail
  refine Spec.bind (spec_checkAndGetY (sqrt := sqrt) hw ha hb hu h8 hs2 a2) ?_
  rintro ⟨z, y2⟩ s3 e3 ⟨za, zv, fy2, ay2, ev2, hz, hr2, -⟩
  have hs3 := e3.wf hs2
  dsimp only at za zv fy2 ay2 ev2 hz hr2 ⊢
  refine Spec.bind (spec_checkAndGetY (sqrt := sqrt) hw ha hb hu h8 hs3 (a3.mono e3)) ?_
  rintro ⟨z3, y3⟩ s4 e4 ⟨-, -, fy3, ay3, ev3, -, hr3, -⟩
  have hs4 := e4.wf hs3
  dsimp only at fy3 ay3 ev3 hr3 ⊢
  obtain ⟨Q, hQ, hQ0, hQx, hQy⟩ := hΦ _ _ ev2 ev3 hr2 hr3
  have zn : z.asConst = .ok none := by unfold CBool.asConst; rw [zv.asConst]
  have e34 := e3.trans e4
  have hz' : (specMode w hw).H s4 z.num (if IsSquare (rhs C (x2.eval w)) then 1 else 0) := ⟨za.mono e4, hz⟩
  have hc01 : (if IsSquare (rhs C (x2.eval w)) then (1 : ZMod r) else 0) = 0 ∨ (if IsSquare (rhs C (x2.eval w)) then (1 : ZMod r) else 0) = 1 := by
    split <;> simp
  have hx2H : (specMode w hw).H s4 x2 (x2.eval w) := ⟨a2.mono e34, rfl⟩
  have hx3H : (specMode w hw).H s4 x3 (x3.eval w) := ⟨a3.mono e34, rfl⟩
  have hy2H : (specMode w hw).H s4 y2 (y2.eval w) := ⟨ay2.mono e4, rfl⟩
  have hy3H : (specMode w hw).H s4 y3 (y3.eval w) := ⟨ay3, rfl⟩
  refine Spec.bind ((specMode w hw).post ((specMode w hw).switch hs4 hx2H hx3H hz' hc01)
    (hv z s4 hs4 hx2H.1 hx3H.1 hz'.1 zv) hs4) fun x s5 e5 h5 => ?_
  have hs5 := e5.wf hs4
  refine Spec.bind ((specMode w hw).post ((specMode w hw).switch hs5 ((specMode w hw).mono e5 hy2H) ((specMode w hw).mono e5 hy3H)
    ((specMode w hw).mono e5 hz') hc01)
    (switchVaries_of (fy3.newIn.sub_left ay2).varies z s5 hs5 (hy2H.1.mono e5) (hy3H.1.mono e5) (hz'.1.mono e5) zv) hs5)
    fun y s6 e6 h6 => ?_
  have hs6 := e6.wf hs5
  have hm : (specMode w hw).Mo s6 ⟨x, y⟩ Q := by
    refine ⟨hQ0, ?_, ?_⟩
    · have := (specMode w hw).mono e6 h5.1
      rw [hQx]
      by_cases hS : IsSquare (rhs C (x2.eval w))
      · simpa only [if_pos hS, one_mul, add_sub_cancel] using this
      · simpa only [if_neg hS, zero_mul, add_zero] using this
    · have := h6.1
      rw [hQy]
      by_cases hS : IsSquare (rhs C (x2.eval w))
      · simpa only [if_pos hS, one_mul, add_sub_cancel] using this
      · simpa only [if_neg hS, zero_mul, add_zero] using this
  refine Spec.bind ((specMode w hw).intoEdwards hs6 hm h5.2 h6.2 trivial hs6) fun q s7 e7 h7 => ?_
  have hs7 := e7.wf hs6
  have e07 := (((e34.trans e5).trans e6).trans e7)
  refine ((specMode w hw).edMulByCofactor hd hs7 h7.1 h7.2.1.varies h7.2.2.varies hs7).mono fun q8 s8 e8 h8 => ?_
  exact ⟨Q, hQ, h8.1, h8.2.1.anti e07, h8.2.2.anti e07⟩

theorem runs_fromScalarTail (hsq : IsSqrt sqrt) (hd : J.d = C.d) (ha : J.a = C.a) (hb : J.b = C.b) (hu : ¬ IsSquare J.u) (h8 : 8 ≤ r)
    {s2 : CS (ZMod r)} (hs2 : s2.Honest) {x2 x3 : CNum (ZMod r)} {x2v x3v : ZMod r} (h2 : Has s2 x2 x2v) (h3 : Has s2 x3 x3v)
    (n2 : x2v ≠ 0) (n3 : x3v ≠ 0) (hv : SwitchVaries x2 x3) {Φ : EdPoint C → Prop} (hΦ : Chooses C x2v x3v Φ) :
    Runs s2 (fromScalarTail sqrt x2 x3 J) (fun q s' => ∃ Q : EdPoint C, Φ Q ∧ (runsMode (ZMod r)).Ed s' q (8 • Q) ∧
      FreshVar s2 q.x ∧ FreshVar s2 q.y) := by
  unfold fromScalarTail
  refine Runs.bind (((runs_checkAndGetY hsq ha hb hu h8 hs2 h2 n2).and_spec
      (fun w hw => spec_checkAndGetY (sqrt := sqrt) hw ha hb hu h8 hs2.wf h2.alloc))) ?_
  rintro ⟨z, y2⟩ s3 e3 hs3 ⟨⟨y2v, ev2, hr2, hz, hy2⟩, -, zv, fy2, -⟩
  dsimp only at zv fy2 hz hy2 ⊢
  refine Runs.bind (((runs_checkAndGetY hsq ha hb hu h8 hs3 (h3.mono e3) n3).and_spec
      (fun w hw => spec_checkAndGetY (sqrt := sqrt) hw ha hb hu h8 hs3.wf (h3.alloc.mono e3)))) ?_
  rintro ⟨z3, y3⟩ s4 e4 hs4 ⟨⟨y3v, ev3, hr3, -, hy3⟩, -, -, fy3, -⟩
  dsimp only at fy3 hy3 ⊢
  obtain ⟨Q, hQ, hQ0, hQx, hQy⟩ := hΦ _ _ ev2 ev3 hr2 hr3
  have e34 := e3.trans e4
  have hz' : (runsMode (ZMod r)).H s4 z.num (if IsSquare (rhs C x2v) then 1 else 0) := hz.mono e4
  have hc01 : (if IsSquare (rhs C x2v) then (1 : ZMod r) else 0) = 0 ∨ (if IsSquare (rhs C x2v) then (1 : ZMod r) else 0) = 1 := by
    split <;> simp
  have hx2H : (runsMode (ZMod r)).H s4 x2 x2v := (runsMode (ZMod r)).mono e34 h2
  have hx3H : (runsMode (ZMod r)).H s4 x3 x3v := (runsMode (ZMod r)).mono e34 h3
  have hy2H : (runsMode (ZMod r)).H s4 y2 y2v := (runsMode (ZMod r)).mono e4 hy2
  have hy3H : (runsMode (ZMod r)).H s4 y3 y3v := hy3
  refine Runs.bind ((runsMode (ZMod r)).post ((runsMode (ZMod r)).switch hs4 hx2H hx3H hz' hc01)
    (hv z s4 hs4.wf hx2H.alloc hx3H.alloc hz'.alloc zv))
    fun x s5 e5 hs5 h5 => ?_
  refine Runs.bind ((runsMode (ZMod r)).post ((runsMode (ZMod r)).switch hs5 ((runsMode (ZMod r)).mono e5 hy2H)
    ((runsMode (ZMod r)).mono e5 hy3H) ((runsMode (ZMod r)).mono e5 hz') hc01)
    (switchVaries_of (fy3.newIn.sub_left hy2.alloc).varies z s5 hs5.wf (hy2H.alloc.mono e5) (hy3H.alloc.mono e5) (hz'.alloc.mono e5) zv))
    fun y s6 e6 hs6 h6 => ?_
  have hm : (runsMode (ZMod r)).Mo s6 ⟨x, y⟩ Q := by
    refine ⟨hQ0, ?_, ?_⟩
    · have := (runsMode (ZMod r)).mono e6 h5.1
      rw [hQx]
      by_cases hS : IsSquare (rhs C x2v)
      · simpa only [if_pos hS, one_mul, add_sub_cancel] using this
      · simpa only [if_neg hS, zero_mul, add_zero] using this
    · have := h6.1
      rw [hQy]
      by_cases hS : IsSquare (rhs C x2v)
      · simpa only [if_pos hS, one_mul, add_sub_cancel] using this
      · simpa only [if_neg hS, zero_mul, add_zero] using this
  refine Runs.bind ((runsMode (ZMod r)).intoEdwards hs6 hm h5.2 h6.2) fun q s7 e7 hs7 h7 => ?_
  have e07 := (((e34.trans e5).trans e6).trans e7)
  refine ((runsMode (ZMod r)).edMulByCofactor hd hs7 h7.1 h7.2.1.varies h7.2.2.varies).mono fun q8 s8 e8 _ h8 => ?_
  exact ⟨Q, hQ, h8.1, h8.2.1.anti e07, h8.2.2.anti e07⟩

theorem spec_fromScalar (hw : IsAssignment w) (hd : J.d = C.d) (ha : J.a = C.a) (hb : J.b = C.b) (hu : ¬ IsSquare J.u) (h8 : 8 ≤ r)
    (hs : s.WF) {t : CNum (ZMod r)} (hta : t.lc.Alloc s) (vt : Varies t) :
    Spec w s (fromScalar sqrt t J) (fun q s' => t.eval w ≠ -1 ∧ ∃ Q : EdPoint C, IsMapped C J.u (t.eval w) Q ∧
      (specMode w hw).Ed s' q (8 • Q) ∧ FreshVar s q.x ∧ FreshVar s q.y) := by
  unfold fromScalar
  dsimp only
  have hu0 : J.u ≠ 0 := fun h => hu (h ▸ IsSquare.zero)
  have ha0 : J.a ≠ 0 := by rw [ha]; exact C.a_ne_zero
  have ht : (specMode w hw).H s (CNum.addConst t 1) (t.eval w + 1) := (specMode w hw).addConst ⟨hta, rfl⟩ 1
  refine Spec.bind ((specMode w hw).mul' hs ht ht (vt.addConst 1) (vt.addConst 1) hs) fun t2 s1 e1 h1 => ?_
  have hs1 := e1.wf hs
  refine Spec.bind (Q := fun i s' => s' = s1 ∧ i = -1 / J.a) (Spec.lift fun i hi => ?_) ?_
  · rw [Num.div_ok ha0] at hi; injection hi with hi; exact ⟨rfl, hi.symm⟩
  rintro i s0 _ ⟨h0, rfl⟩
  subst s0
  have hi0 : (-1 : ZMod r) / J.a ≠ 0 := div_ne_zero (neg_ne_zero.2 one_ne_zero) ha0
  have hsg := (specMode w hw).mulConst J.u h1.1
  have hx3 := (specMode w hw).mulConst (-1 / J.a) ((specMode w hw).addConst hsg 1)
  have vsg : Varies (CNum.mulConst t2 J.u) := h1.2.varies.mulConst hu0
  have vx3 : Varies (CNum.mulConst (CNum.addConst (CNum.mulConst t2 J.u) 1) (-1 / J.a)) := (vsg.addConst 1).mulConst hi0
  set x3 := CNum.mulConst (CNum.addConst (CNum.mulConst t2 J.u) 1) (-1 / J.a) with hx3def
  refine Spec.bind (((spec_div hw vx3.asConst _).and_post (post_div_fresh hs1 hx3.1 hsg.1 vx3 vsg))) fun x2 s2 e2 h2 => ?_
  have hs2 := e2.wf hs1
  obtain ⟨h2, f2, a2⟩ := h2
  rw [hx3.2, hsg.2] at h2
  have htne : t.eval w ≠ -1 := by
    intro h
    rw [h] at h2
    simp only [neg_add_cancel, mul_zero, zero_mul, zero_add, one_mul] at h2
    exact hi0 h2.symm
  have hs0 : (t.eval w + 1) * (t.eval w + 1) * J.u ≠ 0 := by
    have ht1 : t.eval w + 1 ≠ 0 := fun h => htne (by linear_combination h)
    exact mul_ne_zero (mul_ne_zero ht1 ht1) hu0
  refine (spec_fromScalarTail (sqrt := sqrt) (Φ := IsMapped C J.u (t.eval w)) hw hd ha hb hu h8 hs2 a2 (hx3.1.mono e2)
    (switchVaries_of (f2.newIn.sub hx3.1).varies) ?_).mono fun q s' _ h => ?_
  · intro y2 y3 ev2 ev3 hr2 hr3
    obtain ⟨Q, hQ, hQx, hQy⟩ := isMapped_of (J := J) (C := C) (t := t.eval w) (x2 := x2.eval w) (x3 := x3.eval w) hu htne
      (by rw [hx3.2, ha]; ring) (by rw [hx3.2, eq_div_iff (by rw [show J.u * (t.eval w + 1) ^ 2 = (t.eval w + 1) * (t.eval w + 1) * J.u by ring]; exact hs0), ← h2]; ring) ev2 ev3 hr2 hr3
    exact ⟨Q, hQ, hQ.1, hQx, hQy⟩
  · obtain ⟨Q, hQ, h1', h2', h3'⟩ := h
    exact ⟨htne, Q, hQ, h1', h2'.anti (e1.trans e2), h3'.anti (e1.trans e2)⟩

theorem u_ne_neg (C : EdCurve (ZMod r)) {u x : ZMod r} (hu : ¬ IsSquare u) (hx : x ≠ 0) : x * x * u + 1 ≠ 0 := by
  intro h
  apply hu
  obtain ⟨i, hi⟩ := C.neg_one_square
  refine ⟨i / x, ?_⟩
  field_simp
  linear_combination h + hi

theorem runs_fromScalar (hsq : IsSqrt sqrt) (hd : J.d = C.d) (ha : J.a = C.a) (hb : J.b = C.b) (hu : ¬ IsSquare J.u) (h8 : 8 ≤ r)
    (hs : s.Honest) {t : CNum (ZMod r)} {tv : ZMod r} (hta : Has s t tv) (vt : Varies t) (htne : tv ≠ -1) :
    Runs s (fromScalar sqrt t J) (fun q s' => ∃ Q : EdPoint C, IsMapped C J.u tv Q ∧ (runsMode (ZMod r)).Ed s' q (8 • Q) ∧
      FreshVar s q.x ∧ FreshVar s q.y) := by
  unfold fromScalar
  dsimp only
  have hu0 : J.u ≠ 0 := fun h => hu (h ▸ IsSquare.zero)
  have ha0 : J.a ≠ 0 := by rw [ha]; exact C.a_ne_zero
  have ht : (runsMode (ZMod r)).H s (CNum.addConst t 1) (tv + 1) := has_addConst hta 1
  refine Runs.bind ((runsMode (ZMod r)).mul' hs ht ht (vt.addConst 1) (vt.addConst 1)) fun t2 s1 e1 hs1 h1 => ?_
  refine Runs.bind (Runs.lift (Q := fun i s' => i = -1 / J.a ∧ s' = s1) hs1 (Num.div_ok ha0) ⟨rfl, rfl⟩) ?_
  rintro _ s0 _ _ ⟨rfl, h0⟩
  subst s0
  have hi0 : (-1 : ZMod r) / J.a ≠ 0 := div_ne_zero (neg_ne_zero.2 one_ne_zero) ha0
  have hsg := (runsMode (ZMod r)).mulConst J.u h1.1
  have hx3 := (runsMode (ZMod r)).mulConst (-1 / J.a) ((runsMode (ZMod r)).addConst hsg 1)
  have vsg : Varies (CNum.mulConst t2 J.u) := h1.2.varies.mulConst hu0
  have vx3 : Varies (CNum.mulConst (CNum.addConst (CNum.mulConst t2 J.u) 1) (-1 / J.a)) := (vsg.addConst 1).mulConst hi0
  set x3 := CNum.mulConst (CNum.addConst (CNum.mulConst t2 J.u) 1) (-1 / J.a) with hx3def
  have ht1 : tv + 1 ≠ 0 := fun h => htne (by linear_combination h)
  have hs0 : (tv + 1) * (tv + 1) * J.u ≠ 0 := mul_ne_zero (mul_ne_zero ht1 ht1) hu0
  refine Runs.bind ((runsMode (ZMod r)).div' hs1 hx3 hsg vx3 vsg hs0) fun x2 s2 e2 hs2 h2 => ?_
  have hx3v : ((tv + 1) * (tv + 1) * J.u + 1) * (-1 / J.a) ≠ 0 := mul_ne_zero (u_ne_neg C hu ht1) hi0
  have hx20 := div_ne_zero hx3v hs0
  refine (runs_fromScalarTail (Φ := IsMapped C J.u tv) hsq hd ha hb hu h8 hs2 h2.1 (hx3.mono e2) hx20 hx3v
    (switchVaries_of (h2.2.newIn.sub hx3.alloc).varies) ?_).mono fun q s' _ _ h => ?_
  · intro y2 y3 ev2 ev3 hr2 hr3
    obtain ⟨Q, hQ, hQx, hQy⟩ := isMapped_of (J := J) (C := C) (t := tv) hu htne (by rw [ha]; ring) (by congr 1; ring) ev2 ev3 hr2 hr3
    exact ⟨Q, hQ, hQ.1, hQx, hQy⟩
  · obtain ⟨Q, hQ, h1', h2', h3'⟩ := h
    exact ⟨Q, hQ, h1', h2'.anti (e1.trans e2), h3'.anti (e1.trans e2)⟩

end hash

end CEdwardsPoint

end Fawkes
