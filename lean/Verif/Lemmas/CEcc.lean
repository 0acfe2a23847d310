import Verif.Model.CEcc
import Verif.Lemmas.Mode
import Verif.Lemmas.Ecc

/-!
# Curve gadgets: the operations compute the group law
-/

set_option linter.unusedSectionVars false

namespace Fawkes

variable {F : Type} [Field F] [DecidableEq F] {C : EdCurve F} {J : JubJubParams F}

theorem EdCurve.d_ne_zero (C : EdCurve F) : C.d ≠ 0 := fun h => C.d_nonsquare (h ▸ IsSquare.zero)

/-- The point signal has the coordinates of `Q`. -/
def Mode.Ed (md : Mode F) (s : CS F) (p : CEdwardsPoint F) (Q : EdPoint C) : Prop := md.H s p.x Q.x ∧ md.H s p.y Q.y

/-- The point signal has the Montgomery coordinates of `Q ≠ 0`. -/
def Mode.Mo (md : Mode F) (s : CS F) (p : CMontgomeryPoint F) (Q : EdPoint C) : Prop :=
  Q ≠ 0 ∧ md.H s p.x Q.montX ∧ md.H s p.y Q.montY

namespace Mode

variable (md : Mode F) {s s' : CS F}

theorem Ed.mono {md : Mode F} {p : CEdwardsPoint F} {Q : EdPoint C} (h : md.Ed s p Q) (e : s.Ext s') : md.Ed s' p Q :=
  ⟨md.mono e h.1, md.mono e h.2⟩

theorem Mo.mono {md : Mode F} {p : CMontgomeryPoint F} {Q : EdPoint C} (h : md.Mo s p Q) (e : s.Ext s') : md.Mo s' p Q :=
  ⟨h.1, md.mono e h.2.1, md.mono e h.2.2⟩

/-- Doubling a point with non-constant coordinates. -/
theorem edDouble (hd : J.d = C.d) (hs : md.St s) {p : CEdwardsPoint F} {Q : EdPoint C} (h : md.Ed s p Q)
    (vx : Varies p.x) (vy : Varies p.y) :
    md.T s (p.double J) (fun q s' => md.Ed s' q (2 • Q) ∧ FreshVar s q.x ∧ FreshVar s q.y) := by
  unfold CEdwardsPoint.double
  obtain ⟨hx, hy⟩ := h
  refine md.bind (md.mul' hs hx hy vx vy) fun v s1 e1 hs1 h1 => ?_
  obtain ⟨hv, fv⟩ := h1
  refine md.bind (md.mul' hs1 hv hv fv.varies fv.varies) fun v2 s2 e2 hs2 h2 => ?_
  obtain ⟨hv2, fv2⟩ := h2
  have hxy := md.mono (e1.trans e2) (md.add hx hy)
  refine md.bind (md.post (md.mul hs2 hxy hxy) (post_mul_cases (s0 := s) (md.wf hs2)
    (alloc_add (md.alloc hx) (md.alloc hy)) (alloc_add (md.alloc hx) (md.alloc hy)))) fun u s3 e3 hs3 h3 => ?_
  obtain ⟨hu, fu⟩ := h3
  have hden1 := md.addConst (md.mulConst J.d (md.mono e3 hv2)) 1
  have hd1 := EdPoint.denom_add_ne C Q.on Q.on
  have hd2 := EdPoint.denom_sub_ne C Q.on Q.on
  have hdz : J.d ≠ 0 := by rw [hd]; exact C.d_ne_zero
  have vden1 : Varies (CNum.addConst (CNum.mulConst v2 J.d) 1) := (fv2.varies.mulConst hdz).addConst 1
  have vden2 : Varies (CNum.constSub 1 (CNum.mulConst v2 J.d)) := (fv2.varies.mulConst hdz).constSub 1
  refine md.bind (md.div' hs3 (md.mulConst 2 (md.mono (e2.trans e3) hv)) hden1
    (fv.varies.mulConst C.two_ne_zero) vden1 (fun e => hd1 (by rw [hd] at e; linear_combination e)))
    fun x s4 e4 hs4 h4 => ?_
  obtain ⟨hqx, fx⟩ := h4
  have vnum : Varies (CNum.sub u (CNum.mulConst v 2)) := by
    rcases fu with fu | fu
    · exact (fu.newIn.sub (alloc_mulConst ((md.alloc hv).mono e2) _)).varies
    · exact ((fv.newIn.mulConst C.two_ne_zero).sub_left fu).varies
  refine md.bind (md.div' hs4 (md.sub (md.mono e4 hu) (md.mulConst 2 (md.mono ((e2.trans e3).trans e4) hv)))
    (md.constSub (md.mulConst J.d (md.mono (e3.trans e4) hv2)) 1) vnum vden2
    (fun e => hd2 (by rw [hd] at e; linear_combination e))) fun y s5 e5 hs5 h5 => ?_
  obtain ⟨hqy, fy⟩ := h5
  refine md.pure hs5 ⟨⟨?_, ?_⟩, fx.anti ((e1.trans e2).trans e3), fy.anti (((e1.trans e2).trans e3).trans e4)⟩
  · have : (2 • Q).x = Q.x * Q.y * 2 / (Q.x * Q.y * (Q.x * Q.y) * J.d + 1) := by
      rw [two_nsmul, EdPoint.add_x, hd]; congr 1 <;> ring
    rw [this]
    exact md.mono e5 hqx
  · have : (2 • Q).y = ((Q.x + Q.y) * (Q.x + Q.y) - Q.x * Q.y * 2) / (1 - Q.x * Q.y * (Q.x * Q.y) * J.d) := by
      rw [two_nsmul, EdPoint.add_y, hd]; congr 1 <;> ring
    rw [this]
    exact hqy

theorem edMulByCofactor (hd : J.d = C.d) (hs : md.St s) {p : CEdwardsPoint F} {Q : EdPoint C} (h : md.Ed s p Q)
    (vx : Varies p.x) (vy : Varies p.y) :
    md.T s (p.mulByCofactor J) (fun q s' => md.Ed s' q (8 • Q) ∧ FreshVar s q.x ∧ FreshVar s q.y) := by
  unfold CEdwardsPoint.mulByCofactor
  refine md.bind (md.edDouble hd hs h vx vy) fun p2 s1 e1 hs1 h1 => ?_
  refine md.bind (md.edDouble hd hs1 h1.1 h1.2.1.varies h1.2.2.varies) fun p4 s2 e2 hs2 h2 => ?_
  refine md.weaken (md.edDouble hd hs2 h2.1 h2.2.1.varies h2.2.2.varies) fun p8 s3 e3 hs3 h3 => ?_
  refine ⟨?_, h3.2.1.anti (e1.trans e2), h3.2.2.anti (e1.trans e2)⟩
  have := h3.1
  rwa [← mul_nsmul, ← mul_nsmul] at this

/-- Adding two points with non-constant coordinates. -/
theorem edAdd (hd : J.d = C.d) (hs : md.St s) {p q : CEdwardsPoint F} {P Q : EdPoint C} (hp : md.Ed s p P)
    (hq : md.Ed s q Q) (vpx : Varies p.x) (vpy : Varies p.y) (vqx : Varies q.x) (vqy : Varies q.y) :
    md.T s (p.add q J) (fun r s' => md.Ed s' r (P + Q) ∧ FreshVar s r.x ∧ FreshVar s r.y) := by
  unfold CEdwardsPoint.add
  obtain ⟨hpx, hpy⟩ := hp
  obtain ⟨hqx, hqy⟩ := hq
  refine md.bind (md.mul' hs hpx hqy vpx vqy) fun v1 s1 e1 hs1 h1 => ?_
  obtain ⟨hv1, fv1⟩ := h1
  refine md.bind (md.mul' hs1 (md.mono e1 hqx) (md.mono e1 hpy) vqx vpy) fun v2 s2 e2 hs2 h2 => ?_
  obtain ⟨hv2, fv2⟩ := h2
  refine md.bind (md.mul' hs2 (md.mono e2 hv1) hv2 fv1.varies fv2.varies) fun v12 s3 e3 hs3 h3 => ?_
  obtain ⟨hv12, fv12⟩ := h3
  have e13 := (e1.trans e2).trans e3
  refine md.bind (md.post (md.mul hs3 (md.mono e13 (md.add hpx hpy)) (md.mono e13 (md.add hqx hqy)))
    (post_mul_cases (s0 := s) (md.wf hs3) (alloc_add (md.alloc hpx) (md.alloc hpy))
      (alloc_add (md.alloc hqx) (md.alloc hqy)))) fun u s4 e4 hs4 h4 => ?_
  obtain ⟨hu, fu⟩ := h4
  have hd1 := EdPoint.denom_add_ne C P.on Q.on
  have hd2 := EdPoint.denom_sub_ne C P.on Q.on
  have hdz : J.d ≠ 0 := by rw [hd]; exact C.d_ne_zero
  have vden1 : Varies (CNum.addConst (CNum.mulConst v12 J.d) 1) := (fv12.varies.mulConst hdz).addConst 1
  have vden2 : Varies (CNum.constSub 1 (CNum.mulConst v12 J.d)) := (fv12.varies.mulConst hdz).constSub 1
  have e24 := (e2.trans e3).trans e4
  have e34 := e3.trans e4
  refine md.bind (md.div' hs4 (md.add (md.mono e24 hv1) (md.mono e34 hv2))
    (md.addConst (md.mulConst J.d (md.mono e4 hv12)) 1) (fv2.newIn.add_left (md.alloc hv1)).varies vden1
    (fun e => hd1 (by rw [hd] at e; linear_combination e))) fun x s5 e5 hs5 h5 => ?_
  obtain ⟨hrx, fx⟩ := h5
  have vnum : Varies (CNum.sub (CNum.sub u v1) v2) := by
    rcases fu with fu | fu
    · exact ((fu.newIn.sub ((md.alloc hv1).mono (e2.trans e3))).sub ((md.alloc hv2).mono e3)).varies
    · exact (fv2.newIn.sub_left (alloc_sub (fu.mono e1) (md.alloc hv1))).varies
  refine md.bind (md.div' hs5
    (md.sub (md.sub (md.mono e5 hu) (md.mono (e24.trans e5) hv1)) (md.mono (e34.trans e5) hv2))
    (md.constSub (md.mulConst J.d (md.mono (e4.trans e5) hv12)) 1) vnum vden2
    (fun e => hd2 (by rw [hd] at e; linear_combination e))) fun y s6 e6 hs6 h6 => ?_
  obtain ⟨hry, fy⟩ := h6
  refine md.pure hs6 ⟨⟨?_, ?_⟩, fx.anti (e13.trans e4), fy.anti ((e13.trans e4).trans e5)⟩
  · have : (P + Q).x = (P.x * Q.y + Q.x * P.y) / (P.x * Q.y * (Q.x * P.y) * J.d + 1) := by
      rw [EdPoint.add_x, hd]; congr 1 <;> ring
    rw [this]
    exact md.mono e6 hrx
  · have : (P + Q).y = ((P.x + P.y) * (Q.x + Q.y) - P.x * Q.y - Q.x * P.y) / (1 - P.x * Q.y * (Q.x * P.y) * J.d) := by
      rw [EdPoint.add_y, hd]; congr 1 <;> ring
    rw [this]
    exact hry

/-- Leaving Edwards form. -/
theorem intoMontgomery (hs : md.St s) {p : CEdwardsPoint F} {Q : EdPoint C} (h : md.Ed s p Q) (hQ : Q ≠ 0)
    (hT : Q ≠ EdPoint.torsion2) (vx : Varies p.x) (vy : Varies p.y) :
    md.T s p.intoMontgomery (fun m s' => md.Mo s' m Q ∧ FreshVar s m.x ∧ FreshVar s m.y) := by
  unfold CEdwardsPoint.intoMontgomery
  refine md.bind (md.div' hs (md.addConst h.2 1) (md.constSub h.2 1) (vy.addConst 1) (vy.constSub 1)
    (EdPoint.one_sub_y_ne hQ)) fun x s1 e1 hs1 h1 => ?_
  have hx0 : Q.x ≠ 0 := fun h0 => by
    rcases (EdPoint.x_eq_zero_iff Q).1 h0 with h | h
    · exact hQ h
    · exact hT h
  refine md.bind (md.div' hs1 h1.1 (md.mono e1 h.1) h1.2.varies vx hx0) fun y s2 e2 hs2 h2 => ?_
  have hmx : Q.montX = (Q.y + 1) / (1 - Q.y) := by rw [EdPoint.montX, add_comm]
  refine md.pure hs2 ⟨⟨hQ, ?_, ?_⟩, h1.2, h2.2.anti e1⟩
  · rw [hmx]; exact md.mono e2 h1.1
  · rw [EdPoint.montY, hmx]; exact h2.1

/-- Back to Edwards form. -/
theorem intoEdwards (hs : md.St s) {p : CMontgomeryPoint F} {Q : EdPoint C} (h : md.Mo s p Q)
    (vx : Varies p.x) (vy : Varies p.y) (hz : md.Z Q.montY := by trivial) :
    md.T s p.intoEdwards (fun r s' => md.Ed s' r Q ∧ FreshVar s r.x ∧ FreshVar s r.y) := by
  unfold CMontgomeryPoint.intoEdwards
  obtain ⟨hQ, hx, hy⟩ := h
  have hpz : Post s (CNum.isZero p.y) (fun z s' => z.num.lc.Alloc s' ∧ NewIn s z.num) := by
    refine (post_isZero (md.wf hs) (md.alloc hy)).and ?_
    unfold CNum.isZero
    rw [vy.asConst]
    refine Post.bind (post_alloc_fresh (md.wf hs) _) fun inv s1 e1 h1 => ?_
    refine Post.bind Post.true fun _ s2 e2 _ => ?_
    refine Post.bind (post_mul (e2.wf (e1.wf (md.wf hs))) inv p.y) fun res s3 e3 h3 => ?_
    refine Post.bind Post.true fun _ s4 e4 _ => ?_
    exact Post.pure (((h3.2 h1.1.asConst vy.asConst).anti (e1.trans e2)).newIn.sub_left (alloc_fromConst 1))
  refine md.bind (md.post (md.isZero hs hy hz) hpz) fun z s1 e1 hs1 h1 => ?_
  obtain ⟨hz, -, fz⟩ := h1
  have hden : (if Q.montY = 0 then (1 : F) else 0) + Q.montY ≠ 0 := by
    split
    · next h0 => rw [h0]; simp
    · next h0 => simpa using h0
  refine md.bind (md.div' hs1 (md.mono e1 hx) (md.addAssign hz (md.mono e1 hy)) vx
    (fz.addAssign (md.alloc hy)).varies hden) fun x s2 e2 hs2 h2 => ?_
  have hx1 := EdPoint.montX_add_one_ne hQ
  have e12 := e1.trans e2
  refine md.bind (md.div' hs2 (md.subConst (md.mono e12 hx) 1) (md.addConst (md.mono e12 hx) 1)
    (vx.subConst 1) (vx.addConst 1) hx1) fun y s3 e3 hs3 h3 => ?_
  refine md.pure hs3 ⟨⟨?_, ?_⟩, h2.2.anti e1, h3.2.anti e12⟩
  · have : Q.x = Q.montX / ((if Q.montY = 0 then (1 : F) else 0) + Q.montY) := by
      split
      · next h0 =>
        have hT := (EdPoint.montY_eq_zero_iff hQ).1 h0
        rw [(EdPoint.montX_eq_zero_iff hQ).2 hT, hT, EdPoint.torsion2_x, zero_div]
      · rw [zero_add]; exact EdPoint.x_of_mont hQ
    rw [this]
    exact md.mono e3 h2.1
  · rw [EdPoint.y_of_montX hQ]
    exact h3.1

/-- Montgomery doubling. -/
theorem moDouble (ha : J.a = C.a) (hb : J.b = C.b) (hs : md.St s) {p : CMontgomeryPoint F} {Q : EdPoint C}
    (h : md.Mo s p Q) (hT : Q ≠ EdPoint.torsion2) (vx : Varies p.x) (vy : Varies p.y) :
    md.T s (p.double J) (fun r s' => md.Mo s' r (2 • Q) ∧ NewIn s r.x ∧ NewIn s r.y) := by
  unfold CMontgomeryPoint.double
  obtain ⟨hQ, hx, hy⟩ := h
  have hb0 : J.b ≠ 0 := by rw [hb]; exact C.b_ne_zero
  have ha0 : J.a ≠ 0 := by rw [ha]; exact C.a_ne_zero
  refine md.bind (md.mul' hs hx hx vx vx) fun x2 s1 e1 hs1 h1 => ?_
  obtain ⟨hx2, fx2⟩ := h1
  have hx' := md.mono e1 hx
  have hy' := md.mono e1 hy
  have hnum := md.addConst (md.add (md.mulConst 3 hx2) (md.mulConst (2 * J.a) hx')) 1
  have vnum : Varies (CNum.addConst (CNum.add (CNum.mulConst x2 3) (CNum.mulConst p.x (2 * J.a))) 1) := by
    refine Varies.addConst ?_ 1
    by_cases h3 : (3 : F) = 0
    · obtain ⟨w, w', hw, hw', hv⟩ := varies_iff.1 vx
      refine varies_iff.2 ⟨w, w', hw, hw', fun e => hv ?_⟩
      rw [CNum.eval_add, CNum.eval_add, CNum.eval_mulConst hw, CNum.eval_mulConst hw', CNum.eval_mulConst hw,
        CNum.eval_mulConst hw', h3, mul_zero, mul_zero, zero_add, zero_add] at e
      exact mul_right_cancel₀ (mul_ne_zero C.two_ne_zero ha0) e
    · exact ((fx2.newIn.mulConst h3).add (alloc_mulConst (md.alloc hx) _)).varies
  have hden : Q.montY * (2 * J.b) ≠ 0 :=
    mul_ne_zero (fun h0 => hT ((EdPoint.montY_eq_zero_iff hQ).1 h0)) (mul_ne_zero C.two_ne_zero hb0)
  refine md.bind (md.div' hs1 hnum (md.mulConst (2 * J.b) hy') vnum
    (vy.mulConst (mul_ne_zero C.two_ne_zero hb0)) hden) fun l s2 e2 hs2 h2 => ?_
  obtain ⟨hl, fl⟩ := h2
  refine md.bind (md.mul' hs2 hl hl fl.varies fl.varies) fun l2 s3 e3 hs3 h3 => ?_
  obtain ⟨hl2, fl2⟩ := h3
  have e23 := e2.trans e3
  have hbl2 := md.mulConst J.b hl2
  have e13 := e1.trans e23
  have nbl : NewIn s2 (CNum.mulConst l2 J.b) := fl2.newIn.mulConst hb0
  have alp : p.x.lc.Alloc s2 := ((md.alloc hx).mono e1).mono e2
  refine md.bind (md.mul' hs3 (md.mono e3 hl)
    (md.sub (md.addConst (md.mulConst 3 (md.mono e13 hx)) J.a) hbl2) fl.varies
    (nbl.sub_left (alloc_addConst (alloc_mulConst alp _) _)).varies) fun t s4 e4 hs4 h4 => ?_
  obtain ⟨ht, ft⟩ := h4
  have e14 := e13.trans e4
  have hrx := md.sub (md.subConst (md.mono e4 hbl2) J.a) (md.mulConst 2 (md.mono e14 hx))
  have hry := md.sub ht (md.mono e14 hy)
  set lam := (Q.montX * Q.montX * 3 + Q.montX * (2 * J.a) + 1) / (Q.montY * (2 * J.b)) with hlam
  have hD := EdPoint.mont_double hQ hT lam (by
    have hQ0 : Q.montY ≠ 0 := fun h0 => hT ((EdPoint.montY_eq_zero_iff hQ).1 h0)
    rw [hlam, ← ha, ← hb, mul_div_assoc', div_eq_iff hden]; ring)
  refine md.pure hs4 ⟨⟨?_, ?_, ?_⟩, ?_, ?_⟩
  · rw [two_nsmul]; exact hD.1
  · have : (2 • Q).montX = lam * lam * J.b - J.a - Q.montX * 2 := by
      rw [two_nsmul, hD.2.1, ha, hb]; ring
    rw [this]; exact hrx
  · have : (2 • Q).montY = lam * (Q.montX * 3 + J.a - lam * lam * J.b) - Q.montY := by
      rw [two_nsmul, hD.2.2, hD.2.1, ha, hb]; ring
    rw [this]; exact hry
  · exact ((nbl.subConst _).sub (alloc_mulConst alp _)).anti (e1.trans e2)
  · exact (ft.newIn.anti e13).sub (md.alloc hy)

/-- Montgomery addition of points with different abscissas. -/
theorem moAdd (ha : J.a = C.a) (hb : J.b = C.b) (hs : md.St s) {p q : CMontgomeryPoint F} {P Q : EdPoint C}
    (hp : md.Mo s p P) (hq : md.Mo s q Q) (hne : P.montX ≠ Q.montX) (vx : Varies (CNum.sub q.x p.x))
    (vy : Varies (CNum.sub q.y p.y)) :
    md.T s (p.add q J) (fun r s' => md.Mo s' r (P + Q) ∧ NewIn s r.x ∧
      ∃ t : CNum F, FreshVar s t ∧ r.y = CNum.sub t p.y) := by
  unfold CMontgomeryPoint.add
  obtain ⟨hP, hpx, hpy⟩ := hp
  obtain ⟨hQ, hqx, hqy⟩ := hq
  have hb0 : J.b ≠ 0 := by rw [hb]; exact C.b_ne_zero
  have hden : Q.montX - P.montX ≠ 0 := sub_ne_zero.2 hne.symm
  refine md.bind (md.div' hs (md.sub hqy hpy) (md.sub hqx hpx) vy vx hden) fun l s1 e1 hs1 h1 => ?_
  obtain ⟨hl, fl⟩ := h1
  refine md.bind (md.mul' hs1 hl hl fl.varies fl.varies) fun l2 s2 e2 hs2 h2 => ?_
  obtain ⟨hl2, fl2⟩ := h2
  have hbl2 := md.mulConst J.b hl2
  have e12 := e1.trans e2
  have nbl : NewIn s1 (CNum.mulConst l2 J.b) := fl2.newIn.mulConst hb0
  have alp : p.x.lc.Alloc s1 := (md.alloc hpx).mono e1
  have alq : q.x.lc.Alloc s1 := (md.alloc hqx).mono e1
  refine md.bind (md.mul' hs2 (md.mono e2 hl)
    (md.sub (md.addConst (md.addAssign (md.mulConst 2 (md.mono e12 hpx)) (md.mono e12 hqx)) J.a) hbl2) fl.varies
    (nbl.sub_left (alloc_addConst (alloc_addAssign (alloc_mulConst alp _) alq) _)).varies) fun t s3 e3 hs3 h3 => ?_
  obtain ⟨ht, ft⟩ := h3
  have e13 := e12.trans e3
  have hrx := md.sub (md.sub (md.subConst (md.mono e3 hbl2) J.a) (md.mono e13 hpx)) (md.mono e13 hqx)
  have hry := md.sub ht (md.mono e13 hpy)
  set lam := (Q.montY - P.montY) / (Q.montX - P.montX) with hlam
  have hD := EdPoint.mont_add hP hQ hne lam (by rw [hlam]; field_simp)
  refine md.pure hs3 ⟨⟨hD.1, ?_, ?_⟩, ?_, t, ft.anti e12, rfl⟩
  · have : (P + Q).montX = lam * lam * J.b - J.a - P.montX - Q.montX := by
      rw [hD.2.1, ha, hb]; ring
    rw [this]; exact hrx
  · have : (P + Q).montY = lam * (P.montX * 2 + Q.montX + J.a - lam * lam * J.b) - P.montY := by
      rw [hD.2.2, hD.2.1, ha, hb]; ring
    rw [this]; exact hry
  · exact (((nbl.subConst _).sub alp).sub alq).anti e1

end Mode

/-! ## Scalar multiplication, variable base -/

section torsion

variable {l : Nat} {B X Y : EdPoint C}

/-- The point of order two is not in a subgroup of odd order. -/
theorem torsion2_add_ne (hl : l % 2 = 1) (hX : l • X = 0) (hY : l • Y = 0) : EdPoint.torsion2 + X ≠ Y := by
  intro h
  apply EdPoint.torsion2_ne_zero (C := C)
  rw [← EdPoint.odd_nsmul_torsion2 hl, ← hY, ← h, nsmul_add, hX, add_zero]

theorem nsmul_killed (hB : l • B = 0) (k : Nat) : l • (k • B) = 0 := by
  rw [← mul_nsmul, mul_comm, mul_nsmul, hB, nsmul_zero]

theorem neg_killed (hB : l • B = 0) : l • (-B) = 0 := by rw [smul_neg, hB, neg_zero]

theorem add_killed (hX : l • X = 0) (hY : l • Y = 0) : l • (X + Y) = 0 := by rw [nsmul_add, hX, hY, add_zero]

theorem ne_torsion2_of_killed (hl : l % 2 = 1) (hX : l • X = 0) : X ≠ EdPoint.torsion2 := by
  intro h
  exact torsion2_add_ne (X := 0) hl (nsmul_zero l) hX (by rw [add_zero, h])

theorem torsion2_add_montX_ne (hl : l % 2 = 1) (hX : l • X = 0) (hY : l • Y = 0) (hY0 : Y ≠ 0) :
    (EdPoint.torsion2 + X).montX ≠ Y.montX := by
  have h0 : EdPoint.torsion2 + X ≠ 0 := torsion2_add_ne hl hX (nsmul_zero l)
  intro h
  rcases (EdPoint.montX_eq_iff h0 hY0).1 h with h | h
  · exact torsion2_add_ne hl hX hY h
  · exact torsion2_add_ne hl hX (neg_killed hY) h

end torsion

theorem CNum.asConst_fromConst (c : F) : (CNum.fromConst c : CNum F).asConst = some c := by
  simp [CNum.fromConst, CNum.asConst]

theorem CBool.asConst_true {b : CBool F} (h : b.asConst = .ok (some true)) : b.num.asConst ≠ some 0 := by
  intro h0
  unfold CBool.asConst at h
  rw [h0] at h
  simp [intoBool, Except.map] at h

theorem CBool.asConst_false {b : CBool F} (h : b.asConst = .ok (some false)) : b.num.asConst = some 0 := by
  unfold CBool.asConst at h
  cases hc : b.num.asConst with
  | none => rw [hc] at h; cases h
  | some c =>
    rw [hc] at h
    by_cases h0 : c = 0
    · rw [h0]
    · by_cases h1 : c = 1
      · simp [intoBool, Except.map, h1] at h
      · simp [intoBool, Except.map, h0, h1] at h

namespace Mode

variable (md : Mode F) {s s0 : CS F}

/-- Bit signals with their values. -/
def Bits (md : Mode F) (s : CS F) (bits : List (CBool F)) (bs : List Bool) : Prop :=
  List.Forall₂ (fun x b => md.H s x.num (if b = true then 1 else 0)) bits bs

theorem Bits.mono {md : Mode F} {s s' : CS F} {bits : List (CBool F)} {bs : List Bool} (h : md.Bits s bits bs)
    (e : s.Ext s') : md.Bits s' bits bs := List.Forall₂.imp (fun _ _ h => md.mono e h) h

theorem moTorsion2 (md : Mode F) {s : CS F} : md.Mo s ⟨CNum.zero, CNum.zero⟩ (EdPoint.torsion2 : EdPoint C) := by
  have h0 := EdPoint.torsion2_ne_zero (C := C)
  refine ⟨h0, ?_, ?_⟩
  · rw [(EdPoint.montX_eq_zero_iff h0).2 rfl]; exact md.zero
  · rw [(EdPoint.montY_eq_zero_iff h0).2 rfl]; exact md.zero

/-- The list of doublings: entry `j` is `2^(i+j) • B`. -/
def Exps (md : Mode F) (s : CS F) (B : EdPoint C) : Nat → List (CMontgomeryPoint F) → Prop
  | _, [] => True
  | i, e :: es => (md.Mo s e (2 ^ i • B) ∧ Varies e.x ∧ Varies e.y) ∧ Exps md s B (i + 1) es

theorem Exps.mono {md : Mode F} {s s' : CS F} {B : EdPoint C} (e : s.Ext s') : ∀ {es : List (CMontgomeryPoint F)} {i : Nat},
    md.Exps s B i es → md.Exps s' B i es
  | [], _, _ => trivial
  | _ :: _, _, h => ⟨⟨h.1.1.mono e, h.1.2⟩, Exps.mono e h.2⟩

theorem doublings (ha : J.a = C.a) (hb : J.b = C.b) {l : Nat} (hl : l % 2 = 1) {B : EdPoint C} (hB : l • B = 0) (n : Nat) :
    ∀ {s : CS F} {p : CMontgomeryPoint F} (i : Nat), md.St s → md.Mo s p (2 ^ i • B) → Varies p.x → Varies p.y →
    md.T s (CEdwardsPoint.doublings J n p) (fun es s' => md.Exps s' B (i + 1) es ∧ es.length = n) := by
  induction n with
  | zero => intro s p i hs hp vx vy; exact md.pure hs ⟨trivial, rfl⟩
  | succ n ih =>
    intro s p i hs hp vx vy
    unfold CEdwardsPoint.doublings
    refine md.bind (md.moDouble ha hb hs hp (ne_torsion2_of_killed hl (nsmul_killed hB _)) vx vy) fun q s1 e1 hs1 h1 => ?_
    have hq : md.Mo s1 q (2 ^ (i + 1) • B) := by
      have := h1.1
      rwa [← mul_nsmul, ← pow_succ] at this
    refine md.bind (ih (i + 1) hs1 hq h1.2.1.varies h1.2.2.varies) fun es s2 e2 hs2 h2 => ?_
    exact md.pure hs2 ⟨⟨⟨hq.mono e2, h1.2.1.varies, h1.2.2.varies⟩, h2.1⟩, by rw [List.length_cons, h2.2]⟩

/-- Choosing between two points. -/
theorem moSwitch (hs : md.St s) {p q : CMontgomeryPoint F} {P Q : EdPoint C} (hp : md.Mo s p P) (hq : md.Mo s q Q)
    {b : CBool F} {c : Bool} (hb : md.H s b.num (if c = true then 1 else 0)) (hbv : Plain b.num)
    (vx : Varies (CNum.sub p.x q.x)) (vy : Varies (CNum.sub p.y q.y)) :
    md.T s (p.switch b q) (fun r s' => md.Mo s' r (if c = true then P else Q) ∧
      ((r = p ∧ b.asConst = .ok (some true)) ∨ (r = q ∧ b.asConst = .ok (some false)) ∨
        (NewIn s r.x ∧ NewIn s r.y ∧ b.num.asConst = none))) := by
  unfold CMontgomeryPoint.switch
  have hc : (if c = true then (1 : F) else 0) = 0 ∨ (if c = true then (1 : F) else 0) = 1 := by cases c <;> simp
  refine md.bind (md.post (md.switch hs hp.2.1 hq.2.1 hb hc)
    (post_switch_cases (md.wf hs) (md.alloc hp.2.1) (md.alloc hq.2.1) (md.alloc hb) hbv vx)) fun x s1 e1 hs1 h1 => ?_
  refine md.bind (md.post (md.switch hs1 (md.mono e1 hp.2.2) (md.mono e1 hq.2.2) (md.mono e1 hb) hc)
    (post_switch_cases (md.wf hs1) ((md.alloc hp.2.2).mono e1) ((md.alloc hq.2.2).mono e1) ((md.alloc hb).mono e1) hbv vy))
    fun y s2 e2 hs2 h2 => ?_
  refine md.pure hs2 ⟨⟨?_, ?_, ?_⟩, ?_⟩
  · split
    · exact hp.1
    · exact hq.1
  · have := md.mono e2 h1.1
    cases c <;> simpa using this
  · have := h2.1
    cases c <;> simpa using this
  · rcases h1.2 with ⟨rfl, hx⟩ | ⟨rfl, hx⟩ | ⟨hx, hxn⟩
    · rcases h2.2 with ⟨rfl, hy⟩ | ⟨-, hy⟩ | ⟨-, hy⟩
      · exact Or.inl ⟨rfl, hx⟩
      · rw [hx] at hy; cases hy
      · exfalso; unfold CBool.asConst at hx; rw [hy] at hx; cases hx
    · rcases h2.2 with ⟨-, hy⟩ | ⟨rfl, hy⟩ | ⟨-, hy⟩
      · rw [hx] at hy; cases hy
      · exact Or.inr (Or.inl ⟨rfl, hx⟩)
      · exfalso; unfold CBool.asConst at hx; rw [hy] at hx; cases hx
    · have hn : b.asConst = .ok none := by unfold CBool.asConst; rw [hxn]
      rcases h2.2 with ⟨-, hy⟩ | ⟨-, hy⟩ | ⟨hy, -⟩
      · rw [hn] at hy; cases hy
      · rw [hn] at hy; cases hy
      · exact Or.inr (Or.inr ⟨hx, hy.anti e1, hxn⟩)

theorem addLoop (ha : J.a = C.a) (hb : J.b = C.b) {l : Nat} (hl : l % 2 = 1) {B : EdPoint C} (hB : l • B = 0) :
    ∀ {bits : List (CBool F)} {bs : List Bool} {exps : List (CMontgomeryPoint F)} {acc : CMontgomeryPoint F} {s : CS F}
      (i k : Nat), s0.Ext s → md.St s → md.Exps s0 B i exps → bits.length ≤ exps.length → md.Bits s bits bs →
      (∀ b ∈ bits, Plain b.num) → md.Mo s acc (EdPoint.torsion2 + k • B) →
      (acc = ⟨CNum.zero, CNum.zero⟩ ∨ (NewIn s0 acc.x ∧ NewIn s0 acc.y)) →
      md.T s (CEdwardsPoint.addLoop J bits exps acc) (fun r s' =>
        md.Mo s' r (EdPoint.torsion2 + (k + 2 ^ i * bitsNat bs) • B) ∧
        ((r = acc ∧ ∀ b ∈ bits, b.num.asConst = some 0) ∨ (NewIn s0 r.x ∧ NewIn s0 r.y))) := by
  intro bits
  induction bits with
  | nil =>
    intro bs exps acc s i k e hs he hlen hbs hpl hacc hinv
    cases hbs
    unfold CEdwardsPoint.addLoop
    exact md.pure hs ⟨by simpa [bitsNat] using hacc, Or.inl ⟨rfl, by simp⟩⟩
  | cons b bits ih =>
    intro bs exps acc s i k e hs he hlen hbs hpl hacc hinv
    cases exps with
    | nil => simp at hlen
    | cons x exps =>
      cases hbs with
      | @cons _ c _ bs hbc hbs =>
      obtain ⟨⟨hx, vx, vy⟩, hexps⟩ := he
      unfold CEdwardsPoint.addLoop
      have hkB := nsmul_killed hB k
      have hxB := nsmul_killed hB (2 ^ i)
      have hvx : Varies (CNum.sub x.x acc.x) := by
        rcases hinv with rfl | h
        · exact vx.sub_const (c := 0) rfl
        · exact (h.1.sub_left (md.alloc hx.2.1)).varies
      have hvy : Varies (CNum.sub x.y acc.y) := by
        rcases hinv with rfl | h
        · exact vy.sub_const (c := 0) rfl
        · exact (h.2.sub_left (md.alloc hx.2.2)).varies
      refine md.bind (md.moAdd ha hb hs hacc (hx.mono e) (torsion2_add_montX_ne hl hkB hxB hx.1) hvx hvy)
        fun inc s1 e1 hs1 h1 => ?_
      obtain ⟨hinc, nx, t, ft, hy⟩ := h1
      have ny : NewIn s inc.y := by rw [hy]; exact ft.newIn.sub (md.alloc hacc.2.2)
      refine md.bind (md.moSwitch hs1 hinc (hacc.mono e1) (md.mono e1 hbc) (hpl b (by simp))
        (nx.sub (md.alloc hacc.2.1)).varies (ny.sub (md.alloc hacc.2.2)).varies) fun acc' s2 e2 hs2 h2 => ?_
      have e12 := e1.trans e2
      obtain ⟨hacc', hcase⟩ := h2
      have hacc'' : md.Mo s2 acc' (EdPoint.torsion2 + (k + 2 ^ i * c.toNat) • B) := by
        have h : (if c = true then EdPoint.torsion2 + k • B + 2 ^ i • B else EdPoint.torsion2 + k • B) =
            EdPoint.torsion2 + (k + 2 ^ i * c.toNat) • B := by
          cases c
          · simp
          · simp [add_nsmul, add_assoc]
        rwa [h] at hacc'
      have hinv' : acc' = ⟨CNum.zero, CNum.zero⟩ ∨ (NewIn s0 acc'.x ∧ NewIn s0 acc'.y) := by
        rcases hcase with ⟨rfl, -⟩ | ⟨rfl, -⟩ | ⟨h, h', -⟩
        · exact Or.inr ⟨nx.anti e, ny.anti e⟩
        · exact hinv
        · exact Or.inr ⟨h.anti (e.trans e1), h'.anti (e.trans e1)⟩
      refine md.weaken (ih (i + 1) (k + 2 ^ i * c.toNat) (e.trans e12) hs2 hexps (by simpa using hlen)
        (Bits.mono hbs e12) (fun b hb => hpl b (by simp [hb])) hacc'' hinv') fun r s3 e3 hs3 h3 => ?_
      refine ⟨?_, ?_⟩
      · have : k + 2 ^ i * c.toNat + 2 ^ (i + 1) * bitsNat bs = k + 2 ^ i * bitsNat (c :: bs) := by
          simp only [bitsNat]; ring
        rw [← this]; exact h3.1
      · rcases h3.2 with ⟨hr, hz⟩ | h
        · subst hr
          rcases hcase with ⟨rfl, -⟩ | ⟨rfl, hbf⟩ | ⟨h, h', -⟩
          · exact Or.inr ⟨nx.anti e, ny.anti e⟩
          · refine Or.inl ⟨rfl, fun b' hb' => ?_⟩
            rcases List.mem_cons.1 hb' with rfl | hb'
            · exact CBool.asConst_false hbf
            · exact hz b' hb'
          · exact Or.inr ⟨h.anti (e.trans e1), h'.anti (e.trans e1)⟩
        · exact Or.inr h

/-- Leaving the Montgomery form and negating adds the point of order two. -/
theorem finish (hs : md.St s) {p : CMontgomeryPoint F} {Q : EdPoint C} (h : md.Mo s p (EdPoint.torsion2 + Q))
    (vx : Varies p.x) (vy : Varies p.y) (hz : md.Z (EdPoint.torsion2 + Q).montY := by trivial) :
    md.T s (CEdwardsPoint.finish p) (fun r s' => md.Ed s' r Q ∧ NewIn s r.x ∧ NewIn s r.y) := by
  unfold CEdwardsPoint.finish
  refine md.bind (md.intoEdwards hs h vx vy hz) fun r s1 e1 hs1 h1 => ?_
  have hQ : Q = (EdPoint.torsion2 + Q) + EdPoint.torsion2 := by
    have := EdPoint.two_nsmul_torsion2 (C := C)
    rw [two_nsmul] at this
    rw [add_comm EdPoint.torsion2 Q, add_assoc, this, add_zero]
  have hx : Q.x = -(EdPoint.torsion2 + Q).x := by
    conv_lhs => rw [hQ, EdPoint.add_torsion2]
  have hy : Q.y = -(EdPoint.torsion2 + Q).y := by
    conv_lhs => rw [hQ, EdPoint.add_torsion2]
  refine md.pure hs1 ⟨⟨?_, ?_⟩, h1.2.1.newIn.neg, h1.2.2.newIn.neg⟩
  · rw [hx]; exact md.neg h1.1.1
  · rw [hy]; exact md.neg h1.1.2

/-- Scalar multiplication of a non-constant subgroup point. -/
theorem mulVarBase (ha : J.a = C.a) (hb : J.b = C.b) {l : Nat} (hl : l % 2 = 1) {G Q : EdPoint C} (hG : l • G = 0) (hG0 : G ≠ 0)
    (hJG : J.g = G.affine) (hQ : l • Q = 0) (hs : md.St s) {p : CEdwardsPoint F} (hp : md.Ed s p Q) (vx : Varies p.x)
    (vy : Varies p.y) {bits : List (CBool F)} {bs : List Bool} (hbs : md.Bits s bits bs) (hpl : ∀ b ∈ bits, Plain b.num)
    (hnz : ∃ b ∈ bits, b.num.asConst ≠ some 0) (hz0 : md.Z Q.x := by trivial)
    (hz1 : md.Z (EdPoint.torsion2 + bitsNat bs • Q).montY := by trivial) :
    md.T s (CEdwardsPoint.mulVarBase p bits J) (fun r s' => md.Ed s' r (bitsNat bs • Q) ∧ NewIn s r.x ∧ NewIn s r.y) := by
  unfold CEdwardsPoint.mulVarBase
  refine md.bind (md.post (md.isZero hs hp.1 hz0) (post_isZero_fresh (md.wf hs) (md.alloc hp.1) vx)) fun z s1 e1 hs1 h1 => ?_
  obtain ⟨hz, -, vz⟩ := h1
  have hp1 := hp.mono e1
  obtain ⟨c, hcdef⟩ : ∃ c : Bool, c = true ↔ Q = 0 := by
    classical
    exact ⟨decide (Q = 0), decide_eq_true_iff⟩
  have hz' : md.H s1 z.num (if c = true then 1 else 0) := by
    have : (Q.x = 0) ↔ (c = true) := by
      rw [hcdef, EdPoint.x_eq_zero_iff]
      exact ⟨fun h => h.resolve_right (ne_torsion2_of_killed hl hQ), Or.inl⟩
    simpa only [this] using hz
  obtain ⟨B, hBdef⟩ : ∃ B : EdPoint C, B = if c = true then G else Q := ⟨_, rfl⟩
  have hB : l • B = 0 := by rw [hBdef]; split <;> assumption
  have hB0 : B ≠ 0 := by
    rw [hBdef]; split
    · exact hG0
    · next h => simpa [hcdef] using h
  have hc01 : (if c = true then (1 : F) else 0) = 0 ∨ (if c = true then (1 : F) else 0) = 1 := by cases c <;> simp
  have hzn : z.asConst = .ok none := by unfold CBool.asConst; rw [vz.asConst]
  have hbase : md.T s1 ((CEdwardsPoint.fromConst J.g).switch z p) (fun b s' => md.Ed s' b B ∧ Varies b.x ∧ Varies b.y) := by
    unfold CEdwardsPoint.switch
    have hgx : md.H s1 (CEdwardsPoint.fromConst J.g).x G.x := by rw [hJG]; exact md.fromConst _
    have hgy : md.H s1 (CEdwardsPoint.fromConst J.g).y G.y := by rw [hJG]; exact md.fromConst _
    refine md.bind (md.post (md.switch hs1 hgx hp1.1 hz' hc01) (post_switch_cases (md.wf hs1) (md.alloc hgx) (md.alloc hp1.1)
      (md.alloc hz') (Plain.of_varies vz) (vx.constSub _))) fun x s2 e2 hs2 h2 => ?_
    refine md.bind (md.post (md.switch hs2 (md.mono e2 hgy) (md.mono e2 hp1.2) (md.mono e2 hz') hc01)
      (post_switch_cases (md.wf hs2) ((md.alloc hgy).mono e2) ((md.alloc hp1.2).mono e2)
      ((md.alloc hz').mono e2) (Plain.of_varies vz) (vy.constSub _))) fun y s3 e3 hs3 h3 => ?_
    refine md.pure hs3 ⟨⟨?_, ?_⟩, ?_, ?_⟩
    · have := md.mono e3 h2.1
      rw [hBdef]
      cases c <;> simpa using this
    · have := h3.1
      rw [hBdef]
      cases c <;> simpa using this
    · rcases h2.2 with ⟨-, h⟩ | ⟨-, h⟩ | ⟨h, -⟩
      · rw [hzn] at h; cases h
      · rw [hzn] at h; cases h
      · exact h.varies
    · rcases h3.2 with ⟨-, h⟩ | ⟨-, h⟩ | ⟨h, -⟩
      · rw [hzn] at h; cases h
      · rw [hzn] at h; cases h
      · exact h.varies
  refine md.bind hbase fun base s2 e2 hs2 h2 => ?_
  refine md.bind (md.intoMontgomery hs2 h2.1 hB0 (ne_torsion2_of_killed hl hB) h2.2.1 h2.2.2) fun m s3 e3 hs3 h3 => ?_
  have hm : md.Mo s3 m (2 ^ 0 • B) := by rw [pow_zero, one_nsmul]; exact h3.1
  refine md.bind (md.doublings ha hb hl hB _ 0 hs3 hm h3.2.1.varies h3.2.2.varies) fun exps s4 e4 hs4 h4 => ?_
  have e34 := e3.trans e4
  have e14 := e2.trans e34
  have e04 := e1.trans e14
  refine md.bind (md.addLoop (s0 := s4) ha hb hl hB (exps := m :: exps) 0 0 (CS.Ext.refl s4) hs4
    ⟨⟨hm.mono e4, h3.2.1.varies, h3.2.2.varies⟩, h4.1⟩ (by rw [List.length_cons, h4.2]; omega) (Bits.mono hbs e04) hpl
    (by rw [zero_nsmul, add_zero]; exact md.moTorsion2) (Or.inl rfl)) fun acc s5 e5 hs5 h5 => ?_
  have hacc : NewIn s4 acc.x ∧ NewIn s4 acc.y := by
    rcases h5.2 with ⟨-, h⟩ | h
    · obtain ⟨b, hb, hb0⟩ := hnz
      exact absurd (h b hb) hb0
    · exact h
  refine md.bind (md.moSwitch hs5 md.moTorsion2 h5.1 (md.mono (e14.trans e5) hz') (Plain.of_varies vz)
    (hacc.1.varies.constSub 0) (hacc.2.varies.constSub 0)) fun acc' s6 e6 hs6 h6 => ?_
  have hn6 : NewIn s5 acc'.x ∧ NewIn s5 acc'.y := by
    rcases h6.2 with ⟨-, h⟩ | ⟨-, h⟩ | ⟨h, h', -⟩
    · rw [hzn] at h; cases h
    · rw [hzn] at h; cases h
    · exact ⟨h, h'⟩
  have hacc' : md.Mo s6 acc' (EdPoint.torsion2 + bitsNat bs • Q) := by
    have : (if c = true then EdPoint.torsion2 else EdPoint.torsion2 + (0 + 2 ^ 0 * bitsNat bs) • B) =
        EdPoint.torsion2 + bitsNat bs • Q := by
      by_cases h : c = true
      · have hq : Q = 0 := by simpa [hcdef] using h
        rw [if_pos h, hq, nsmul_zero, add_zero]
      · rw [if_neg h, hBdef, if_neg h, pow_zero, one_mul, zero_add]
    rw [← this]; exact h6.1
  refine md.weaken (md.finish hs6 hacc' hn6.1.varies hn6.2.varies hz1) fun r s7 e7 hs7 h7 => ?_
  have e06 := (e04.trans e5).trans e6
  exact ⟨h7.1, h7.2.1.anti e06, h7.2.2.anti e06⟩

end Mode

/-! ## Scalar multiplication, constant base: the native precomputation -/

section native

variable {l : Nat} {B X : EdPoint C}

theorem nsmul_ne_zero_of_lt (hl : l.Prime) (hB : l • B = 0) (hB0 : B ≠ 0) {n : Nat} (h0 : 0 < n) (hn : n < l) : n • B ≠ 0 := by
  intro h
  have h1 : addOrderOf B = l := by
    haveI : Fact l.Prime := ⟨hl⟩
    exact addOrderOf_eq_prime hB hB0
  have h2 := addOrderOf_dvd_of_nsmul_eq_zero h
  rw [h1] at h2
  exact absurd (Nat.le_of_dvd h0 h2) (by omega)

theorem eight_nsmul_ne_zero (hl : l.Prime) (hl8 : 7 < l) (hB : l • B = 0) (hB0 : B ≠ 0) : 8 • B ≠ 0 := by
  intro h
  have h1 : addOrderOf B = l := by
    haveI : Fact l.Prime := ⟨hl⟩
    exact addOrderOf_eq_prime hB hB0
  have h2 := addOrderOf_dvd_of_nsmul_eq_zero h
  rw [h1, show (8 : Nat) = 2 ^ 3 by norm_num] at h2
  have := Nat.le_of_dvd (by norm_num) (hl.dvd_of_dvd_pow h2)
  omega

theorem Represents.intoMontgomery {P : EdwardsPointEx F} {Q : EdPoint C} (h : Represents P Q) (hQ : Q ≠ 0) :
    P.intoMontgomery = .ok (some Q.mont) := by
  unfold EdwardsPointEx.intoMontgomery
  rw [h.intoAffine]
  exact intoMontgomery_ok hQ

theorem genTableLoop_ok (hd : J.d = C.d) {P : EdwardsPointEx F} (hP : Represents P B) (n : Nat) : ∀ {q : EdwardsPointEx F} {k : Nat},
    Represents q (k • B) → (∀ j, j < n → (k + j) • B ≠ 0) →
    CEdwardsPoint.genTableLoop P J n q = .ok ((List.range n).map fun j => ((k + j) • B).montX, (List.range n).map fun j => ((k + j) • B).montY) := by
  induction n with
  | zero => intro q k hq hne; rfl
  | succ n ih =>
    intro q k hq hne
    unfold CEdwardsPoint.genTableLoop
    rw [hq.intoMontgomery (by simpa using hne 0 (by omega))]
    simp only [bind, Except.bind]
    have hq' : Represents (q.add P J) ((k + 1) • B) := by
      rw [add_nsmul, one_nsmul]; exact hq.add hd hP
    rw [ih hq' fun j hj => by rw [add_assoc, add_comm 1 j]; exact hne (j + 1) (by omega)]
    simp only [pure, Except.pure, EdPoint.mont_x, EdPoint.mont_y, List.range_succ_eq_map, List.map_cons, List.map_map, add_zero]
    congr 2
    · congr 1
      refine List.map_congr_left fun j _ => ?_
      simp only [Function.comp, Nat.succ_eq_add_one]
      rw [add_assoc, add_comm 1 j]
    · congr 1
      refine List.map_congr_left fun j _ => ?_
      simp only [Function.comp, Nat.succ_eq_add_one]
      rw [add_assoc, add_comm 1 j]

/-- The table for a window: the first eight multiples of the base. -/
theorem genTable_ok (hd : J.d = C.d) {P : EdwardsPointEx F} (hP : Represents P B) (hne : ∀ j, j < 8 → (1 + j) • B ≠ 0) :
    CEdwardsPoint.genTable P J = .ok [(List.range 8).map fun j => ((1 + j) • B).montX, (List.range 8).map fun j => ((1 + j) • B).montY] := by
  unfold CEdwardsPoint.genTable
  rw [genTableLoop_ok hd hP 8 (k := 1) (by rw [one_nsmul]; exact hP) hne]
  rfl

/-- `1 + 8 + 8² + …`, `n` terms. -/
def ones : Nat → Nat
  | 0 => 0
  | n + 1 => 1 + 8 * ones n

theorem triple_represents {P : EdwardsPointEx F} (hP : Represents P B) : Represents P.double.double.double (8 • B) := by
  have := hP.double.double.double
  rwa [← mul_nsmul, ← mul_nsmul] at this

theorem startLoop_ok (hd : J.d = C.d) (n : Nat) : ∀ {A P : EdwardsPointEx F} {X B : EdPoint C}, Represents A X → Represents P B →
    Represents (CEdwardsPoint.startLoop J n A P) (X + ones n • B) := by
  induction n with
  | zero => intro A P X B hA hP; simpa [CEdwardsPoint.startLoop, ones] using hA
  | succ n ih =>
    intro A P X B hA hP
    unfold CEdwardsPoint.startLoop
    have := ih (hA.add hd hP (J := J)) (triple_represents hP)
    rw [ones, add_nsmul, one_nsmul, ← add_assoc, mul_nsmul]
    exact this

theorem startPoint_ok (hd : J.d = C.d) (hl : l % 2 = 1) (hB : l • B = 0) {P : EdwardsPointEx F} (hP : Represents P B) (n : Nat) :
    CEdwardsPoint.startPoint n P J = .ok (EdPoint.torsion2 + -(ones n • B)).mont := by
  unfold CEdwardsPoint.startPoint
  have h0 : Represents (EdwardsPoint.intoExtended ⟨0, -1⟩) (EdPoint.torsion2 : EdPoint C) := Represents.of_affine EdPoint.torsion2
  have h1 := (startLoop_ok (J := J) hd n h0 hP).negate
  have h2 : -(EdPoint.torsion2 + ones n • B) = EdPoint.torsion2 + -(ones n • B) := by
    rw [neg_add, EdPoint.neg_torsion2]
  rw [h2] at h1
  dsimp only
  rw [h1.intoMontgomery (torsion2_add_ne hl (neg_killed (nsmul_killed hB _)) (nsmul_zero l))]
  rfl

theorem montX_table_ne (hl : l.Prime) (hl8 : 7 < l) (hB : l • B = 0) (hB0 : B ≠ 0) : (1 • B).montX ≠ (2 • B).montX := by
  intro h
  have h1 := nsmul_ne_zero_of_lt hl hB hB0 (n := 1) (by omega) (by omega)
  have h2 := nsmul_ne_zero_of_lt hl hB hB0 (n := 2) (by omega) (by omega)
  have h3 := nsmul_ne_zero_of_lt hl hB hB0 (n := 3) (by omega) (by omega)
  rcases (EdPoint.montX_eq_iff h1 h2).1 h with h | h
  · rw [two_nsmul, one_nsmul] at h
    exact hB0 (left_eq_add.1 h)
  · apply h3
    rw [show (3 : Nat) = 1 + 2 by norm_num, add_nsmul, h, neg_add_cancel]

theorem montX_multiples_ne (hl : l.Prime) (hl8 : 7 < l) (hB : l • B = 0) (hB0 : B ≠ 0) {i j : Nat} (hi : 0 < i) (hij : i < j) (hj : j ≤ 4) :
    (i • B).montX ≠ (j • B).montX := by
  intro h
  have hi0 := nsmul_ne_zero_of_lt hl hB hB0 (n := i) (by omega) (by omega)
  have hj0 := nsmul_ne_zero_of_lt hl hB hB0 (n := j) (by omega) (by omega)
  rcases (EdPoint.montX_eq_iff hi0 hj0).1 h with h | h
  · apply nsmul_ne_zero_of_lt hl hB hB0 (n := j - i) (by omega) (by omega)
    have : j • B = i • B + (j - i) • B := by rw [← add_nsmul]; congr 1; omega
    rw [this] at h
    exact left_eq_add.1 h
  · apply nsmul_ne_zero_of_lt hl hB hB0 (n := i + j) (by omega) (by omega)
    rw [add_nsmul, h, neg_add_cancel]

/-- Four different multiples cannot share their second Montgomery coordinate. -/
theorem montY_table_ne (hl : l.Prime) (hl8 : 7 < l) (hB : l • B = 0) (hB0 : B ≠ 0) :
    ∃ i j, i < 4 ∧ j < 4 ∧ ((1 + i) • B).montY ≠ ((1 + j) • B).montY := by
  by_contra hno
  push Not at hno
  have hv : ∀ i, i < 4 → ((1 + i) • B).montY = (1 • B).montY := fun i hi => hno i 0 hi (by omega)
  have hon : ∀ i, 0 < i → i ≤ 4 → OnMont C.a C.b (i • B).montX (1 • B).montY := fun i h0 h4 => by
    have := EdPoint.mont_on (nsmul_ne_zero_of_lt hl hB hB0 (n := i) h0 (by omega))
    rwa [show i = 1 + (i - 1) by omega, hv (i - 1) (by omega), ← show i = 1 + (i - 1) by omega] at this
  have o1 := hon 1 (by omega) (by omega)
  have o2 := hon 2 (by omega) (by omega)
  have o3 := hon 3 (by omega) (by omega)
  have o4 := hon 4 (by omega) (by omega)
  have n12 := montX_multiples_ne hl hl8 hB hB0 (i := 1) (j := 2) (by omega) (by omega) (by omega)
  have n13 := montX_multiples_ne hl hl8 hB hB0 (i := 1) (j := 3) (by omega) (by omega) (by omega)
  have n14 := montX_multiples_ne hl hl8 hB hB0 (i := 1) (j := 4) (by omega) (by omega) (by omega)
  have n23 := montX_multiples_ne hl hl8 hB hB0 (i := 2) (j := 3) (by omega) (by omega) (by omega)
  have n24 := montX_multiples_ne hl hl8 hB hB0 (i := 2) (j := 4) (by omega) (by omega) (by omega)
  have n34 := montX_multiples_ne hl hl8 hB hB0 (i := 3) (j := 4) (by omega) (by omega) (by omega)
  unfold OnMont at o1 o2 o3 o4
  generalize (1 • B).montX = u1 at *
  generalize (2 • B).montX = u2 at *
  generalize (3 • B).montX = u3 at *
  generalize (4 • B).montX = u4 at *
  have q12 : u1 ^ 2 + u1 * u2 + u2 ^ 2 + C.a * (u1 + u2) + 1 = 0 :=
    mul_left_cancel₀ (sub_ne_zero.2 n12) (by linear_combination o2 - o1)
  have q13 : u1 ^ 2 + u1 * u3 + u3 ^ 2 + C.a * (u1 + u3) + 1 = 0 :=
    mul_left_cancel₀ (sub_ne_zero.2 n13) (by linear_combination o3 - o1)
  have q14 : u1 ^ 2 + u1 * u4 + u4 ^ 2 + C.a * (u1 + u4) + 1 = 0 :=
    mul_left_cancel₀ (sub_ne_zero.2 n14) (by linear_combination o4 - o1)
  have r23 : u1 + u2 + u3 + C.a = 0 :=
    mul_left_cancel₀ (sub_ne_zero.2 n23) (by linear_combination q12 - q13)
  have r24 : u1 + u2 + u4 + C.a = 0 :=
    mul_left_cancel₀ (sub_ne_zero.2 n24) (by linear_combination q12 - q14)
  exact n34 (by linear_combination r23 - r24)

end native

/-! ### Lookups that are not constant -/

section lookup

variable {s : CS F}

theorem not_varies {a : CNum F} (h : ¬ Varies a) : ∃ m, ∀ w, IsAssignment w → a.eval w = m :=
  ⟨a.eval (bump (.input 0)), fun w hw => by
    by_contra hne
    exact h (varies_iff.2 ⟨w, _, hw, bump_isAssignment _, hne⟩)⟩

theorem Independent.three {a b c : CNum F} (h : Independent [a, b, c]) {k0 k1 k2 m : F}
    (hc : ∀ w, IsAssignment w → k0 * a.eval w + k1 * b.eval w + k2 * c.eval w = m) : k0 = 0 ∧ k1 = 0 ∧ k2 = 0 := by
  have := h [k0, k1, k2] rfl fun w w' hw hw' => by
    have h1 := hc w hw
    have h2 := hc w' hw'
    unfold CNum.eval at h1 h2
    simp only [combine, List.zipWith_cons_cons, List.zipWith_nil_right, List.sum_cons, List.sum_nil]
    linear_combination h1 - h2
  exact ⟨this k0 (by simp), this k1 (by simp), this k2 (by simp)⟩

theorem Independent.two {a b : CNum F} (h : Independent [a, b]) {k0 k1 m : F}
    (hc : ∀ w, IsAssignment w → k0 * a.eval w + k1 * b.eval w = m) : k0 = 0 ∧ k1 = 0 := by
  have := h [k0, k1] rfl fun w w' hw hw' => by
    have h1 := hc w hw
    have h2 := hc w' hw'
    unfold CNum.eval at h1 h2
    simp only [combine, List.zipWith_cons_cons, List.zipWith_nil_right, List.sum_cons, List.sum_nil]
    linear_combination h1 - h2
  exact ⟨this k0 (by simp), this k1 (by simp)⟩

theorem Independent.take_two {a b c : CNum F} (h : Independent [a, b, c]) : Independent [a, b] := by
  intro ks hk hc k hm
  match ks, hk with
  | [k0, k1], _ =>
    have := h [k0, k1, 0] rfl fun w w' hw hw' => by
      have := hc w w' hw hw'
      simp only [combine, List.zipWith_cons_cons, List.zipWith_nil_right, List.sum_cons, List.sum_nil] at this ⊢
      linear_combination this
    exact this k (by simp only [List.mem_cons] at hm ⊢; tauto)

theorem Independent.varies {a b : CNum F} (h : Independent [a, b]) : Varies a ∧ Varies b := by
  constructor
  · by_contra hn
    obtain ⟨m, hm⟩ := not_varies hn
    exact one_ne_zero (h.two (k0 := 1) (k1 := 0) (m := m) fun w hw => by rw [hm w hw]; ring).1
  · by_contra hn
    obtain ⟨m, hm⟩ := not_varies hn
    exact one_ne_zero (h.two (k0 := 0) (k1 := 1) (m := m) fun w hw => by rw [hm w hw]; ring).2

theorem Independent.varies3 {a b c : CNum F} (h : Independent [a, b, c]) : Varies c := by
  by_contra hn
  obtain ⟨m, hm⟩ := not_varies hn
  exact one_ne_zero (h.three (k0 := 0) (k1 := 0) (k2 := 1) (m := m) fun w hw => by rw [hm w hw]; ring).2.2

/-- Selector bits for which a lookup is constant only if the first `m` entries of the table agree. -/
def Selects (m : Nat) (s0 s1 s2 : CBool F) : Prop :=
  (m = 8 ∧ Independent [s0.num, s1.num, s2.num]) ∨ (m = 4 ∧ Independent [s0.num, s1.num] ∧ s2.num.asConst = some 0)

theorem Selects.two {m : Nat} {s0 s1 s2 : CBool F} (h : Selects m s0 s1 s2) : Independent [s0.num, s1.num] := by
  rcases h with ⟨-, h⟩ | ⟨-, h, -⟩
  · exact h.take_two
  · exact h

theorem post_column_varies {s' : CS F} (hs' : s'.WF) {m : Nat} {s0 s1 s2 : CBool F} {s10 : CNum F} (hsel : Selects m s0 s1 s2)
    (h0 : s0.num.lc.Alloc s) (h1 : s1.num.lc.Alloc s) (h2 : s2.num.lc.Alloc s) (e : s.Ext s') (f10 : FreshVar s s10)
    (h10 : s10.lc.Alloc s') {c0 c1 c2 c3 c4 c5 c6 c7 : F}
    (hne : ∃ i j, i < m ∧ j < m ∧ [c0, c1, c2, c3, c4, c5, c6, c7][i]? ≠ [c0, c1, c2, c3, c4, c5, c6, c7][j]?) :
    Post s' (Mux.column s0 s1 s2 s10 c0 c1 c2 c3 c4 c5 c6 c7) (fun r _ => Varies r) := by
  obtain ⟨k, hk, hkn, hk1, hk0⟩ := f10.key
  have k0 := hk0 _ h0
  have k1 := hk0 _ h1
  have k2 := hk0 _ h2
  have kA : coef k (CNum.addConst (CNum.add (CNum.add (CNum.mulConst s10 (c7 - c6 - c5 + c4 - c3 + c2 + c1 - c0))
      (CNum.mulConst s1.num (c6 - c4 - c2 + c0))) (CNum.mulConst s0.num (c5 - c4 - c1 + c0))) (c4 - c0)) =
      c7 - c6 - c5 + c4 - c3 + c2 + c1 - c0 := by
    simp only [coef_addConst, coef_add, coef_mulConst, k0, k1, hk1]; ring
  have first : c3 - c2 - c1 + c0 = 0 → c2 - c0 = 0 → c1 - c0 = 0 → m = 4 → False := by
    rintro e3 e2 e1 rfl
    have h1' : c1 = c0 := sub_eq_zero.1 e1
    have h2' : c2 = c0 := sub_eq_zero.1 e2
    have h3' : c3 = c0 := by linear_combination e3 + e2 + e1
    obtain ⟨i, j, hi, hj, hij⟩ := hne
    apply hij
    have : ∀ i, i < 4 → [c0, c1, c2, c3, c4, c5, c6, c7][i]? = some c0 := by
      intro i hi
      interval_cases i <;> simp [h1', h2', h3']
    rw [this i hi, this j hj]
  unfold Mux.column CNum.mul
  dsimp only
  have hnv : ∀ t : CNum F, coef k t = 0 →
      ¬ Varies (CNum.addConst (CNum.add (CNum.add (CNum.add t (CNum.mulConst s10 (c3 - c2 - c1 + c0)))
        (CNum.mulConst s1.num (c2 - c0))) (CNum.mulConst s0.num (c1 - c0))) c0) →
      c3 - c2 - c1 + c0 = 0 ∧ ∃ m, ∀ w, IsAssignment w → t.eval w + s1.num.eval w * (c2 - c0) + s0.num.eval w * (c1 - c0) = m := by
    intro t ht hn
    have h3 : c3 - c2 - c1 + c0 = 0 := by
      by_contra h3
      apply hn
      apply Varies.of_coef (k := k)
      simp only [coef_addConst, coef_add, coef_mulConst, k0, k1, hk1, ht]
      simpa using h3
    obtain ⟨m, hm⟩ := not_varies hn
    refine ⟨h3, m - c0, fun w hw => ?_⟩
    have := hm w hw
    simp only [CNum.eval_addConst hw, CNum.eval_add, CNum.eval_mulConst hw, h3] at this
    linear_combination this
  split
  · next a ha =>
    refine Post.pure ?_
    by_contra hn
    obtain ⟨h3, mm, hm⟩ := hnv _ (by rw [coef_mulConst, k2, zero_mul]) hn
    rw [coef_of_const ha] at kA
    rcases hsel with ⟨rfl, hind⟩ | ⟨rfl, hind, h20⟩
    · obtain ⟨e1, e2, e3⟩ := hind.three (k0 := c1 - c0) (k1 := c2 - c0) (k2 := a) (m := mm) fun w hw => by
        have := hm w hw
        rw [CNum.eval_mulConst hw] at this
        linear_combination this
      obtain ⟨f1, f2, -⟩ := hind.three (k0 := c5 - c4 - c1 + c0) (k1 := c6 - c4 - c2 + c0) (k2 := 0) (m := a - (c4 - c0)) fun w hw => by
        have := CNum.eval_of_asConst hw ha
        simp only [CNum.eval_addConst hw, CNum.eval_add, CNum.eval_mulConst hw, ← kA] at this
        linear_combination this
      have hA := CNum.eval_of_asConst (bump_isAssignment (k : Index)) ha
      simp only [CNum.eval_addConst (bump_isAssignment _), CNum.eval_add, CNum.eval_mulConst (bump_isAssignment _), ← kA, f1, f2, e3] at hA
      have g1 : c1 = c0 := sub_eq_zero.1 e1
      have g2 : c2 = c0 := sub_eq_zero.1 e2
      have g3 : c3 = c0 := by linear_combination h3 + e2 + e1
      have g4 : c4 = c0 := by linear_combination hA
      have g5 : c5 = c0 := by linear_combination f1 + g4 + e1
      have g6 : c6 = c0 := by linear_combination f2 + g4 + e2
      have g7 : c7 = c0 := by linear_combination -kA + g6 + g5 - g4 + g3 - g2 - g1
      obtain ⟨i, j, hi, hj, hij⟩ := hne
      apply hij
      have : ∀ i, i < 8 → [c0, c1, c2, c3, c4, c5, c6, c7][i]? = some c0 := by
        intro i hi
        interval_cases i <;> simp [g1, g2, g3, g4, g5, g6, g7]
      rw [this i hi, this j hj]
    · obtain ⟨e1, e2⟩ := hind.two (k0 := c1 - c0) (k1 := c2 - c0) (m := mm) fun w hw => by
        have := hm w hw
        rw [CNum.eval_mulConst hw, CNum.eval_of_asConst hw h20] at this
        linear_combination this
      exact first h3 e2 e1 rfl
  · next b hb _ =>
    refine Post.pure ?_
    by_contra hn
    rcases hsel with ⟨rfl, hind⟩ | ⟨rfl, hind, h20⟩
    · rw [hind.varies3.asConst] at hb; cases hb
    · rw [h20] at hb; injection hb with hb; subst hb
      obtain ⟨h3, mm, hm⟩ := hnv _ (by rw [coef_mulConst, mul_zero]) hn
      obtain ⟨e1, e2⟩ := hind.two (k0 := c1 - c0) (k1 := c2 - c0) (m := mm) fun w hw => by
        have := hm w hw
        rw [CNum.eval_mulConst hw] at this
        linear_combination this
      exact first h3 e2 e1 rfl
  · refine Post.bind (Q := fun t _ => FreshVar s' t) ?_ fun t s2 e2 ht => ?_
    · refine Post.bind (post_alloc_fresh hs' _) fun c s1 _ h1 => ?_
      exact Post.bind Post.true fun _ s2 _ _ => Post.pure h1.1
    · refine Post.pure ?_
      exact ((((ht.newIn.add (alloc_mulConst h10 _)).add (alloc_mulConst (h1.mono e) _)).add
        (alloc_mulConst (h0.mono e) _)).addConst _).varies

theorem post_columns_varies {m : Nat} {s0 s1 s2 : CBool F} {s10 : CNum F} (hsel : Selects m s0 s1 s2)
    (h0 : s0.num.lc.Alloc s) (h1 : s1.num.lc.Alloc s) (h2 : s2.num.lc.Alloc s) (f10 : FreshVar s s10) (c : List (List F)) :
    ∀ {s' : CS F}, s'.WF → s.Ext s' → s10.lc.Alloc s' → (∀ col ∈ c, ∃ i j, i < m ∧ j < m ∧ col[i]? ≠ col[j]?) →
    Post s' (Mux.columns s0 s1 s2 s10 c) (fun r _ => ∀ x ∈ r, Varies x) := by
  induction c with
  | nil => intro s' hs' e h10 hne; exact Post.pure (by simp)
  | cons col c ih =>
    intro s' hs' e h10 hne
    unfold Mux.columns
    split
    · exact Post.pure (by simp)
    · next heq =>
      injection heq with ha hb
      subst ha hb
      refine Post.bind (post_column_varies hs' hsel h0 h1 h2 e f10 h10 (hne _ (by simp))) fun r s1' e1 hr => ?_
      refine Post.bind (ih (e1.wf hs') (e.trans e1) (h10.mono e1) fun col hc => hne col (by simp [hc])) fun rs s2' e2 hrs => ?_
      refine Post.pure fun x hx => ?_
      rcases List.mem_cons.1 hx with rfl | hx
      · exact hr
      · exact hrs x hx
    · exact Post.panic

/-- A lookup in a non-constant table by independent bits is not constant. -/
theorem post_mux3_varies (hs : s.WF) {m : Nat} {s0 s1 s2 : CBool F} (hsel : Selects m s0 s1 s2) (h0 : s0.num.lc.Alloc s)
    (h1 : s1.num.lc.Alloc s) (h2 : s2.num.lc.Alloc s) {c : List (List F)}
    (hne : ∀ col ∈ c, ∃ i j, i < m ∧ j < m ∧ col[i]? ≠ col[j]?) :
    Post s (Mux.mux3 [s0, s1, s2] c) (fun r _ => ∀ x ∈ r, Varies x) := by
  unfold Mux.mux3
  refine Post.bind (Q := fun _ s' => s' = s) (Post.assert fun _ => rfl) ?_
  rintro _ _ _ rfl
  refine Post.bind (Q := fun _ s'' => s'' = _) (Post.assert fun _ => rfl) ?_
  rintro _ _ _ rfl
  refine Post.bind (post_mul_fresh hs h0 h1 hsel.two.varies.1 hsel.two.varies.2) fun s10 s1' e1 h10 => ?_
  exact post_columns_varies hsel h0 h1 h2 h10.1 c (e1.wf hs) e1 h10.2 hne

/-- Existing variables that do not occur in the selector bits do not occur in a lookup. -/
theorem post_mux3_coef (hs : s.WF) {k : Index} (hk : k ≠ .input 0) (hm : k ∈ s.vars.map Prod.fst) {s0 s1 s2 : CBool F}
    (h0 : coef k s0.num = 0) (h1 : coef k s1.num = 0) (h2 : coef k s2.num = 0) (c : List (List F)) :
    Post s (Mux.mux3 [s0, s1, s2] c) (fun r _ => ∀ x ∈ r, coef k x = 0) := by
  have hcol : ∀ (c : List (List F)) {s' : CS F} {s10 : CNum F}, s'.WF → s.Ext s' → coef k s10 = 0 →
      Post s' (Mux.columns s0 s1 s2 s10 c) (fun r _ => ∀ x ∈ r, coef k x = 0) := by
    intro c
    induction c with
    | nil => intro s' s10 hs' e h10; exact Post.pure (by simp)
    | cons col c ih =>
      intro s' s10 hs' e h10
      unfold Mux.columns
      split
      · exact Post.pure (by simp)
      · next heq =>
        injection heq with ha hb
        subst ha hb
        have hr : ∀ c0 c1 c2 c3 c4 c5 c6 c7 : F, Post s' (Mux.column s0 s1 s2 s10 c0 c1 c2 c3 c4 c5 c6 c7) (fun r _ => coef k r = 0) := by
          intro c0 c1 c2 c3 c4 c5 c6 c7
          unfold Mux.column
          refine Post.bind (post_mul_coef hs' hk (mem_vars_mono e hm) ?_ h2) fun t s2 e2 ht => Post.pure ?_
          · simp [coef_addConst, coef_add, coef_mulConst, h0, h1, h10]
          · simp [coef_addConst, coef_add, coef_mulConst, h0, h1, h10, ht]
        refine Post.bind (hr _ _ _ _ _ _ _ _) fun r s1' e1 hr => ?_
        refine Post.bind (ih (e1.wf hs') (e.trans e1) h10) fun rs s2' e2 hrs => ?_
        refine Post.pure fun x hx => ?_
        rcases List.mem_cons.1 hx with rfl | hx
        · exact hr
        · exact hrs x hx
      · exact Post.panic
  unfold Mux.mux3
  refine Post.bind (Q := fun _ s' => s' = s) (Post.assert fun _ => rfl) ?_
  rintro _ _ _ rfl
  refine Post.bind (Q := fun _ s'' => s'' = _) (Post.assert fun _ => rfl) ?_
  rintro _ _ _ rfl
  refine Post.bind (post_mul_coef hs hk hm h0 h1) fun s10 s1' e1 h10 => ?_
  exact hcol c (e1.wf hs) e1 h10

end lookup

/-! ## Scalar multiplication, constant base: the circuit -/

theorem bitsNat_append_false (bs : List Bool) (n : Nat) : bitsNat (bs ++ List.replicate n false) = bitsNat bs := by
  induction bs with
  | nil =>
    simp only [List.nil_append]
    induction n with
    | zero => rfl
    | succ n ih =>
      rw [List.replicate_succ]
      show false.toNat + 2 * bitsNat (List.replicate n false) = 0
      rw [ih]; rfl
  | cons b bs ih => rw [List.cons_append, bitsNat, bitsNat, ih]

namespace Mode

variable (md : Mode F) {s s0 : CS F}

/-- One window: the accumulated point grows by `1 + w` times the base. -/
theorem window (hd : J.d = C.d) (ha : J.a = C.a) (hb : J.b = C.b) {l : Nat} (hl : l.Prime) (hl8 : 7 < l) {B X : EdPoint C}
    (hB : l • B = 0) (hB0 : B ≠ 0) (hX : l • X = 0) (hs : md.St s) {b0 b1 b2 : CBool F} {c0 c1 c2 : Bool}
    (hbs : md.Bits s [b0, b1, b2] [c0, c1, c2]) {acc : CMontgomeryPoint F} (hacc : md.Mo s acc (EdPoint.torsion2 + X))
    {P : EdwardsPointEx F} (hP : Represents P B) {bits : List (CBool F)} {Q : CMontgomeryPoint F → CS F → Prop}
    (hv : Post s (Mux.mux3 [b0, b1, b2] [(List.range 8).map fun j => ((1 + j) • B).montX, (List.range 8).map fun j => ((1 + j) • B).montY])
      (fun r _ => ∀ x y, r = [x, y] → Varies (CNum.sub x acc.x) ∧ Varies (CNum.sub y acc.y)))
    (hk : ∀ acc' s1, s.Ext s1 → md.St s1 → md.Mo s1 acc' (EdPoint.torsion2 + (X + (1 + bitsNat [c0, c1, c2]) • B)) →
      NewIn s acc'.x → NewIn s acc'.y → md.T s1 (CEdwardsPoint.windowLoop J bits acc' P.double.double.double) Q) :
    md.T s (CEdwardsPoint.windowLoop J (b0 :: b1 :: b2 :: bits) acc P) Q := by
  have hl2 : l % 2 = 1 := by
    rcases hl.eq_two_or_odd with h | h
    · omega
    · exact h
  have hne : ∀ j, j < 8 → (1 + j) • B ≠ 0 := fun j hj => by
    by_cases h8 : 1 + j < l
    · exact nsmul_ne_zero_of_lt hl hB hB0 (by omega) h8
    · have : 1 + j = 8 := by omega
      rw [this]; exact eight_nsmul_ne_zero hl hl8 hB hB0
  unfold CEdwardsPoint.windowLoop
  refine md.bind (md.lift (Q := fun t s' => t = _ ∧ s' = s) hs (genTable_ok hd hP hne) ⟨rfl, rfl⟩) ?_
  rintro _ _ _ _ ⟨rfl, rfl⟩
  refine md.bind (md.post (md.post (md.mux3 _ hs hbs (by simp)) hv) (alloc_mux3 (md.wf hs) (fun b hb => ?_) _))
    fun r s1 e1 hs1 h1 => ?_
  · rcases hbs with _ | ⟨h0, _ | ⟨h1, _ | ⟨h2, _⟩⟩⟩
    simp only [List.mem_cons, List.not_mem_nil, or_false] at hb
    rcases hb with rfl | rfl | rfl
    · exact md.alloc h0
    · exact md.alloc h1
    · exact md.alloc h2
  obtain ⟨⟨hr, hvr⟩, -⟩ := h1
  obtain ⟨x, _, ⟨vx, hx, hx'⟩, hr1, rfl⟩ := List.forall₂_cons_right_iff.1 hr
  obtain ⟨y, _, ⟨vy, hy, hy'⟩, hr2, rfl⟩ := List.forall₂_cons_right_iff.1 hr1
  cases hr2
  dsimp only
  have hj : sel3 c0 c1 c2 < 8 := by cases c0 <;> cases c1 <;> cases c2 <;> simp [sel3]
  have hw : bitsNat [c0, c1, c2] = sel3 c0 c1 c2 := by cases c0 <;> cases c1 <;> cases c2 <;> simp [sel3, bitsNat]
  rw [List.getElem?_map, List.getElem?_range hj, Option.map_some, Option.some.injEq] at hx' hy'
  rw [hx'] at hx
  rw [hy'] at hy
  have hpt : md.Mo s1 ⟨x, y⟩ ((1 + bitsNat [c0, c1, c2]) • B) := by
    rw [hw]; exact ⟨hne _ hj, hx, hy⟩
  obtain ⟨hvx, hvy⟩ := hvr x y rfl
  refine md.bind (md.moAdd ha hb hs1 (hacc.mono e1) hpt
    (torsion2_add_montX_ne hl2 hX (nsmul_killed hB _) hpt.1) hvx hvy) fun acc' s2 e2 hs2 h2 => ?_
  obtain ⟨h2a, h2x, t, ft, hty⟩ := h2
  refine hk acc' s2 (e1.trans e2) hs2 ?_ (h2x.anti e1) ?_
  · rw [← add_assoc]; exact h2a
  · rw [hty]; exact (ft.anti e1).newIn.sub (md.alloc hacc.2.2)

/-- The windows after the first one. -/
theorem windowLoop (hd : J.d = C.d) (ha : J.a = C.a) (hb : J.b = C.b) {l : Nat} (hl : l.Prime) (hl8 : 7 < l) (n : Nat) :
    ∀ {bits : List (CBool F)} {bs : List Bool} {acc : CMontgomeryPoint F} {B X : EdPoint C} {P : EdwardsPointEx F} {s : CS F},
    bits.length = 3 * n → l • B = 0 → B ≠ 0 → l • X = 0 → s0.Ext s → md.St s → md.Bits s0 bits bs →
    md.Mo s acc (EdPoint.torsion2 + X) → Represents P B → NewIn s0 acc.x → NewIn s0 acc.y →
    md.T s (CEdwardsPoint.windowLoop J bits acc P) (fun r s' => md.Mo s' r (EdPoint.torsion2 + (X + (ones n + bitsNat bs) • B)) ∧
      NewIn s0 r.x ∧ NewIn s0 r.y) := by
  induction n with
  | zero =>
    intro bits bs acc B X P s hlen hB hB0 hX e hs hbs hacc hP nx ny
    obtain rfl : bits = [] := by simpa using hlen
    cases hbs
    unfold CEdwardsPoint.windowLoop
    exact md.pure hs ⟨by simpa [ones, bitsNat] using hacc, nx, ny⟩
  | succ n ih =>
    intro bits bs acc B X P s hlen hB hB0 hX e hs hbs hacc hP nx ny
    match bits, hlen with
    | b0 :: b1 :: b2 :: bits, hlen =>
    obtain ⟨c0, _, h0, hbs0, rfl⟩ := List.forall₂_cons_left_iff.1 hbs
    obtain ⟨c1, _, h1, hbs1, rfl⟩ := List.forall₂_cons_left_iff.1 hbs0
    obtain ⟨c2, bs, h2, hbs2, rfl⟩ := List.forall₂_cons_left_iff.1 hbs1
    refine md.window hd ha hb hl hl8 hB hB0 hX hs (c0 := c0) (c1 := c1) (c2 := c2)
      (.cons (md.mono e h0) (.cons (md.mono e h1) (.cons (md.mono e h2) .nil))) hacc hP ?_ ?_
    · obtain ⟨kx, kx0, kxn, kxc⟩ := nx
      obtain ⟨ky, ky0, kyn, kyc⟩ := ny
      have mem : ∀ {k : Index} {a : CNum F}, k ≠ .input 0 → coef k a ≠ 0 → a.lc.Alloc s → k ∈ s.vars.map Prod.fst := by
        intro k a hk hc ha
        by_contra hn
        exact hc (coef_alloc ha hk hn)
      have mx := mem kx0 kxc (md.alloc hacc.2.1)
      have my := mem ky0 kyc (md.alloc hacc.2.2)
      have z : ∀ {b : CNum F} {v : F} {k : Index}, k ≠ .input 0 → k ∉ s0.vars.map Prod.fst → md.H s0 b v → coef k b = 0 :=
        fun hk hn hb => coef_alloc (md.alloc hb) hk hn
      refine ((post_mux3_coef (md.wf hs) kx0 mx (z kx0 kxn h0) (z kx0 kxn h1) (z kx0 kxn h2) _).and
        (post_mux3_coef (md.wf hs) ky0 my (z ky0 kyn h0) (z ky0 kyn h1) (z ky0 kyn h2) _)).mono fun r s' _ hr => ?_
      rintro x y rfl
      constructor
      · apply Varies.of_coef (k := kx)
        rw [coef_sub, hr.1 x (by simp), zero_sub]; exact neg_ne_zero.2 kxc
      · apply Varies.of_coef (k := ky)
        rw [coef_sub, hr.2 y (by simp), zero_sub]; exact neg_ne_zero.2 kyc
    · intro acc' s1 e1 hs1 hacc' nx' ny'
      refine md.weaken (ih (by simp only [List.length_cons] at hlen; omega) (nsmul_killed hB 8)
        (eight_nsmul_ne_zero hl hl8 hB hB0) (add_killed hX (nsmul_killed hB _)) (e.trans e1) hs1 hbs2 hacc' (triple_represents hP)
        (nx'.anti e) (ny'.anti e)) fun r s2 e2 hs2 h2 => ⟨?_, h2.2⟩
      have : X + (ones (n + 1) + bitsNat (c0 :: c1 :: c2 :: bs)) • B =
          X + (1 + bitsNat [c0, c1, c2]) • B + (ones n + bitsNat bs) • 8 • B := by
        rw [← mul_nsmul, add_assoc, ← add_nsmul]
        congr 2
        simp only [ones, bitsNat]; ring
      rw [this]; exact h2.1

/-- Scalar multiplication of a constant subgroup point. -/
theorem mulConstBase (hd : J.d = C.d) (ha : J.a = C.a) (hb : J.b = C.b) {l : Nat} (hl : l.Prime) (hl8 : 7 < l) {B : EdPoint C}
    (hB : l • B = 0) (hs : md.St s) {bits : List (CBool F)} {bs : List Bool} (hbs : md.Bits s bits bs) (h2 : 2 ≤ bits.length)
    (hind : Independent ((bits.take 3).map CBool.num))
    (hz : B ≠ 0 → md.Z (EdPoint.torsion2 + bitsNat bs • B).montY := by exact fun _ => trivial) :
    md.T s (CEdwardsPoint.mulConstBase B.affine bits J) (fun r s' => md.Ed s' r (bitsNat bs • B) ∧
      (B ≠ 0 → NewIn s r.x ∧ NewIn s r.y)) := by
  have hl2 : l % 2 = 1 := by
    rcases hl.eq_two_or_odd with h | h
    · omega
    · exact h
  have hP : Represents B.affine.intoExtended B := Represents.of_affine B
  unfold CEdwardsPoint.mulConstBase
  dsimp only
  by_cases hB0 : B = 0
  · rw [if_pos (hP.isZero_iff.2 hB0)]
    refine md.pure hs ⟨?_, fun h => absurd hB0 h⟩
    rw [hB0, nsmul_zero]
    exact ⟨md.fromConst 0, md.fromConst 1⟩
  rw [if_neg (fun h => hB0 (hP.isZero_iff.1 h))]
  set n := (CEdwardsPoint.padBits3 bits).length / 3 with hn
  have hlen : (CEdwardsPoint.padBits3 bits).length = 3 * n := by
    rw [hn]; unfold CEdwardsPoint.padBits3
    rw [List.length_append, List.length_replicate]; omega
  set bs' := bs ++ List.replicate ((3 - bits.length % 3) % 3) false with hbs'
  have hbits : md.Bits s (CEdwardsPoint.padBits3 bits) bs' := by
    unfold CEdwardsPoint.padBits3
    refine List.rel_append hbs ?_
    generalize (3 - bits.length % 3) % 3 = k
    induction k with
    | zero => exact .nil
    | succ k ih => exact .cons (md.fromConst 0) ih
  refine md.bind (md.lift (Q := fun t s' => t = _ ∧ s' = s) hs (startPoint_ok hd hl2 hB hP n) ⟨rfl, rfl⟩) ?_
  rintro _ s' _ _ ⟨rfl, hs'⟩
  subst s'
  have hX := neg_killed (nsmul_killed hB (ones n))
  have hstart : ∀ {s'}, md.Mo s' (CMontgomeryPoint.fromConst (EdPoint.torsion2 + -(ones n • B)).mont) (EdPoint.torsion2 + -(ones n • B)) :=
    ⟨torsion2_add_ne hl2 hX (nsmul_zero l), md.fromConst _, md.fromConst _⟩
  have hloop : md.T s (CEdwardsPoint.windowLoop J (CEdwardsPoint.padBits3 bits)
      (CMontgomeryPoint.fromConst (EdPoint.torsion2 + -(ones n • B)).mont) B.affine.intoExtended)
      (fun r s' => md.Mo s' r (EdPoint.torsion2 + (-(ones n • B) + (ones n + bitsNat bs') • B)) ∧ NewIn s r.x ∧ NewIn s r.y) := by
    have hsel : ∃ b0 b1 b2 rest m, CEdwardsPoint.padBits3 bits = b0 :: b1 :: b2 :: rest ∧ 4 ≤ m ∧ Selects m b0 b1 b2 := by
      match bits, h2, hind with
      | [b0, b1], _, hind =>
        exact ⟨b0, b1, CBool.fromConst false, [], 4, rfl, le_refl _, Or.inr ⟨rfl, hind, CNum.asConst_fromConst 0⟩⟩
      | b0 :: b1 :: b2 :: rest, _, hind =>
        exact ⟨b0, b1, b2, _, 8, rfl, by omega, Or.inl ⟨rfl, hind⟩⟩
    obtain ⟨b0, b1, b2, rest, m, hpad, hm, hsel⟩ := hsel
    rw [hpad] at hbits hlen ⊢
    obtain ⟨c0, t0, h0, hbits0, hbe⟩ := List.forall₂_cons_left_iff.1 hbits
    obtain ⟨c1, t1, h1, hbits1, rfl⟩ := List.forall₂_cons_left_iff.1 hbits0
    obtain ⟨c2, bs'', h2, hbits2, rfl⟩ := List.forall₂_cons_left_iff.1 hbits1
    rw [hbe]
    obtain ⟨n', hn'⟩ : ∃ n', n = n' + 1 := ⟨n - 1, by simp only [List.length_cons] at hlen; omega⟩
    refine md.window hd ha hb hl hl8 hB hB0 hX hs (c0 := c0) (c1 := c1) (c2 := c2) (.cons h0 (.cons h1 (.cons h2 .nil)))
      hstart hP ?_ ?_
    · refine (post_mux3_varies (md.wf hs) hsel (md.alloc h0) (md.alloc h1) (md.alloc h2) ?_).mono fun r s' _ hr => ?_
      · intro col hcol
        rcases List.mem_cons.1 hcol with rfl | hcol
        · refine ⟨0, 1, by omega, by omega, ?_⟩
          simpa using montX_table_ne hl hl8 hB hB0
        · obtain rfl : col = _ := by simpa using hcol
          obtain ⟨i, j, hi, hj, hij⟩ := montY_table_ne hl hl8 hB hB0
          refine ⟨i, j, by omega, by omega, ?_⟩
          rw [List.getElem?_map, List.getElem?_map, List.getElem?_range (by omega), List.getElem?_range (by omega)]
          simpa using hij
      · rintro x y rfl
        exact ⟨(hr x (by simp)).sub_const (CNum.asConst_fromConst _), (hr y (by simp)).sub_const (CNum.asConst_fromConst _)⟩
    · intro acc' s1 e1 hs1 hacc' nx' ny'
      refine md.weaken (md.windowLoop (s0 := s) hd ha hb hl hl8 n' (by simp only [List.length_cons] at hlen; omega) (nsmul_killed hB 8)
        (eight_nsmul_ne_zero hl hl8 hB hB0) (add_killed hX (nsmul_killed hB _)) e1 hs1 hbits2 hacc' (triple_represents hP)
        nx' ny') fun r s2 e2 hs2 h2 => ⟨?_, h2.2⟩
      have : -(ones n • B) + (ones n + bitsNat (c0 :: c1 :: c2 :: bs'')) • B =
          -(ones n • B) + (1 + bitsNat [c0, c1, c2]) • B + (ones n' + bitsNat bs'') • 8 • B := by
        rw [← mul_nsmul, add_assoc, ← add_nsmul]
        congr 2
        rw [hn']
        simp only [ones, bitsNat]; ring
      rw [this]; exact h2.1
  refine md.bind hloop fun acc s1 e1 hs1 h1 => ?_
  have hval : -(ones n • B) + (ones n + bitsNat bs') • B = bitsNat bs • B := by
    rw [add_nsmul, neg_add_cancel_left, hbs', bitsNat_append_false]
  rw [hval] at h1
  refine md.weaken (md.finish hs1 h1.1 h1.2.1.varies h1.2.2.varies (hz hB0)) fun r s2 e2 hs2 h2 => ?_
  exact ⟨h2.1, fun _ => ⟨h2.2.1.anti e1, h2.2.2.anti e1⟩⟩

end Mode

end Fawkes
