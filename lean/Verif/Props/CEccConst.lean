import Verif.Lemmas.CEccConst
import Verif.Lemmas.CEccHash
import Verif.Props.CEcc

/-!
# Curve gadgets with constant operands: C33 and C40, continued

`C33_refuted` shows that the sum of two constant points is wrong.  Here is what happens exactly: with one constant operand the sum is
right, with two it has inverted coordinates or panics.
`from_scalar` of a constant gives the right point or its negative, and which of the two depends on the constant.
-/

set_option linter.unusedSectionVars false

namespace Fawkes.Props

variable {F : Type} [Field F] [DecidableEq F] {C : EdCurve F} {J : JubJubParams F} {s s' : CS F} {w : Index → F}

theorem const_is (hw : IsAssignment w) {p : CEdwardsPoint F} {P : EdwardsPoint F} (h : p.IsConstant P) : p.Is w P :=
  ⟨CNum.eval_of_asConst hw h.const_x, CNum.eval_of_asConst hw h.const_y⟩

theorem const_carries {p : CEdwardsPoint F} {P : EdwardsPoint F} (h : p.IsConstant P) : p.Carries s P := by
  have key : ∀ {a : CNum F} {x : F}, a.asConst = some x → a.value = some x → Has s a x := by
    intro a x hc hv
    refine ⟨?_, hv, CNum.eval_of_asConst s.assign_isAssignment hc⟩
    rcases CNum.asConst_iff.1 hc with ⟨h, -⟩ | h
    · rw [h]; simp [LC.Alloc]
    · rw [h]; simp [LC.Alloc]
  exact ⟨key h.const_x h.value_x, key h.const_y h.value_y⟩

theorem const_alloc {p : CEdwardsPoint F} {P : EdwardsPoint F} (h : p.IsConstant P) : p.x.lc.Alloc s ∧ p.y.lc.Alloc s := by
  have key : ∀ {a : CNum F} {x : F}, a.asConst = some x → a.lc.Alloc s := by
    intro a x hc
    rcases CNum.asConst_iff.1 hc with ⟨h, -⟩ | h
    · rw [h]; simp [LC.Alloc]
    · rw [h]; simp [LC.Alloc]
  exact ⟨key h.const_x, key h.const_y⟩

theorem signal_of_independent {md : Mode F} {o : CEdwardsPoint F} {Q : EdPoint C} (h : md.Ed s o Q) (hi : Independent [o.x, o.y]) :
    o.IsSignal s := ⟨md.alloc h.1, md.alloc h.2, hi.varies.1, hi.varies.2⟩

/-- C33 (sound): a constant point plus a signal, in both orders: in every satisfying assignment `add` gives the native sum.  The
coordinates of the signal must be independent of each other, as they are for an allocated point and for the result of every addition and
doubling (`C33_independent_partial`). -/
theorem C33_add_constant_sound_partial (hd : J.d = C.d) (hs : s.WF) {p q o : CEdwardsPoint F} {P Q : EdwardsPoint F}
    (hp : p.IsConstant P) (hq : q.IsSignal s) (hi : Independent [q.x, q.y]) (hw : IsAssignment w)
    (h : (p.add q J).run s = .ok (o, s') ∨ (q.add p J).run s = .ok (o, s')) (hsat : s'.Sat w) (hQ : q.Is w Q)
    (hcP : P.isInCurve J = true) (hcQ : Q.isInCurve J = true) :
    ∃ R, P.add Q J = .ok R ∧ o.Is w R ∧ o.IsSignal s' ∧ Independent [o.x, o.y] := by
  obtain ⟨P, rfl⟩ := (isInCurve_iff hd P).1 hcP
  obtain ⟨Q, rfl⟩ := (isInCurve_iff hd Q).1 hcQ
  have ep := spec_ed hw (const_alloc (s := s) hp).1 (const_alloc hp).2 (const_is hw hp)
  have eq := spec_ed hw hq.alloc_x hq.alloc_y hQ
  rcases h with h | h
  · obtain ⟨h1, h2⟩ := (specMode w hw).edAdd_const_left hd hs ep eq hp.const_x hp.const_y hi hs o s' h hsat
    exact ⟨_, add_affine hd P Q, ed_is h1, signal_of_independent h1 h2, h2⟩
  · obtain ⟨h1, h2⟩ := (specMode w hw).edAdd_const_right hd hs eq ep hp.const_x hp.const_y hi hs o s' h hsat
    rw [add_comm] at h1
    exact ⟨_, add_affine hd P Q, ed_is h1, signal_of_independent h1 h2, h2⟩

/-- C33 (complete): a constant point plus a signal, in both orders: no curve points are exceptional. -/
theorem C33_add_constant_complete_partial (hd : J.d = C.d) (hs : s.Honest) {p q : CEdwardsPoint F} {P Q : EdwardsPoint F}
    (hp : p.IsConstant P) (hi : Independent [q.x, q.y]) (hQ : q.Carries s Q) (hcP : P.isInCurve J = true)
    (hcQ : Q.isInCurve J = true) :
    (∃ o s' R, (p.add q J).run s = .ok (o, s') ∧ s'.Honest ∧ P.add Q J = .ok R ∧ o.Carries s' R ∧ o.IsSignal s' ∧ Independent [o.x, o.y]) ∧
    (∃ o s' R, (q.add p J).run s = .ok (o, s') ∧ s'.Honest ∧ P.add Q J = .ok R ∧ o.Carries s' R ∧ o.IsSignal s' ∧ Independent [o.x, o.y]) := by
  obtain ⟨P, rfl⟩ := (isInCurve_iff hd P).1 hcP
  obtain ⟨Q, rfl⟩ := (isInCurve_iff hd Q).1 hcQ
  have ep : (runsMode F).Ed s p P := const_carries hp
  constructor
  · obtain ⟨o, s', hr, -, hh, h1, h2⟩ := (runsMode F).edAdd_const_left hd hs (P := P) (Q := Q) ep hQ hp.const_x hp.const_y hi
    exact ⟨o, s', _, hr, hh, add_affine hd P Q, h1, signal_of_independent h1 h2, h2⟩
  · obtain ⟨o, s', hr, -, hh, h1, h2⟩ := (runsMode F).edAdd_const_right hd hs (P := Q) (Q := P) hQ ep hp.const_x hp.const_y hi
    rw [add_comm] at h1
    exact ⟨o, s', _, hr, hh, add_affine hd P Q, h1, signal_of_independent h1 h2, h2⟩

/-- C33: sums, doubles and multiples by the cofactor of signals have independent coordinates: the theorems on constant operands apply to
them.  (Results of scalar multiplication are not covered.) -/
theorem C33_independent_partial (hJ : J.d ≠ 0) (h2 : (2 : F) ≠ 0) (hs : s.WF) {p q o : CEdwardsPoint F} (hp : p.IsSignal s)
    (hq : q.IsSignal s)
    (h : (p.add q J).run s = .ok (o, s') ∨ (p.double J).run s = .ok (o, s') ∨ (p.mulByCofactor J).run s = .ok (o, s')) :
    Independent [o.x, o.y] := by
  rcases h with h | h | h
  · exact post_add_independent hJ hs hp.alloc_x hp.alloc_y hq.alloc_x hq.alloc_y hp.varies_x hp.varies_y hq.varies_x hq.varies_y o s' h
  · exact (post_double_independent hJ h2 hs hp.alloc_x hp.alloc_y hp.varies_x hp.varies_y o s' h).1
  · exact post_cofactor_independent hJ h2 hs hp.alloc_x hp.alloc_y hp.varies_x hp.varies_y o s' h

/-- C33, how it fails: the sum of two constant points of the curve has the inverses of the coordinates that the native sum has, and if
one of these is zero the addition panics.  No constraint and no variable is made. -/
theorem C33_add_constants (hd : J.d = C.d) {p q : CEdwardsPoint F} {P Q R : EdwardsPoint F} (hp : p.IsConstant P) (hq : q.IsConstant Q)
    (hcP : P.isInCurve J = true) (hcQ : Q.isInCurve J = true) (hR : P.add Q J = .ok R) :
    if R.x = 0 ∨ R.y = 0 then (p.add q J).run s = .error .divByZero
    else ∃ o, (p.add q J).run s = .ok (o, s) ∧ o.IsConstant ⟨R.x⁻¹, R.y⁻¹⟩ := by
  obtain ⟨P, rfl⟩ := (isInCurve_iff hd P).1 hcP
  obtain ⟨Q, rfl⟩ := (isInCurve_iff hd Q).1 hcQ
  obtain rfl : (P + Q).affine = R := by rw [add_affine hd] at hR; injection hR
  obtain ⟨h1, h2⟩ := edAdd_constants hd (P := P) (Q := Q) ⟨hp.const_x, hp.value_x⟩ ⟨hp.const_y, hp.value_y⟩ ⟨hq.const_x, hq.value_x⟩
    ⟨hq.const_y, hq.value_y⟩
  split
  · next h => rw [h1 h]; rfl
  · next h =>
    rw [not_or] at h
    obtain ⟨o, ho, hx, hy⟩ := h2 h.1 h.2
    exact ⟨o, by rw [ho]; rfl, hx.1, hy.1, hx.2, hy.2⟩

/-- C33, how it fails: doubling a constant point. -/
theorem C33_double_constant (hd : J.d = C.d) {p : CEdwardsPoint F} {P R : EdwardsPoint F} (hp : p.IsConstant P)
    (hcP : P.isInCurve J = true) (hR : P.double = .ok R) :
    if R.x = 0 ∨ R.y = 0 then (p.double J).run s = .error .divByZero
    else ∃ o, (p.double J).run s = .ok (o, s) ∧ o.IsConstant ⟨R.x⁻¹, R.y⁻¹⟩ := by
  obtain ⟨P, rfl⟩ := (isInCurve_iff hd P).1 hcP
  obtain rfl : (2 • P).affine = R := by rw [double_affine] at hR; injection hR
  obtain ⟨h1, h2⟩ := edDouble_constant hd (P := P) ⟨hp.const_x, hp.value_x⟩ ⟨hp.const_y, hp.value_y⟩
  split
  · next h => rw [h1 h]; rfl
  · next h =>
    rw [not_or] at h
    obtain ⟨o, ho, hx, hy⟩ := h2 h.1 h.2
    exact ⟨o, by rw [ho]; rfl, hx.1, hy.1, hx.2, hy.2⟩

theorem fromConst_isConstant (P : EdwardsPoint F) : (CEdwardsPoint.fromConst P).IsConstant P :=
  ⟨CNum.asConst_fromConst _, CNum.asConst_fromConst _, rfl, rfl⟩

theorem alloc_point_independent (hs : s.Honest) (P : EdwardsPoint F) :
    ∃ p s', (CEdwardsPoint.alloc (some P)).run s = .ok (p, s') ∧ s'.Honest ∧ p.Carries s' P ∧ p.IsSignal s' ∧ Independent [p.x, p.y] := by
  obtain ⟨p, s', hr, hh, hc, hp⟩ := alloc_point hs P
  refine ⟨p, s', hr, hh, hc, hp, ?_⟩
  have : Post s (CEdwardsPoint.alloc (some P)) (fun p _ => Independent [p.x, p.y]) := by
    unfold CEdwardsPoint.alloc
    refine Post.bind (post_alloc_fresh hs.wf _) fun x s1 e1 h1 => ?_
    refine Post.bind (post_alloc_fresh (e1.wf hs.wf) _) fun y s2 e2 h2 => ?_
    exact Post.pure (Independent.of_fresh h1.2.1 h1.1.varies h2.1)
  exact this p s' hr

/-- A constant base point and an allocated point: the hypotheses of the theorems above are met on the BN256 curve. -/
example : ∃ (p q : CEdwardsPoint (ZMod bnR)) (s : CS (ZMod bnR)), s.Honest ∧ p.IsConstant bnParams.g ∧ q.Carries s bnParams.g ∧
    q.IsSignal s ∧ Independent [q.x, q.y] ∧ bnParams.g.isInCurve bnParams = true := by
  obtain ⟨q, s, -, hh, hc, hs, hi⟩ := alloc_point_independent (CS.honest_new (F := ZMod bnR) .test) bnParams.g
  exact ⟨_, q, s, hh, fromConst_isConstant _, hc, hs, hi, (C25_affine_in_curve rfl _).2 ⟨bnG, bnG_affine⟩⟩

/-- On the small curve: `G + G` for a constant `G` is not the double of `G`, and `G + (-G)` panics. -/
example : (toyParams.g.add toyParams.g toyParams).map EdwardsPoint.x = .ok (60 : ZMod 73)⁻¹ ∧
    (((CEdwardsPoint.fromConst toyParams.g).add (CEdwardsPoint.fromConst ⟨-toyParams.g.x, toyParams.g.y⟩) toyParams).run (CS.new .test)).map
      (fun _ => ()) = .error .divByZero := by
  decide +kernel

/-! ### C40 -/

section hash

variable {r : Nat} [Fact r.Prime] {C : EdCurve (ZMod r)} {J : JubJubParams (ZMod r)}
  {sqrt : ZMod r → Option (ZMod r)} {s s' : CS (ZMod r)} {w : Index → ZMod r}

/-- C40 (sound), for a constant `t`: in every satisfying assignment the result is the native point or its negative, `(-x, y)`.  What is
missing: the sign is wrong for some constants. -/
theorem C40_constant_sound_partial (hv : J.Valid C) (hsq : IsSqrt sqrt) (h8 : 8 ≤ r) (hs : s.WF) {t : CNum (ZMod r)} {tv : ZMod r}
    (ht : t.asConst = some tv) (htv : t.value = some tv) {o : CEdwardsPoint (ZMod r)} (hw : IsAssignment w)
    (h : (CEdwardsPoint.fromScalar sqrt t J).run s = .ok (o, s')) (hsat : s'.Sat w) :
    tv ≠ -1 ∧ ∃ R, EdwardsPoint.fromScalar sqrt tv J = .ok R ∧ (o.Is w R ∨ o.Is w ⟨-R.x, R.y⟩) ∧ o.IsSignal s' := by
  obtain ⟨hne, Q, Q0, hQ, hsg, h1, h2, h3⟩ := CEdwardsPoint.spec_fromScalar_const hw hv.d_eq hv.a_eq hv.b_eq hv.u_nonsquare h8 hs
    ⟨ht, htv⟩ o s' h hsat
  obtain ⟨Q', hQ', hR⟩ := fromScalar_ok hsq hv.a_eq hv.b_eq hv.u_nonsquare hne
  rw [hQ'.unique hQ] at hR
  refine ⟨hne, _, hR, ?_, ed_signal h1 h2.newIn h3.newIn⟩
  rcases hsg with hsg | hsg <;> rw [hsg] at h1
  · exact .inl (ed_is h1)
  · exact .inr (ed_is h1)

/-- C40 (complete), for a constant `t ≠ -1`: the honest prover succeeds with the native point or its negative. -/
theorem C40_constant_complete_partial (hv : J.Valid C) (hsq : IsSqrt sqrt) (h8 : 8 ≤ r) (hs : s.Honest) {t : CNum (ZMod r)}
    {tv : ZMod r} (ht : t.asConst = some tv) (htv : t.value = some tv) (hne : tv ≠ -1) :
    ∃ o s' R, (CEdwardsPoint.fromScalar sqrt t J).run s = .ok (o, s') ∧ s'.Honest ∧
      EdwardsPoint.fromScalar sqrt tv J = .ok R ∧ (o.Carries s' R ∨ o.Carries s' ⟨-R.x, R.y⟩) ∧ o.IsSignal s' := by
  obtain ⟨o, s', hr, -, hh, Q, Q0, hQ, hsg, h1, h2, h3⟩ := CEdwardsPoint.runs_fromScalar_const hsq hv.d_eq hv.a_eq hv.b_eq hv.u_nonsquare
    h8 hs ⟨ht, htv⟩ hne
  obtain ⟨Q', hQ', hR⟩ := fromScalar_ok hsq hv.a_eq hv.b_eq hv.u_nonsquare hne
  rw [hQ'.unique hQ] at hR
  refine ⟨o, s', _, hr, hh, hR, ?_, ed_signal h1 h2.newIn h3.newIn⟩
  rcases hsg with hsg | hsg <;> rw [hsg] at h1
  · exact .inl h1
  · exact .inr h1

end hash

/-- Square roots in the small field, by search. -/
def toySqrt (x : ZMod 73) : Option (ZMod 73) := ((List.range 73).map fun (i : Nat) => (i : ZMod 73)).find? fun y => decide (y * y = x)

theorem toySqrt_isSqrt : IsSqrt toySqrt where
  sound := by decide +kernel
  complete := by decide +kernel

/-- C40 in full is false: for the constant 6 on the small curve the circuit, run by the honest prover, gives the negative of the
native point.  The division of one constant by another is inverted (src/circuit/num.rs:495-500), so the second candidate for the
Montgomery coordinate is the inverse of the right one. -/
theorem C40_refuted : ¬ C40_full := by
  intro h
  obtain ⟨o, s', R, hr, hh, hR, hc, -⟩ := C40_constant_complete_partial (C := toyCurve) (t := CNum.fromConst 6) toyParams_valid
    toySqrt_isSqrt (by norm_num) (CS.honest_new (F := ZMod 73) .test) (CNum.asConst_fromConst _) rfl (by decide +kernel)
  obtain ⟨-, R', hR', hx, -⟩ := h 73 toyCurve toyParams toySqrt _ s' s'.assign _ o toyParams_valid toySqrt_isSqrt (by norm_num)
    (CS.honest_new (F := ZMod 73) .test).wf (CEdwardsPoint.CNum.IsConst.alloc ⟨CNum.asConst_fromConst _, rfl⟩) s'.assign_isAssignment hr hh.sat
  rw [show (CNum.fromConst (6 : ZMod 73)).lc.eval s'.assign = 6 from CNum.eval_of_asConst s'.assign_isAssignment (CNum.asConst_fromConst _),
    hR] at hR'
  obtain rfl : R = R' := by injection hR'
  have hv : o.x.value = some (o.x.lc.eval s'.assign) := by
    rcases hc with hc | hc <;> exact hc.1.value.trans (congrArg some hc.1.eval.symm)
  rw [hx] at hv
  have h1 : ((CEdwardsPoint.fromScalar toySqrt (CNum.fromConst 6) toyParams).run (CS.new .test)).map (fun q => q.1.x.value) = .ok (some R.x) := by
    rw [hr]; show Except.ok o.x.value = _; rw [hv]
  have h2 : (EdwardsPoint.fromScalar toySqrt 6 toyParams).map EdwardsPoint.x = .ok R.x := by rw [hR]; rfl
  revert h1 h2
  generalize R.x = x
  revert x
  decide +kernel

/-- The constant 5 on the BN256 curve meets the hypotheses of the theorems above. -/
example : (CNum.fromConst (5 : ZMod bnR)).asConst = some 5 ∧ (CNum.fromConst (5 : ZMod bnR)).value = some 5 ∧ (5 : ZMod bnR) ≠ -1 ∧
    bnParams.Valid bnCurve ∧ (CS.new (F := ZMod bnR) .test).Honest :=
  ⟨CNum.asConst_fromConst _, rfl, by decide +kernel, bnParams_valid, CS.honest_new .test⟩

end Fawkes.Props
