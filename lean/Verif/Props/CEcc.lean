import Verif.Lemmas.CEccAcc
import Verif.Lemmas.BitsShape
import Verif.Lemmas.Toy
import Verif.Spec.CEcc
import Verif.Props.Ecc

/-!
# Curve gadgets: C33–C40

`p.Is w R` says that under the assignment `w` the signals of the point `p` are the coordinates of the native point `R`,
`p.Carries s R` says so for the witness values, and `p.IsSignal s` says that the coordinates belong to the circuit `s` and
are not constants (`Verif.Spec.CEcc`).  Every gadget returns signals again, so the theorems chain.  Constant operands are
treated separately: the gadgets are wrong for them (`C33_refuted`, `C39_refuted`).
-/

set_option linter.unusedSectionVars false

namespace Fawkes.Props

variable {F : Type} [Field F] [DecidableEq F] {C : EdCurve F} {J : JubJubParams F} {s s' : CS F} {w : Index → F}

/-! ### Bridges between the statement vocabulary and the lemmas -/

theorem spec_ed (hw : IsAssignment w) {p : CEdwardsPoint F} {Q : EdPoint C} (hx : p.x.lc.Alloc s) (hy : p.y.lc.Alloc s)
    (h : p.Is w Q.affine) : (specMode w hw).Ed s p Q := ⟨⟨hx, h.1⟩, ⟨hy, h.2⟩⟩

theorem ed_is {hw : IsAssignment w} {p : CEdwardsPoint F} {Q : EdPoint C} (h : (specMode w hw).Ed s p Q) : p.Is w Q.affine :=
  ⟨h.1.2, h.2.2⟩

theorem ed_signal {md : Mode F} {p : CEdwardsPoint F} {Q : EdPoint C} (h : md.Ed s' p Q) (hx : NewIn s p.x) (hy : NewIn s p.y) :
    p.IsSignal s' := ⟨md.alloc h.1, md.alloc h.2, hx.varies, hy.varies⟩

theorem mo_signal {md : Mode F} {p : CMontgomeryPoint F} {Q : EdPoint C} (h : md.Mo s' p Q) (hx : Varies p.x) (hy : Varies p.y) :
    p.IsSignal s' := ⟨md.alloc h.2.1, md.alloc h.2.2, hx, hy⟩

/-! ### C33 -/

theorem double_affine (Q : EdPoint C) : Q.affine.double = .ok (2 • Q : EdPoint C).affine :=
  (Represents.of_affine Q).double.intoAffine

theorem mulByCofactor_affine (Q : EdPoint C) : Q.affine.mulByCofactor = .ok (8 • Q : EdPoint C).affine :=
  (Represents.of_affine Q).mulByCofactor.intoAffine

/-- C33 in full: addition in the circuit is the native addition, whatever the operands are built from. -/
def C33_full : Prop :=
  ∀ (r : Nat) [Fact r.Prime] (C : EdCurve (ZMod r)) (J : JubJubParams (ZMod r)) (s s' : CS (ZMod r))
    (p q o : CEdwardsPoint (ZMod r)) (P Q : EdwardsPoint (ZMod r)) (w : Index → ZMod r), J.d = C.d → s.WF →
    p.x.lc.Alloc s → p.y.lc.Alloc s → q.x.lc.Alloc s → q.y.lc.Alloc s → IsAssignment w →
    (p.add q J).run s = .ok (o, s') → s'.Sat w → p.Is w P → q.Is w Q → P.isInCurve J = true → Q.isInCurve J = true →
    ∃ R, P.add Q J = .ok R ∧ o.Is w R

/-- C33 (sound): in every satisfying assignment `add` gives the native sum of curve points. Missing for the full
statement: constant coordinates. -/
theorem C33_add_sound_partial (hd : J.d = C.d) (hs : s.WF) {p q o : CEdwardsPoint F} {P Q : EdwardsPoint F}
    (hp : p.IsSignal s) (hq : q.IsSignal s) (hw : IsAssignment w) (h : (p.add q J).run s = .ok (o, s')) (hsat : s'.Sat w)
    (hP : p.Is w P) (hQ : q.Is w Q) (hcP : P.isInCurve J = true) (hcQ : Q.isInCurve J = true) :
    ∃ R, P.add Q J = .ok R ∧ o.Is w R ∧ o.IsSignal s' := by
  obtain ⟨P, rfl⟩ := (isInCurve_iff hd P).1 hcP
  obtain ⟨Q, rfl⟩ := (isInCurve_iff hd Q).1 hcQ
  obtain ⟨h1, h2, h3⟩ := (specMode w hw).edAdd hd hs (spec_ed hw hp.alloc_x hp.alloc_y hP) (spec_ed hw hq.alloc_x hq.alloc_y hQ)
    hp.varies_x hp.varies_y hq.varies_x hq.varies_y hs o s' h hsat
  exact ⟨_, add_affine hd P Q, ed_is h1, ed_signal h1 h2.newIn h3.newIn⟩

/-- C33 (complete): an honest prover can always add: no curve points are exceptional. -/
theorem C33_add_complete_partial (hd : J.d = C.d) (hs : s.Honest) {p q : CEdwardsPoint F} {P Q : EdwardsPoint F}
    (hp : p.IsSignal s) (hq : q.IsSignal s) (hP : p.Carries s P) (hQ : q.Carries s Q) (hcP : P.isInCurve J = true)
    (hcQ : Q.isInCurve J = true) :
    ∃ o s' R, (p.add q J).run s = .ok (o, s') ∧ s'.Honest ∧ P.add Q J = .ok R ∧ o.Carries s' R ∧ o.IsSignal s' := by
  obtain ⟨P, rfl⟩ := (isInCurve_iff hd P).1 hcP
  obtain ⟨Q, rfl⟩ := (isInCurve_iff hd Q).1 hcQ
  obtain ⟨o, s', hr, -, hh, h1, h2, h3⟩ := (runsMode F).edAdd hd hs (P := P) (Q := Q) hP hQ
    hp.varies_x hp.varies_y hq.varies_x hq.varies_y
  exact ⟨o, s', _, hr, hh, add_affine hd P Q, h1, ed_signal h1 h2.newIn h3.newIn⟩

/-- C33 (sound): doubling. -/
theorem C33_double_sound_partial (hd : J.d = C.d) (hs : s.WF) {p o : CEdwardsPoint F} {P : EdwardsPoint F}
    (hp : p.IsSignal s) (hw : IsAssignment w) (h : (p.double J).run s = .ok (o, s')) (hsat : s'.Sat w)
    (hP : p.Is w P) (hcP : P.isInCurve J = true) : ∃ R, P.double = .ok R ∧ o.Is w R ∧ o.IsSignal s' := by
  obtain ⟨P, rfl⟩ := (isInCurve_iff hd P).1 hcP
  obtain ⟨h1, h2, h3⟩ := (specMode w hw).edDouble hd hs (spec_ed hw hp.alloc_x hp.alloc_y hP)
    hp.varies_x hp.varies_y hs o s' h hsat
  exact ⟨_, double_affine P, ed_is h1, ed_signal h1 h2.newIn h3.newIn⟩

/-- C33 (complete): doubling. -/
theorem C33_double_complete_partial (hd : J.d = C.d) (hs : s.Honest) {p : CEdwardsPoint F} {P : EdwardsPoint F}
    (hp : p.IsSignal s) (hP : p.Carries s P) (hcP : P.isInCurve J = true) :
    ∃ o s' R, (p.double J).run s = .ok (o, s') ∧ s'.Honest ∧ P.double = .ok R ∧ o.Carries s' R ∧ o.IsSignal s' := by
  obtain ⟨P, rfl⟩ := (isInCurve_iff hd P).1 hcP
  obtain ⟨o, s', hr, -, hh, h1, h2, h3⟩ := (runsMode F).edDouble hd hs (Q := P) hP hp.varies_x hp.varies_y
  exact ⟨o, s', _, hr, hh, double_affine P, h1, ed_signal h1 h2.newIn h3.newIn⟩

/-- C33 (sound): multiplication by the cofactor. -/
theorem C33_cofactor_sound_partial (hd : J.d = C.d) (hs : s.WF) {p o : CEdwardsPoint F} {P : EdwardsPoint F}
    (hp : p.IsSignal s) (hw : IsAssignment w) (h : (p.mulByCofactor J).run s = .ok (o, s')) (hsat : s'.Sat w)
    (hP : p.Is w P) (hcP : P.isInCurve J = true) : ∃ R, P.mulByCofactor = .ok R ∧ o.Is w R ∧ o.IsSignal s' := by
  obtain ⟨P, rfl⟩ := (isInCurve_iff hd P).1 hcP
  obtain ⟨h1, h2, h3⟩ := (specMode w hw).edMulByCofactor hd hs (spec_ed hw hp.alloc_x hp.alloc_y hP)
    hp.varies_x hp.varies_y hs o s' h hsat
  exact ⟨_, mulByCofactor_affine P, ed_is h1, ed_signal h1 h2.newIn h3.newIn⟩

/-- C33 (complete): multiplication by the cofactor. -/
theorem C33_cofactor_complete_partial (hd : J.d = C.d) (hs : s.Honest) {p : CEdwardsPoint F} {P : EdwardsPoint F}
    (hp : p.IsSignal s) (hP : p.Carries s P) (hcP : P.isInCurve J = true) :
    ∃ o s' R, (p.mulByCofactor J).run s = .ok (o, s') ∧ s'.Honest ∧ P.mulByCofactor = .ok R ∧ o.Carries s' R ∧
      o.IsSignal s' := by
  obtain ⟨P, rfl⟩ := (isInCurve_iff hd P).1 hcP
  obtain ⟨o, s', hr, -, hh, h1, h2, h3⟩ := (runsMode F).edMulByCofactor hd hs (Q := P) hP hp.varies_x hp.varies_y
  exact ⟨o, s', _, hr, hh, mulByCofactor_affine P, h1, ed_signal h1 h2.newIn h3.newIn⟩

theorem run_of_map {m : M F (CEdwardsPoint F)} {l : LC F} {n : Nat}
    (h : (m.run s).map (fun r => (r.1.x.lc, r.2.cons.length)) = .ok (l, n)) :
    ∃ o s', m.run s = .ok (o, s') ∧ o.x.lc = l ∧ s'.cons.length = n := by
  cases hr : m.run s with
  | error e => rw [hr] at h; cases h
  | ok r => rw [hr] at h; cases h; exact ⟨r.1, r.2, rfl, rfl, rfl⟩

/-- C33 in full is false: constant points `G + G` on a small curve. `CNum` division by a signal inverts constants
(src/circuit/num.rs:495-500), so the sum of two constant points has inverted coordinates. -/
theorem C33_refuted : ¬ C33_full := by
  intro h
  obtain ⟨o, s', hr, hx, hc⟩ := run_of_map (show (((CEdwardsPoint.fromConst toyParams.g).add
    (CEdwardsPoint.fromConst toyParams.g) toyParams).run (CS.new .test)).map (fun r => (r.1.x.lc, r.2.cons.length)) =
      .ok ([(.input 0, 60)], 0) by decide +kernel)
  obtain ⟨R, hR, hR'⟩ := h 73 toyCurve toyParams _ s' _ _ o toyParams.g toyParams.g (fun _ => 1) rfl
    (CS.honest_new (F := ZMod 73) .test).wf (alloc_fromConst _) (alloc_fromConst _) (alloc_fromConst _) (alloc_fromConst _) rfl hr
    (by intro c hc'; rw [List.length_eq_zero_iff.1 hc] at hc'; cases hc') ⟨by decide +kernel, by decide +kernel⟩ ⟨by decide +kernel, by decide +kernel⟩
    (by decide +kernel) (by decide +kernel)
  have h1 : R.x = 60 := by rw [← hR'.1, hx]; decide +kernel
  have h2 : (toyParams.g.add toyParams.g toyParams).map EdwardsPoint.x = .ok R.x := by rw [hR]; rfl
  rw [h1] at h2
  exact absurd h2 (by decide +kernel)

/-- An allocated point is a signal: the hypotheses of the theorems in this file are met by every point the caller
allocates, on both back ends. -/
theorem alloc_point (hs : s.Honest) (P : EdwardsPoint F) :
    ∃ p s', (CEdwardsPoint.alloc (some P)).run s = .ok (p, s') ∧ s'.Honest ∧ p.Carries s' P ∧ p.IsSignal s' := by
  obtain ⟨p, s', hr, e, hh, h1, h2⟩ := CEdwardsPoint.runs_alloc_point hs P
  obtain ⟨f1, f2, a1, a2⟩ := CEdwardsPoint.post_alloc_point hs.wf (some P) p s' hr
  exact ⟨p, s', hr, hh, ⟨h1, h2⟩, ⟨a1, a2, f1.varies, f2.varies⟩⟩

/-- The base point of the BN256 curve, allocated and doubled. -/
example : ∃ (p : CEdwardsPoint (ZMod bnR)) (s : CS (ZMod bnR)), s.Honest ∧ p.Carries s bnParams.g ∧ p.IsSignal s ∧ bnParams.g.isInCurve bnParams = true := by
  obtain ⟨p, s, -, hh, hc, hs⟩ := alloc_point (CS.honest_new (F := ZMod bnR) .test) bnParams.g
  exact ⟨p, s, hh, hc, hs, (C25_affine_in_curve rfl _).2 ⟨bnG, bnG_affine⟩⟩

/-! ### C34 -/

/-- C34 (sound): if the constraints hold the point is on the curve. -/
theorem C34_sound (p : CEdwardsPoint F) {P : EdwardsPoint F} {u : Unit} (hw : IsAssignment w)
    (h : (p.assertInCurve J).run s = .ok (u, s')) (hsat : s'.Sat w) (hP : p.Is w P) : P.isInCurve J = true := by
  have h1 := CEdwardsPoint.spec_assertInCurve hw p s u s' h hsat
  have hx : p.x.eval w = P.x := hP.1
  have hy : p.y.eval w = P.y := hP.2
  rw [hx, hy] at h1
  unfold EdwardsPoint.isInCurve
  unfold OnCurve at h1
  simp only [beq_iff_eq]
  linear_combination h1

/-- C34 (complete): for a point on the curve the honest prover succeeds. -/
theorem C34_complete (hs : s.Honest) {p : CEdwardsPoint F} {P : EdwardsPoint F} (hP : p.Carries s P)
    (hc : P.isInCurve J = true) : ∃ s', (p.assertInCurve J).run s = .ok ((), s') ∧ s'.Honest := by
  unfold EdwardsPoint.isInCurve at hc
  simp only [beq_iff_eq] at hc
  obtain ⟨_, s', hr, -, hh, -⟩ := CEdwardsPoint.runs_assertInCurve (J := J) hs hP.1 hP.2
    (show OnCurve J.d P.x P.y by unfold OnCurve; linear_combination hc)
  exact ⟨s', hr, hh⟩

/-- C34 (exactly): the checking back end accepts iff the native check accepts. -/
theorem C34_succeeds_iff (hs : s.Honest) (hb : s.backend = .test) {p : CEdwardsPoint F} {P : EdwardsPoint F}
    (hP : p.Carries s P) : (∃ o, (p.assertInCurve J).run s = .ok o) ↔ P.isInCurve J = true := by
  constructor
  · rintro ⟨⟨u, s'⟩, hr⟩
    obtain ⟨hh, -⟩ := CEdwardsPoint.acc_assertInCurve ⟨⟨_, hP.1⟩, ⟨_, hP.2⟩⟩ hb hs u s' hr
    have e := M.run_ext hr
    exact C34_sound p (CS.assign_isAssignment s') hr hh.sat ⟨(hP.1.mono e).eval, (hP.2.mono e).eval⟩
  · intro hc
    obtain ⟨s', hr, -⟩ := C34_complete hs hP hc
    exact ⟨_, hr⟩

/-- A point that is not on the curve, and one that is. -/
example : (⟨1, 1⟩ : EdwardsPoint (ZMod bnR)).isInCurve bnParams = false := by
  rw [Bool.eq_false_iff, Ne, isInCurve_iff (C := bnCurve) rfl]
  rintro ⟨Q, hQ⟩
  have h := Q.on
  unfold OnCurve at h
  rw [show Q.x = 1 from (congrArg EdwardsPoint.x hQ).symm, show Q.y = 1 from (congrArg EdwardsPoint.y hQ).symm] at h
  have : bnCurve.d + 1 = 0 := by linear_combination -h
  exact bnCurve.one_add_d_ne (by linear_combination this)
example : bnParams.g.isInCurve bnParams = true := (C25_affine_in_curve rfl _).2 ⟨bnG, bnG_affine⟩

/-! ### C35 -/

section subgroup

variable [Fact J.l.Prime]

/-- The native test for membership in the prime subgroup, for affine points. -/
theorem isInSubgroup_iff (hd : J.d = C.d) (P : EdwardsPoint F) :
    (P.isInCurve J = true ∧ P.intoExtended.isInSubgroup J = true) ↔ ∃ Q : EdPoint C, J.l • Q = 0 ∧ P = Q.affine := by
  constructor
  · rintro ⟨h1, h2⟩
    obtain ⟨Q, rfl⟩ := (isInCurve_iff hd P).1 h1
    unfold EdwardsPointEx.isInSubgroup at h2
    rw [(mulRaw_l hd (Represents.of_affine Q) J.l).isZero_iff] at h2
    exact ⟨Q, h2, rfl⟩
  · rintro ⟨Q, h, rfl⟩
    refine ⟨(isInCurve_iff hd _).2 ⟨Q, rfl⟩, ?_⟩
    unfold EdwardsPointEx.isInSubgroup
    rw [(mulRaw_l hd (Represents.of_affine Q) J.l).isZero_iff]
    exact h

/-- C35 (sound): if the constraints hold, whatever preimage the prover chose, the point is a curve point of the prime
subgroup. -/
theorem C35_sound (hv : J.Valid C) (hs : s.WF) (p : CEdwardsPoint F) {P : EdwardsPoint F} {u : Unit} (hw : IsAssignment w)
    (h : (p.assertInSubgroup J).run s = .ok (u, s')) (hsat : s'.Sat w) (hP : p.Is w P) :
    P.isInCurve J = true ∧ P.intoExtended.isInSubgroup J = true := by
  obtain ⟨Q, hQ, hx, hy⟩ := CEdwardsPoint.spec_assertInSubgroup hw hv.d_eq hv.exponent hs p u s' h hsat
  refine (isInSubgroup_iff hv.d_eq P).2 ⟨Q, hQ, ?_⟩
  ext
  · exact hP.1.symm.trans hx.symm
  · exact hP.2.symm.trans hy.symm

/-- C35 (complete): for a point of the prime subgroup the honest prover succeeds. -/
theorem C35_complete (hv : J.Valid C) (hs : s.Honest) {p : CEdwardsPoint F} {P : EdwardsPoint F} (hP : p.Carries s P)
    (hc : P.isInCurve J = true) (hsub : P.intoExtended.isInSubgroup J = true) :
    ∃ s', (p.assertInSubgroup J).run s = .ok ((), s') ∧ s'.Honest := by
  obtain ⟨Q, hQ, rfl⟩ := (isInSubgroup_iff hv.d_eq P).1 ⟨hc, hsub⟩
  obtain ⟨_, s', hr, -, hh, -⟩ := CEdwardsPoint.runs_assertInSubgroup hs hv.d_eq hv.l_large hQ hP.1 hP.2
  exact ⟨s', hr, hh⟩

/-- C35 (exactly): the checking back end accepts iff the native checks accept. -/
theorem C35_succeeds_iff (hv : J.Valid C) (hs : s.Honest) (hb : s.backend = .test) {p : CEdwardsPoint F}
    {P : EdwardsPoint F} (hP : p.Carries s P) :
    (∃ o, (p.assertInSubgroup J).run s = .ok o) ↔ (P.isInCurve J = true ∧ P.intoExtended.isInSubgroup J = true) := by
  constructor
  · rintro ⟨⟨u, s'⟩, hr⟩
    obtain ⟨hh, -⟩ := CEdwardsPoint.acc_assertInSubgroup ⟨⟨_, hP.1⟩, ⟨_, hP.2⟩⟩ hb hs u s' hr
    have e := M.run_ext hr
    exact C35_sound hv hs.wf p (CS.assign_isAssignment s') hr hh.sat ⟨(hP.1.mono e).eval, (hP.2.mono e).eval⟩
  · rintro ⟨h1, h2⟩
    obtain ⟨s', hr, -⟩ := C35_complete hv hs hP h1 h2
    exact ⟨_, hr⟩

end subgroup

instance : Fact bnParams.l.Prime := ⟨bnParams_valid.l_prime⟩

/-- The base point of BN256 is in the subgroup, the point of order two is on the curve but not in the subgroup. -/
example : bnParams.g.isInCurve bnParams = true ∧ bnParams.g.intoExtended.isInSubgroup bnParams = true :=
  (isInSubgroup_iff (C := bnCurve) rfl _).2 ⟨bnG, bnG_order, bnG_affine⟩
example : ¬ ((⟨0, -1⟩ : EdwardsPoint (ZMod bnR)).isInCurve bnParams = true ∧
    (⟨0, -1⟩ : EdwardsPoint (ZMod bnR)).intoExtended.isInSubgroup bnParams = true) := by
  rw [isInSubgroup_iff (C := bnCurve) rfl]
  rintro ⟨Q, h, hQ⟩
  have h1 : Q = EdPoint.torsion2 := by
    ext
    · exact (congrArg EdwardsPoint.x hQ).symm
    · exact (congrArg EdwardsPoint.y hQ).symm
  exact ne_torsion2_of_killed (l := bnL) (by decide +kernel) h h1

/-! ### C36 -/

section decompress

variable [Fact J.l.Prime] {sqrt : F → Option F}

/-- C36 (sound): in every satisfying assignment the result is the point native `subgroup_decompress` returns; in
particular the native function does return a point. -/
theorem C36_sound (hv : J.Valid C) (hsq : IsSqrt sqrt) (hs : s.WF) (x : CNum F) {o : CEdwardsPoint F}
    (hw : IsAssignment w) (h : (CEdwardsPoint.subgroupDecompress sqrt x J).run s = .ok (o, s')) (hsat : s'.Sat w) :
    ∃ R, EdwardsPoint.subgroupDecompress sqrt (x.lc.eval w) J = .ok (some R) ∧ o.Is w R ∧ o.IsSignal s' := by
  obtain ⟨Q, hQ, hx, h1, h2, h3⟩ := CEdwardsPoint.spec_subgroupDecompress hw hv.d_eq hv.exponent hs x o s' h hsat
  refine ⟨Q.affine, ?_, ed_is h1, ed_signal h1 h2.newIn h3.newIn⟩
  have := C31_round_trip hsq hv hQ
  rwa [hx] at this

/-- C36: if the native function returns `None` the constraints are unsatisfiable: no assignment gives `x` that value. -/
theorem C36_unsatisfiable (hv : J.Valid C) (hsq : IsSqrt sqrt) (hs : s.WF) (x : CNum F) {o : CEdwardsPoint F}
    (h : (CEdwardsPoint.subgroupDecompress sqrt x J).run s = .ok (o, s')) {v : F}
    (hn : EdwardsPoint.subgroupDecompress sqrt v J = .ok none) :
    ¬ ∃ w, IsAssignment w ∧ s'.Sat w ∧ x.lc.eval w = v := by
  rintro ⟨w, hw, hsat, rfl⟩
  obtain ⟨R, hR, -⟩ := C36_sound hv hsq hs x hw h hsat
  rw [hn] at hR
  cases hR

/-- C36 (complete): if the native function returns a point, the honest prover gets that point. -/
theorem C36_complete (hv : J.Valid C) (hsq : IsSqrt sqrt) (hs : s.Honest) {x : CNum F} {v : F} {R : EdwardsPoint F}
    (hx : Has s x v) (hR : EdwardsPoint.subgroupDecompress sqrt v J = .ok (some R)) :
    ∃ o s', (CEdwardsPoint.subgroupDecompress sqrt x J).run s = .ok (o, s') ∧ s'.Honest ∧ o.Carries s' R ∧ o.IsSignal s' := by
  obtain ⟨o', ho', hp⟩ := C31_subgroup_decompress hsq hv v
  rw [hR] at ho'
  cases ho'
  obtain ⟨Q, hQ, rfl, rfl⟩ := (hp R).1 rfl
  obtain ⟨o, s', hr, -, hh, h1, h2, h3⟩ := CEdwardsPoint.runs_subgroupDecompress hs hsq hv.d_eq hv.l_large hQ hx
  exact ⟨o, s', hr, hh, h1, ed_signal h1 h2.newIn h3.newIn⟩

/-- C36 (exactly): the checking back end accepts iff the native function returns a point. -/
theorem C36_succeeds_iff (hv : J.Valid C) (hsq : IsSqrt sqrt) (hs : s.Honest) (hb : s.backend = .test) {x : CNum F} {v : F}
    (hx : Has s x v) : (∃ o, (CEdwardsPoint.subgroupDecompress sqrt x J).run s = .ok o) ↔
      ∃ R, EdwardsPoint.subgroupDecompress sqrt v J = .ok (some R) := by
  constructor
  · rintro ⟨⟨o, s'⟩, hr⟩
    obtain ⟨hh, -⟩ := CEdwardsPoint.acc_subgroupDecompress ⟨_, hx⟩ hb hs o s' hr
    obtain ⟨R, hR, -⟩ := C36_sound hv hsq hs.wf x (CS.assign_isAssignment s') hr hh.sat
    rw [(hx.mono (M.run_ext hr)).eval] at hR
    exact ⟨R, hR⟩
  · rintro ⟨R, hR⟩
    obtain ⟨o, s', hr, -⟩ := C36_complete hv hsq hs hx hR
    exact ⟨_, hr⟩

end decompress

/-- Concrete: the abscissa of the base point decompresses on BN256. -/
example : ∃ (sqrt : ZMod bnR → Option (ZMod bnR)) (s : CS (ZMod bnR)) (x : CNum (ZMod bnR)), IsSqrt sqrt ∧ s.Honest ∧
    Has s x bnG.x ∧ EdwardsPoint.subgroupDecompress sqrt bnG.x bnParams = .ok (some bnParams.g) := by
  obtain ⟨sqrt, hsq⟩ := exists_isSqrt (ZMod bnR)
  obtain ⟨x, s, _, _, hs, hx, -⟩ := runs_alloc (CS.honest_new (F := ZMod bnR) .test) bnG.x
  exact ⟨sqrt, s, x, hsq, hs, hx, by rw [bnG_affine]; exact C31_round_trip (J := bnParams) hsq bnParams_valid bnG_order⟩

/-! ### C37 -/

theorem spec_mo (hw : IsAssignment w) {p : CMontgomeryPoint F} {Q : EdPoint C} (h0 : Q ≠ 0) (hp : p.IsSignal s)
    (h : p.Is w Q.mont) : (specMode w hw).Mo s p Q := ⟨h0, ⟨hp.alloc_x, h.1⟩, ⟨hp.alloc_y, h.2⟩⟩

theorem mo_is {hw : IsAssignment w} {p : CMontgomeryPoint F} {Q : EdPoint C} (h : (specMode w hw).Mo s p Q) : p.Is w Q.mont :=
  ⟨h.2.1.2, h.2.2.2⟩

theorem mont_eq_zero_iff {Q : EdPoint C} (h0 : Q ≠ 0) : Q.mont = ⟨0, 0⟩ ↔ Q = EdPoint.torsion2 := by
  constructor
  · intro h; exact (EdPoint.montX_eq_zero_iff h0).1 (congrArg MontgomeryPoint.x h)
  · intro h
    ext
    · exact (EdPoint.montX_eq_zero_iff h0).2 h
    · exact (EdPoint.montY_eq_zero_iff h0).2 h

/-- C37: the condition on abscissas in the addition theorems excludes exactly `P = Q` (the documented precondition) and
`P = -Q` (whose sum has no Montgomery form). -/
theorem C37_condition {P Q : EdPoint C} (hP : P ≠ 0) (hQ : Q ≠ 0) : P.montX = Q.montX ↔ P = Q ∨ P = -Q :=
  EdPoint.montX_eq_iff hP hQ

/-- C37 (sound): Montgomery addition of points with different abscissas. -/
theorem C37_add_sound (ha : J.a = C.a) (hb : J.b = C.b) (hs : s.WF) {p q o : CMontgomeryPoint F} {P Q : EdPoint C}
    (hP0 : P ≠ 0) (hQ0 : Q ≠ 0) (hne : P ≠ Q) (hne' : P ≠ -Q) (hp : p.IsSignal s) (hq : q.IsSignal s)
    (vx : Varies (CNum.sub q.x p.x)) (vy : Varies (CNum.sub q.y p.y)) (hw : IsAssignment w)
    (h : (p.add q J).run s = .ok (o, s')) (hsat : s'.Sat w) (hP : p.Is w P.mont) (hQ : q.Is w Q.mont) :
    o.Is w (P + Q).mont := by
  obtain ⟨h1, -⟩ := (specMode w hw).moAdd ha hb hs (spec_mo hw hP0 hp hP) (spec_mo hw hQ0 hq hQ)
    (fun h => ((C37_condition hP0 hQ0).1 h).elim hne hne') vx vy hs o s' h hsat
  exact mo_is h1

/-- C37 (complete): Montgomery addition. -/
theorem C37_add_complete (ha : J.a = C.a) (hb : J.b = C.b) (hs : s.Honest) {p q : CMontgomeryPoint F} {P Q : EdPoint C}
    (hP0 : P ≠ 0) (hQ0 : Q ≠ 0) (hne : P ≠ Q) (hne' : P ≠ -Q)
    (vx : Varies (CNum.sub q.x p.x)) (vy : Varies (CNum.sub q.y p.y)) (hP : p.Carries s P.mont) (hQ : q.Carries s Q.mont) :
    ∃ o s', (p.add q J).run s = .ok (o, s') ∧ s'.Honest ∧ o.Carries s' (P + Q).mont := by
  obtain ⟨o, s', hr, -, hh, h1, -⟩ := (runsMode F).moAdd ha hb hs (P := P) (Q := Q) ⟨hP0, hP⟩ ⟨hQ0, hQ⟩
    (fun h => ((C37_condition hP0 hQ0).1 h).elim hne hne') vx vy
  exact ⟨o, s', hr, hh, h1.2⟩

/-- C37 (sound): Montgomery doubling of a point other than `(0, 0)`. -/
theorem C37_double_sound (ha : J.a = C.a) (hb : J.b = C.b) (hs : s.WF) {p o : CMontgomeryPoint F} {Q : EdPoint C}
    (hQ0 : Q ≠ 0) (hT : Q.mont ≠ ⟨0, 0⟩) (hp : p.IsSignal s) (hw : IsAssignment w)
    (h : (p.double J).run s = .ok (o, s')) (hsat : s'.Sat w) (hQ : p.Is w Q.mont) :
    o.Is w (Q + Q).mont ∧ o.IsSignal s' := by
  have hT' : Q ≠ EdPoint.torsion2 := fun h => hT ((mont_eq_zero_iff hQ0).2 h)
  obtain ⟨h1, h2, h3⟩ := (specMode w hw).moDouble ha hb hs (spec_mo hw hQ0 hp hQ) hT' hp.varies_x hp.varies_y hs o s' h hsat
  rw [← two_nsmul]
  exact ⟨mo_is h1, mo_signal h1 h2.varies h3.varies⟩

/-- C37 (complete): Montgomery doubling. -/
theorem C37_double_complete (ha : J.a = C.a) (hb : J.b = C.b) (hs : s.Honest) {p : CMontgomeryPoint F} {Q : EdPoint C}
    (hQ0 : Q ≠ 0) (hT : Q.mont ≠ ⟨0, 0⟩) (hp : p.IsSignal s) (hQ : p.Carries s Q.mont) :
    ∃ o s', (p.double J).run s = .ok (o, s') ∧ s'.Honest ∧ o.Carries s' (Q + Q).mont ∧ o.IsSignal s' := by
  have hT' : Q ≠ EdPoint.torsion2 := fun h => hT ((mont_eq_zero_iff hQ0).2 h)
  obtain ⟨o, s', hr, -, hh, h1, h2, h3⟩ := (runsMode F).moDouble ha hb hs (Q := Q) ⟨hQ0, hQ⟩ hT' hp.varies_x hp.varies_y
  rw [← two_nsmul]
  exact ⟨o, s', hr, hh, h1.2, mo_signal h1 h2.varies h3.varies⟩

/-- C37 (sound): conversion to Edwards form, for every point other than the neutral one — also `(0, 0)`. -/
theorem C37_into_edwards_sound (hs : s.WF) {p : CMontgomeryPoint F} {o : CEdwardsPoint F} {Q : EdPoint C}
    (hQ0 : Q ≠ 0) (hp : p.IsSignal s) (hw : IsAssignment w) (h : p.intoEdwards.run s = .ok (o, s')) (hsat : s'.Sat w)
    (hQ : p.Is w Q.mont) : o.Is w Q.affine ∧ o.IsSignal s' := by
  obtain ⟨h1, h2, h3⟩ := (specMode w hw).intoEdwards hs (spec_mo hw hQ0 hp hQ) hp.varies_x hp.varies_y trivial hs o s' h hsat
  exact ⟨ed_is h1, ed_signal h1 h2.newIn h3.newIn⟩

/-- C37 (complete): conversion to Edwards form. -/
theorem C37_into_edwards_complete (hs : s.Honest) {p : CMontgomeryPoint F} {Q : EdPoint C} (hQ0 : Q ≠ 0)
    (hp : p.IsSignal s) (hQ : p.Carries s Q.mont) :
    ∃ o s', p.intoEdwards.run s = .ok (o, s') ∧ s'.Honest ∧ o.Carries s' Q.affine ∧ o.IsSignal s' := by
  obtain ⟨o, s', hr, -, hh, h1, h2, h3⟩ := (runsMode F).intoEdwards hs (Q := Q) ⟨hQ0, hQ⟩ hp.varies_x hp.varies_y
  exact ⟨o, s', hr, hh, h1, ed_signal h1 h2.newIn h3.newIn⟩

/-- C37 (sound): conversion to Montgomery form agrees with the native one, for points of odd order (the code assumes a
non-zero subgroup point); more generally for all points but the neutral one and the one of order two. -/
theorem C37_into_montgomery_sound (hs : s.WF) {p : CEdwardsPoint F} {o : CMontgomeryPoint F} {Q : EdPoint C}
    (hQ0 : Q ≠ 0) (hT : Q.affine ≠ ⟨0, -1⟩) (hp : p.IsSignal s) (hw : IsAssignment w)
    (h : p.intoMontgomery.run s = .ok (o, s')) (hsat : s'.Sat w) (hQ : p.Is w Q.affine) :
    ∃ m, Q.affine.intoMontgomery = .ok (some m) ∧ o.Is w m ∧ o.IsSignal s' := by
  have hT' : Q ≠ EdPoint.torsion2 := by rintro rfl; exact hT rfl
  obtain ⟨h1, h2, h3⟩ := (specMode w hw).intoMontgomery hs (spec_ed hw hp.alloc_x hp.alloc_y hQ) hQ0 hT'
    hp.varies_x hp.varies_y hs o s' h hsat
  exact ⟨_, intoMontgomery_ok hQ0, mo_is h1, mo_signal h1 h2.varies h3.varies⟩

/-- C37 (complete): conversion to Montgomery form. -/
theorem C37_into_montgomery_complete (hs : s.Honest) {p : CEdwardsPoint F} {Q : EdPoint C}
    (hQ0 : Q ≠ 0) (hT : Q.affine ≠ ⟨0, -1⟩) (hp : p.IsSignal s) (hQ : p.Carries s Q.affine) :
    ∃ o s' m, p.intoMontgomery.run s = .ok (o, s') ∧ s'.Honest ∧ Q.affine.intoMontgomery = .ok (some m) ∧ o.Carries s' m ∧
      o.IsSignal s' := by
  have hT' : Q ≠ EdPoint.torsion2 := by rintro rfl; exact hT rfl
  obtain ⟨o, s', hr, -, hh, h1, h2, h3⟩ := (runsMode F).intoMontgomery hs (Q := Q) hQ hQ0 hT' hp.varies_x hp.varies_y
  exact ⟨o, s', _, hr, hh, intoMontgomery_ok hQ0, h1.2, mo_signal h1 h2.varies h3.varies⟩

/-- C37: subgroup points other than zero meet the precondition of the conversion. -/
theorem C37_subgroup_ok {l : Nat} (hl : l % 2 = 1) {Q : EdPoint C} (hQ : InSubgroup l Q) : Q.affine ≠ ⟨0, -1⟩ := by
  intro h
  have h1 : Q = EdPoint.torsion2 := by
    ext
    · exact congrArg EdwardsPoint.x h
    · exact congrArg EdwardsPoint.y h
  exact ne_torsion2_of_killed hl hQ h1

/-- Concrete: the base point of BN256 meets the preconditions, allocated in either form. -/
example : bnG ≠ 0 ∧ bnG.affine ≠ ⟨0, -1⟩ ∧ bnG.mont ≠ ⟨0, 0⟩ ∧ bnG ≠ bnG + bnG ∧ bnG ≠ -(bnG + bnG) := by
  have hT := C37_subgroup_ok (C := bnCurve) (l := bnL) (by decide +kernel) bnG_order
  refine ⟨bnG_ne_zero, hT, fun h => hT ?_, fun h => bnG_ne_zero ?_, fun h => ?_⟩
  · rw [(mont_eq_zero_iff bnG_ne_zero).1 h]; rfl
  · simpa using h
  · have h3 : 3 • bnG = 0 := by
      have : bnG + (bnG + bnG) = 0 := by rw [eq_neg_iff_add_eq_zero] at h; exact h
      rw [← this, succ_nsmul, two_nsmul]; abel
    exact nsmul_ne_zero_of_lt bnParams_valid.l_prime bnG_order bnG_ne_zero (by norm_num) (by decide +kernel) h3

/-! ### C38 -/

/-- The bits a list of signals spells. -/
theorem spec_bits (hw : IsAssignment w) {bits : List (CBool F)} {bs : List Bool} (ha : ∀ b ∈ bits, b.num.lc.Alloc s)
    (h : SpellsBits w bits bs) : (specMode w hw).Bits s bits bs :=
  (forall₂_and_mem h ha).imp fun _ _ h => h

theorem val_cast_nsmul {l : Nat} {Q : EdPoint C} (h : l • Q = 0) (n : Nat) : ((n : ZMod l).val) • Q = n • Q := by
  rw [ZMod.val_natCast]
  conv_rhs => rw [← Nat.mod_add_div n l, add_nsmul, mul_nsmul, h, nsmul_zero, add_zero]

/-- C38 (sound): in every satisfying assignment in which the inputs are bits, multiplication of a subgroup point
(also of zero) gives the native multiple by the scalar with these bits, for bit strings of every length — also beyond the
length of the group order. The bits must not be constants in disguise, and not all constant zero. -/
theorem C38_sound (hv : J.Valid C) [Fact J.l.Prime] (hs : s.WF) {p o : CEdwardsPoint F} {Q : EdPoint C}
    (hQl : InSubgroup J.l Q) (hp : p.IsSignal s) {bits : List (CBool F)} {bs : List Bool}
    (hba : ∀ b ∈ bits, b.num.lc.Alloc s) (hpl : ∀ b ∈ bits, Plain b.num) (hnz : ∃ b ∈ bits, b.num.asConst ≠ some 0)
    (hw : IsAssignment w) (h : (p.mul bits J).run s = .ok (o, s')) (hsat : s'.Sat w) (hP : p.Is w Q.affine)
    (hbs : SpellsBits w bits bs) :
    o.Is w (bitsNat bs • Q).affine ∧ Q.affine.mul (bitsNat bs : ZMod J.l) J = .ok (bitsNat bs • Q).affine ∧
      o.IsSignal s' := by
  obtain ⟨G, hJG, hG0, hG⟩ := hv.base
  have hl2 : J.l % 2 = 1 := hv.l_prime.eq_two_or_odd.resolve_left (by have := hv.l_large; omega)
  unfold CEdwardsPoint.mul at h
  have hc : p.asConst = none := by unfold CEdwardsPoint.asConst; rw [hp.varies_x.asConst]; rfl
  rw [hc] at h
  obtain ⟨h1, h2, h3⟩ := (specMode w hw).mulVarBase hv.a_eq hv.b_eq hl2 hG hG0 hJG hQl hs (spec_ed hw hp.alloc_x hp.alloc_y hP)
    hp.varies_x hp.varies_y (spec_bits hw hba hbs) hpl hnz trivial trivial hs o s' h hsat
  exact ⟨ed_is h1, by rw [C28_mul hv.d_eq, val_cast_nsmul hQl], ed_signal h1 h2 h3⟩

/-- C38 (complete): the honest prover never meets an exceptional case of the incomplete Montgomery addition. -/
theorem C38_complete (hv : J.Valid C) (hs : s.Honest) {p : CEdwardsPoint F} {Q : EdPoint C}
    (hQl : InSubgroup J.l Q) (hp : p.IsSignal s) {bits : List (CBool F)} {bs : List Bool}
    (hpl : ∀ b ∈ bits, Plain b.num) (hnz : ∃ b ∈ bits, b.num.asConst ≠ some 0)
    (hP : p.Carries s Q.affine) (hbs : CarriesBits s bits bs) :
    ∃ o s', (p.mul bits J).run s = .ok (o, s') ∧ s'.Honest ∧ o.Carries s' (bitsNat bs • Q).affine ∧ o.IsSignal s' := by
  obtain ⟨G, hJG, hG0, hG⟩ := hv.base
  have hl2 : J.l % 2 = 1 := hv.l_prime.eq_two_or_odd.resolve_left (by have := hv.l_large; omega)
  have hc : p.asConst = none := by unfold CEdwardsPoint.asConst; rw [hp.varies_x.asConst]; rfl
  obtain ⟨o, s', hr, -, hh, h1, h2, h3⟩ := (runsMode F).mulVarBase hv.a_eq hv.b_eq hl2 hG hG0 hJG hQl hs (Q := Q) hP
    hp.varies_x hp.varies_y hbs hpl hnz
  exact ⟨o, s', by unfold CEdwardsPoint.mul; rw [hc]; exact hr, hh, h1, ed_signal h1 h2 h3⟩

/-- C38: signals in canonical form, which is what every operation of the library returns, are not constants in
disguise. -/
theorem C38_plain {b : CBool F} (h : b.num.lc.Canonical) : Plain b.num := Plain.of_canonical h

/-- C38: the remaining case. Without any bit that can be one (no bits at all, or all of them constant zero) `mul` does not
return for a variable base: it panics. -/
theorem C38_panics {p : CEdwardsPoint F} (hp : p.asConst = none) {bits : List (CBool F)}
    (h0 : ∀ b ∈ bits, b.num.asConst = some 0) (o : CEdwardsPoint F × CS F) : (p.mul bits J).run s ≠ .ok o := by
  intro h
  unfold CEdwardsPoint.mul at h
  rw [hp] at h
  exact IsZeroLC.mulVarBase p bits h0 o.1 o.2 h

/-- Concrete: the base point of BN256 and an allocated bit. -/
example : ∃ (p : CEdwardsPoint (ZMod bnR)) (b : CBool (ZMod bnR)) (s : CS (ZMod bnR)), s.Honest ∧ p.Carries s bnG.affine ∧
    p.IsSignal s ∧ CarriesBits s [b] [true] ∧ Plain b.num ∧ b.num.asConst ≠ some 0 ∧ InSubgroup bnParams.l bnG := by
  obtain ⟨p, s, -, hh, hc, hs⟩ := alloc_point (CS.honest_new (F := ZMod bnR) .test) bnG.affine
  obtain ⟨b, s', _, e, hs', hx, hf⟩ := runs_alloc hh (1 : ZMod bnR)
  refine ⟨p, ⟨b⟩, s', hs', ⟨hc.1.mono e, hc.2.mono e⟩, ⟨hs.alloc_x.mono e, hs.alloc_y.mono e, hs.varies_x, hs.varies_y⟩,
    .cons (by simpa using hx) .nil, Plain.of_varies hf.varies, ?_, bnG_order⟩
  rw [hf.varies.asConst]; simp

/-! ### C39 -/

/-- C39 in full: multiplication of a constant point of the prime subgroup by any bits. -/
def C39_full : Prop :=
  ∀ (r : Nat) [Fact r.Prime] (C : EdCurve (ZMod r)) (J : JubJubParams (ZMod r)) (s s' : CS (ZMod r)) (B : EdPoint C)
    (o : CEdwardsPoint (ZMod r)) (bits : List (CBool (ZMod r))) (bs : List Bool) (w : Index → ZMod r), J.Valid C → s.WF →
    InSubgroup J.l B → (∀ b ∈ bits, b.num.lc.Alloc s) → IsAssignment w →
    ((CEdwardsPoint.fromConst B.affine).mul bits J).run s = .ok (o, s') → s'.Sat w → SpellsBits w bits bs →
    o.Is w (bitsNat bs • B).affine

/-- C39 in full is false: a constant bit. -/
theorem C39_refuted : ¬ C39_full := by
  intro h
  obtain ⟨o, s', hr, hx, hc⟩ := run_of_map (show (((CEdwardsPoint.fromConst toyG.affine).mul [CBool.fromConst true]
    toyParams).run (CS.new .test)).map (fun r => (r.1.x.lc, r.2.cons.length)) = .ok ([(.input 0, 52)], 0) by decide +kernel)
  have h1 := h 73 toyCurve toyParams _ s' toyG o [CBool.fromConst true] [true] (fun _ => 1) toyParams_valid
    (CS.honest_new (F := ZMod 73) .test).wf toyG_order (by
      intro b hb; rw [List.mem_singleton] at hb; subst hb; exact alloc_fromConst _) rfl hr
    (by intro c hc'; rw [List.length_eq_zero_iff.1 hc] at hc'; cases hc') (.cons (by decide +kernel) .nil)
  have h2 := h1.1
  rw [hx, show bitsNat [true] = 1 from rfl, one_nsmul] at h2
  exact absurd h2 (by decide +kernel)

theorem mul_fromConst (c : EdwardsPoint F) (bits : List (CBool F)) :
    (CEdwardsPoint.fromConst c).mul bits J = CEdwardsPoint.mulConstBase c bits J := by
  unfold CEdwardsPoint.mul
  have : (CEdwardsPoint.fromConst c).asConst = some c := by
    unfold CEdwardsPoint.asConst CEdwardsPoint.fromConst; simp [CNum.asConst_fromConst]
  rw [this]

/-- C39 (sound): in every satisfying assignment the result is the native multiple of the constant base, for bit strings of
every length from two on, if the first three bits are independent signals (for instance separately allocated ones).
Missing for the full statement: a first window of constant or dependent bits, a single bit, no bits. -/
theorem C39_sound_partial (hv : J.Valid C) [Fact J.l.Prime] (hs : s.WF) {o : CEdwardsPoint F} {B : EdPoint C}
    (hB : InSubgroup J.l B) {bits : List (CBool F)} {bs : List Bool} (hba : ∀ b ∈ bits, b.num.lc.Alloc s)
    (h2 : 2 ≤ bits.length) (hind : Independent ((bits.take 3).map CBool.num)) (hw : IsAssignment w)
    (h : ((CEdwardsPoint.fromConst B.affine).mul bits J).run s = .ok (o, s')) (hsat : s'.Sat w)
    (hbs : SpellsBits w bits bs) :
    o.Is w (bitsNat bs • B).affine ∧ B.affine.mul (bitsNat bs : ZMod J.l) J = .ok (bitsNat bs • B).affine ∧
      (B ≠ 0 → o.IsSignal s') := by
  rw [mul_fromConst] at h
  obtain ⟨h1, h3⟩ := (specMode w hw).mulConstBase hv.d_eq hv.a_eq hv.b_eq hv.l_prime hv.l_large hB hs
    (spec_bits hw hba hbs) h2 hind (fun _ => trivial) hs o s' h hsat
  exact ⟨ed_is h1, by rw [C28_mul hv.d_eq, val_cast_nsmul hB], fun h0 => ed_signal h1 (h3 h0).1 (h3 h0).2⟩

/-- C39 (complete). -/
theorem C39_complete_partial (hv : J.Valid C) (hs : s.Honest) {B : EdPoint C} (hB : InSubgroup J.l B)
    {bits : List (CBool F)} {bs : List Bool} (h2 : 2 ≤ bits.length) (hind : Independent ((bits.take 3).map CBool.num))
    (hbs : CarriesBits s bits bs) :
    ∃ o s', ((CEdwardsPoint.fromConst B.affine).mul bits J).run s = .ok (o, s') ∧ s'.Honest ∧
      o.Carries s' (bitsNat bs • B).affine ∧ (B ≠ 0 → o.IsSignal s') := by
  obtain ⟨o, s', hr, -, hh, h1, h3⟩ := (runsMode F).mulConstBase hv.d_eq hv.a_eq hv.b_eq hv.l_prime hv.l_large hB hs
    hbs h2 hind
  exact ⟨o, s', by rw [mul_fromConst]; exact hr, hh, h1, fun h0 => ed_signal h1 (h3 h0).1 (h3 h0).2⟩

/-- C39 (scalars): multiplication of a constant point by the `n ≥ 4` bits of a signal that is not a constant — the way the
library itself uses it — always returns a multiple by a number congruent to that signal. -/
theorem C39_scalar_sound {r : Nat} [Fact r.Prime] {C : EdCurve (ZMod r)} {J : JubJubParams (ZMod r)} {s s1 s' : CS (ZMod r)}
    {w : Index → ZMod r} (hv : J.Valid C) [Fact J.l.Prime] (hs : s.WF) {x : CNum (ZMod r)} (hxa : x.lc.Alloc s)
    (hx : x.asConst = none) {n : Nat} (hn : 4 ≤ n) {o : CEdwardsPoint (ZMod r)} {B : EdPoint C} (hB : InSubgroup J.l B)
    {bits : List (CBool (ZMod r))} (hw : IsAssignment w) (hbits : (Bitify.intoBitsLE x n).run s = .ok (bits, s1))
    (h : ((CEdwardsPoint.fromConst B.affine).mul bits J).run s1 = .ok (o, s')) (hsat : s'.Sat w) :
    ∃ k : Nat, k < 2 ^ n ∧ (k : ZMod r) = x.lc.eval w ∧ o.Is w (k • B).affine := by
  have h2 : r ≠ 2 := fun h => C.two_ne_zero (by subst h; exact CharP.cast_eq_zero (ZMod 2) 2)
  have hsat1 : s1.Sat w := (M.run_ext h).sat hsat
  obtain ⟨bs, hbl, hsp, hval⟩ := spec_intoBits hw x n s bits s1 hbits hsat1
  obtain ⟨hl, hsh, hind⟩ := post_intoBits_shape h2 (by omega) hs hxa hx bits s1 hbits
  refine ⟨bitsNat bs, by rw [← hbl]; exact bitsNat_lt bs, hval.symm, ?_⟩
  exact (C39_sound_partial hv ((M.run_ext hbits).wf hs) hB (fun b hb => (hsh b hb).1) (by omega) (hind hn) hw h hsat hsp).1

/-- C39 (scalars, complete). -/
theorem C39_scalar_complete {r : Nat} [Fact r.Prime] {C : EdCurve (ZMod r)} {J : JubJubParams (ZMod r)} {s : CS (ZMod r)}
    (hv : J.Valid C) (hs : s.Honest) {x : CNum (ZMod r)} {v : ZMod r} (hx : Has s x v) (hxc : x.asConst = none) {n : Nat}
    (hn : 4 ≤ n) (hlim : n ≤ 64 * nLimbs r) (hlt : v.val < 2 ^ n) {B : EdPoint C} (hB : InSubgroup J.l B) :
    ∃ bits s1 o s', (Bitify.intoBitsLE x n).run s = .ok (bits, s1) ∧
      ((CEdwardsPoint.fromConst B.affine).mul bits J).run s1 = .ok (o, s') ∧ s'.Honest ∧
      o.Carries s' (v.val • B).affine := by
  have h2 : r ≠ 2 := fun h => C.two_ne_zero (by subst h; exact CharP.cast_eq_zero (ZMod 2) 2)
  obtain ⟨bits, s1, hr, -, hh, hb⟩ := runs_intoBits hs hx n (by omega) hlim hlt
  obtain ⟨hl, -, hind⟩ := post_intoBits_shape h2 (by omega) hs.wf hx.alloc hxc bits s1 hr
  obtain ⟨o, s', hr', hh', hc, -⟩ := C39_complete_partial hv hh hB (by omega) (hind hn) hb
  rw [bitsNat_lowBits, Nat.mod_eq_of_lt hlt] at hc
  exact ⟨bits, s1, o, s', hr, hr', hh', hc⟩

/-- Concrete: the four bits of an allocated `13` on BN256 meet the hypotheses of the C39 theorems. -/
example : ∃ (x : CNum (ZMod bnR)) (bits : List (CBool (ZMod bnR))) (s s1 : CS (ZMod bnR)), s.Honest ∧ Has s x ((13 : Nat) : ZMod bnR) ∧
    x.asConst = none ∧ (Bitify.intoBitsLE x 4).run s = .ok (bits, s1) ∧ s1.Honest ∧
    CarriesBits s1 bits [true, false, true, true] ∧ Independent ((bits.take 3).map CBool.num) ∧
    InSubgroup bnParams.l bnG := by
  obtain ⟨x, s, _, _, hs, hx, hf⟩ := runs_alloc (CS.honest_new (F := ZMod bnR) .test) ((13 : Nat) : ZMod bnR)
  have hc : x.asConst = none := hf.varies.asConst
  have hv : ((13 : Nat) : ZMod bnR).val = 13 := by rw [ZMod.val_natCast]; decide +kernel
  obtain ⟨bits, s1, hr, -, hh, hb⟩ := runs_intoBits hs hx 4 (by omega) (by decide +kernel) (by rw [hv]; norm_num)
  rw [hv] at hb
  obtain ⟨-, -, hind⟩ := post_intoBits_shape (by decide +kernel) (by omega) hs.wf hx.alloc hc bits s1 hr
  exact ⟨x, bits, s, s1, hs, hx, hc, hr, hh, hb, hind (by omega), bnG_order⟩

/-! ### C40 -/

section hash

variable {r : Nat} [Fact r.Prime] {C : EdCurve (ZMod r)} {J : JubJubParams (ZMod r)}
  {sqrt : ZMod r → Option (ZMod r)} {s s' : CS (ZMod r)} {w : Index → ZMod r}

/-- C40 in full: in every satisfying assignment `from_scalar` in the circuit gives the point of the native `from_scalar`, for all `t`.
False for constants (`C40_refuted` in Props/CEccConst.lean). -/
def C40_full : Prop :=
  ∀ (r : Nat) [Fact r.Prime] (C : EdCurve (ZMod r)) (J : JubJubParams (ZMod r)) (sqrt : ZMod r → Option (ZMod r)) (s s' : CS (ZMod r))
    (w : Index → ZMod r) (t : CNum (ZMod r)) (o : CEdwardsPoint (ZMod r)), J.Valid C → IsSqrt sqrt → 8 ≤ r → s.WF → t.lc.Alloc s →
    IsAssignment w → (CEdwardsPoint.fromScalar sqrt t J).run s = .ok (o, s') → s'.Sat w →
    t.lc.eval w ≠ -1 ∧ ∃ R, EdwardsPoint.fromScalar sqrt (t.lc.eval w) J = .ok R ∧ o.Is w R

/-- C40 (sound), for a `t` that is not a constant: in every satisfying assignment, whatever square roots the prover chose, the result is the native
`from_scalar`; `t = -1` satisfies no assignment. -/
theorem C40_sound_partial (hv : J.Valid C) (hsq : IsSqrt sqrt) (h8 : 8 ≤ r) (hs : s.WF) {t : CNum (ZMod r)} (hta : t.lc.Alloc s)
    (vt : Varies t) {o : CEdwardsPoint (ZMod r)} (hw : IsAssignment w)
    (h : (CEdwardsPoint.fromScalar sqrt t J).run s = .ok (o, s')) (hsat : s'.Sat w) :
    t.lc.eval w ≠ -1 ∧ ∃ R, EdwardsPoint.fromScalar sqrt (t.lc.eval w) J = .ok R ∧ o.Is w R ∧ o.IsSignal s' := by
  obtain ⟨hne, Q, hQ, h1, h2, h3⟩ := CEdwardsPoint.spec_fromScalar hw hv.d_eq hv.a_eq hv.b_eq hv.u_nonsquare h8 hs hta vt
    o s' h hsat
  obtain ⟨Q', hQ', hR⟩ := fromScalar_ok hsq hv.a_eq hv.b_eq hv.u_nonsquare hne
  rw [hQ'.unique hQ] at hR
  exact ⟨hne, _, hR, ed_is h1, ed_signal h1 h2.newIn h3.newIn⟩

/-- C40 (complete), for a `t` that is not a constant: for `t ≠ -1` the honest prover succeeds with the native result. -/
theorem C40_complete_partial (hv : J.Valid C) (hsq : IsSqrt sqrt) (h8 : 8 ≤ r) (hs : s.Honest) {t : CNum (ZMod r)} {tv : ZMod r}
    (ht : Has s t tv) (vt : Varies t) (hne : tv ≠ -1) :
    ∃ o s' R, (CEdwardsPoint.fromScalar sqrt t J).run s = .ok (o, s') ∧ s'.Honest ∧
      EdwardsPoint.fromScalar sqrt tv J = .ok R ∧ o.Carries s' R ∧ o.IsSignal s' := by
  obtain ⟨o, s', hr, -, hh, Q, hQ, h1, h2, h3⟩ := CEdwardsPoint.runs_fromScalar hsq hv.d_eq hv.a_eq hv.b_eq hv.u_nonsquare h8 hs
    ht vt hne
  obtain ⟨Q', hQ', hR⟩ := fromScalar_ok hsq hv.a_eq hv.b_eq hv.u_nonsquare hne
  rw [hQ'.unique hQ] at hR
  exact ⟨o, s', _, hr, hh, hR, h1, ed_signal h1 h2.newIn h3.newIn⟩

end hash

/-- Concrete: an allocated `t = 5` on BN256. -/
example : ∃ (s : CS (ZMod bnR)) (t : CNum (ZMod bnR)), s.Honest ∧ Has s t ((5 : Nat) : ZMod bnR) ∧ Varies t := by
  obtain ⟨t, s, _, _, hs, hx, hf⟩ := runs_alloc (CS.honest_new (F := ZMod bnR) .test) ((5 : Nat) : ZMod bnR)
  exact ⟨s, t, hs, hx, hf.varies⟩

end Fawkes.Props
