import Verif.Props.Bitify
import Verif.Props.CEcc

/-!
# Properties C14 and C34–C36 on every back end

The theorems `…_succeeds_iff` say when the checking back end accepts.  The proving back end does not check anything: there a bad
witness shows in constraints that it does not satisfy.  `Provable s m` covers all back ends: the call does not panic and the
recorded values of the variables satisfy all constraints, those of before and the new ones.
-/

set_option linter.unusedSectionVars false

namespace Fawkes.Props

open Fawkes Bitify

/-- From the state `s` the call does not panic, and the values recorded satisfy all constraints afterwards. -/
def Provable {F α : Type} [Field F] [DecidableEq F] (s : CS F) (m : M F α) : Prop :=
  ∃ o s', m.run s = .ok (o, s') ∧ s'.Sat s'.assign

/-- C14 (every back end): the decomposition of a signal with value `v` in `n` bits can be proved iff `v < 2^n`. -/
theorem C14_provable_iff {p : Nat} [Fact p.Prime] (x : CNum (ZMod p)) (n : Nat) (h1 : 1 ≤ n) (h2 : n ≤ 64 * nLimbs p) (s : CS (ZMod p))
    (hs : s.Honest) (v : ZMod p) (hx : Has s x v) : Provable s (intoBitsLE x n) ↔ v.val < 2 ^ n := by
  constructor
  · rintro ⟨bits, s', hr, hsat⟩
    by_contra hcon
    have hle : 2 ^ n ≤ p := (not_lt.1 hcon).trans (ZMod.val_lt v).le
    have := (C14_unique x n hle s s' bits _ (CS.assign_isAssignment s') hr hsat).1
    rw [(hx.mono (M.run_ext hr)).eval] at this
    exact hcon this
  · intro hv
    obtain ⟨bits, s', hr, hh, -⟩ := C14_complete x n h1 h2 s hs v hx hv
    exact ⟨_, _, hr, hh.sat⟩

section

variable {F : Type} [Field F] [DecidableEq F] {C : EdCurve F} {J : JubJubParams F} {s : CS F}

/-- C34 (every back end): `assert_in_curve` can be proved for exactly the points that the native check accepts. -/
theorem C34_provable_iff (hs : s.Honest) {p : CEdwardsPoint F} {P : EdwardsPoint F} (hP : p.Carries s P) :
    Provable s (p.assertInCurve J) ↔ P.isInCurve J = true := by
  constructor
  · rintro ⟨u, s', hr, hsat⟩
    have e := M.run_ext hr
    exact C34_sound p (CS.assign_isAssignment s') hr hsat ⟨(hP.1.mono e).eval, (hP.2.mono e).eval⟩
  · intro hc
    obtain ⟨s', hr, hh⟩ := C34_complete hs hP hc
    exact ⟨_, _, hr, hh.sat⟩

variable [Fact J.l.Prime]

/-- C35 (every back end): `assert_in_subgroup` can be proved for exactly the points that the native checks accept. -/
theorem C35_provable_iff (hv : J.Valid C) (hs : s.Honest) {p : CEdwardsPoint F} {P : EdwardsPoint F} (hP : p.Carries s P) :
    Provable s (p.assertInSubgroup J) ↔ (P.isInCurve J = true ∧ P.intoExtended.isInSubgroup J = true) := by
  constructor
  · rintro ⟨u, s', hr, hsat⟩
    have e := M.run_ext hr
    exact C35_sound hv hs.wf p (CS.assign_isAssignment s') hr hsat ⟨(hP.1.mono e).eval, (hP.2.mono e).eval⟩
  · rintro ⟨h1, h2⟩
    obtain ⟨s', hr, hh⟩ := C35_complete hv hs hP h1 h2
    exact ⟨_, _, hr, hh.sat⟩

/-- C36 (every back end): decompression can be proved for exactly the abscissas for which the native function returns a point. -/
theorem C36_provable_iff {sqrt : F → Option F} (hv : J.Valid C) (hsq : IsSqrt sqrt) (hs : s.Honest) {x : CNum F} {v : F} (hx : Has s x v) :
    Provable s (CEdwardsPoint.subgroupDecompress sqrt x J) ↔ ∃ R, EdwardsPoint.subgroupDecompress sqrt v J = .ok (some R) := by
  constructor
  · rintro ⟨o, s', hr, hsat⟩
    obtain ⟨R, hR, -⟩ := C36_sound hv hsq hs.wf x (CS.assign_isAssignment s') hr hsat
    rw [(hx.mono (M.run_ext hr)).eval] at hR
    exact ⟨R, hR⟩
  · rintro ⟨R, hR⟩
    obtain ⟨o, s', hr, hh, -⟩ := C36_complete hv hsq hs hx hR
    exact ⟨_, _, hr, hh.sat⟩

end

/-- In the field of seven elements 3 has two bits and 5 has not: on the proving back end both calls return, and only for the first do the
values satisfy the constraints. -/
example : Provable exState (intoBitsLE ⟨some 3, [(.aux 0, 1)]⟩ 2) :=
  (C14_provable_iff _ 2 (by decide) (by decide) exState exState_honest 3 exState_x).2 (by decide)
example : ¬ Provable exState (intoBitsLE ⟨some 5, [(.aux 1, 1)]⟩ 2) ∧ (((intoBitsLE ⟨some 5, [(.aux 1, 1)]⟩ 2).run exState).isOk = true) :=
  ⟨fun h => absurd ((C14_provable_iff _ 2 (by decide) (by decide) exState exState_honest 5 exState_y).1 h) (by decide), by decide +kernel⟩

/-- The base point of BN256 on the proving back end. -/
example : ∃ (p : CEdwardsPoint (ZMod bnR)) (s : CS (ZMod bnR)), s.Honest ∧ s.backend = .prove ∧ Provable s (p.assertInCurve bnParams) ∧
    Provable s (p.assertInSubgroup bnParams) := by
  obtain ⟨p, s, hr, hh, hc, -⟩ := alloc_point (CS.honest_new (F := ZMod bnR) .prove) bnParams.g
  have hg := (isInSubgroup_iff (J := bnParams) (C := bnCurve) rfl bnParams.g).2 ⟨bnG, bnG_order, bnG_affine⟩
  exact ⟨p, s, hh, (M.run_ext hr).backend, (C34_provable_iff hh hc).2 hg.1, (C35_provable_iff bnParams_valid hh hc).2 hg⟩

/-- Its abscissa is decompressed. -/
example : ∃ (sqrt : ZMod bnR → Option (ZMod bnR)) (s : CS (ZMod bnR)) (x : CNum (ZMod bnR)), s.Honest ∧ Has s x bnG.x ∧
    Provable s (CEdwardsPoint.subgroupDecompress sqrt x bnParams) := by
  obtain ⟨sqrt, hsq⟩ := exists_isSqrt (ZMod bnR)
  obtain ⟨x, s, _, _, hs, hx, -⟩ := runs_alloc (CS.honest_new (F := ZMod bnR) .prove) bnG.x
  exact ⟨sqrt, s, x, hs, hx, (C36_provable_iff bnParams_valid hsq hs hx).2 ⟨_, C31_round_trip (J := bnParams) hsq bnParams_valid bnG_order⟩⟩

end Fawkes.Props
