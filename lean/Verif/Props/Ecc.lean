import Verif.Lemmas.Shipped

/-!
# Native curve arithmetic: C25–C32, C44

`C : EdCurve F` is a curve `y² - x² = 1 + d x² y²` with non-square `d` and square `-1`; `EdPoint C` is its group
(`Verif.Spec.Edwards`, no reference to the library), `Represents` and `EdPoint.affine` (`Verif.Spec.Ecc`) say which
group element a library value stands for.  Both shipped curves are instances (C44), and are used for the examples.
-/

namespace Fawkes.Props

variable {F : Type} [Field F] [DecidableEq F] {C : EdCurve F} {J : JubJubParams F}

/-- A square root function exists for every field (what the `ff` crate computes is one). -/
theorem exists_isSqrt (F : Type) [Field F] : ∃ sqrt : F → Option F, IsSqrt sqrt := by
  classical
  refine ⟨fun a => if h : IsSquare a then some h.choose else none, ⟨?_, ?_⟩⟩
  · intro a b hb
    split at hb
    · next h =>
      cases hb
      exact h.choose_spec.symm
    · cases hb
  · intro a h
    exact ⟨h.choose, by simp only [dif_pos h]⟩

/-- The base point of the BN256 curve, as a group element. -/
noncomputable def bnG : EdPoint bnCurve := bnParams_valid.base.choose

theorem bnG_affine : bnParams.g = bnG.affine := bnParams_valid.base.choose_spec.1
theorem bnG_ne_zero : bnG ≠ 0 := bnParams_valid.base.choose_spec.2.1
theorem bnG_order : bnL • bnG = 0 := bnParams_valid.base.choose_spec.2.2

/-! ### C25 -/

/-- C25: an extended point passes the curve check exactly if it represents a curve point. -/
theorem C25_in_curve (hd : J.d = C.d) (P : EdwardsPointEx F) :
    P.isInCurve J = true ↔ ∃ Q : EdPoint C, Represents P Q := isInCurve_ex_iff hd P

/-- C25: an affine point passes the curve check exactly if it is a curve point. -/
theorem C25_affine_in_curve (hd : J.d = C.d) (p : EdwardsPoint F) :
    p.isInCurve J = true ↔ ∃ Q : EdPoint C, p = Q.affine := isInCurve_iff hd p

/-- C25: addition of any representatives of any two curve points represents their sum: no exceptional inputs. -/
theorem C25_add (hd : J.d = C.d) {P P' : EdwardsPointEx F} {Q Q' : EdPoint C} (h : Represents P Q)
    (h' : Represents P' Q') : Represents (P.add P' J) (Q + Q') ∧ (P.add P' J).isInCurve J = true :=
  ⟨h.add hd h', (isInCurve_ex_iff hd _).2 ⟨_, h.add hd h'⟩⟩

/-- C25: doubling. -/
theorem C25_double (hd : J.d = C.d) {P : EdwardsPointEx F} {Q : EdPoint C} (h : Represents P Q) :
    Represents P.double (Q + Q) ∧ P.double.isInCurve J = true := by
  have := h.double
  rw [two_nsmul] at this
  exact ⟨this, (isInCurve_ex_iff hd _).2 ⟨_, this⟩⟩

/-- C25: going to affine coordinates never panics and gives the coordinates of the point. -/
theorem C25_into_affine {P : EdwardsPointEx F} {Q : EdPoint C} (h : Represents P Q) :
    P.intoAffine = .ok ⟨Q.x, Q.y⟩ := h.intoAffine

/-- C25: `==` on extended points is equality of the points. -/
theorem C25_eq {P P' : EdwardsPointEx F} {Q Q' : EdPoint C} (h : Represents P Q) (h' : Represents P' Q') :
    P.eq P' = true ↔ Q = Q' := h.eq_iff h'

/-- C25: `is_zero` on extended points. -/
theorem C25_is_zero {P : EdwardsPointEx F} {Q : EdPoint C} (h : Represents P Q) : P.isZero = true ↔ Q = 0 :=
  h.isZero_iff

/-- C25: affine addition is the group law, stated with the law's own formula. -/
theorem C25_affine_add (hd : J.d = C.d) {p q : EdwardsPoint F} (hp : p.isInCurve J = true) (hq : q.isInCurve J = true) :
    p.add q J = .ok ⟨(p.x * q.y + p.y * q.x) / (1 + J.d * p.x * q.x * p.y * q.y),
      (p.y * q.y + p.x * q.x) / (1 - J.d * p.x * q.x * p.y * q.y)⟩ := by
  obtain ⟨P, rfl⟩ := (isInCurve_iff hd p).1 hp
  obtain ⟨Q, rfl⟩ := (isInCurve_iff hd q).1 hq
  unfold EdwardsPoint.add
  rw [((Represents.of_affine P).add hd (Represents.of_affine Q)).intoAffine, hd]
  rfl

/-- The point `2 G` of the BN256 curve, through a non-trivial representative. -/
example : Represents (bnParams.g.intoExtended.double) (bnG + bnG) := by
  rw [bnG_affine]
  exact (C25_double (J := bnParams) rfl (Represents.of_affine bnG)).1

example : bnParams.g.isInCurve bnParams = true := (C25_affine_in_curve rfl _).2 ⟨bnG, bnG_affine⟩

/-! ### C26 -/

theorem add_affine (hd : J.d = C.d) (P Q : EdPoint C) : P.affine.add Q.affine J = .ok (P + Q).affine :=
  ((Represents.of_affine P).add hd (Represents.of_affine Q)).intoAffine

/-- C26: closure. -/
theorem C26_closed (hd : J.d = C.d) {p q : EdwardsPoint F} (hp : p.isInCurve J = true) (hq : q.isInCurve J = true) :
    ∃ s, p.add q J = .ok s ∧ s.isInCurve J = true := by
  obtain ⟨P, rfl⟩ := (isInCurve_iff hd p).1 hp
  obtain ⟨Q, rfl⟩ := (isInCurve_iff hd q).1 hq
  exact ⟨_, add_affine hd P Q, (isInCurve_iff hd _).2 ⟨_, rfl⟩⟩

/-- C26: commutativity. -/
theorem C26_comm (hd : J.d = C.d) {p q : EdwardsPoint F} (hp : p.isInCurve J = true) (hq : q.isInCurve J = true) :
    p.add q J = q.add p J := by
  obtain ⟨P, rfl⟩ := (isInCurve_iff hd p).1 hp
  obtain ⟨Q, rfl⟩ := (isInCurve_iff hd q).1 hq
  rw [add_affine hd, add_affine hd, add_comm]

/-- C26: associativity. -/
theorem C26_assoc (hd : J.d = C.d) {p q r : EdwardsPoint F} (hp : p.isInCurve J = true) (hq : q.isInCurve J = true)
    (hr : r.isInCurve J = true) :
    (do let s ← p.add q J; s.add r J) = (do let s ← q.add r J; p.add s J) := by
  obtain ⟨P, rfl⟩ := (isInCurve_iff hd p).1 hp
  obtain ⟨Q, rfl⟩ := (isInCurve_iff hd q).1 hq
  obtain ⟨R, rfl⟩ := (isInCurve_iff hd r).1 hr
  rw [add_affine hd, add_affine hd]
  show (P + Q).affine.add R.affine J = P.affine.add (Q + R).affine J
  rw [add_affine hd, add_affine hd, add_assoc]

/-- C26: `zero()` is neutral. -/
theorem C26_zero (hd : J.d = C.d) {p : EdwardsPoint F} (hp : p.isInCurve J = true) :
    p.add EdwardsPoint.zero J = .ok p ∧ EdwardsPoint.zero.add p J = .ok p := by
  obtain ⟨P, rfl⟩ := (isInCurve_iff hd p).1 hp
  have hz : (EdwardsPoint.zero : EdwardsPoint F) = (0 : EdPoint C).affine := rfl
  rw [hz, add_affine hd, add_affine hd, add_zero, zero_add]
  exact ⟨rfl, rfl⟩

/-- C26: `negate` gives the inverse. -/
theorem C26_negate (hd : J.d = C.d) {p : EdwardsPoint F} (hp : p.isInCurve J = true) :
    ∃ n, p.intoExtended.negate.intoAffine = .ok n ∧ n.isInCurve J = true ∧ p.add n J = .ok EdwardsPoint.zero ∧
      (p.intoExtended.add p.intoExtended.negate J).isZero = true := by
  obtain ⟨P, rfl⟩ := (isInCurve_iff hd p).1 hp
  refine ⟨(-P).affine, (Represents.of_affine P).negate.intoAffine, (isInCurve_iff hd _).2 ⟨_, rfl⟩, ?_, ?_⟩
  · rw [add_affine hd, add_neg_cancel]; rfl
  · rw [((Represents.of_affine P).add hd (Represents.of_affine P).negate).isZero_iff, add_neg_cancel]

example : ∃ p : EdwardsPoint (ZMod bnR), p.isInCurve bnParams = true ∧ p ≠ EdwardsPoint.zero :=
  ⟨_, (C25_affine_in_curve (C := bnCurve) rfl _).2 ⟨bnG, rfl⟩, fun h =>
    bnG_ne_zero (EdPoint.affine_inj.1 (h.trans (rfl : _ = (0 : EdPoint bnCurve).affine)))⟩

/-! ### C27 -/

/-- C27: `double` is adding a point to itself. -/
theorem C27_double (hd : J.d = C.d) {p : EdwardsPoint F} (hp : p.isInCurve J = true) : p.double = p.add p J := by
  obtain ⟨P, rfl⟩ := (isInCurve_iff hd p).1 hp
  unfold EdwardsPoint.double
  rw [(Represents.of_affine P).double.intoAffine, add_affine hd, two_nsmul]

/-- C27: `mul_by_cofactor` is multiplication by 8. -/
theorem C27_cofactor (hd : J.d = C.d) {l : Nat} [Fact l.Prime] (hl : 8 < l) {p : EdwardsPoint F}
    (hp : p.isInCurve J = true) : p.mulByCofactor = p.mul (8 : ZMod l) J ∧
      ∃ Q : EdPoint C, p = Q.affine ∧ p.mulByCofactor = .ok (8 • Q : EdPoint C).affine := by
  obtain ⟨P, rfl⟩ := (isInCurve_iff hd p).1 hp
  have h8 : (8 : ZMod l).val = 8 := by
    have : (8 : ZMod l) = ((8 : Nat) : ZMod l) := by norm_num
    rw [this, ZMod.val_natCast, Nat.mod_eq_of_lt hl]
  have h1 : P.affine.mulByCofactor = .ok (8 • P : EdPoint C).affine :=
    (Represents.of_affine P).mulByCofactor.intoAffine
  refine ⟨?_, P, rfl, h1⟩
  unfold EdwardsPoint.mul
  rw [h1, (mul_represents hd (Represents.of_affine P) (8 : ZMod l)).intoAffine, h8]

example : bnParams.g.mulByCofactor = bnParams.g.mul (8 : ZMod bnL) bnParams :=
  (C27_cofactor (C := bnCurve) rfl (by norm_num) ((C25_affine_in_curve rfl _).2 ⟨bnG, bnG_affine⟩)).1

/-! ### C28 -/

/-- C28: multiplication by a scalar is repeated addition, with the canonical representative of the scalar. -/
theorem C28_mul (hd : J.d = C.d) {l : Nat} [Fact l.Prime] (Q : EdPoint C) (k : ZMod l) :
    Q.affine.mul k J = .ok (k.val • Q).affine := (mul_represents hd (Represents.of_affine Q) k).intoAffine

/-- C28: the same for the extended representation and for raw limb vectors. -/
theorem C28_mul_raw (hd : J.d = C.d) {P : EdwardsPointEx F} {Q : EdPoint C} (h : Represents P Q) (k : List UInt64) :
    Represents (P.mulRaw k J) (reprNat k • Q) := mulRaw_represents hd h k

/-- C28: distributivity over scalars, for points of the prime subgroup. -/
theorem C28_add_scalars (hd : J.d = C.d) {l : Nat} [Fact l.Prime] {Q : EdPoint C} (hQ : InSubgroup l Q) (a b : ZMod l) :
    Q.affine.mul (a + b) J = (do
      let p ← Q.affine.mul a J
      let q ← Q.affine.mul b J
      p.add q J) := by
  rw [C28_mul hd, C28_mul hd, C28_mul hd, EdPoint.val_add_nsmul hQ]
  exact (add_affine hd _ _).symm

/-- C28: associativity with the product of scalars, for points of the prime subgroup. -/
theorem C28_mul_scalars (hd : J.d = C.d) {l : Nat} [Fact l.Prime] {Q : EdPoint C} (hQ : InSubgroup l Q) (a b : ZMod l) :
    Q.affine.mul (a * b) J = (do
      let p ← Q.affine.mul b J
      p.mul a J) := by
  rw [C28_mul hd, C28_mul hd]
  show _ = (b.val • Q).affine.mul a J
  rw [C28_mul hd, EdPoint.val_mul_nsmul hQ, mul_nsmul']

/-- C28: distributivity over points. -/
theorem C28_add_points (hd : J.d = C.d) {l : Nat} [Fact l.Prime] (P Q : EdPoint C) (k : ZMod l) :
    (do let s ← P.affine.add Q.affine J; s.mul k J) = (do
      let p ← P.affine.mul k J
      let q ← Q.affine.mul k J
      p.add q J) := by
  rw [add_affine hd, C28_mul hd, C28_mul hd]
  show (P + Q).affine.mul k J = (k.val • P).affine.add (k.val • Q).affine J
  rw [C28_mul hd, add_affine hd, nsmul_add]

/-- C28: the subgroup test. -/
theorem C28_is_in_subgroup (hv : J.Valid C) {P : EdwardsPointEx F} {Q : EdPoint C} (h : Represents P Q) :
    P.isInSubgroup J = true ↔ InSubgroup J.l Q := by
  haveI : Fact J.l.Prime := ⟨hv.l_prime⟩
  unfold EdwardsPointEx.isInSubgroup
  rw [(mulRaw_l hv.d_eq h J.l).isZero_iff]; rfl

example : InSubgroup bnL bnG := bnG_order

/-! ### C29 -/

/-- C29: the conversion is undefined exactly at the neutral point; elsewhere it is a point of the Montgomery curve. -/
theorem C29_into_montgomery (Q : EdPoint C) :
    (Q = 0 → Q.affine.intoMontgomery = .ok none) ∧
    (Q ≠ 0 → Q.affine.intoMontgomery = .ok (some ⟨Q.montX, Q.montY⟩) ∧ OnMont C.a C.b Q.montX Q.montY) := by
  refine ⟨?_, fun h => ⟨intoMontgomery_ok h, EdPoint.mont_on h⟩⟩
  rintro rfl; exact intoMontgomery_zero

/-- C29: converting back gives the same point. -/
theorem C29_round_trip (Q : EdPoint C) (m : MontgomeryPoint F) (h : Q.affine.intoMontgomery = .ok (some m)) :
    m.intoAffine = .ok Q.affine := by
  by_cases h0 : Q = 0
  · rw [(C29_into_montgomery Q).1 h0] at h; cases h
  · rw [intoMontgomery_ok h0] at h
    cases h
    exact mont_intoAffine h0

/-- C29: every point of the Montgomery curve converts, without panic, to a curve point other than the neutral one, and
back to itself. -/
theorem C29_from_montgomery {u v : F} (h : OnMont C.a C.b u v) :
    ∃ Q : EdPoint C, Q ≠ 0 ∧ (MontgomeryPoint.mk u v).intoAffine = .ok Q.affine ∧
      Q.affine.intoMontgomery = .ok (some ⟨u, v⟩) := by
  obtain ⟨Q, h0, hQ⟩ := mont_surj h
  refine ⟨Q, h0, ?_, ?_⟩
  · rw [← hQ]; exact mont_intoAffine h0
  · rw [intoMontgomery_ok h0, hQ]

/-- C29: the extended variants agree with the affine ones. -/
theorem C29_extended {P : EdwardsPointEx F} {Q : EdPoint C} (h : Represents P Q) :
    P.intoMontgomery = Q.affine.intoMontgomery := by
  unfold EdwardsPointEx.intoMontgomery
  rw [h.intoAffine]; rfl

example : (EdPoint.torsion2 : EdPoint bnCurve).affine.intoMontgomery = .ok (some ⟨0, 0⟩) := by
  rw [((C29_into_montgomery _).2 EdPoint.torsion2_ne_zero).1, (EdPoint.montX_eq_zero_iff EdPoint.torsion2_ne_zero).2 rfl,
    (EdPoint.montY_eq_zero_iff EdPoint.torsion2_ne_zero).2 rfl]

example : bnG.affine.intoMontgomery = .ok (some ⟨bnG.montX, bnG.montY⟩) := ((C29_into_montgomery _).2 bnG_ne_zero).1

/-! ### C30 -/

section

variable {r : Nat} [Fact r.Prime] {C : EdCurve (ZMod r)} {J : JubJubParams (ZMod r)}
  {sqrt : ZMod r → Option (ZMod r)}

/-- C30: `get_for_y` never panics; it finds a point exactly if the curve has one with that ordinate, and the point has
that ordinate and the requested parity of its abscissa (unless that is zero). -/
theorem C30_get_for_y (hs : IsSqrt sqrt) (hd : J.d = C.d) (y : ZMod r) (sign : Bool) :
    ∃ o, EdwardsPoint.getForY sqrt y sign J = .ok o ∧
      (o = none ↔ ¬ ∃ Q : EdPoint C, Q.y = y) ∧
      ∀ p, o = some p → ∃ Q : EdPoint C, Q.y = y ∧ p = Q.affine ∧ (Q.x = 0 ∨ decide (Q.x.val % 2 = 1) = sign) :=
  getForY_ok hs hd y sign

/-- C30: hence with the parity of a point's abscissa `get_for_y` returns that point. -/
theorem C30_recovers (hs : IsSqrt sqrt) (hd : J.d = C.d) (Q : EdPoint C) :
    EdwardsPoint.getForY sqrt Q.y (decide (Q.x.val % 2 = 1)) J = .ok (some Q.affine) := by
  obtain ⟨o, ho, hnone, hsome⟩ := getForY_ok hs hd Q.y (decide (Q.x.val % 2 = 1))
  rw [ho]
  cases o with
  | none => exact absurd ⟨Q, rfl⟩ (hnone.1 rfl)
  | some p =>
    obtain ⟨P, hy, rfl, hx⟩ := hsome p rfl
    have hsq : P.x ^ 2 = Q.x ^ 2 := by
      rw [(sq_div_iff_y C _ _).2 P.on, (sq_div_iff_y C _ _).2 Q.on, hy]
    have : P.x = Q.x := by
      rcases sq_eq_sq_iff_eq_or_eq_neg.1 hsq with h | h
      · exact h
      · by_cases h0 : Q.x = 0
        · rw [h, h0, neg_zero]
        · exfalso
          have hP0 : P.x ≠ 0 := by rw [h]; exact neg_ne_zero.2 h0
          have hpar := hx.resolve_left hP0
          rw [h] at hpar
          have := val_neg_odd C.r_ne_two h0
          have h2 : Q.x.val % 2 = 0 ∨ Q.x.val % 2 = 1 := by omega
          rcases h2 with h2 | h2
          · rw [decide_eq_true (this.2 h2), decide_eq_false (by omega)] at hpar; cases hpar
          · have hn : ¬ (-Q.x).val % 2 = 1 := fun h3 => by rw [this] at h3; omega
            rw [decide_eq_true h2, decide_eq_false hn] at hpar; cases hpar
    congr 2
    rw [EdPoint.affine_inj]
    ext
    · exact this
    · exact hy

/-- C30: `rand` returns curve points only: the point for the first pair drawn for which there is one. -/
theorem C30_rand (hs : IsSqrt sqrt) (hd : J.d = C.d) (draws : List (ZMod r × Bool)) :
    ∃ o, EdwardsPoint.rand sqrt J draws = .ok o ∧
      (o = none ↔ ∀ d ∈ draws, ¬ ∃ Q : EdPoint C, Q.y = d.1) ∧
      ∀ p, o = some p → p.isInCurve J = true ∧ ∃ d ∈ draws, EdwardsPoint.getForY sqrt d.1 d.2 J = .ok (some p) := by
  induction draws with
  | nil => exact ⟨none, rfl, by simp, by simp⟩
  | cons d rest ih =>
    obtain ⟨o', ho', hnone', hsome'⟩ := ih
    obtain ⟨o, ho, hnone, hsome⟩ := getForY_ok hs hd d.1 d.2
    unfold EdwardsPoint.rand
    rw [ho]
    cases o with
    | none =>
      refine ⟨o', ho', ?_, ?_⟩
      · rw [hnone', List.forall_mem_cons]
        exact ⟨fun h => ⟨hnone.1 rfl, h⟩, fun h => h.2⟩
      · intro p hp
        obtain ⟨h1, d', hd', h2⟩ := hsome' p hp
        exact ⟨h1, d', List.mem_cons_of_mem _ hd', h2⟩
    | some p =>
      obtain ⟨Q, hy, hp, _⟩ := hsome p rfl
      refine ⟨some p, rfl, ?_, ?_⟩
      · simp only [reduceCtorEq, false_iff]
        intro h
        exact h d List.mem_cons_self ⟨Q, hy⟩
      · intro p' hp'
        cases hp'
        exact ⟨(isInCurve_iff hd _).2 ⟨Q, hp⟩, d, List.mem_cons_self, ho⟩

example : ∃ sqrt : ZMod bnR → Option (ZMod bnR), IsSqrt sqrt ∧
    EdwardsPoint.getForY sqrt bnG.y (decide (bnG.x.val % 2 = 1)) bnParams = .ok (some bnParams.g) := by
  obtain ⟨sqrt, hs⟩ := exists_isSqrt (ZMod bnR)
  exact ⟨sqrt, hs, by rw [bnG_affine]; exact C30_recovers (J := bnParams) hs rfl bnG⟩

end

/-! ### C31 -/

/-- C31: `subgroup_decompress` never panics and finds exactly the point of the prime subgroup with that abscissa. -/
theorem C31_subgroup_decompress {sqrt : F → Option F} (hs : IsSqrt sqrt) (hv : J.Valid C) (x : F) :
    ∃ o, EdwardsPoint.subgroupDecompress sqrt x J = .ok o ∧
      ∀ p, o = some p ↔ ∃ Q : EdPoint C, InSubgroup J.l Q ∧ Q.x = x ∧ p = Q.affine :=
  subgroupDecompress_ok hs hv.d_eq hv.l_prime (by have := hv.l_large; omega) x

/-- C31: at most one point of the prime subgroup has a given abscissa. -/
theorem C31_unique (hv : J.Valid C) {Q Q' : EdPoint C} (h : InSubgroup J.l Q) (h' : InSubgroup J.l Q')
    (hx : Q.x = Q'.x) : Q = Q' := by
  obtain ⟨sqrt, hs⟩ := exists_isSqrt F
  obtain ⟨o, _, ho⟩ := C31_subgroup_decompress hs hv Q.x
  have h1 := (ho Q.affine).2 ⟨Q, h, rfl, rfl⟩
  have h2 := (ho Q'.affine).2 ⟨Q', h', hx.symm, rfl⟩
  rw [h1] at h2
  exact EdPoint.affine_inj.1 (Option.some.inj h2)

/-- C31: compressing a subgroup point to its abscissa loses nothing. -/
theorem C31_round_trip {sqrt : F → Option F} (hs : IsSqrt sqrt) (hv : J.Valid C) {Q : EdPoint C}
    (h : InSubgroup J.l Q) : EdwardsPoint.subgroupDecompress sqrt Q.x J = .ok (some Q.affine) := by
  obtain ⟨o, ho, hp⟩ := C31_subgroup_decompress hs hv Q.x
  rw [ho, (hp Q.affine).2 ⟨Q, h, rfl, rfl⟩]

example : ∃ sqrt : ZMod bnR → Option (ZMod bnR), IsSqrt sqrt ∧
    EdwardsPoint.subgroupDecompress sqrt bnG.x bnParams = .ok (some bnParams.g) := by
  obtain ⟨sqrt, hs⟩ := exists_isSqrt (ZMod bnR)
  exact ⟨sqrt, hs, by rw [bnG_affine]; exact C31_round_trip (J := bnParams) hs bnParams_valid bnG_order⟩

/-! ### C32 -/

section

variable {r : Nat} [Fact r.Prime] {C : EdCurve (ZMod r)} {J : JubJubParams (ZMod r)}
  {sqrt : ZMod r → Option (ZMod r)}

/-- C32: for `t ≠ -1`, `from_scalar` does not panic and returns a point of the prime subgroup: 8 times a point. -/
theorem C32_from_scalar (hs : IsSqrt sqrt) (hv : J.Valid C) {t : ZMod r} (ht : t ≠ -1) :
    ∃ Q : EdPoint C, EdwardsPoint.fromScalar sqrt t J = .ok (8 • Q : EdPoint C).affine ∧
      InSubgroup J.l (8 • Q : EdPoint C) := by
  obtain ⟨Q, _, h⟩ := fromScalar_ok hs hv.a_eq hv.b_eq hv.u_nonsquare ht
  refine ⟨Q, h, ?_⟩
  unfold InSubgroup
  rw [← mul_nsmul', mul_comm]
  exact hv.exponent Q

/-- C32: which point it is.  `IsMapped` determines the point before the multiplication by the cofactor uniquely, so the
result does not depend on which of the two square roots the field implementation returns. -/
theorem C32_map (hs : IsSqrt sqrt) (hv : J.Valid C) {t : ZMod r} (ht : t ≠ -1) :
    ∃! Q : EdPoint C, IsMapped C J.u t Q ∧ EdwardsPoint.fromScalar sqrt t J = .ok (8 • Q : EdPoint C).affine := by
  obtain ⟨Q, hm, h⟩ := fromScalar_ok hs hv.a_eq hv.b_eq hv.u_nonsquare ht
  exact ⟨Q, ⟨hm, h⟩, fun Q' h' => h'.1.unique hm⟩

/-- C32: the result does not depend on the square root function. -/
theorem C32_deterministic {sqrt' : ZMod r → Option (ZMod r)} (hs : IsSqrt sqrt) (hs' : IsSqrt sqrt') (hv : J.Valid C)
    (t : ZMod r) : EdwardsPoint.fromScalar sqrt t J = EdwardsPoint.fromScalar sqrt' t J := by
  by_cases ht : t = -1
  · rw [ht, fromScalar_panics (C := C) hv.a_eq, fromScalar_panics (C := C) hv.a_eq]
  · obtain ⟨Q, hm, h⟩ := fromScalar_ok hs hv.a_eq hv.b_eq hv.u_nonsquare ht
    obtain ⟨Q', hm', h'⟩ := fromScalar_ok hs' hv.a_eq hv.b_eq hv.u_nonsquare ht
    rw [h, h', hm.unique hm']

/-- C32: for `t = -1` it panics (division by zero), as the comment in the source warns. -/
theorem C32_panics (hv : J.Valid C) : EdwardsPoint.fromScalar sqrt (-1) J = .error .divByZero :=
  fromScalar_panics (C := C) hv.a_eq

example : bnParams.Valid bnCurve := bnParams_valid
example : (5 : ZMod bnR) ≠ -1 := by
  rw [Ne, ← sub_eq_zero]
  have : (5 : ZMod bnR) - -1 = ((6 : Nat) : ZMod bnR) := by push_cast; ring
  rw [this, ZMod.natCast_eq_zero_iff]; decide +kernel

end

/-! ### C44 -/

/-- C44: `JubJubBN256::new()` does not panic; its value is `bnParams`, a valid parameter set. -/
theorem C44_bn256 {sqrt : ZMod bnR → Option (ZMod bnR)} (hs : IsSqrt sqrt) :
    ∃ J, jubjubBN256 sqrt = .ok J ∧ J.Valid bnCurve ∧ J.l = bnL ∧ bnR.Prime ∧
      J.g = ⟨((3136769009115878734591535780061023271603672807505340687898033796924625038576 : Nat) : ZMod bnR),
        ((9219167653453464779020540250694647714630525780448598382451117487063353539706 : Nat) : ZMod bnR)⟩ :=
  ⟨bnParams, bn_new hs, bnParams_valid, rfl, bnR_prime, rfl⟩

/-- C44: `JubJubBLS12_381::new()`. -/
theorem C44_bls12_381 {sqrt : ZMod blsR → Option (ZMod blsR)} (hs : IsSqrt sqrt) :
    ∃ J, jubjubBLS12_381 sqrt = .ok J ∧ J.Valid blsCurve ∧ J.l = blsL ∧ blsR.Prime ∧
      J.g = ⟨((44712518387605426644504699667580005941754982390059929374970847015217361777390 : Nat) : ZMod blsR),
        ((46846510589459161038357857118145854213068421404599278795502517840024729615816 : Nat) : ZMod blsR)⟩ :=
  ⟨blsParams, bls_new hs, blsParams_valid, rfl, blsR_prime, rfl⟩

/-- C44: the curves have the advertised coefficients. -/
theorem C44_coefficients : bnCurve.d = -168696 / 168700 ∧ blsCurve.d = -10240 / 10241 := ⟨bnCurve_d, blsCurve_d⟩

example : ∃ sqrt : ZMod bnR → Option (ZMod bnR), IsSqrt sqrt := exists_isSqrt _

end Fawkes.Props
