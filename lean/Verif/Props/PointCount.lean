import Verif.Lemmas.PointCount

/-!
# C103: how many points there are, and how often `rand` and `from_scalar` return each
-/

namespace Fawkes.Props

open Finset

variable {r : Nat} [Fact r.Prime] {C : EdCurve (ZMod r)} {J : JubJubParams (ZMod r)} [Fact J.l.Prime]
  {sqrt : ZMod r → Option (ZMod r)}

/-- The points that `is_in_curve` accepts are the points of the curve. -/
noncomputable def curveEquiv (hd : J.d = C.d) : EdPoint C ≃ {p : EdwardsPoint (ZMod r) // p.isInCurve J = true} :=
  Equiv.ofBijective (fun Q => ⟨Q.affine, (isInCurve_iff hd _).2 ⟨Q, rfl⟩⟩)
    ⟨fun Q Q' h => EdPoint.affine_inj.1 (congrArg Subtype.val h), fun ⟨p, hp⟩ => by
      obtain ⟨Q, rfl⟩ := (isInCurve_iff hd p).1 hp
      exact ⟨Q, rfl⟩⟩

theorem card_in_curve (hv : J.Valid C) (hr : r < J.l ^ 2) {Q8 : EdPoint C} (h8 : 8 • Q8 = 0) (h4 : 4 • Q8 ≠ 0) :
    Nat.card {p : EdwardsPoint (ZMod r) // p.isInCurve J = true} = 8 * J.l := by
  rw [← card_curve hv hr h8 h4, ← Nat.card_congr (curveEquiv hv.d_eq), Nat.card_eq_fintype_card]

/-- C103 (order): exactly `8 l` points pass `is_in_curve` with the parameters of BN256, and with those of BLS12-381. -/
theorem C103_order :
    Nat.card {p : EdwardsPoint (ZMod bnR) // p.isInCurve bnParams = true} = 8 * bnParams.l ∧
    Nat.card {p : EdwardsPoint (ZMod blsR) // p.isInCurve blsParams = true} = 8 * blsParams.l := by
  constructor
  · obtain ⟨Q, h8, h4⟩ := order8_of_cert bnCurve_d_nat bn_groupCert
    exact card_in_curve bnParams_valid (by decide +kernel) h8 h4
  · obtain ⟨Q, h8, h4⟩ := order8_of_cert blsCurve_d_nat bls_groupCert
    haveI : Fact blsParams.l.Prime := ⟨blsParams_valid.l_prime⟩
    exact card_in_curve blsParams_valid (by decide +kernel) h8 h4

/-- C103 (subgroup): exactly `l` of them pass `is_in_subgroup`. -/
theorem C103_subgroup_order (hv : J.Valid C) (hr : r < J.l ^ 2) :
    Nat.card {p : EdwardsPoint (ZMod r) // p.isInCurve J = true ∧ p.intoExtended.isInSubgroup J = true} = J.l := by
  classical
  rw [← card_subgroup hv hr, ← Fintype.card_subtype, ← Nat.card_eq_fintype_card]
  let f : {Q : EdPoint C // InSubgroup J.l Q} → {p : EdwardsPoint (ZMod r) // p.isInCurve J = true ∧ p.intoExtended.isInSubgroup J = true} :=
    fun Q => ⟨Q.1.affine, (isInCurve_iff hv.d_eq _).2 ⟨Q.1, rfl⟩, (C28_is_in_subgroup hv (Represents.of_affine Q.1)).2 Q.2⟩
  refine (Nat.card_congr (Equiv.ofBijective f ⟨?_, ?_⟩)).symm
  · intro Q Q' h
    exact Subtype.ext (EdPoint.affine_inj.1 (congrArg Subtype.val h))
  · rintro ⟨p, hp, hs⟩
    obtain ⟨Q, rfl⟩ := (isInCurve_iff hv.d_eq p).1 hp
    exact ⟨⟨Q, (C28_is_in_subgroup hv (Represents.of_affine Q)).1 hs⟩, rfl⟩

/-- How many of the `2 r` pairs of ordinate and sign give a point: two for the points with abscissa zero, one for all others. -/
def weight (p : EdwardsPoint (ZMod r)) : Nat := if p.x = 0 then 2 else 1

/-- C103 (compression): of the `2 r` pairs of an ordinate and a sign, `get_for_y` maps one to every point of the curve, and two to the two points
with abscissa zero. -/
theorem C103_get_for_y (hs : IsSqrt sqrt) (hd : J.d = C.d) (p : EdwardsPoint (ZMod r)) (hp : p.isInCurve J = true) :
    Nat.card {d : ZMod r × Bool // EdwardsPoint.getForY sqrt d.1 d.2 J = .ok (some p)} = weight p := by
  classical
  obtain ⟨Q, rfl⟩ := (isInCurve_iff hd p).1 hp
  have hy : ∀ y b, EdwardsPoint.getForY sqrt y b J = .ok (some Q.affine) → y = Q.y ∧ (Q.x = 0 ∨ decide (Q.x.val % 2 = 1) = b) := by
    intro y b h
    obtain ⟨o, ho, -, hsome⟩ := C30_get_for_y (C := C) hs hd y b
    rw [h] at ho
    cases ho
    obtain ⟨Q', h1, h2, h3⟩ := hsome _ rfl
    rw [EdPoint.affine_inj] at h2
    subst h2
    exact ⟨h1.symm, h3⟩
  have hrec := C30_recovers (J := J) hs hd Q
  unfold weight
  by_cases h0 : Q.x = 0
  · have hall : ∀ b, EdwardsPoint.getForY sqrt Q.y b J = .ok (some Q.affine) := by
      intro b
      obtain ⟨o, ho, hnone, hsome⟩ := C30_get_for_y (C := C) hs hd Q.y b
      cases o with
      | none => exact absurd ⟨Q, rfl⟩ (hnone.1 rfl)
      | some p =>
        obtain ⟨Q', h1, rfl, h3⟩ := hsome _ rfl
        have : Q'.x ^ 2 = Q.x ^ 2 := by rw [(sq_div_iff_y C _ _).2 Q'.on, (sq_div_iff_y C _ _).2 Q.on, h1]
        rw [h0] at this
        have hx : Q'.x = 0 := by simpa using this
        rw [ho, show Q' = Q from EdPoint.ext (hx.trans h0.symm) h1]
    rw [if_pos (show Q.affine.x = 0 from h0), Nat.card_eq_fintype_card, Fintype.card_subtype,
      show (univ.filter fun d : ZMod r × Bool => EdwardsPoint.getForY sqrt d.1 d.2 J = .ok (some Q.affine)) = {(Q.y, true), (Q.y, false)} by
        ext ⟨y, b⟩
        simp only [mem_filter, mem_univ, true_and, mem_insert, mem_singleton, Prod.mk.injEq]
        constructor
        · intro h
          obtain ⟨rfl, -⟩ := hy y b h
          cases b <;> simp
        · rintro (⟨rfl, rfl⟩ | ⟨rfl, rfl⟩) <;> exact hall _]
    exact card_pair (by simp)
  · rw [if_neg (show ¬ Q.affine.x = 0 from h0), Nat.card_eq_fintype_card, Fintype.card_subtype,
      show (univ.filter fun d : ZMod r × Bool => EdwardsPoint.getForY sqrt d.1 d.2 J = .ok (some Q.affine)) = {(Q.y, decide (Q.x.val % 2 = 1))} by
        ext ⟨y, b⟩
        simp only [mem_filter, mem_univ, true_and, mem_singleton, Prod.mk.injEq]
        constructor
        · intro h
          obtain ⟨rfl, h2⟩ := hy y b h
          exact ⟨rfl, (h2.resolve_left h0).symm⟩
        · rintro ⟨rfl, rfl⟩; exact hrec]
    exact card_singleton _

/-- Every result of `get_for_y` is a point of the curve. -/
theorem getForY_curve (hs : IsSqrt sqrt) (hd : J.d = C.d) (y : ZMod r) (b : Bool) {p : EdwardsPoint (ZMod r)}
    (h : EdwardsPoint.getForY sqrt y b J = .ok (some p)) : p.isInCurve J = true := by
  obtain ⟨o, ho, -, hsome⟩ := C30_get_for_y (C := C) hs hd y b
  rw [h] at ho
  cases ho
  obtain ⟨Q, -, h2, -⟩ := hsome _ rfl
  exact (isInCurve_iff hd _).2 ⟨Q, h2⟩

/-- C103 (compression): so `get_for_y` finds a point for `8 l + 2` of the `2 r` pairs, and none for the others. -/
theorem C103_get_for_y_none (hs : IsSqrt sqrt) (hd : J.d = C.d)
    (hcard : Nat.card {p : EdwardsPoint (ZMod r) // p.isInCurve J = true} = 8 * J.l) :
    Nat.card {d : ZMod r × Bool // EdwardsPoint.getForY sqrt d.1 d.2 J = .ok none} = 2 * r - (8 * J.l + 2) := by
  classical
  haveI : Fintype {p : EdwardsPoint (ZMod r) // p.isInCurve J = true} := Fintype.ofEquiv _ (curveEquiv (C := C) hd)
  have hsum : (univ.filter fun d : ZMod r × Bool => ¬ EdwardsPoint.getForY sqrt d.1 d.2 J = .ok none).card = 8 * J.l + 2 := by
    have htot : ∀ d : ZMod r × Bool, ¬ EdwardsPoint.getForY sqrt d.1 d.2 J = .ok none →
        ∃ p : {p : EdwardsPoint (ZMod r) // p.isInCurve J = true}, EdwardsPoint.getForY sqrt d.1 d.2 J = .ok (some p.1) := by
      intro d h
      obtain ⟨o, ho, -⟩ := C30_get_for_y (C := C) hs hd d.1 d.2
      cases o with
      | none => exact absurd ho h
      | some p => exact ⟨⟨p, getForY_curve (C := C) hs hd _ _ ho⟩, ho⟩
    have hbi : (univ.filter fun d : ZMod r × Bool => ¬ EdwardsPoint.getForY sqrt d.1 d.2 J = .ok none) =
        (univ : Finset {p : EdwardsPoint (ZMod r) // p.isInCurve J = true}).biUnion fun p =>
          univ.filter fun d : ZMod r × Bool => EdwardsPoint.getForY sqrt d.1 d.2 J = .ok (some p.1) := by
      ext d
      simp only [mem_filter, mem_univ, true_and, mem_biUnion]
      constructor
      · exact htot d
      · rintro ⟨p, hp⟩ h
        rw [h] at hp; cases hp
    rw [hbi, card_biUnion]
    · have hw : ∀ p : {p : EdwardsPoint (ZMod r) // p.isInCurve J = true},
          (univ.filter fun d : ZMod r × Bool => EdwardsPoint.getForY sqrt d.1 d.2 J = .ok (some p.1)).card = 1 + if p.1.x = 0 then 1 else 0 := by
        intro p
        rw [← Fintype.card_subtype, ← Nat.card_eq_fintype_card, C103_get_for_y (C := C) hs hd p.1 p.2]
        unfold weight
        split <;> rfl
      rw [sum_congr rfl fun p _ => hw p, sum_add_distrib, sum_const, card_univ, smul_eq_mul, mul_one, ← Nat.card_eq_fintype_card, hcard, ← card_filter]
      congr 1
      have h0 : (univ.filter fun p : {p : EdwardsPoint (ZMod r) // p.isInCurve J = true} => p.1.x = 0) =
          {curveEquiv (C := C) hd 0, curveEquiv (C := C) hd EdPoint.torsion2} := by
        ext p
        obtain ⟨Q, rfl⟩ := (curveEquiv (C := C) hd).surjective p
        simp only [mem_filter, mem_univ, true_and, mem_insert, mem_singleton, EmbeddingLike.apply_eq_iff_eq]
        exact EdPoint.x_eq_zero_iff Q
      rw [h0, card_pair]
      rw [Ne, EmbeddingLike.apply_eq_iff_eq]
      exact EdPoint.torsion2_ne_zero.symm
    · intro p _ p' _ hne
      rw [Function.onFun, disjoint_filter]
      rintro d - h h'
      rw [h] at h'
      injection h' with h'
      injection h' with h'
      exact hne (Subtype.ext h')
  have hall := card_filter_add_card_filter_not (s := (univ : Finset (ZMod r × Bool))) (fun d => EdwardsPoint.getForY sqrt d.1 d.2 J = .ok none)
  rw [hsum, card_univ, Fintype.card_prod, ZMod.card, Fintype.card_bool] at hall
  rw [Nat.card_eq_fintype_card, Fintype.card_subtype]
  omega

/-- Counting lists of `n + 1` draws by their first one. -/
theorem card_draws {α : Type} [Fintype α] [DecidableEq α] (n : Nat) (S : List α → Prop) [DecidablePred S] :
    (univ.filter fun d : Fin (n + 1) → α => S (List.ofFn d)).card = ∑ a : α, (univ.filter fun d : Fin n → α => S (a :: List.ofFn d)).card := by
  simp only [card_filter]
  rw [← (Fin.consEquiv fun _ : Fin (n + 1) => α).sum_comp, Fintype.sum_prod_type]
  simp [Fin.consEquiv, List.ofFn_succ]

theorem rand_some (d : ZMod r × Bool) (rest : List (ZMod r × Bool)) (p : EdwardsPoint (ZMod r))
    (h : EdwardsPoint.getForY sqrt d.1 d.2 J = .ok (some p)) : EdwardsPoint.rand sqrt J (d :: rest) = .ok (some p) := by
  obtain ⟨y, b⟩ := d
  rw [EdwardsPoint.rand, show EdwardsPoint.getForY sqrt y b J = .ok (some p) from h]
  rfl

theorem rand_none (d : ZMod r × Bool) (rest : List (ZMod r × Bool))
    (h : EdwardsPoint.getForY sqrt d.1 d.2 J = .ok none) : EdwardsPoint.rand sqrt J (d :: rest) = EdwardsPoint.rand sqrt J rest := by
  obtain ⟨y, b⟩ := d
  rw [EdwardsPoint.rand, show EdwardsPoint.getForY sqrt y b J = .ok none from h]
  rfl

/-- C103 (rand): of the `(2 r)^n` possible sequences of `n` draws, `rand` returns every point of the curve for equally many, except that the two
points with abscissa zero - the neutral element and the point of order two - come up twice as often; for `(2 r - (8 l + 2))^n` sequences
(about one in `2^n`) it would go on drawing. -/
theorem C103_rand (hs : IsSqrt sqrt) (hd : J.d = C.d)
    (hcard : Nat.card {p : EdwardsPoint (ZMod r) // p.isInCurve J = true} = 8 * J.l) (n : Nat) :
    (∀ p : EdwardsPoint (ZMod r), p.isInCurve J = true →
      Nat.card {d : Fin n → ZMod r × Bool // EdwardsPoint.rand sqrt J (List.ofFn d) = .ok (some p)} =
        weight p * ∑ k ∈ range n, (2 * r - (8 * J.l + 2)) ^ k * (2 * r) ^ (n - 1 - k)) ∧
    Nat.card {d : Fin n → ZMod r × Bool // EdwardsPoint.rand sqrt J (List.ofFn d) = .ok none} = (2 * r - (8 * J.l + 2)) ^ n := by
  classical
  have hnone := C103_get_for_y_none (C := C) hs hd hcard
  rw [Nat.card_eq_fintype_card, Fintype.card_subtype] at hnone
  simp only [Nat.card_eq_fintype_card, Fintype.card_subtype]
  set f := 2 * r - (8 * J.l + 2) with hf
  induction n with
  | zero =>
    constructor
    · intro p _
      simp [EdwardsPoint.rand]
    · simp [EdwardsPoint.rand]
  | succ n ih =>
    have hget : ∀ d : ZMod r × Bool, ∃ o, EdwardsPoint.getForY sqrt d.1 d.2 J = .ok o := fun d => by
      obtain ⟨o, ho, -⟩ := C30_get_for_y (C := C) hs hd d.1 d.2
      exact ⟨o, ho⟩
    constructor
    · intro p hp
      have hw := C103_get_for_y (C := C) hs hd p hp
      rw [Nat.card_eq_fintype_card, Fintype.card_subtype] at hw
      rw [card_draws n fun l => EdwardsPoint.rand sqrt J l = .ok (some p)]
      have hterm : ∀ d : ZMod r × Bool, (univ.filter fun e : Fin n → ZMod r × Bool =>
          EdwardsPoint.rand sqrt J (d :: List.ofFn e) = .ok (some p)).card =
          (if EdwardsPoint.getForY sqrt d.1 d.2 J = .ok (some p) then (2 * r) ^ n else 0) +
          (if EdwardsPoint.getForY sqrt d.1 d.2 J = .ok none then weight p * ∑ k ∈ range n, f ^ k * (2 * r) ^ (n - 1 - k) else 0) := by
        intro d
        obtain ⟨o, ho⟩ := hget d
        cases o with
        | none => simp [rand_none d _ ho, ho, ih.1 p hp]
        | some q =>
          simp only [rand_some d _ q ho, ho]
          by_cases hq : q = p
          · subst hq
            simp [mul_comm]
          · simp [hq]
      rw [sum_congr rfl fun d _ => hterm d, sum_add_distrib, ← sum_filter, ← sum_filter, sum_const, sum_const, hw, hnone, smul_eq_mul, smul_eq_mul,
        sum_range_succ']
      have : ∀ k ∈ range n, f ^ (k + 1) * (2 * r) ^ (n + 1 - 1 - (k + 1)) = f * (f ^ k * (2 * r) ^ (n - 1 - k)) := by
        intro k _
        rw [show n + 1 - 1 - (k + 1) = n - 1 - k by omega, pow_succ]; ring
      rw [sum_congr rfl this, ← mul_sum]
      simp only [pow_zero, one_mul, Nat.add_sub_cancel, Nat.sub_zero]
      ring
    · rw [card_draws n fun l => EdwardsPoint.rand sqrt J l = .ok none]
      have hterm : ∀ d : ZMod r × Bool, (univ.filter fun e : Fin n → ZMod r × Bool =>
          EdwardsPoint.rand sqrt J (d :: List.ofFn e) = .ok none).card =
          (if EdwardsPoint.getForY sqrt d.1 d.2 J = .ok none then f ^ n else 0) := by
        intro d
        obtain ⟨o, ho⟩ := hget d
        cases o with
        | none => simp [rand_none d _ ho, ho, ih.2]
        | some q => simp [rand_some d _ q ho, ho]
      rw [sum_congr rfl fun d _ => hterm d, ← sum_filter, sum_const, hnone, smul_eq_mul, pow_succ, mul_comm]

/-- C103 (from_scalar): `t` and `-2 - t` give the same point. -/
theorem C103_from_scalar_pairs (hs : IsSqrt sqrt) (hv : J.Valid C) (t : ZMod r) :
    EdwardsPoint.fromScalar sqrt (-2 - t) J = EdwardsPoint.fromScalar sqrt t J := by
  by_cases ht : t = -1
  · rw [ht, show (-2 - -1 : ZMod r) = -1 by ring]
  · have ht' : -2 - t ≠ -1 := fun h => ht (by linear_combination -h)
    obtain ⟨Q, hm, h⟩ := fromScalar_ok hs hv.a_eq hv.b_eq hv.u_nonsquare ht
    obtain ⟨Q', hm', h'⟩ := fromScalar_ok hs hv.a_eq hv.b_eq hv.u_nonsquare ht'
    have : IsMapped C J.u t Q' := by
      unfold IsMapped at hm' ⊢
      rwa [show (-2 - t + 1 : ZMod r) ^ 2 = (t + 1) ^ 2 by ring] at hm'
    rw [h, h', hm.unique this]

open Classical in
theorem card_sq_le (v : ZMod r) : (univ.filter fun t : ZMod r => (t + 1) ^ 2 = v).card ≤ 2 := by
  by_cases hne : ∃ t : ZMod r, (t + 1) ^ 2 = v
  · obtain ⟨t, ht⟩ := hne
    refine (card_le_card (t := {t, -2 - t}) ?_).trans card_le_two
    intro t' ht'
    have ht' := (mem_filter.1 ht').2
    rw [mem_insert, mem_singleton]
    rcases sq_eq_sq_iff_eq_or_eq_neg.1 (ht'.trans ht.symm) with h | h
    · exact .inl (by linear_combination h)
    · exact .inr (by linear_combination h)
  · rw [filter_eq_empty_iff.2]
    · simp
    · intro t _ ht; exact hne ⟨t, ht⟩

open Classical in
/-- At most four scalars are mapped to a point before the multiplication by the cofactor. -/
theorem card_mapped_le (hu : ¬ IsSquare J.u) (Q : EdPoint C) : (univ.filter fun t : ZMod r => t ≠ -1 ∧ IsMapped C J.u t Q).card ≤ 4 := by
  have hu0 : J.u ≠ 0 := by intro h; apply hu; rw [h]; exact IsSquare.zero
  have ha0 := C.a_ne_zero
  have hsub : (univ.filter fun t : ZMod r => t ≠ -1 ∧ IsMapped C J.u t Q) ⊆
      (univ.filter fun t : ZMod r => (t + 1) ^ 2 = (-(C.a * Q.montX) - 1)⁻¹ / J.u) ∪
      (univ.filter fun t : ZMod r => (t + 1) ^ 2 = (-(C.a * Q.montX) - 1) / J.u) := by
    intro t ht
    obtain ⟨ht1, -, -, hx⟩ := (mem_filter.1 ht).2
    have hs0 : J.u * (t + 1) ^ 2 ≠ 0 := mul_ne_zero hu0 (pow_ne_zero 2 fun h => ht1 (by linear_combination h))
    simp only [mem_union, mem_filter, mem_univ, true_and]
    rcases hx with ⟨-, hx⟩ | ⟨-, hx⟩
    · left
      rw [hx, eq_div_iff hu0]
      have : -(C.a * (-(1 + (J.u * (t + 1) ^ 2)⁻¹) / C.a)) - 1 = (J.u * (t + 1) ^ 2)⁻¹ := by field_simp; ring
      rw [this, inv_inv]; ring
    · right
      rw [hx, eq_div_iff hu0]
      rw [mul_comm]
      generalize J.u * (t + 1) ^ 2 = s at hs0 ⊢
      field_simp
      ring
  exact (card_le_card hsub).trans ((card_union_le _ _).trans (by have := card_sq_le (r := r) ((-(C.a * Q.montX) - 1)⁻¹ / J.u); have := card_sq_le (r := r) ((-(C.a * Q.montX) - 1) / J.u); omega))

open Classical in
theorem card_from_scalar_le (hs : IsSqrt sqrt) (hv : J.Valid C) (p : EdwardsPoint (ZMod r)) :
    (univ.filter fun t : ZMod r => EdwardsPoint.fromScalar sqrt t J = .ok p).card ≤ 32 := by
  by_cases hne : ∃ S : EdPoint C, S.affine = p
  · obtain ⟨S, rfl⟩ := hne
    refine (card_le_card (t := (univ.filter fun Q : EdPoint C => 8 • Q = S).biUnion fun Q =>
      univ.filter fun t : ZMod r => t ≠ -1 ∧ IsMapped C J.u t Q) ?_).trans ?_
    · intro t ht
      have ht := (mem_filter.1 ht).2
      have h1 : t ≠ -1 := by
        rintro rfl
        rw [C32_panics hv] at ht
        cases ht
      obtain ⟨Q, hm, h⟩ := fromScalar_ok hs hv.a_eq hv.b_eq hv.u_nonsquare h1
      rw [h] at ht
      simp only [mem_biUnion, mem_filter, mem_univ, true_and]
      exact ⟨Q, EdPoint.affine_inj.1 (Except.ok.inj ht), h1, hm⟩
    · refine (card_biUnion_le_card_mul _ _ 4 fun Q _ => card_mapped_le hv.u_nonsquare Q).trans ?_
      have := EdPoint.card_eight_le S
      omega
  · rw [filter_eq_empty_iff.2]
    · simp
    · intro t _ ht
      apply hne
      have h1 : t ≠ -1 := by
        rintro rfl
        rw [C32_panics hv] at ht
        cases ht
      obtain ⟨Q, -, h⟩ := fromScalar_ok hs hv.a_eq hv.b_eq hv.u_nonsquare h1
      rw [h] at ht
      exact ⟨_, Except.ok.inj ht⟩

/-- C103 (from_scalar): no point is the image of more than 32 scalars, so `from_scalar` reaches at least one thirty-second as many points as
there are scalars (other than `-1`, for which it panics). -/
theorem C103_from_scalar (hs : IsSqrt sqrt) (hv : J.Valid C) :
    (∀ p : EdwardsPoint (ZMod r), Nat.card {t : ZMod r // EdwardsPoint.fromScalar sqrt t J = .ok p} ≤ 32) ∧
    r - 1 ≤ 32 * Nat.card {p : EdwardsPoint (ZMod r) // ∃ t, EdwardsPoint.fromScalar sqrt t J = .ok p} := by
  classical
  constructor
  · intro p
    rw [Nat.card_eq_fintype_card, Fintype.card_subtype]
    exact card_from_scalar_le hs hv p
  · let g : ZMod r → EdwardsPoint (ZMod r) := fun t => match EdwardsPoint.fromScalar sqrt t J with
      | .ok p => p
      | .error _ => ⟨0, 0⟩
    have hg : ∀ t : ZMod r, t ≠ -1 → EdwardsPoint.fromScalar sqrt t J = .ok (g t) := by
      intro t ht
      obtain ⟨Q, -, h⟩ := fromScalar_ok hs hv.a_eq hv.b_eq hv.u_nonsquare ht
      simp only [g, h]
    have himg : ∀ p, (∃ t, EdwardsPoint.fromScalar sqrt t J = .ok p) ↔ p ∈ ((univ : Finset (ZMod r)).erase (-1)).image g := by
      intro p
      rw [mem_image]
      constructor
      · rintro ⟨t, ht⟩
        have h1 : t ≠ -1 := by
          rintro rfl
          rw [C32_panics hv] at ht
          cases ht
        refine ⟨t, mem_erase.2 ⟨h1, mem_univ _⟩, ?_⟩
        rw [hg t h1] at ht
        exact Except.ok.inj ht
      · rintro ⟨t, ht, rfl⟩
        exact ⟨t, hg t (mem_erase.1 ht).1⟩
    rw [Nat.card_congr (Equiv.subtypeEquivRight himg), Nat.card_eq_fintype_card, Fintype.card_coe]
    have h := card_le_mul_card_image (f := g) ((univ : Finset (ZMod r)).erase (-1)) 32 fun p _ => by
      refine (card_le_card ?_).trans (card_from_scalar_le hs hv p)
      intro t ht
      obtain ⟨h1, h2⟩ := mem_filter.1 ht
      exact mem_filter.2 ⟨mem_univ _, by rw [hg t (mem_erase.1 h1).1, h2]⟩
    rwa [card_erase_of_mem (mem_univ _), card_univ, ZMod.card] at h

/-- On the curve of BN256 all hypotheses of this file hold. -/
example : bnParams.Valid bnCurve ∧ bnR < bnParams.l ^ 2 ∧ bnParams.d = bnCurve.d ∧
    Nat.card {p : EdwardsPoint (ZMod bnR) // p.isInCurve bnParams = true} = 8 * bnParams.l :=
  ⟨bnParams_valid, by decide +kernel, bnParams_valid.d_eq, C103_order.1⟩

example : (∃ sqrt : ZMod bnR → Option (ZMod bnR), IsSqrt sqrt) ∧ (⟨0, 1⟩ : EdwardsPoint (ZMod bnR)).isInCurve bnParams = true ∧
    weight (⟨0, 1⟩ : EdwardsPoint (ZMod bnR)) = 2 :=
  ⟨exists_isSqrt _, (isInCurve_iff (C := bnCurve) bnParams_valid.d_eq _).2 ⟨0, rfl⟩, if_pos rfl⟩

end Fawkes.Props
