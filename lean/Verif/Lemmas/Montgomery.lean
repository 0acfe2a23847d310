import Verif.Spec.Montgomery

/-!
# The Montgomery form of the curve: bijection and addition law
-/

namespace Fawkes

variable {F : Type} [Field F]

namespace EdCurve

variable (C : EdCurve F)

theorem one_add_d_ne : 1 + C.d ≠ 0 := by
  intro h
  apply C.d_nonsquare
  have : C.d = -1 := by linear_combination h
  rw [this]; exact C.neg_one_square

theorem one_sub_d_ne : 1 - C.d ≠ 0 := by
  intro h
  apply C.d_nonsquare
  have : C.d = 1 := by linear_combination -h
  rw [this]; exact ⟨1, by ring⟩

theorem four_ne_zero (C : EdCurve F) : (4 : F) ≠ 0 := by
  have : (4 : F) = 2 * 2 := by norm_num
  rw [this]; exact mul_ne_zero C.two_ne_zero C.two_ne_zero

theorem a_ne_zero : C.a ≠ 0 := div_ne_zero (mul_ne_zero C.two_ne_zero C.one_sub_d_ne) C.one_add_d_ne

theorem b_ne_zero : C.b ≠ 0 := div_ne_zero (neg_ne_zero.2 C.four_ne_zero) C.one_add_d_ne

/-- `1 + d y²` does not vanish. -/
theorem one_add_mul_sq_ne (y : F) : 1 + C.d * y ^ 2 ≠ 0 := by
  intro h
  obtain ⟨i, hi⟩ := C.neg_one_square
  have hy : y ≠ 0 := by rintro rfl; simp at h
  apply C.d_nonsquare
  refine ⟨i / y, ?_⟩
  field_simp
  linear_combination h + hi

/-- `1 - d x²` does not vanish. -/
theorem one_sub_mul_sq_ne (x : F) : 1 - C.d * x ^ 2 ≠ 0 := by
  intro h
  have hx : x ≠ 0 := by rintro rfl; simp at h
  apply C.d_nonsquare
  refine ⟨1 / x, ?_⟩
  field_simp
  linear_combination -h

end EdCurve

namespace EdPoint

variable {C : EdCurve F}

theorem torsion2_x : (torsion2 : EdPoint C).x = 0 := rfl
theorem torsion2_y : (torsion2 : EdPoint C).y = -1 := rfl

theorem one_ne_neg_one (C : EdCurve F) : (1 : F) ≠ -1 := by
  intro h
  apply C.two_ne_zero
  linear_combination h

theorem torsion2_ne_zero : (torsion2 : EdPoint C) ≠ 0 := by
  intro h
  have := congrArg EdPoint.y h
  rw [torsion2_y, zero_y] at this
  exact one_ne_neg_one C this.symm

/-- A point with `x = 0` is the neutral one or the point of order two. -/
theorem x_eq_zero_iff (P : EdPoint C) : P.x = 0 ↔ P = 0 ∨ P = torsion2 := by
  constructor
  · intro h
    have hon := P.on
    unfold OnCurve at hon
    rw [h] at hon
    have : (P.y - 1) * (P.y + 1) = 0 := by linear_combination hon
    rcases mul_eq_zero.1 this with h1 | h1
    · left; ext
      · exact h
      · rw [zero_y]; linear_combination h1
    · right; ext
      · exact h
      · rw [torsion2_y]; linear_combination h1
  · rintro (rfl | rfl) <;> rfl

theorem y_eq_one_iff (P : EdPoint C) : P.y = 1 ↔ P = 0 := by
  constructor
  · intro h
    have hon := P.on
    unfold OnCurve at hon
    rw [h] at hon
    have : P.x * P.x * (1 + C.d) = 0 := by linear_combination -hon
    rcases mul_eq_zero.1 this with h1 | h1
    · ext
      · simpa using h1
      · exact h
    · exact absurd h1 C.one_add_d_ne
  · rintro rfl; rfl

theorem y_eq_neg_one_iff (P : EdPoint C) : P.y = -1 ↔ P = torsion2 := by
  constructor
  · intro h
    have hon := P.on
    unfold OnCurve at hon
    rw [h] at hon
    have : P.x * P.x * (1 + C.d) = 0 := by linear_combination -hon
    rcases mul_eq_zero.1 this with h1 | h1
    · ext
      · rw [torsion2_x]; simpa using h1
      · exact h
    · exact absurd h1 C.one_add_d_ne
  · rintro rfl; rfl

theorem one_sub_y_ne {P : EdPoint C} (h : P ≠ 0) : 1 - P.y ≠ 0 := fun h1 =>
  h ((y_eq_one_iff P).1 (by linear_combination -h1))

theorem one_add_y_ne {P : EdPoint C} (h : P ≠ torsion2) : 1 + P.y ≠ 0 := fun h1 =>
  h ((y_eq_neg_one_iff P).1 (by linear_combination h1))

theorem two_nsmul_torsion2 : 2 • (torsion2 : EdPoint C) = 0 := by
  rw [two_nsmul]; ext
  · rw [add_x]; simp [torsion2_x]
  · rw [add_y]; simp [torsion2_x, torsion2_y]

theorem neg_torsion2 : -(torsion2 : EdPoint C) = torsion2 := by
  ext
  · simp [torsion2_x]
  · simp

theorem add_torsion2 (P : EdPoint C) : P + torsion2 = ⟨-P.x, -P.y, by
    have := P.on; unfold OnCurve at *; linear_combination this⟩ := by
  ext
  · rw [add_x]; simp [torsion2_x, torsion2_y]
  · rw [add_y]; simp [torsion2_x, torsion2_y]

/-- `montY` without the exceptional case. -/
theorem montY_eq {P : EdPoint C} (h : P ≠ 0) : P.montY = -P.x * (1 + C.d * P.y ^ 2) / (1 - P.y) ^ 2 := by
  have h1 := one_sub_y_ne h
  unfold montY montX
  by_cases hx : P.x = 0
  · rw [hx]; simp
  · have hon := P.on
    unfold OnCurve at hon
    generalize hD : 1 - P.y = D at h1 ⊢
    field_simp
    subst hD
    linear_combination -hon

theorem montX_neg (P : EdPoint C) : (-P).montX = P.montX := rfl

theorem montY_neg (P : EdPoint C) : (-P).montY = -P.montY := by
  unfold montY; rw [montX_neg, neg_x, div_neg]

theorem montX_eq_zero_iff {P : EdPoint C} (h : P ≠ 0) : P.montX = 0 ↔ P = torsion2 := by
  unfold montX
  rw [div_eq_zero_iff, ← y_eq_neg_one_iff]
  constructor
  · rintro (h1 | h1)
    · linear_combination h1
    · exact absurd h1 (one_sub_y_ne h)
  · intro h1; left; rw [h1]; ring

theorem montY_eq_zero_iff {P : EdPoint C} (h : P ≠ 0) : P.montY = 0 ↔ P = torsion2 := by
  rw [montY_eq h, div_eq_zero_iff]
  constructor
  · rintro (h1 | h1)
    · rcases mul_eq_zero.1 h1 with h2 | h2
      · rcases (x_eq_zero_iff P).1 (neg_eq_zero.1 h2) with h3 | h3
        · exact absurd h3 h
        · exact h3
      · exact absurd h2 (C.one_add_mul_sq_ne _)
    · exact absurd h1 (pow_ne_zero 2 (one_sub_y_ne h))
  · rintro rfl; left; simp [torsion2_x]

/-- `y` from the first Montgomery coordinate. -/
theorem montX_add_one {P : EdPoint C} (h : P ≠ 0) : P.montX + 1 = 2 / (1 - P.y) := by
  have h1 := one_sub_y_ne h
  unfold montX; field_simp; ring

theorem montX_add_one_ne {P : EdPoint C} (h : P ≠ 0) : P.montX + 1 ≠ 0 := by
  rw [montX_add_one h]; exact div_ne_zero C.two_ne_zero (one_sub_y_ne h)

theorem y_of_montX {P : EdPoint C} (h : P ≠ 0) : P.y = (P.montX - 1) / (P.montX + 1) := by
  have h1 := one_sub_y_ne h
  rw [montX_add_one h]
  have h2 := C.two_ne_zero
  unfold montX; field_simp; ring

theorem x_of_mont {P : EdPoint C} (h : P ≠ 0) : P.x = P.montX / P.montY := by
  by_cases hT : P = torsion2
  · subst hT
    rw [(montX_eq_zero_iff h).2 rfl, zero_div, torsion2_x]
  · have hx : P.x ≠ 0 := fun hx => by
      rcases (x_eq_zero_iff P).1 hx with h1 | h1
      · exact h h1
      · exact hT h1
    have hm : P.montX ≠ 0 := fun hm => hT ((montX_eq_zero_iff h).1 hm)
    unfold montY
    field_simp

theorem montX_eq_iff {P Q : EdPoint C} (hP : P ≠ 0) (hQ : Q ≠ 0) : P.montX = Q.montX ↔ P = Q ∨ P = -Q := by
  constructor
  · intro h
    have hy : P.y = Q.y := by rw [y_of_montX hP, y_of_montX hQ, h]
    have h1 := P.on
    have h2 := Q.on
    unfold OnCurve at h1 h2
    have hn := C.one_add_mul_sq_ne Q.y
    have : (P.x - Q.x) * (P.x + Q.x) * (1 + C.d * Q.y ^ 2) = 0 := by
      rw [hy] at h1; linear_combination h2 - h1
    rcases mul_eq_zero.1 this with h3 | h3
    · rcases mul_eq_zero.1 h3 with h4 | h4
      · left; ext
        · linear_combination h4
        · exact hy
      · right; ext
        · rw [neg_x]; linear_combination h4
        · exact hy
    · exact absurd h3 hn
  · rintro (rfl | rfl)
    · rfl
    · exact montX_neg Q

/-- The image lies on the Montgomery curve. -/
theorem mont_on {P : EdPoint C} (h : P ≠ 0) : OnMont C.a C.b P.montX P.montY := by
  have h1 := one_sub_y_ne h
  have h2 := C.one_add_d_ne
  have hon := P.on
  unfold OnMont
  by_cases hT : P = torsion2
  · rw [(montX_eq_zero_iff h).2 hT, (montY_eq_zero_iff h).2 hT]; ring
  have hx : P.x ≠ 0 := fun hx => by
      rcases (x_eq_zero_iff P).1 hx with h1 | h1
      · exact h h1
      · exact hT h1
  unfold montY montX EdCurve.a EdCurve.b
  unfold OnCurve at hon
  generalize P.x = x, P.y = y at *
  generalize hD : 1 - y = D at h1 ⊢
  generalize hE : 1 + C.d = E at h2 ⊢
  field_simp
  subst hD hE
  linear_combination (4 : F) * (1 + y) * hon

/-- Every point of the Montgomery curve has `u + 1 ≠ 0`, and `v = 0` only at the origin. -/
theorem mont_u_add_one_ne {u v : F} (h : OnMont C.a C.b u v) : u + 1 ≠ 0 := by
  intro h1
  have hu : u = -1 := by linear_combination h1
  have h2 := C.one_add_d_ne
  have h4 := C.four_ne_zero
  unfold OnMont EdCurve.a EdCurve.b at h
  rw [hu] at h
  apply C.d_nonsquare
  refine ⟨v, ?_⟩
  generalize hE : 1 + C.d = E at h2 h
  field_simp at h
  subst hE
  apply mul_left_cancel₀ h4
  linear_combination h

theorem mont_v_ne {u v : F} (h : OnMont C.a C.b u v) (hu : u ≠ 0) : v ≠ 0 := by
  rintro rfl
  have h2 := C.one_add_d_ne
  have h4 := C.four_ne_zero
  have h22 := C.two_ne_zero
  unfold OnMont at h
  have hq : u ^ 2 + C.a * u + 1 = 0 := by
    apply mul_left_cancel₀ hu; linear_combination -h
  -- discriminant `a² - 4 = -16 d / (1+d)²`
  obtain ⟨i, hi⟩ := C.neg_one_square
  have hi0 : i ≠ 0 := by rintro rfl; simp at hi
  apply C.d_nonsquare
  refine ⟨(2 * u + C.a) * (1 + C.d) * i / 4, ?_⟩
  have ha : C.a * (1 + C.d) = 2 * (1 - C.d) := by unfold EdCurve.a; field_simp
  have key : (4 * 4 : F) * C.d = (2 * u + C.a) * (1 + C.d) * i * ((2 * u + C.a) * (1 + C.d) * i) := by
    linear_combination (-(4 : F) * (1 + C.d) ^ 2 * (i * i)) * hq - (16 * C.d) * hi
      + (-(i * i)) * (C.a * (1 + C.d) + 2 * (1 - C.d)) * ha
  field_simp
  linear_combination key

/-- The inverse map. -/
theorem exists_of_mont {u v : F} (h : OnMont C.a C.b u v) (hu : u ≠ 0) :
    ∃ P : EdPoint C, P ≠ 0 ∧ P.x = u / v ∧ P.y = (u - 1) / (u + 1) ∧ P.montX = u ∧ P.montY = v := by
  have h1 := mont_u_add_one_ne h
  have hv := mont_v_ne h hu
  have h2 := C.one_add_d_ne
  have h22 := C.two_ne_zero
  have hon : OnCurve C.d (u / v) ((u - 1) / (u + 1)) := by
    have h' := h
    unfold OnMont EdCurve.a EdCurve.b at h'
    unfold OnCurve
    generalize hE : 1 + C.d = E at h2 h'
    field_simp at h'
    generalize hU : u + 1 = U at h1 ⊢
    field_simp
    subst hE hU
    linear_combination u * h'
  refine ⟨⟨u / v, (u - 1) / (u + 1), hon⟩, ?_, rfl, rfl, ?_, ?_⟩
  · intro h0
    have : (u - 1) / (u + 1) = 1 := congrArg EdPoint.y h0
    rw [div_eq_one_iff_eq h1] at this
    apply h22; linear_combination -this
  · show (1 + (u - 1) / (u + 1)) / (1 - (u - 1) / (u + 1)) = u
    rw [show 1 + (u - 1) / (u + 1) = 2 * u / (u + 1) by field_simp; ring,
      show 1 - (u - 1) / (u + 1) = 2 / (u + 1) by field_simp; ring]
    field_simp
  · show (1 + (u - 1) / (u + 1)) / (1 - (u - 1) / (u + 1)) / (u / v) = v
    rw [show 1 + (u - 1) / (u + 1) = 2 * u / (u + 1) by field_simp; ring,
      show 1 - (u - 1) / (u + 1) = 2 / (u + 1) by field_simp; ring]
    field_simp

private theorem add_u_poly {d x1 y1 x2 y2 : F} (h1 : OnCurve d x1 y1) (h2 : OnCurve d x2 y2) :
    (-(x1*(1+d*y1^2)*(1-y2)^2-x2*(1+d*y2^2)*(1-y1)^2)^2 - 2*(1-d)*((y2-y1)^2*(1-y1)^2*(1-y2)^2)
      - (1+d)*((1+y1)*(1-y2)+(1+y2)*(1-y1))*(y2-y1)^2*(1-y1)*(1-y2)) * ((1-d*x1*x2*y1*y2)-(y1*y2+x1*x2)) =
    ((1-d*x1*x2*y1*y2)+(y1*y2+x1*x2))*(1+d)*((y2-y1)^2*(1-y1)^2*(1-y2)^2) := by
  unfold OnCurve at h1 h2
  linear_combination
    (- x1*y1^3*x2*y2^5*d^2 + 4*x1*y1^3*x2*y2^4*d^2 - 6*x1*y1^3*x2*y2^3*d^2 + 4*x1*y1^3*x2*y2^2*d^2 -
      x1*y1^3*x2*y2*d^2 - x1*y1^2*x2*y2^4*d + 4*x1*y1^2*x2*y2^3*d - 6*x1*y1^2*x2*y2^2*d + 4*x1*y1^2*x2*y2*d -
      x1*y1^2*x2*d - x1*y1*x2*y2^5*d + 4*x1*y1*x2*y2^4*d - 6*x1*y1*x2*y2^3*d + 4*x1*y1*x2*y2^2*d -
      x1*y1*x2*y2*d - x1*x2*y2^4 + 4*x1*x2*y2^3 - 6*x1*x2*y2^2 + 4*x1*x2*y2 - x1*x2 + 2*y1^3*x2^2*y2^5*d^2 -
      4*y1^3*x2^2*y2^4*d^2 + 2*y1^3*x2^2*y2^3*d^2 + 2*y1^3*x2^2*y2^3*d - 4*y1^3*x2^2*y2^2*d + 2*y1^3*x2^2*y2*d
      - y1^3*y2^5*d + 4*y1^3*y2^4*d - 6*y1^3*y2^3*d + 4*y1^3*y2^2*d - y1^3*y2*d - 4*y1^2*x2^2*y2^5*d^2 +
      8*y1^2*x2^2*y2^4*d^2 + 2*y1^2*x2^2*y2^4*d - 4*y1^2*x2^2*y2^3*d^2 - 8*y1^2*x2^2*y2^3*d +
      10*y1^2*x2^2*y2^2*d + 2*y1^2*x2^2*y2^2 - 4*y1^2*x2^2*y2*d - 4*y1^2*x2^2*y2 + 2*y1^2*x2^2 + y1^2*y2^4*d -
      4*y1^2*y2^3*d + 6*y1^2*y2^2*d - 4*y1^2*y2*d + y1^2*d + 2*y1*x2^2*y2^5*d^2 - 4*y1*x2^2*y2^4*d^2 -
      4*y1*x2^2*y2^4*d + 2*y1*x2^2*y2^3*d^2 + 10*y1*x2^2*y2^3*d - 8*y1*x2^2*y2^2*d - 4*y1*x2^2*y2^2 +
      2*y1*x2^2*y2*d + 8*y1*x2^2*y2 - 4*y1*x2^2 - y1*y2^5 + 4*y1*y2^4 - 6*y1*y2^3 + 4*y1*y2^2 - y1*y2 +
      2*x2^2*y2^4*d - 4*x2^2*y2^3*d + 2*x2^2*y2^2*d + 2*x2^2*y2^2 - 4*x2^2*y2 + 2*x2^2 + y2^4 - 4*y2^3 +
      6*y2^2 - 4*y2 + 1) * h1 +
    (- x1*y1^5*x2*y2^3*d^2 - x1*y1^5*x2*y2*d + 4*x1*y1^4*x2*y2^3*d^2 - x1*y1^4*x2*y2^2*d + 4*x1*y1^4*x2*y2*d
      - x1*y1^4*x2 - 6*x1*y1^3*x2*y2^3*d^2 + 4*x1*y1^3*x2*y2^2*d - 6*x1*y1^3*x2*y2*d + 4*x1*y1^3*x2 +
      4*x1*y1^2*x2*y2^3*d^2 - 6*x1*y1^2*x2*y2^2*d + 4*x1*y1^2*x2*y2*d - 6*x1*y1^2*x2 - x1*y1*x2*y2^3*d^2 +
      4*x1*y1*x2*y2^2*d - x1*y1*x2*y2*d + 4*x1*y1*x2 - x1*x2*y2^2*d - x1*x2 + y1^5*y2^3*d - 4*y1^5*y2^2*d +
      2*y1^5*y2*d - y1^5*y2 + 9*y1^4*y2^2*d + 2*y1^4*y2^2 - 4*y1^4*y2*d + 3*y1^4 - 6*y1^3*y2^3*d -
      4*y1^3*y2^2*d - 4*y1^3*y2^2 + 2*y1^3*y2 - 8*y1^3 + 8*y1^2*y2^3*d - 2*y1^2*y2^2*d + 4*y1^2*y2*d +
      4*y1^2*y2 + 6*y1^2 - 3*y1*y2^3*d + 4*y1*y2^2 - 2*y1*y2*d - 9*y1*y2 + y2^2*d - 2*y2^2 + 4*y2 - 1) * h2

private theorem add_v_poly {d x1 y1 x2 y2 : F} (h1 : OnCurve d x1 y1) (h2 : OnCurve d x2 y2) :
    (x1*(1+d*y1^2)*(1-y2)^2-x2*(1+d*y2^2)*(1-y1)^2) *
        ((1+y1)*((1-d*x1*x2*y1*y2)-(y1*y2+x1*x2))-((1-d*x1*x2*y1*y2)+(y1*y2+x1*x2))*(1-y1)) *
        ((1-d*x1*x2*y1*y2)-(y1*y2+x1*x2)) * (1+d*x1*x2*y1*y2) +
      2*(y2-y1)*(1-y2)*x1*(1+d*y1^2)*((1-d*x1*x2*y1*y2)-(y1*y2+x1*x2))^2*(1+d*x1*x2*y1*y2) +
      2*(y2-y1)*(1-y1)^2*(1-y2)*(x1*y2+y1*x2)*((1-d*x1*x2*y1*y2)^2+d*(y1*y2+x1*x2)^2) = 0 := by
  unfold OnCurve at h1 h2
  linear_combination
    (- 2*x1^2*y1^4*x2^3*y2^5*d^3 + 2*x1^2*y1^4*x2^3*y2^4*d^3 + 2*x1^2*y1^3*x2^3*y2^5*d^3 -
      2*x1^2*y1^3*x2^3*y2^4*d^3 - 2*x1^2*y1^3*x2^3*y2^4*d^2 + 2*x1^2*y1^3*x2^3*y2^2*d^2 +
      2*x1^2*y1^2*x2^3*y2^4*d^2 - 2*x1^2*y1^2*x2^3*y2^2*d^2 - 2*x1^2*y1^2*x2^3*y2^2*d + 2*x1^2*y1^2*x2^3*y2*d
      + 2*x1^2*y1*x2^3*y2^2*d - 2*x1^2*y1*x2^3*y2*d + 2*x1*y1^4*x2^4*y2^5*d^3 + 2*x1*y1^4*x2^4*y2^3*d^2 -
      2*x1*y1^4*x2^2*y2^5*d^2 + 2*x1*y1^4*x2^2*y2^3*d^2 - 4*x1*y1^3*x2^4*y2^5*d^3 + 2*x1*y1^3*x2^4*y2^4*d^2 -
      4*x1*y1^3*x2^4*y2^3*d^2 + 2*x1*y1^3*x2^4*y2^2*d + 2*x1*y1^3*x2^2*y2^5*d^2 + 2*x1*y1^3*x2^2*y2^4*d^2 -
      2*x1*y1^3*x2^2*y2^4*d - 4*x1*y1^3*x2^2*y2^3*d^2 - 2*x1*y1^3*x2^2*y2^3*d + 4*x1*y1^3*x2^2*y2^2*d +
      2*x1*y1^2*x2^4*y2^5*d^3 - 2*x1*y1^2*x2^4*y2^5*d^2 - 2*x1*y1^2*x2^4*y2^4*d^2 + 2*x1*y1^2*x2^4*y2^3*d^2 -
      2*x1*y1^2*x2^4*y2^3*d - 2*x1*y1^2*x2^4*y2^2*d + 2*x1*y1^2*x2^2*y2^5*d - 2*x1*y1^2*x2^2*y2^4*d^2 +
      2*x1*y1^2*x2^2*y2^4*d + 2*x1*y1^2*x2^2*y2^3*d^2 - 4*x1*y1^2*x2^2*y2^2*d + 4*x1*y1*x2^4*y2^5*d^2 -
      2*x1*y1*x2^4*y2^4*d^2 - 2*x1*y1*x2^4*y2^4*d + 6*x1*y1*x2^4*y2^3*d - 2*x1*y1*x2^4*y2^2*d -
      2*x1*y1*x2^4*y2^2 + 2*x1*y1*x2^4*y2 - 4*x1*y1*x2^2*y2^5*d + 2*x1*y1*x2^2*y2^4*d + 2*x1*y1*x2^2*y2^4 +
      2*x1*y1*x2^2*y2^3*d - 2*x1*y1*x2^2*y2^3 - 2*x1*y1*x2^2*y2^2 + 2*x1*y1*x2^2 - 2*x1*x2^4*y2^5*d^2 +
      2*x1*x2^4*y2^5*d + 2*x1*x2^4*y2^4*d^2 + 2*x1*x2^4*y2^4*d - 6*x1*x2^4*y2^3*d + 2*x1*x2^4*y2^3 +
      2*x1*x2^4*y2^2*d + 2*x1*x2^4*y2^2 - 4*x1*x2^4*y2 + 2*x1*x2^2*y2^5*d - 2*x1*x2^2*y2^5 - 2*x1*x2^2*y2^4*d
      - 2*x1*x2^2*y2^4 + 6*x1*x2^2*y2^3 + 2*x1*x2^2*y2^2 - 2*x1*x2^2*y2 - 2*x1*x2^2 + 2*y1^4*x2^3*y2^4*d^2 +
      2*y1^4*x2^3*y2^2*d - 2*y1^4*x2*y2^4*d + 2*y1^4*x2*y2^3*d - 4*y1^3*x2^3*y2^4*d^2 - 4*y1^3*x2^3*y2^2*d +
      2*y1^3*x2*y2^4*d - 2*y1^3*x2*y2^3*d + 2*y1^2*x2^3*y2^4*d^2 + 4*y1^2*x2^3*y2^2*d + 2*y1^2*x2^3 +
      2*y1^2*x2*y2^3*d - 2*y1^2*x2*y2^2*d - 4*y1^2*x2*y2^2 + 4*y1^2*x2*y2 - 4*y1*x2^3*y2^2*d - 4*y1*x2^3 -
      2*y1*x2*y2^3*d + 2*y1*x2*y2^2*d + 6*y1*x2*y2^2 - 4*y1*x2*y2 - 2*y1*x2 + 2*x2^3*y2^2*d + 2*x2^3 -
      2*x2*y2^2 + 2*x2) * h1 +
    (- 4*x1^3*y1*x2^2*y2^3*d + 2*x1^3*y1*x2^2*y2^2*d + 2*x1^3*y1*x2^2*y2^2 + 2*x1^3*y1*x2^2*y2*d -
      2*x1^3*y1*x2^2*y2 + 2*x1^3*x2^2*y2^3*d - 2*x1^3*x2^2*y2^3 - 2*x1^3*x2^2*y2^2*d - 2*x1^3*x2^2*y2^2 +
      4*x1^3*x2^2*y2 + 2*x1*y1^6*x2^2*y2^3*d^2 - 4*x1*y1^5*x2^2*y2^3*d^2 + 2*x1*y1^5*x2^2*y2^2*d +
      2*x1*y1^5*y2^2*d - 2*x1*y1^4*x2^2*y2^3*d - 2*x1*y1^4*x2^2*y2^2*d - 2*x1*y1^4*y2^3*d - 2*x1*y1^4*y2^2*d -
      2*x1*y1^4*y2*d + 4*x1*y1^3*x2^2*y2^3*d^2 + 4*x1*y1^3*x2^2*y2^3*d - 4*x1*y1^3*x2^2*y2^2*d -
      2*x1*y1^3*x2^2*y2^2 + 2*x1*y1^3*x2^2*y2 + 4*x1*y1^3*y2^3*d - 2*x1*y1^3*y2^2*d + 4*x1*y1^3*y2*d +
      2*x1*y1^3*y2 - 2*x1*y1^2*x2^2*y2^3*d^2 + 2*x1*y1^2*x2^2*y2^3 + 4*x1*y1^2*x2^2*y2^2*d +
      2*x1*y1^2*x2^2*y2^2 - 4*x1*y1^2*x2^2*y2 - 2*x1*y1^2*y2^3*d + 2*x1*y1^2*y2^2*d - 2*x1*y1^2*y2*d -
      6*x1*y1^2*y2 - 4*x1*y1*x2^2*y2^3*d + 2*x1*y1*x2^2*y2^2*d + 2*x1*y1*x2^2*y2^2 - 2*x1*y1*x2^2*y2 +
      6*x1*y1*y2 + 2*x1*x2^2*y2^3*d - 2*x1*x2^2*y2^3 - 2*x1*x2^2*y2^2*d - 2*x1*x2^2*y2^2 + 4*x1*x2^2*y2 -
      2*x1*y2 + 2*y1^6*x2*y2^2*d - 4*y1^5*x2*y2^2*d + 2*y1^4*x2 + 4*y1^3*x2*y2^2*d - 4*y1^3*x2 -
      2*y1^2*x2*y2^2*d + 4*y1*x2 - 2*x2) * h2

private theorem dbl_u_poly {d x1 y1 : F} (h1 : OnCurve d x1 y1) :
    (-x1^2*(2+(1+d)*y1+2*d*y1^2)^2 - 2*(1-d)*(1-y1^2)^2 - 2*(1+d)*(1+y1)^3*(1-y1)) *
      ((1-d*x1*x1*y1*y1)-(y1*y1+x1*x1)) =
    ((1-d*x1*x1*y1*y1)+(y1*y1+x1*x1))*(1+d)*(1-y1^2)^2 := by
  unfold OnCurve at h1
  linear_combination
    (- 4*x1^2*y1^4*d^2 - 4*x1^2*y1^3*d^2 - 4*x1^2*y1^3*d - x1^2*y1^2*d^2 - 10*x1^2*y1^2*d - x1^2*y1^2 -
      4*x1^2*y1*d - 4*x1^2*y1 - 4*x1^2 - 5*y1^4*d - y1^4 - 4*y1^3*d - 4*y1^3 + 4*y1^2*d - 4*y1^2 + 4*y1*d +
      4*y1 + d + 5) * h1

private theorem dbl_v_poly {d x1 y1 : F} (h1 : OnCurve d x1 y1) :
    -x1*(2+(1+d)*y1+2*d*y1^2)*((1+y1)*((1-d*x1*x1*y1*y1)-(y1*y1+x1*x1))-((1-d*x1*x1*y1*y1)+(y1*y1+x1*x1))*(1-y1)) *
        ((1-d*x1*x1*y1*y1)-(y1*y1+x1*x1))*(1+d*x1*x1*y1*y1) +
      2*(1+y1)*x1*(1+d*y1^2)*((1-d*x1*x1*y1*y1)-(y1*y1+x1*x1))^2*(1+d*x1*x1*y1*y1) +
      (x1*y1+y1*x1)*((1-d*x1*x1*y1*y1)^2+d*(y1*y1+x1*x1)^2)*2*(1-y1^2)*(1-y1) = 0 := by
  unfold OnCurve at h1
  linear_combination
    (2*x1^5*y1^7*d^3 + 2*x1^5*y1^6*d^2 + 2*x1^5*y1^3*d^2 + 2*x1^5*y1^2*d + 2*x1^3*y1^7*d^2 + 2*x1^3*y1^6*d^2
      - 2*x1^3*y1^5*d^2 + 2*x1^3*y1^4*d + 2*x1^3*y1^3*d + 2*x1^3*y1^2*d - 2*x1^3*y1*d + 2*x1^3 + 4*x1*y1^6*d -
      2*x1*y1^5*d - 2*x1*y1^4*d + 4*x1*y1^2 - 2*x1*y1 - 2*x1) * h1

/-- The chord law on Montgomery coordinates. -/
theorem mont_add {P Q : EdPoint C} (hP : P ≠ 0) (hQ : Q ≠ 0) (hne : P.montX ≠ Q.montX) (lam : F)
    (hlam : (Q.montX - P.montX) * lam = Q.montY - P.montY) :
    P + Q ≠ 0 ∧ (P + Q).montX = C.b * lam ^ 2 - C.a - P.montX - Q.montX ∧
      (P + Q).montY = lam * (P.montX - (P + Q).montX) - P.montY := by
  have hs : P + Q ≠ 0 := by
    intro h
    apply hne
    rw [eq_neg_of_add_eq_zero_left h, montX_neg]
  have n1 := one_sub_y_ne hP
  have n2 := one_sub_y_ne hQ
  have n3 := one_sub_y_ne hs
  have hB := denom_add_ne C P.on Q.on
  have hD := denom_sub_ne C P.on Q.on
  have h2 := C.two_ne_zero
  have h1d := C.one_add_d_ne
  have hu := add_u_poly P.on Q.on
  have hv := add_v_poly P.on Q.on
  have hw : Q.y - P.y ≠ 0 := by
    intro h
    apply hne
    have : Q.y = P.y := by linear_combination h
    unfold montX; rw [this]
  have hDN : (1 - C.d * P.x * Q.x * P.y * Q.y) - (P.y * Q.y + P.x * Q.x) ≠ 0 := by
    intro h
    apply n3
    rw [add_y, sub_eq_zero, eq_comm, div_eq_one_iff_eq hD]
    linear_combination -h
  have hx3 : (P + Q).montX = ((1 - C.d * P.x * Q.x * P.y * Q.y) + (P.y * Q.y + P.x * Q.x)) /
      ((1 - C.d * P.x * Q.x * P.y * Q.y) - (P.y * Q.y + P.x * Q.x)) := by
    have e : 1 - (P + Q).y = ((1 - C.d * P.x * Q.x * P.y * Q.y) - (P.y * Q.y + P.x * Q.x)) /
        (1 - C.d * P.x * Q.x * P.y * Q.y) := by rw [add_y, sub_div, div_self hD]
    have e' : 1 + (P + Q).y = ((1 - C.d * P.x * Q.x * P.y * Q.y) + (P.y * Q.y + P.x * Q.x)) /
        (1 - C.d * P.x * Q.x * P.y * Q.y) := by rw [add_y, add_div _ (_ + _), div_self hD]
    unfold montX
    rw [e, e', div_div_div_cancel_right₀ hD]
  have hlam' : lam = (P.x * (1 + C.d * P.y ^ 2) * (1 - Q.y) ^ 2 - Q.x * (1 + C.d * Q.y ^ 2) * (1 - P.y) ^ 2) /
      (2 * (Q.y - P.y) * (1 - P.y) * (1 - Q.y)) := by
    have e : Q.montX - P.montX = 2 * (Q.y - P.y) / ((1 - P.y) * (1 - Q.y)) := by
      unfold montX
      generalize hD1 : 1 - P.y = D1 at n1 ⊢
      generalize hD2 : 1 - Q.y = D2 at n2 ⊢
      field_simp
      subst hD1 hD2; ring
    have e' : Q.montY - P.montY =
        (P.x * (1 + C.d * P.y ^ 2) * (1 - Q.y) ^ 2 - Q.x * (1 + C.d * Q.y ^ 2) * (1 - P.y) ^ 2) /
          ((1 - P.y) ^ 2 * (1 - Q.y) ^ 2) := by
      rw [montY_eq hP, montY_eq hQ]
      generalize hD1 : 1 - P.y = D1 at n1 ⊢
      generalize hD2 : 1 - Q.y = D2 at n2 ⊢
      field_simp; ring
    rw [e, e'] at hlam
    have hne' : 2 * (Q.y - P.y) / ((1 - P.y) * (1 - Q.y)) ≠ 0 :=
      div_ne_zero (mul_ne_zero h2 hw) (mul_ne_zero n1 n2)
    apply mul_left_cancel₀ hne'
    rw [hlam]
    generalize hD1 : 1 - P.y = D1 at n1 ⊢
    generalize hD2 : 1 - Q.y = D2 at n2 ⊢
    generalize hW : Q.y - P.y = W at hw ⊢
    field_simp
  refine ⟨hs, ?_, ?_⟩
  · rw [hx3, hlam']
    unfold EdCurve.a EdCurve.b montX
    clear hv hlam hlam' hx3 hs n3
    generalize hX1 : P.x = x1 at *
    generalize hY1 : P.y = y1 at *
    generalize hX2 : Q.x = x2 at *
    generalize hY2 : Q.y = y2 at *
    generalize C.d = d at *
    generalize hDD : (1 - d * x1 * x2 * y1 * y2) - (y1 * y2 + x1 * x2) = DD at hDN hu ⊢
    generalize hNN : (1 - d * x1 * x2 * y1 * y2) + (y1 * y2 + x1 * x2) = NN at hu ⊢
    generalize hD1 : 1 - y1 = D1 at n1 hu ⊢
    generalize hD2 : 1 - y2 = D2 at n2 hu ⊢
    generalize hW : y2 - y1 = W at hw hu ⊢
    generalize hE : 1 + d = E at h1d hu ⊢
    generalize hK : x1 * (1 + d * y1 ^ 2) * D2 ^ 2 - x2 * (1 + d * y2 ^ 2) * D1 ^ 2 = K at hu ⊢
    have h4 : (4 : F) = 2 * 2 := by norm_num
    rw [h4]
    field_simp
    linear_combination -hu
  · have hy3 : (P + Q).montY = -((P.x * Q.y + P.y * Q.x) *
        ((1 - C.d * P.x * Q.x * P.y * Q.y) ^ 2 + C.d * (P.y * Q.y + P.x * Q.x) ^ 2)) /
        ((1 + C.d * P.x * Q.x * P.y * Q.y) *
          ((1 - C.d * P.x * Q.x * P.y * Q.y) - (P.y * Q.y + P.x * Q.x)) ^ 2) := by
      rw [montY_eq hs]
      have e : 1 - (P + Q).y = ((1 - C.d * P.x * Q.x * P.y * Q.y) - (P.y * Q.y + P.x * Q.x)) /
        (1 - C.d * P.x * Q.x * P.y * Q.y) := by rw [add_y, sub_div, div_self hD]
      rw [e, add_x, add_y]
      generalize (1 - C.d * P.x * Q.x * P.y * Q.y) - (P.y * Q.y + P.x * Q.x) = DD at hDN ⊢
      generalize (1 - C.d * P.x * Q.x * P.y * Q.y) = D at hD ⊢
      generalize (1 + C.d * P.x * Q.x * P.y * Q.y) = B at hB ⊢
      field_simp
    rw [hy3, hx3, hlam', montY_eq hP]
    unfold montX
    clear hu hlam hlam' hx3 hy3 hs n3
    generalize hX1 : P.x = x1 at *
    generalize hY1 : P.y = y1 at *
    generalize hX2 : Q.x = x2 at *
    generalize hY2 : Q.y = y2 at *
    generalize C.d = d at *
    generalize hDD : (1 - d * x1 * x2 * y1 * y2) - (y1 * y2 + x1 * x2) = DD at hDN hv ⊢
    generalize hNN : (1 - d * x1 * x2 * y1 * y2) + (y1 * y2 + x1 * x2) = NN at hv ⊢
    generalize hBB : 1 + d * x1 * x2 * y1 * y2 = BB at hB hv ⊢
    generalize hRR : (1 - d * x1 * x2 * y1 * y2) ^ 2 + d * (y1 * y2 + x1 * x2) ^ 2 = RR at hv ⊢
    generalize hD1 : 1 - y1 = D1 at n1 hv ⊢
    generalize hD2 : 1 - y2 = D2 at n2 hv ⊢
    generalize hW : y2 - y1 = W at hw hv ⊢
    generalize hK : x1 * (1 + d * y1 ^ 2) * D2 ^ 2 - x2 * (1 + d * y2 ^ 2) * D1 ^ 2 = K at hv ⊢
    field_simp
    linear_combination -hv

/-- The tangent law on Montgomery coordinates. -/
theorem mont_double {P : EdPoint C} (hP : P ≠ 0) (hT : P ≠ torsion2) (lam : F)
    (hlam : 2 * C.b * P.montY * lam = 3 * P.montX ^ 2 + 2 * C.a * P.montX + 1) :
    P + P ≠ 0 ∧ (P + P).montX = C.b * lam ^ 2 - C.a - P.montX - P.montX ∧
      (P + P).montY = lam * (P.montX - (P + P).montX) - P.montY := by
  have hx : P.x ≠ 0 := fun hx => by
      rcases (x_eq_zero_iff P).1 hx with h1 | h1
      · exact hP h1
      · exact hT h1
  have hs : P + P ≠ 0 := by
    intro h
    have : P = -P := eq_neg_of_add_eq_zero_left h
    have := congrArg EdPoint.x this
    rw [neg_x] at this
    have : 2 * P.x = 0 := by linear_combination this
    rcases mul_eq_zero.1 this with h | h
    · exact C.two_ne_zero h
    · exact hx h
  have n1 := one_sub_y_ne hP
  have n2 := one_add_y_ne hT
  have n3 := one_sub_y_ne hs
  have hB := denom_add_ne C P.on P.on
  have hD := denom_sub_ne C P.on P.on
  have h2 := C.two_ne_zero
  have h4 := C.four_ne_zero
  have h1d := C.one_add_d_ne
  have hu := dbl_u_poly P.on
  have hv := dbl_v_poly P.on
  have hDN : (1 - C.d * P.x * P.x * P.y * P.y) - (P.y * P.y + P.x * P.x) ≠ 0 := by
    intro h
    apply n3
    rw [add_y, sub_eq_zero, eq_comm, div_eq_one_iff_eq hD]
    linear_combination -h
  have hx3 : (P + P).montX = ((1 - C.d * P.x * P.x * P.y * P.y) + (P.y * P.y + P.x * P.x)) /
      ((1 - C.d * P.x * P.x * P.y * P.y) - (P.y * P.y + P.x * P.x)) := by
    have e : 1 - (P + P).y = ((1 - C.d * P.x * P.x * P.y * P.y) - (P.y * P.y + P.x * P.x)) /
        (1 - C.d * P.x * P.x * P.y * P.y) := by rw [add_y, sub_div, div_self hD]
    have e' : 1 + (P + P).y = ((1 - C.d * P.x * P.x * P.y * P.y) + (P.y * P.y + P.x * P.x)) /
        (1 - C.d * P.x * P.x * P.y * P.y) := by rw [add_y, add_div _ (_ + _), div_self hD]
    unfold montX
    rw [e, e', div_div_div_cancel_right₀ hD]
  have hq : 1 - P.y ^ 2 ≠ 0 := by
    rw [show 1 - P.y ^ 2 = (1 - P.y) * (1 + P.y) by ring]; exact mul_ne_zero n1 n2
  have hlam' : lam = -P.x * (2 + (1 + C.d) * P.y + 2 * C.d * P.y ^ 2) / (2 * (1 - P.y ^ 2)) := by
    have e : 2 * C.b * P.montY = -(2 * 4 * (1 + P.y)) / ((1 + C.d) * (1 - P.y) * P.x) := by
      unfold EdCurve.b montY montX
      generalize hD1 : 1 - P.y = D1 at n1 ⊢
      generalize hE : 1 + C.d = E at h1d ⊢
      field_simp
    have e' : 3 * P.montX ^ 2 + 2 * C.a * P.montX + 1 =
        4 * (2 + (1 + C.d) * P.y + 2 * C.d * P.y ^ 2) / ((1 + C.d) * (1 - P.y) ^ 2) := by
      unfold EdCurve.a montX
      generalize hD1 : 1 - P.y = D1 at n1 ⊢
      generalize hE : 1 + C.d = E at h1d ⊢
      field_simp
      subst hD1 hE; ring
    rw [e, e'] at hlam
    have hne' : -(2 * 4 * (1 + P.y)) / ((1 + C.d) * (1 - P.y) * P.x) ≠ 0 :=
      div_ne_zero (neg_ne_zero.2 (mul_ne_zero (mul_ne_zero h2 h4) n2)) (mul_ne_zero (mul_ne_zero h1d n1) hx)
    apply mul_left_cancel₀ hne'
    rw [hlam, show 1 - P.y ^ 2 = (1 - P.y) * (1 + P.y) by ring]
    generalize hS : 2 + (1 + C.d) * P.y + 2 * C.d * P.y ^ 2 = S
    generalize hD1 : 1 - P.y = D1 at n1 ⊢
    generalize hD2 : 1 + P.y = D2 at n2 ⊢
    generalize hE : 1 + C.d = E at h1d ⊢
    field_simp
  refine ⟨hs, ?_, ?_⟩
  · rw [hx3, hlam']
    have hmx : P.montX = (1 + P.y) ^ 2 / (1 - P.y ^ 2) := by
      unfold montX
      rw [show 1 - P.y ^ 2 = (1 - P.y) * (1 + P.y) by ring]
      generalize hD1 : 1 - P.y = D1 at n1 ⊢
      field_simp
    rw [hmx]
    unfold EdCurve.a EdCurve.b
    clear hv hlam hlam' hx3 hs n3
    generalize hX1 : P.x = x1 at *
    generalize hY1 : P.y = y1 at *
    generalize C.d = d at *
    generalize hDD : (1 - d * x1 * x1 * y1 * y1) - (y1 * y1 + x1 * x1) = DD at hDN hu ⊢
    generalize hNN : (1 - d * x1 * x1 * y1 * y1) + (y1 * y1 + x1 * x1) = NN at hu ⊢
    have hu' : (-x1^2*(2+(1+d)*y1+2*d*y1^2)^2 - 2*(1-d)*(1-y1^2)^2 - 2*(1+d)*((1+y1)^2*(1-y1^2))) * DD =
        NN * (1+d) * (1-y1^2)^2 := by rw [← hu]; ring
    generalize hQ : 1 - y1 ^ 2 = Q at hq hu' ⊢
    generalize hS : 2 + (1 + d) * y1 + 2 * d * y1 ^ 2 = S at hu' ⊢
    generalize hE : 1 + d = E at h1d hu' ⊢
    have h4' : (4 : F) = 2 * 2 := by norm_num
    rw [h4']
    field_simp
    linear_combination -hu'
  · have hy3 : (P + P).montY = -((P.x * P.y + P.y * P.x) *
        ((1 - C.d * P.x * P.x * P.y * P.y) ^ 2 + C.d * (P.y * P.y + P.x * P.x) ^ 2)) /
        ((1 + C.d * P.x * P.x * P.y * P.y) *
          ((1 - C.d * P.x * P.x * P.y * P.y) - (P.y * P.y + P.x * P.x)) ^ 2) := by
      rw [montY_eq hs]
      have e : 1 - (P + P).y = ((1 - C.d * P.x * P.x * P.y * P.y) - (P.y * P.y + P.x * P.x)) /
        (1 - C.d * P.x * P.x * P.y * P.y) := by rw [add_y, sub_div, div_self hD]
      rw [e, add_x, add_y]
      generalize (1 - C.d * P.x * P.x * P.y * P.y) - (P.y * P.y + P.x * P.x) = DD at hDN ⊢
      generalize (1 - C.d * P.x * P.x * P.y * P.y) = D at hD ⊢
      generalize (1 + C.d * P.x * P.x * P.y * P.y) = B at hB ⊢
      field_simp
    rw [hy3, hx3, hlam', montY_eq hP]
    unfold montX
    rw [show 1 - P.y ^ 2 = (1 - P.y) * (1 + P.y) by ring] at hv ⊢
    clear hu hlam hlam' hx3 hy3 hs n3 hq
    generalize hX1 : P.x = x1 at *
    generalize hY1 : P.y = y1 at *
    generalize C.d = d at *
    generalize hDD : (1 - d * x1 * x1 * y1 * y1) - (y1 * y1 + x1 * x1) = DD at hDN hv ⊢
    generalize hNN : (1 - d * x1 * x1 * y1 * y1) + (y1 * y1 + x1 * x1) = NN at hv ⊢
    generalize hBB : 1 + d * x1 * x1 * y1 * y1 = BB at hB hv ⊢
    generalize hRR : (1 - d * x1 * x1 * y1 * y1) ^ 2 + d * (y1 * y1 + x1 * x1) ^ 2 = RR at hv ⊢
    generalize hD1 : 1 - y1 = D1 at n1 hv ⊢
    generalize hD2 : 1 + y1 = D2 at n2 hv ⊢
    generalize hS : 2 + (1 + d) * y1 + 2 * d * y1 ^ 2 = S at hv ⊢
    field_simp
    apply mul_left_cancel₀ hx
    linear_combination -hv

end EdPoint

end Fawkes
