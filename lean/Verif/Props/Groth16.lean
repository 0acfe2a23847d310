import Verif.Lemmas.PrimesQ
import Verif.Props.NumConv
import Mathlib.NumberTheory.LegendreSymbol.Basic

/-!
# Properties C52–C55: point data, proofs, verifying keys and verification
-/

namespace Fawkes.Props

open Groth16

/-! ### C52: conversions between affine points and coordinate data -/

/-- The point a triple of the pairing library stands for. -/
def affinePoint {L : Type} (p : Affine L) : Coords L := if p.infinity then none else some (p.x, p.y)

/-- The point coordinate data stand for: two zero coordinates encode infinity. -/
def g1Point {K : Type} [Field K] [DecidableEq K] (d : G1PointData K) : Coords K :=
  if d = ⟨0, 0⟩ then none else some (d.p0, d.p1)

/-- The point coordinate data of the twist stand for: imaginary parts come first. -/
def g2Point {K : Type} [Field K] [DecidableEq K] (d : G2PointData K) : Coords (Fq2 K) :=
  if d = ⟨(0, 0), (0, 0)⟩ then none else some (⟨d.p0.2, d.p0.1⟩, ⟨d.p1.2, d.p1.1⟩)

section g1

variable {K : Type} [Field K] [DecidableEq K] {b : K}

/-- C52: data convert to the point they stand for, exactly when it lies on the curve. -/
theorem C52_g1_into (b : K) (d : G1PointData K) (p : Affine K) :
    g1Into b d = .ok p ↔ OnCurve b (g1Point d) ∧ p = ⟨d.p0, d.p1, decide (d = ⟨0, 0⟩)⟩ := by
  obtain ⟨x, y⟩ := d
  have hz : (x == 0 && y == 0) = decide ((⟨x, y⟩ : G1PointData K) = ⟨0, 0⟩) := by
    rw [Bool.eq_iff_iff]; simp
  unfold g1Into g1Point isOnCurve
  simp only [hz]
  by_cases h : (⟨x, y⟩ : G1PointData K) = ⟨0, 0⟩
  · simp [h, OnCurve, eq_comm]
  · simp only [h, decide_false, Bool.false_eq_true, if_false, OnCurve, beq_iff_eq]
    have e : y * y = x * x * x + b ↔ y ^ 2 = x ^ 3 + b := by
      rw [show y * y = y ^ 2 by ring, show x * x * x = x ^ 3 by ring]
    by_cases h' : y * y = x * x * x + b
    · rw [if_pos h']
      simp [e.1 h', eq_comm]
    · rw [if_neg h']
      have : ¬ y ^ 2 = x ^ 3 + b := fun h'' => h' (e.2 h'')
      simp [this]

/-- C52: the conversion panics exactly on data that are no point of the curve. -/
theorem C52_g1_panics (b : K) (d : G1PointData K) : (∃ e, g1Into b d = .error e) ↔ ¬ OnCurve b (g1Point d) := by
  cases h : g1Into b d with
  | ok p =>
    have := ((C52_g1_into b d p).1 h).1
    simp [this]
  | error e =>
    refine ⟨fun _ hc => ?_, fun _ => ⟨e, rfl⟩⟩
    have := (C52_g1_into b d _).2 ⟨hc, rfl⟩
    rw [h] at this; cases this

/-- C52: what comes out stands for the same point. -/
theorem C52_g1_into_point (b : K) (d : G1PointData K) (p : Affine K) (h : g1Into b d = .ok p) :
    affinePoint p = g1Point d ∧ OnCurve b (affinePoint p) := by
  obtain ⟨h1, rfl⟩ := (C52_g1_into b d p).1 h
  have : affinePoint (⟨d.p0, d.p1, decide (d = ⟨0, 0⟩)⟩ : Affine K) = g1Point d := by
    unfold affinePoint g1Point
    by_cases h : d = ⟨0, 0⟩ <;> simp [h]
  exact ⟨this, this ▸ h1⟩

/-- C52: the data of a point of the curve (`b ≠ 0`) stand for that point; infinity becomes two zeros. -/
theorem C52_g1_from (hb : b ≠ 0) (p : Affine K) (h : OnCurve b (affinePoint p)) : g1Point (g1From p) = affinePoint p := by
  unfold g1From affinePoint g1Point at *
  by_cases hi : p.infinity
  · simp [hi]
  · simp only [hi, Bool.false_eq_true, if_false] at h ⊢
    rw [if_neg]
    rintro h'
    injection h' with h1 h2
    simp only [OnCurve, h1, h2] at h
    exact hb (by linear_combination -h)

/-- C52: affine → data → affine is the identity on points of the curve; a finite point comes back as the same triple. -/
theorem C52_g1_round_trip (hb : b ≠ 0) (p : Affine K) (h : OnCurve b (affinePoint p)) :
    ∃ p', g1Into b (g1From p) = .ok p' ∧ affinePoint p' = affinePoint p ∧ (p.infinity = false → p' = p) := by
  have hf := C52_g1_from hb p h
  refine ⟨_, (C52_g1_into b _ _).2 ⟨hf ▸ h, rfl⟩, ?_, ?_⟩
  · rw [(C52_g1_into_point b _ _ ((C52_g1_into b _ _).2 ⟨hf ▸ h, rfl⟩)).1, hf]
  · intro hi
    have e : g1From p = ⟨p.x, p.y⟩ := by simp [g1From, hi]
    have hne : (⟨p.x, p.y⟩ : G1PointData K) ≠ ⟨0, 0⟩ := by
      intro h'
      rw [e] at hf
      unfold g1Point affinePoint at hf
      rw [if_pos h'] at hf
      simp [hi] at hf
    rw [e]
    ext <;> simp [hne, hi]

/-- C52: data → affine → data is the identity. -/
theorem C52_g1_data_round_trip (b : K) (d : G1PointData K) (p : Affine K) (h : g1Into b d = .ok p) : g1From p = d := by
  obtain ⟨-, rfl⟩ := (C52_g1_into b d p).1 h
  unfold g1From
  by_cases hd : d = ⟨0, 0⟩ <;> simp [hd]

end g1

section g2

variable {K : Type} [Field K] [DecidableEq K] {b : Fq2 K}

omit [DecidableEq K] in
theorem fq2_mk_eq_zero (a c : K) : (⟨a, c⟩ : Fq2 K) = 0 ↔ a = 0 ∧ c = 0 := by
  rw [QuadraticAlgebra.ext_iff]; rfl

/-- C52: data of the twist convert to the point they stand for, exactly when it lies on the twist. -/
theorem C52_g2_into (b : Fq2 K) (d : G2PointData K) (p : Affine (Fq2 K)) :
    g2Into b d = .ok p ↔ OnCurve b (g2Point d) ∧
      p = ⟨⟨d.p0.2, d.p0.1⟩, ⟨d.p1.2, d.p1.1⟩, decide (d = ⟨(0, 0), (0, 0)⟩)⟩ := by
  obtain ⟨⟨x1, x0⟩, ⟨y1, y0⟩⟩ := d
  have hz : ((⟨x0, x1⟩ : Fq2 K) == 0 && (⟨y0, y1⟩ : Fq2 K) == 0) =
      decide ((⟨(x1, x0), (y1, y0)⟩ : G2PointData K) = ⟨(0, 0), (0, 0)⟩) := by
    rw [Bool.eq_iff_iff]; simp [fq2_mk_eq_zero, and_comm]
  unfold g2Into g2Point isOnCurve
  simp only [hz]
  by_cases h : (⟨(x1, x0), (y1, y0)⟩ : G2PointData K) = ⟨(0, 0), (0, 0)⟩
  · simp [h, OnCurve, eq_comm]
  · simp only [h, decide_false, Bool.false_eq_true, if_false, OnCurve, beq_iff_eq]
    generalize (⟨x0, x1⟩ : Fq2 K) = x
    generalize (⟨y0, y1⟩ : Fq2 K) = y
    have e : y * y = x * x * x + b ↔ y ^ 2 = x ^ 3 + b := by
      rw [show y * y = y ^ 2 by ring, show x * x * x = x ^ 3 by ring]
    by_cases h' : y * y = x * x * x + b
    · rw [if_pos h']
      simp [e.1 h', eq_comm]
    · rw [if_neg h']
      have : ¬ y ^ 2 = x ^ 3 + b := fun h'' => h' (e.2 h'')
      simp [this]

/-- C52: the conversion panics exactly on data that are no point of the twist. -/
theorem C52_g2_panics (b : Fq2 K) (d : G2PointData K) : (∃ e, g2Into b d = .error e) ↔ ¬ OnCurve b (g2Point d) := by
  cases h : g2Into b d with
  | ok p =>
    have := ((C52_g2_into b d p).1 h).1
    simp [this]
  | error e =>
    refine ⟨fun _ hc => ?_, fun _ => ⟨e, rfl⟩⟩
    have := (C52_g2_into b d _).2 ⟨hc, rfl⟩
    rw [h] at this; cases this

/-- C52: what comes out stands for the same point. -/
theorem C52_g2_into_point (b : Fq2 K) (d : G2PointData K) (p : Affine (Fq2 K)) (h : g2Into b d = .ok p) :
    affinePoint p = g2Point d ∧ OnCurve b (affinePoint p) := by
  obtain ⟨h1, rfl⟩ := (C52_g2_into b d p).1 h
  have : affinePoint (⟨⟨d.p0.2, d.p0.1⟩, ⟨d.p1.2, d.p1.1⟩, decide (d = ⟨(0, 0), (0, 0)⟩)⟩ : Affine (Fq2 K)) = g2Point d := by
    unfold affinePoint g2Point
    by_cases h : d = ⟨(0, 0), (0, 0)⟩ <;> simp [h]
  exact ⟨this, this ▸ h1⟩

/-- C52: the data of a point of the twist (`b ≠ 0`) stand for that point. -/
theorem C52_g2_from (hb : b ≠ 0) (p : Affine (Fq2 K)) (h : OnCurve b (affinePoint p)) :
    g2Point (g2From p) = affinePoint p := by
  unfold g2From affinePoint g2Point at *
  by_cases hi : p.infinity
  · simp [hi]
  · simp only [hi, Bool.false_eq_true, if_false] at h ⊢
    rw [if_neg]
    rintro h'
    injection h' with h1 h2
    simp only [Prod.mk.injEq] at h1 h2
    have hx : p.x = 0 := QuadraticAlgebra.ext h1.2 h1.1
    have hy : p.y = 0 := QuadraticAlgebra.ext h2.2 h2.1
    simp only [OnCurve, hx, hy] at h
    exact hb (by linear_combination -h)

/-- C52: affine → data → affine is the identity on points of the twist. -/
theorem C52_g2_round_trip (hb : b ≠ 0) (p : Affine (Fq2 K)) (h : OnCurve b (affinePoint p)) :
    ∃ p', g2Into b (g2From p) = .ok p' ∧ affinePoint p' = affinePoint p ∧ (p.infinity = false → p' = p) := by
  have hf := C52_g2_from hb p h
  refine ⟨_, (C52_g2_into b _ _).2 ⟨hf ▸ h, rfl⟩, ?_, ?_⟩
  · rw [(C52_g2_into_point b _ _ ((C52_g2_into b _ _).2 ⟨hf ▸ h, rfl⟩)).1, hf]
  · intro hi
    have e : g2From p = ⟨(p.x.im, p.x.re), (p.y.im, p.y.re)⟩ := by simp [g2From, hi]
    have hne : (⟨(p.x.im, p.x.re), (p.y.im, p.y.re)⟩ : G2PointData K) ≠ ⟨(0, 0), (0, 0)⟩ := by
      intro h'
      rw [e] at hf
      unfold g2Point affinePoint at hf
      rw [if_pos h'] at hf
      simp [hi] at hf
    rw [e]
    ext <;> simp [hne, hi]

/-- C52: data → affine → data is the identity. -/
theorem C52_g2_data_round_trip (b : Fq2 K) (d : G2PointData K) (p : Affine (Fq2 K)) (h : g2Into b d = .ok p) :
    g2From p = d := by
  obtain ⟨-, rfl⟩ := (C52_g2_into b d p).1 h
  unfold g2From
  by_cases hd : d = ⟨(0, 0), (0, 0)⟩ <;> simp [hd]

/-- C52: of a finite point of the twist the imaginary parts are stored first. -/
theorem C52_imaginary_first (p : Affine (Fq2 K)) (h : p.infinity = false) :
    (g2From p).p0 = (p.x.im, p.x.re) ∧ (g2From p).p1 = (p.y.im, p.y.re) := by
  simp [g2From, h]

end g2

section subgroup

open WeierstrassCurve.Affine

variable {L : Type} [Field L] [DecidableEq L] {b : L}

omit [DecidableEq L] in
theorem nonsingular_iff (h2 : (2 : L) ≠ 0) (h3 : (3 : L) ≠ 0) (hb : b ≠ 0) (x y : L) :
    (curve b).Nonsingular x y ↔ y ^ 2 = x ^ 3 + b := by
  have hΔ : (curve b).Δ ≠ 0 := by
    have : (curve b).Δ = -(2 ^ 4 * 3 ^ 3 * b ^ 2) := by
      simp only [curve, WeierstrassCurve.Δ, WeierstrassCurve.b₂, WeierstrassCurve.b₄, WeierstrassCurve.b₆,
        WeierstrassCurve.b₈]
      ring
    rw [this]
    exact neg_ne_zero.2 (mul_ne_zero (mul_ne_zero (pow_ne_zero _ h2) (pow_ne_zero _ h3)) (pow_ne_zero _ hb))
  rw [← equation_iff_nonsingular_of_Δ_ne_zero hΔ, equation_iff]
  simp [curve]

theorem mulIsZero_iff (n : Nat) (p : Affine L) : mulIsZero b n p = true ↔ InSubgroup b n (affinePoint p) := by
  unfold mulIsZero affinePoint InSubgroup
  by_cases hi : p.infinity
  · simp only [hi, if_true, true_iff]
    exact ⟨0, rfl, smul_zero n⟩
  · simp only [hi, Bool.false_eq_true, if_false]
    split
    · next h =>
      have key : ∀ P : (curve b).Point, coords P = some (p.x, p.y) → P = .some p.x p.y h := by
        intro P hP
        cases P with
        | zero => simp [coords] at hP
        | some x y h' =>
          simp only [coords, Option.some.injEq, Prod.mk.injEq] at hP
          obtain ⟨rfl, rfl⟩ := hP
          rfl
      rw [decide_eq_true_iff]
      constructor
      · intro hz
        exact ⟨.some p.x p.y h, rfl, hz⟩
      · rintro ⟨P, hP, hz⟩
        rwa [key P hP] at hz
    · next h =>
      simp only [Bool.false_eq_true, false_iff]
      rintro ⟨P, hP, -⟩
      cases P with
      | zero => simp [coords] at hP
      | some x y h' =>
        simp only [coords, Option.some.injEq, Prod.mk.injEq] at hP
        obtain ⟨rfl, rfl⟩ := hP
        exact h h'

omit [DecidableEq L] in
/-- Points of the subgroup are points of the curve. -/
theorem InSubgroup.onCurve [DecidableEq L] (h2 : (2 : L) ≠ 0) (h3 : (3 : L) ≠ 0) (hb : b ≠ 0) {n : Nat} {o : Coords L}
    (h : InSubgroup b n o) : OnCurve b o := by
  obtain ⟨P, rfl, -⟩ := h
  cases P with
  | zero => trivial
  | some x y h => exact (nonsingular_iff h2 h3 hb x y).1 h

/-- On a curve with `b ≠ 0` (characteristic not 2 or 3) every point of the curve is an element of Mathlib's group. -/
theorem exists_coords (h2 : (2 : L) ≠ 0) (h3 : (3 : L) ≠ 0) (hb : b ≠ 0) {o : Coords L} (h : OnCurve b o) :
    ∃ P : (curve b).Point, coords P = o := by
  cases o with
  | none => exact ⟨.zero, rfl⟩
  | some q => exact ⟨.some q.1 q.2 ((nonsingular_iff h2 h3 hb _ _).2 h), rfl⟩

end subgroup

section subgroupConversions

variable {K : Type} [Field K] [DecidableEq K]

/-- C52 (BLS12-381, G1): data convert exactly when they stand for a point of the curve killed by `n`; the result is the
triple of that point. -/
theorem C52_g1_subgroup (b : K) (n : Nat) (d : G1PointData K) (p : Affine K) :
    g1IntoSubgroup b n d = .ok p ↔
      OnCurve b (g1Point d) ∧ InSubgroup b n (g1Point d) ∧ p = ⟨d.p0, d.p1, decide (d = ⟨0, 0⟩)⟩ := by
  unfold g1IntoSubgroup
  cases h : g1Into b d with
  | error e =>
    have := (C52_g1_panics b d).1 ⟨e, h⟩
    simp [Bind.bind, Except.bind, this]
  | ok q =>
    have h1 := ((C52_g1_into b d q).1 h)
    have h2 := mulIsZero_iff (b := b) n q
    rw [(C52_g1_into_point b d q h).1] at h2
    simp only [Bind.bind, Except.bind, h1.1, true_and]
    by_cases hz : mulIsZero b n q = true
    · rw [if_pos hz]
      simp [h2.1 hz, Pure.pure, Except.pure, h1.2, eq_comm]
    · rw [if_neg hz]
      have : ¬ InSubgroup b n (g1Point d) := fun h => hz (h2.2 h)
      simp [this]

/-- C52 (BLS12-381, G1): the conversion panics exactly outside the curve or outside the subgroup. -/
theorem C52_g1_subgroup_panics (b : K) (n : Nat) (d : G1PointData K) :
    (∃ e, g1IntoSubgroup b n d = .error e) ↔ ¬ OnCurve b (g1Point d) ∨ ¬ InSubgroup b n (g1Point d) := by
  cases h : g1IntoSubgroup b n d with
  | ok p =>
    have := (C52_g1_subgroup b n d p).1 h
    simp [this.1, this.2.1]
  | error e =>
    refine ⟨fun _ => ?_, fun _ => ⟨e, rfl⟩⟩
    by_contra hc
    push Not at hc
    have := (C52_g1_subgroup b n d _).2 ⟨hc.1, hc.2, rfl⟩
    rw [h] at this; cases this

/-- C52 (BLS12-381, G1): affine → data → affine is the identity on the subgroup. -/
theorem C52_g1_subgroup_round_trip {b : K} (hb : b ≠ 0) (n : Nat) (p : Affine K) (h : OnCurve b (affinePoint p))
    (hn : InSubgroup b n (affinePoint p)) :
    ∃ p', g1IntoSubgroup b n (g1From p) = .ok p' ∧ affinePoint p' = affinePoint p ∧ (p.infinity = false → p' = p) := by
  obtain ⟨p', h1, h2, h3⟩ := C52_g1_round_trip hb p h
  refine ⟨p', ?_, h2, h3⟩
  have hf := C52_g1_from hb p h
  exact (C52_g1_subgroup b n _ _).2 ⟨hf ▸ h, hf ▸ hn, ((C52_g1_into _ _ _).1 h1).2⟩

variable [Fact (∀ r : K, r ^ 2 ≠ -1 + 0 * r)]

/-- C52 (BLS12-381, G2): data convert exactly when they stand for a point of the twist killed by `n`. -/
theorem C52_g2_subgroup (b : Fq2 K) (n : Nat) (d : G2PointData K) (p : Affine (Fq2 K)) :
    g2IntoSubgroup b n d = .ok p ↔
      OnCurve b (g2Point d) ∧ InSubgroup b n (g2Point d) ∧
        p = ⟨⟨d.p0.2, d.p0.1⟩, ⟨d.p1.2, d.p1.1⟩, decide (d = ⟨(0, 0), (0, 0)⟩)⟩ := by
  unfold g2IntoSubgroup
  cases h : g2Into b d with
  | error e =>
    have := (C52_g2_panics b d).1 ⟨e, h⟩
    simp [Bind.bind, Except.bind, this]
  | ok q =>
    have h1 := ((C52_g2_into b d q).1 h)
    have h2 := mulIsZero_iff (b := b) n q
    rw [(C52_g2_into_point b d q h).1] at h2
    simp only [Bind.bind, Except.bind, h1.1, true_and]
    by_cases hz : mulIsZero b n q = true
    · rw [if_pos hz]
      simp [h2.1 hz, Pure.pure, Except.pure, h1.2, eq_comm]
    · rw [if_neg hz]
      have : ¬ InSubgroup b n (g2Point d) := fun h => hz (h2.2 h)
      simp [this]

/-- C52 (BLS12-381, G2): the conversion panics exactly outside the twist or outside the subgroup. -/
theorem C52_g2_subgroup_panics (b : Fq2 K) (n : Nat) (d : G2PointData K) :
    (∃ e, g2IntoSubgroup b n d = .error e) ↔ ¬ OnCurve b (g2Point d) ∨ ¬ InSubgroup b n (g2Point d) := by
  cases h : g2IntoSubgroup b n d with
  | ok p =>
    have := (C52_g2_subgroup b n d p).1 h
    simp [this.1, this.2.1]
  | error e =>
    refine ⟨fun _ => ?_, fun _ => ⟨e, rfl⟩⟩
    by_contra hc
    push Not at hc
    have := (C52_g2_subgroup b n d _).2 ⟨hc.1, hc.2, rfl⟩
    rw [h] at this; cases this

/-- C52 (BLS12-381, G2): affine → data → affine is the identity on the subgroup. -/
theorem C52_g2_subgroup_round_trip {b : Fq2 K} (hb : b ≠ 0) (n : Nat) (p : Affine (Fq2 K))
    (h : OnCurve b (affinePoint p)) (hn : InSubgroup b n (affinePoint p)) :
    ∃ p', g2IntoSubgroup b n (g2From p) = .ok p' ∧ affinePoint p' = affinePoint p ∧ (p.infinity = false → p' = p) := by
  obtain ⟨p', h1, h2, h3⟩ := C52_g2_round_trip hb p h
  refine ⟨p', ?_, h2, h3⟩
  have hf := C52_g2_from hb p h
  exact (C52_g2_subgroup b n _ _).2 ⟨hf ▸ h, hf ▸ hn, ((C52_g2_into _ _ _).1 h1).2⟩

end subgroupConversions

/-! ### The curve constants -/

/-- C52: the raw limbs of the code are the curves `y² = x³ + 3` (BN256) and `y² = x³ + 4` (BLS12-381). -/
theorem C52_constants : bnB = 3 ∧ blsB = 4 := by
  constructor
  · decide +kernel
  · decide +kernel

/-- C52: the constant of the BN256 twist is `3/(9 + u)` and that of the BLS12-381 twist is `4(1 + u)`. -/
theorem C52_constants_twist : bnB2 * ⟨9, 1⟩ = ⟨3, 0⟩ ∧ blsB2 = ⟨4, 4⟩ := by
  constructor
  · decide +kernel
  · decide +kernel

/-! ### Proofs and keys as data -/

theorem bind_ok {A B : Type} {x : Except Panic A} {f : A → Except Panic B} {b : B} (h : x >>= f = .ok b) :
    ∃ a, x = .ok a ∧ f a = .ok b := by
  cases x with
  | error e => cases h
  | ok a => exact ⟨a, rfl, h⟩

/-! Concrete cases: the generators of BN256, points off the curve, infinity. -/

theorem bnB_ne_zero : bnB ≠ 0 := by rw [C52_constants.1]; decide +kernel

theorem bnB2_ne_zero : bnB2 ≠ 0 := by
  intro h
  have := C52_constants_twist.1
  rw [h, zero_mul] at this
  exact absurd (congrArg QuadraticAlgebra.re this) (by decide +kernel)

/-- The generator of the twist of BN256. -/
def bnG2 : Affine (Fq2 (ZMod bnQ)) :=
  ⟨⟨10857046999023057135944570762232829481370756359578518086990519993285655852781,
    11559732032986387107991004021392285783925812861821192530917403151452391805634⟩,
   ⟨8495653923123431417604973247489272438418190587263600148770280649306958101930,
    4082367875863433681332203403145435568316851327593401208105741076214120093531⟩, false⟩

theorem bnG1_onCurve : OnCurve bnB (affinePoint (⟨1, 2, false⟩ : Affine (ZMod bnQ))) := by
  rw [C52_constants.1]; change (2 : ZMod bnQ) ^ 2 = 1 ^ 3 + 3; decide +kernel

theorem bnG2_onCurve : OnCurve bnB2 (affinePoint bnG2) := by
  change bnG2.y ^ 2 = bnG2.x ^ 3 + bnB2
  rw [pow_two, pow_three]
  decide +kernel

example : g1Into bnB ⟨1, 2⟩ = .ok ⟨1, 2, false⟩ :=
  (C52_g1_into _ _ _).2 ⟨bnG1_onCurve, by decide +kernel⟩

example : g1Into bnB ⟨0, 0⟩ = .ok ⟨0, 0, true⟩ := (C52_g1_into _ _ _).2 ⟨trivial, by decide +kernel⟩

example : ∃ e, g1Into bnB ⟨1, 3⟩ = .error e := by
  refine (C52_g1_panics _ _).2 ?_
  rw [C52_constants.1]
  change ¬ ((3 : ZMod bnQ) ^ 2 = 1 ^ 3 + 3)
  decide +kernel

example : ∃ p', g2Into bnB2 (g2From bnG2) = .ok p' ∧ affinePoint p' = affinePoint bnG2 ∧ (bnG2.infinity = false → p' = bnG2) :=
  C52_g2_round_trip bnB2_ne_zero bnG2 bnG2_onCurve

section proofData

variable {K : Type} [Field K] [DecidableEq K]

/-- Two proofs consist of the same points. -/
def SameProof {L M : Type} (p p' : Proof (Affine L) (Affine M)) : Prop :=
  affinePoint p'.a = affinePoint p.a ∧ affinePoint p'.b = affinePoint p.b ∧ affinePoint p'.c = affinePoint p.c

/-- Two keys consist of the same points in the same order. -/
def SameVK {L M : Type} (v v' : VK (Affine L) (Affine M)) : Prop :=
  affinePoint v'.alphaG1 = affinePoint v.alphaG1 ∧ affinePoint v'.betaG2 = affinePoint v.betaG2 ∧
    affinePoint v'.gammaG2 = affinePoint v.gammaG2 ∧ affinePoint v'.deltaG2 = affinePoint v.deltaG2 ∧
    v'.ic.map affinePoint = v.ic.map affinePoint

theorem proofFromData_ok {G1 G2 : Type} {f1 : G1PointData K → Except Panic G1} {f2 : G2PointData K → Except Panic G2}
    (d : ProofData K) (p : Proof G1 G2) :
    proofFromData f1 f2 d = .ok p ↔ f1 d.a = .ok p.a ∧ f2 d.b = .ok p.b ∧ f1 d.c = .ok p.c := by
  unfold proofFromData
  constructor
  · intro h
    obtain ⟨a, ha, h⟩ := bind_ok h
    obtain ⟨b, hb, h⟩ := bind_ok h
    obtain ⟨c, hc, h⟩ := bind_ok h
    cases h
    exact ⟨ha, hb, hc⟩
  · rintro ⟨h1, h2, h3⟩
    rw [h1, h2, h3]; rfl

theorem mapE_ok {A B : Type} {f : A → Except Panic B} (l : List A) (l' : List B) :
    mapE f l = .ok l' ↔ List.Forall₂ (fun a b => f a = .ok b) l l' := by
  induction l generalizing l' with
  | nil => cases l' <;> simp [mapE]
  | cons a l ih =>
    constructor
    · intro h
      unfold mapE at h
      obtain ⟨b, hb, h⟩ := bind_ok h
      obtain ⟨bs, hbs, h⟩ := bind_ok h
      cases h
      exact .cons hb ((ih _).1 hbs)
    · rintro (_ | ⟨hb, hbs⟩)
      unfold mapE
      rw [hb, (ih _).2 hbs]; rfl

theorem vkFromData_ok {G1 G2 : Type} {f1 : G1PointData K → Except Panic G1} {f2 : G2PointData K → Except Panic G2}
    (d : VKData K) (v : VK G1 G2) :
    vkFromData f1 f2 d = .ok v ↔ f1 d.alphaG1 = .ok v.alphaG1 ∧ f2 d.betaG2 = .ok v.betaG2 ∧
      f2 d.gammaG2 = .ok v.gammaG2 ∧ f2 d.deltaG2 = .ok v.deltaG2 ∧
      List.Forall₂ (fun a b => f1 a = .ok b) d.ic v.ic := by
  unfold vkFromData
  constructor
  · intro h
    obtain ⟨a, ha, h⟩ := bind_ok h
    obtain ⟨b, hb, h⟩ := bind_ok h
    obtain ⟨c, hc, h⟩ := bind_ok h
    obtain ⟨e, he, h⟩ := bind_ok h
    obtain ⟨ic, hic, h⟩ := bind_ok h
    cases h
    exact ⟨ha, hb, hc, he, (mapE_ok _ _).1 hic⟩
  · rintro ⟨h1, h2, h3, h4, h5⟩
    rw [h1, h2, h3, h4, (mapE_ok _ _).2 h5]; rfl

/-- `f` inverts `from` on the points satisfying `ok`, up to the representation of infinity. -/
theorem map_round_trip {A B : Type} (g : A → B) (f : B → Except Panic A) {α : Type} (pt : A → α) (ok : A → Prop)
    (h : ∀ a, ok a → ∃ a', f (g a) = .ok a' ∧ pt a' = pt a) (l : List A) (hl : ∀ a ∈ l, ok a) :
    ∃ l', List.Forall₂ (fun b a => f b = .ok a) (l.map g) l' ∧ l'.map pt = l.map pt := by
  induction l with
  | nil => exact ⟨[], .nil, rfl⟩
  | cons a l ih =>
    obtain ⟨a', h1, h2⟩ := h a (hl a (by simp))
    obtain ⟨l', h3, h4⟩ := ih fun a ha => hl a (by simp [ha])
    exact ⟨a' :: l', .cons h1 h3, by simp [h2, h4]⟩

/-- C52 (BN256): a proof whose points lie on the curves survives the trip through its data. -/
theorem C52_proof_round_trip {b : K} {b2 : Fq2 K} (hb : b ≠ 0) (hb2 : b2 ≠ 0) (p : Proof (Affine K) (Affine (Fq2 K)))
    (ha : OnCurve b (affinePoint p.a)) (hbb : OnCurve b2 (affinePoint p.b)) (hc : OnCurve b (affinePoint p.c)) :
    ∃ p', proofFromData (g1Into b) (g2Into b2) (proofIntoData p) = .ok p' ∧ SameProof p p' := by
  obtain ⟨a', h1, h2, -⟩ := C52_g1_round_trip hb p.a ha
  obtain ⟨b', h3, h4, -⟩ := C52_g2_round_trip hb2 p.b hbb
  obtain ⟨c', h5, h6, -⟩ := C52_g1_round_trip hb p.c hc
  exact ⟨⟨a', b', c'⟩, (proofFromData_ok _ _).2 ⟨h1, h3, h5⟩, h2, h4, h6⟩

/-- C52 (BN256): a key whose points lie on the curves survives the trip through its data, with any number of IC points. -/
theorem C52_vk_round_trip {b : K} {b2 : Fq2 K} (hb : b ≠ 0) (hb2 : b2 ≠ 0) (v : VK (Affine K) (Affine (Fq2 K)))
    (h1 : OnCurve b (affinePoint v.alphaG1)) (h2 : OnCurve b2 (affinePoint v.betaG2))
    (h3 : OnCurve b2 (affinePoint v.gammaG2)) (h4 : OnCurve b2 (affinePoint v.deltaG2))
    (h5 : ∀ q ∈ v.ic, OnCurve b (affinePoint q)) :
    ∃ v', vkFromData (g1Into b) (g2Into b2) (vkIntoData v) = .ok v' ∧ SameVK v v' := by
  obtain ⟨a', e1, f1, -⟩ := C52_g1_round_trip hb _ h1
  obtain ⟨b', e2, f2, -⟩ := C52_g2_round_trip hb2 _ h2
  obtain ⟨c', e3, f3, -⟩ := C52_g2_round_trip hb2 _ h3
  obtain ⟨d', e4, f4, -⟩ := C52_g2_round_trip hb2 _ h4
  obtain ⟨l', e5, f5⟩ := map_round_trip g1From (g1Into b) affinePoint (fun q => OnCurve b (affinePoint q))
    (fun q hq => by obtain ⟨q', i1, i2, -⟩ := C52_g1_round_trip hb q hq; exact ⟨q', i1, i2⟩) v.ic h5
  exact ⟨⟨a', b', c', d', l'⟩, (vkFromData_ok _ _).2 ⟨e1, e2, e3, e4, e5⟩, f1, f2, f3, f4, f5⟩

/-- C52 (BN256): data → proof → data is the identity, and the conversion panics exactly if one of the points is not on its
curve. -/
theorem C52_proof_data (b : K) (b2 : Fq2 K) (d : ProofData K) :
    (∀ p, proofFromData (g1Into b) (g2Into b2) d = .ok p → proofIntoData p = d) ∧
    ((∃ p, proofFromData (g1Into b) (g2Into b2) d = .ok p) ↔
      OnCurve b (g1Point d.a) ∧ OnCurve b2 (g2Point d.b) ∧ OnCurve b (g1Point d.c)) := by
  constructor
  · intro p h
    obtain ⟨h1, h2, h3⟩ := (proofFromData_ok _ _).1 h
    unfold proofIntoData
    rw [C52_g1_data_round_trip _ _ _ h1, C52_g2_data_round_trip _ _ _ h2, C52_g1_data_round_trip _ _ _ h3]
  · constructor
    · rintro ⟨p, h⟩
      obtain ⟨h1, h2, h3⟩ := (proofFromData_ok _ _).1 h
      exact ⟨((C52_g1_into _ _ _).1 h1).1, ((C52_g2_into _ _ _).1 h2).1, ((C52_g1_into _ _ _).1 h3).1⟩
    · rintro ⟨h1, h2, h3⟩
      exact ⟨⟨_, _, _⟩, (proofFromData_ok _ _).2 ⟨(C52_g1_into _ _ _).2 ⟨h1, rfl⟩, (C52_g2_into _ _ _).2 ⟨h2, rfl⟩,
        (C52_g1_into _ _ _).2 ⟨h3, rfl⟩⟩⟩

theorem forall₂_data (b : K) (l : List (G1PointData K)) (l' : List (Affine K))
    (h : List.Forall₂ (fun a q => g1Into b a = .ok q) l l') : l'.map g1From = l ∧ ∀ d ∈ l, OnCurve b (g1Point d) := by
  induction h with
  | nil => simp
  | cons h _ ih =>
    refine ⟨by simp [ih.1, C52_g1_data_round_trip _ _ _ h], ?_⟩
    intro d hd
    rcases List.mem_cons.1 hd with rfl | hd
    · exact ((C52_g1_into _ _ _).1 h).1
    · exact ih.2 d hd

/-- C52 (BN256): data → key → data is the identity, and the conversion panics exactly if one of the points is not on its
curve. -/
theorem C52_vk_data (b : K) (b2 : Fq2 K) (d : VKData K) :
    (∀ v, vkFromData (g1Into b) (g2Into b2) d = .ok v → vkIntoData v = d) ∧
    ((∃ v, vkFromData (g1Into b) (g2Into b2) d = .ok v) ↔
      OnCurve b (g1Point d.alphaG1) ∧ OnCurve b2 (g2Point d.betaG2) ∧ OnCurve b2 (g2Point d.gammaG2) ∧
        OnCurve b2 (g2Point d.deltaG2) ∧ ∀ q ∈ d.ic, OnCurve b (g1Point q)) := by
  constructor
  · intro p h
    obtain ⟨h1, h2, h3, h4, h5⟩ := (vkFromData_ok _ _).1 h
    unfold vkIntoData
    rw [C52_g1_data_round_trip _ _ _ h1, C52_g2_data_round_trip _ _ _ h2, C52_g2_data_round_trip _ _ _ h3,
      C52_g2_data_round_trip _ _ _ h4, (forall₂_data _ _ _ h5).1]
  · constructor
    · rintro ⟨p, h⟩
      obtain ⟨h1, h2, h3, h4, h5⟩ := (vkFromData_ok _ _).1 h
      exact ⟨((C52_g1_into _ _ _).1 h1).1, ((C52_g2_into _ _ _).1 h2).1, ((C52_g2_into _ _ _).1 h3).1,
        ((C52_g2_into _ _ _).1 h4).1, (forall₂_data _ _ _ h5).2⟩
    · rintro ⟨h1, h2, h3, h4, h5⟩
      obtain ⟨l', hl⟩ : ∃ l', List.Forall₂ (fun a q => g1Into b a = .ok q) d.ic l' := by
        clear h1 h2 h3 h4
        generalize d.ic = l at h5
        induction l with
        | nil => exact ⟨[], .nil⟩
        | cons q l ih =>
          obtain ⟨l', hl⟩ := ih fun q hq => h5 q (by simp [hq])
          exact ⟨_ :: l', .cons ((C52_g1_into _ _ _).2 ⟨h5 q (by simp), rfl⟩) hl⟩
      exact ⟨⟨_, _, _, _, l'⟩, (vkFromData_ok _ _).2 ⟨(C52_g1_into _ _ _).2 ⟨h1, rfl⟩, (C52_g2_into _ _ _).2 ⟨h2, rfl⟩,
        (C52_g2_into _ _ _).2 ⟨h3, rfl⟩, (C52_g2_into _ _ _).2 ⟨h4, rfl⟩, hl⟩⟩

variable [Fact (∀ r : K, r ^ 2 ≠ -1 + 0 * r)]

/-- C52 (BLS12-381): a proof whose points lie in the subgroups survives the trip through its data. -/
theorem C52_proof_subgroup_round_trip {b : K} {b2 : Fq2 K} (hb : b ≠ 0) (hb2 : b2 ≠ 0) (n : Nat)
    (p : Proof (Affine K) (Affine (Fq2 K)))
    (ha : OnCurve b (affinePoint p.a)) (ha' : InSubgroup b n (affinePoint p.a))
    (hbb : OnCurve b2 (affinePoint p.b)) (hbb' : InSubgroup b2 n (affinePoint p.b))
    (hc : OnCurve b (affinePoint p.c)) (hc' : InSubgroup b n (affinePoint p.c)) :
    ∃ p', proofFromData (g1IntoSubgroup b n) (g2IntoSubgroup b2 n) (proofIntoData p) = .ok p' ∧ SameProof p p' := by
  obtain ⟨a', h1, h2, -⟩ := C52_g1_subgroup_round_trip hb n p.a ha ha'
  obtain ⟨b', h3, h4, -⟩ := C52_g2_subgroup_round_trip hb2 n p.b hbb hbb'
  obtain ⟨c', h5, h6, -⟩ := C52_g1_subgroup_round_trip hb n p.c hc hc'
  exact ⟨⟨a', b', c'⟩, (proofFromData_ok _ _).2 ⟨h1, h3, h5⟩, h2, h4, h6⟩

/-- C52 (BLS12-381): a key whose points lie in the subgroups survives the trip through its data. -/
theorem C52_vk_subgroup_round_trip {b : K} {b2 : Fq2 K} (hb : b ≠ 0) (hb2 : b2 ≠ 0) (n : Nat)
    (v : VK (Affine K) (Affine (Fq2 K)))
    (h1 : OnCurve b (affinePoint v.alphaG1) ∧ InSubgroup b n (affinePoint v.alphaG1))
    (h2 : OnCurve b2 (affinePoint v.betaG2) ∧ InSubgroup b2 n (affinePoint v.betaG2))
    (h3 : OnCurve b2 (affinePoint v.gammaG2) ∧ InSubgroup b2 n (affinePoint v.gammaG2))
    (h4 : OnCurve b2 (affinePoint v.deltaG2) ∧ InSubgroup b2 n (affinePoint v.deltaG2))
    (h5 : ∀ q ∈ v.ic, OnCurve b (affinePoint q) ∧ InSubgroup b n (affinePoint q)) :
    ∃ v', vkFromData (g1IntoSubgroup b n) (g2IntoSubgroup b2 n) (vkIntoData v) = .ok v' ∧ SameVK v v' := by
  obtain ⟨a', e1, f1, -⟩ := C52_g1_subgroup_round_trip hb n _ h1.1 h1.2
  obtain ⟨b', e2, f2, -⟩ := C52_g2_subgroup_round_trip hb2 n _ h2.1 h2.2
  obtain ⟨c', e3, f3, -⟩ := C52_g2_subgroup_round_trip hb2 n _ h3.1 h3.2
  obtain ⟨d', e4, f4, -⟩ := C52_g2_subgroup_round_trip hb2 n _ h4.1 h4.2
  obtain ⟨l', e5, f5⟩ := map_round_trip g1From (g1IntoSubgroup b n) affinePoint
    (fun q => OnCurve b (affinePoint q) ∧ InSubgroup b n (affinePoint q))
    (fun q hq => by obtain ⟨q', i1, i2, -⟩ := C52_g1_subgroup_round_trip hb n q hq.1 hq.2; exact ⟨q', i1, i2⟩) v.ic h5
  exact ⟨⟨a', b', c', d', l'⟩, (vkFromData_ok _ _).2 ⟨e1, e2, e3, e4, e5⟩, f1, f2, f3, f4, f5⟩

end proofData

example : ∃ v', vkFromData (g1Into bnB) (g2Into bnB2) (vkIntoData ⟨⟨1, 2, false⟩, bnG2, bnG2, ⟨0, 0, true⟩,
      [⟨1, 2, false⟩, ⟨5, 6, true⟩, ⟨1, 2, false⟩]⟩) = .ok v' ∧
    SameVK ⟨⟨1, 2, false⟩, bnG2, bnG2, ⟨0, 0, true⟩, [⟨1, 2, false⟩, ⟨5, 6, true⟩, ⟨1, 2, false⟩]⟩ v' := by
  refine C52_vk_round_trip bnB_ne_zero bnB2_ne_zero _ bnG1_onCurve bnG2_onCurve bnG2_onCurve trivial ?_
  intro q hq
  simp only [List.mem_cons, List.not_mem_nil, or_false] at hq
  rcases hq with rfl | rfl | rfl
  · exact bnG1_onCurve
  · exact trivial
  · exact bnG1_onCurve

example : ∃ p', proofFromData (g1Into bnB) (g2Into bnB2) (proofIntoData ⟨⟨1, 2, false⟩, bnG2, ⟨1, 2, false⟩⟩) = .ok p' ∧
    SameProof ⟨⟨1, 2, false⟩, bnG2, ⟨1, 2, false⟩⟩ p' :=
  C52_proof_round_trip bnB_ne_zero bnB2_ne_zero _ bnG1_onCurve bnG2_onCurve bnG1_onCurve

/-! ### C53: Borsh encodings -/

section borsh

variable {p : Nat} [hp : Fact p.Prime]

/-- C53: G1 point data: a buffer decodes to `(d, rest)` if and only if it is `d`'s encoding followed by `rest`. -/
theorem C53_g1 (buf rest : List UInt8) (d : G1PointData (ZMod p)) :
    g1Deserialize p buf = some (d, rest) ↔ buf = g1Serialize d ++ rest := by
  constructor
  · intro h
    unfold g1Deserialize at h
    simp only [Option.bind_eq_bind, Option.bind_eq_some_iff, Prod.exists, Option.pure_def, Option.some.injEq,
      Prod.mk.injEq] at h
    obtain ⟨a, b1, h1, b, b2, h2, rfl, rfl⟩ := h
    rw [C49_unique] at h1 h2
    subst h1 h2
    simp [g1Serialize]
  · rintro rfl
    simp [g1Deserialize, g1Serialize, C49_round_trip]

/-- C53: G2 point data. -/
theorem C53_g2 (buf rest : List UInt8) (d : G2PointData (ZMod p)) :
    g2Deserialize p buf = some (d, rest) ↔ buf = g2Serialize d ++ rest := by
  constructor
  · intro h
    unfold g2Deserialize at h
    simp only [Option.bind_eq_bind, Option.bind_eq_some_iff, Prod.exists, Option.pure_def, Option.some.injEq,
      Prod.mk.injEq] at h
    obtain ⟨a, b1, h1, b, b2, h2, c, b3, h3, e, b4, h4, rfl, rfl⟩ := h
    rw [C49_unique] at h1 h2 h3 h4
    subst h1 h2 h3 h4
    simp [g2Serialize]
  · rintro rfl
    simp [g2Deserialize, g2Serialize, C49_round_trip]

/-- C53: proofs. -/
theorem C53_proof (buf rest : List UInt8) (d : ProofData (ZMod p)) :
    proofDeserialize p buf = some (d, rest) ↔ buf = proofSerialize d ++ rest := by
  constructor
  · intro h
    unfold proofDeserialize at h
    simp only [Option.bind_eq_bind, Option.bind_eq_some_iff, Prod.exists, Option.pure_def, Option.some.injEq,
      Prod.mk.injEq] at h
    obtain ⟨a, b1, h1, b, b2, h2, c, b3, h3, rfl, rfl⟩ := h
    rw [C53_g1] at h1 h3
    rw [C53_g2] at h2
    subst h1 h2 h3
    simp [proofSerialize]
  · rintro rfl
    have e1 := fun d rest => (C53_g1 (p := p) _ rest d).2 rfl
    have e2 := fun d rest => (C53_g2 (p := p) _ rest d).2 rfl
    simp [proofDeserialize, proofSerialize, e1, e2]

omit hp in
theorem decodeN_iff {α : Type} {enc : α → List UInt8} {dec : Decoder α}
    (h : ∀ buf a rest, dec buf = some (a, rest) ↔ buf = enc a ++ rest) (n : Nat) (buf rest : List UInt8) (l : List α) :
    decodeN dec n buf = some (l, rest) ↔ l.length = n ∧ buf = l.flatMap enc ++ rest := by
  induction n generalizing buf l with
  | zero => simp only [decodeN, Option.some.injEq, Prod.mk.injEq, List.length_eq_zero_iff]
            constructor
            · rintro ⟨rfl, rfl⟩; simp
            · rintro ⟨rfl, rfl⟩; simp
  | succ n ih =>
    simp only [decodeN, Option.bind_eq_bind, Option.bind_eq_some_iff, Prod.exists, Option.pure_def, Option.some.injEq,
      Prod.mk.injEq]
    constructor
    · rintro ⟨a, b1, h1, l1, b2, h2, rfl, rfl⟩
      rw [h] at h1
      rw [ih] at h2
      obtain ⟨rfl, rfl⟩ := h2
      subst h1
      simp
    · rintro ⟨hl, rfl⟩
      cases l with
      | nil => simp at hl
      | cons a l =>
        refine ⟨a, l.flatMap enc ++ rest, (h _ _ _).2 (by simp), l, rest, (ih _ _).2 ⟨by simpa using hl, rfl⟩, rfl, rfl⟩

omit hp in
theorem u32_iff (buf rest : List UInt8) (n : Nat) :
    u32Deserialize buf = some (n, rest) ↔ n < 2 ^ 32 ∧ buf = le32 n ++ rest := by
  unfold u32Deserialize
  constructor
  · intro h
    split at h
    · rename_i b0 b1 b2 b3 r
      simp only [Option.some.injEq, Prod.mk.injEq] at h
      obtain ⟨rfl, rfl⟩ := h
      have h0 := b0.toNat_lt
      have h1 := b1.toNat_lt
      have h2 := b2.toNat_lt
      have h3 := b3.toNat_lt
      refine ⟨by omega, ?_⟩
      have e : ∀ (b : UInt8) (m : Nat), m % 256 = b.toNat → UInt8.ofNat m = b := by
        intro b m hm
        apply UInt8.toNat_inj.1
        rw [UInt8.toNat_ofNat', hm]
      simp only [le32, List.range, List.range.loop, List.map_cons, List.map_nil, List.cons_append, List.nil_append]
      congr 1
      · exact (e _ _ (by omega)).symm
      congr 1
      · exact (e _ _ (by omega)).symm
      congr 1
      · exact (e _ _ (by omega)).symm
      congr 1
      · exact (e _ _ (by omega)).symm
    · simp at h
  · rintro ⟨hn, rfl⟩
    simp only [le32, List.range, List.range.loop, List.map_cons, List.map_nil, List.cons_append, List.nil_append,
      UInt8.toNat_ofNat', Option.some.injEq, Prod.mk.injEq, and_true]
    omega

/-- C53: truncated verifying keys, with any number of IC points a `u32` can count. -/
theorem C53_vk (buf rest : List UInt8) (d : VKData (ZMod p)) :
    vkDeserialize p buf = some (d, rest) ↔ d.ic.length < 2 ^ 32 ∧ buf = vkSerialize d ++ rest := by
  constructor
  · intro h
    unfold vkDeserialize vecDeserialize at h
    simp only [Option.bind_eq_bind, Option.bind_eq_some_iff, Prod.exists, Option.pure_def, Option.some.injEq,
      Prod.mk.injEq] at h
    obtain ⟨a, b1, h1, b, b2, h2, c, b3, h3, e, b4, h4, l, b5, ⟨n, b6, h5, h6⟩, rfl, rfl⟩ := h
    rw [C53_g1] at h1
    rw [C53_g2] at h2 h3 h4
    rw [u32_iff] at h5
    rw [decodeN_iff (fun b a r => C53_g1 b r a)] at h6
    obtain ⟨rfl, rfl⟩ := h6
    obtain ⟨hn, rfl⟩ := h5
    subst h1 h2 h3 h4
    have hm := Nat.mod_eq_of_lt hn
    unfold vkSerialize vecSerialize
    rw [hm]
    exact ⟨hn, by simp⟩
  · rintro ⟨hlen, rfl⟩
    have e1 := fun d rest => (C53_g1 (p := p) _ rest d).2 rfl
    have e2 := fun d rest => (C53_g2 (p := p) _ rest d).2 rfl
    have e3 := (u32_iff _ (d.ic.flatMap g1Serialize ++ rest) d.ic.length).2 ⟨hlen, rfl⟩
    have e4 := (decodeN_iff (fun b a r => C53_g1 (p := p) b r a) d.ic.length _ rest d.ic).2 ⟨rfl, rfl⟩
    have hm := Nat.mod_eq_of_lt hlen
    unfold vkSerialize vecSerialize
    rw [hm]
    simp [vkDeserialize, vecDeserialize, e1, e2, e3, e4]

end borsh

example : vkDeserialize bnQ (vkSerialize (vkIntoData ⟨⟨1, 2, false⟩, bnG2, bnG2, bnG2, [⟨1, 2, false⟩, ⟨1, 2, false⟩]⟩) ++ [7]) =
    some (vkIntoData ⟨⟨1, 2, false⟩, bnG2, bnG2, bnG2, [⟨1, 2, false⟩, ⟨1, 2, false⟩]⟩, [7]) :=
  (C53_vk _ _ _).2 ⟨by simp [vkIntoData], rfl⟩

example : vkDeserialize bnQ [1, 2, 3] = none := by decide +kernel

/-! ### C54: the compressed key format -/

section compressed

variable {G1 G2 : Type} {c1 : Codec G1} {c2 : Codec G2}

/-- The bytes are one block that decodes to the point, which is not the point at infinity. -/
def Block {G : Type} (c : Codec G) (bs : List UInt8) (g : G) : Prop :=
  bs.length = c.size ∧ c.decode bs = some g ∧ c.isZero g = false

theorem readPoint_iff {G : Type} (c : Codec G) (buf rest : List UInt8) (g : G) :
    readPoint c buf = some (g, rest) ↔ ∃ bs, Block c bs g ∧ buf = bs ++ rest := by
  unfold readPoint
  constructor
  · intro h
    split at h
    · simp at h
    · rename_i hl
      split at h
      · simp at h
      · rename_i g' hd
        split at h
        · simp at h
        · rename_i hz
          simp only [Option.some.injEq, Prod.mk.injEq] at h
          obtain ⟨rfl, rfl⟩ := h
          exact ⟨buf.take c.size, ⟨by rw [List.length_take]; omega, hd, by simpa using hz⟩,
            (List.take_append_drop _ _).symm⟩
  · rintro ⟨bs, ⟨h1, h2, h3⟩, rfl⟩
    rw [if_neg (by rw [List.length_append]; omega), List.take_left' h1, h2]
    simp [h3, List.drop_left' h1]

theorem readIC_iff (h1 : 0 < c1.size) (fuel : Nat) (buf : List UInt8) (hf : buf.length < fuel) (l : List G1) :
    readIC c1 fuel buf = some l ↔
      ∃ bss junk, buf = bss.flatten ++ junk ∧ List.Forall₂ (Block c1) bss l ∧ junk.length < c1.size := by
  induction fuel generalizing buf l with
  | zero => omega
  | succ fuel ih =>
    unfold readIC
    by_cases hb : buf.length < c1.size
    · rw [if_pos hb]
      constructor
      · intro h; cases h
        exact ⟨[], buf, by simp, .nil, hb⟩
      · rintro ⟨bss, junk, rfl, hF, hj⟩
        cases hF with
        | nil => rfl
        | cons h _ =>
          have := h.1
          simp only [List.flatten_cons, List.length_append] at hb
          omega
    · rw [if_neg hb]
      simp only [Option.bind_eq_bind, Option.bind_eq_some_iff, Prod.exists, Option.pure_def, Option.some.injEq]
      constructor
      · rintro ⟨g, b1, hr, gs, hic, rfl⟩
        obtain ⟨bs, hB, rfl⟩ := (readPoint_iff _ _ _ _).1 hr
        have := hB.1
        obtain ⟨bss, junk, rfl, hF, hj⟩ := (ih b1 (by rw [List.length_append] at hf; omega) gs).1 hic
        exact ⟨bs :: bss, junk, by simp, .cons hB hF, hj⟩
      · rintro ⟨bss, junk, rfl, hF, hj⟩
        cases hF with
        | nil => simp at hb; omega
        | @cons bs g bss' gs hB hF =>
          have := hB.1
          refine ⟨g, bss'.flatten ++ junk, (readPoint_iff _ _ _ _).2 ⟨bs, hB, by simp⟩, gs, ?_, rfl⟩
          refine (ih _ ?_ gs).2 ⟨bss', junk, rfl, hF, hj⟩
          simp only [List.flatten_cons, List.length_append] at hf ⊢
          omega

/-- C54: exactly what `read` accepts: one block for each of the four points, then one block for each IC point, then fewer
bytes than a block.  In particular a block that does not decode, or decodes to infinity, makes `read` fail. -/
theorem C54_read (h1 : 0 < c1.size) (buf : List UInt8) (v : VK G1 G2) :
    vkRead c1 c2 buf = some v ↔
      ∃ a b g d bss junk, buf = a ++ b ++ g ++ d ++ bss.flatten ++ junk ∧ Block c1 a v.alphaG1 ∧ Block c2 b v.betaG2 ∧
        Block c2 g v.gammaG2 ∧ Block c2 d v.deltaG2 ∧ List.Forall₂ (Block c1) bss v.ic ∧ junk.length < c1.size := by
  unfold vkRead
  simp only [Option.bind_eq_bind, Option.bind_eq_some_iff, Prod.exists, Option.pure_def, Option.some.injEq]
  constructor
  · rintro ⟨a, b1, e1, b, b2, e2, g, b3, e3, d, b4, e4, l, e5, rfl⟩
    obtain ⟨ba, hba, rfl⟩ := (readPoint_iff _ _ _ _).1 e1
    obtain ⟨bb, hbb, rfl⟩ := (readPoint_iff _ _ _ _).1 e2
    obtain ⟨bg, hbg, rfl⟩ := (readPoint_iff _ _ _ _).1 e3
    obtain ⟨bd, hbd, rfl⟩ := (readPoint_iff _ _ _ _).1 e4
    obtain ⟨bss, junk, rfl, hF, hj⟩ := (readIC_iff h1 _ _ (Nat.lt_succ_self _) _).1 e5
    exact ⟨ba, bb, bg, bd, bss, junk, by simp, hba, hbb, hbg, hbd, hF, hj⟩
  · rintro ⟨ba, bb, bg, bd, bss, junk, rfl, hba, hbb, hbg, hbd, hF, hj⟩
    exact ⟨_, bb ++ (bg ++ (bd ++ (bss.flatten ++ junk))), (readPoint_iff _ _ _ _).2 ⟨ba, hba, by simp⟩,
      _, bg ++ (bd ++ (bss.flatten ++ junk)), (readPoint_iff _ _ _ _).2 ⟨bb, hbb, by simp⟩,
      _, bd ++ (bss.flatten ++ junk), (readPoint_iff _ _ _ _).2 ⟨bg, hbg, by simp⟩,
      _, bss.flatten ++ junk, (readPoint_iff _ _ _ _).2 ⟨bd, hbd, by simp⟩,
      _, (readIC_iff h1 _ _ (Nat.lt_succ_self _) _).2 ⟨bss, junk, rfl, hF, hj⟩, rfl⟩

/-- What is assumed of the compressed encoding of one kind of points. -/
structure LawfulCodec {G : Type} (c : Codec G) : Prop where
  size_pos : 0 < c.size
  length_encode : ∀ g, (c.encode g).length = c.size
  decode_encode : ∀ g, c.decode (c.encode g) = some g

/-- No point of the key is infinity. -/
def NoInfinity (c1 : Codec G1) (c2 : Codec G2) (v : VK G1 G2) : Prop :=
  c1.isZero v.alphaG1 = false ∧ c2.isZero v.betaG2 = false ∧ c2.isZero v.gammaG2 = false ∧ c2.isZero v.deltaG2 = false ∧
    ∀ q ∈ v.ic, c1.isZero q = false

/-- C54: `read(write(vk)) = vk` for keys without points at infinity and any number of IC points, even if fewer bytes than
one point follow. -/
theorem C54_round_trip (h1 : LawfulCodec c1) (h2 : LawfulCodec c2) (v : VK G1 G2) (hv : NoInfinity c1 c2 v) (junk : List UInt8)
    (hj : junk.length < c1.size) : vkRead c1 c2 (vkWrite c1 c2 v ++ junk) = some v := by
  have B1 : ∀ g, c1.isZero g = false → Block c1 (c1.encode g) g := fun g hg => ⟨h1.length_encode g, h1.decode_encode g, hg⟩
  have B2 : ∀ g, c2.isZero g = false → Block c2 (c2.encode g) g := fun g hg => ⟨h2.length_encode g, h2.decode_encode g, hg⟩
  obtain ⟨i1, i2, i3, i4, i5⟩ := hv
  refine (C54_read h1.size_pos _ _).2 ⟨_, _, _, _, v.ic.map c1.encode, junk, ?_, B1 _ i1, B2 _ i2, B2 _ i3, B2 _ i4, ?_, hj⟩
  · simp [vkWrite, List.flatMap_def]
  · have : ∀ l : List G1, (∀ q ∈ l, c1.isZero q = false) → List.Forall₂ (Block c1) (l.map c1.encode) l := by
      intro l
      induction l with
      | nil => intro _; exact .nil
      | cons q l ih =>
        intro h
        exact .cons (B1 q (h q (by simp))) (ih fun q hq => h q (by simp [hq]))
    exact this _ i5

/-- C54: a key that was read contains no point at infinity. -/
theorem C54_rejects_infinity (h1 : 0 < c1.size) (buf : List UInt8) (v : VK G1 G2) (h : vkRead c1 c2 buf = some v) :
    NoInfinity c1 c2 v := by
  obtain ⟨a, b, g, d, bss, junk, -, i1, i2, i3, i4, hF, -⟩ := (C54_read h1 _ _).1 h
  refine ⟨i1.2.2, i2.2.2, i3.2.2, i4.2.2, ?_⟩
  clear h i1 i2 i3 i4
  generalize v.ic = l at hF
  induction hF with
  | nil => simp
  | cons hB _ ih =>
    intro q hq
    rcases List.mem_cons.1 hq with rfl | hq
    · exact hB.2.2
    · exact ih q hq

/-- C54: writing a key that contains infinity gives bytes `read` rejects. -/
theorem C54_write_infinity (h1 : LawfulCodec c1) (h2 : LawfulCodec c2) (v : VK G1 G2) (hv : ¬ NoInfinity c1 c2 v)
    (junk : List UInt8) (hj : junk.length < c1.size) : vkRead c1 c2 (vkWrite c1 c2 v ++ junk) = none := by
  rw [Option.eq_none_iff_forall_ne_some]
  intro w hw
  have hw' := C54_rejects_infinity h1.size_pos _ _ hw
  obtain ⟨a, b, g, d, bss, junk', e, ⟨l1, d1, -⟩, ⟨l2, d2, -⟩, ⟨l3, d3, -⟩, ⟨l4, d4, -⟩, hF, hj'⟩ :=
    (C54_read h1.size_pos _ _).1 hw
  have key : ∀ (l : List G1) (bss : List (List UInt8)) (l' : List G1), List.Forall₂ (Block c1) bss l' →
      (l.flatMap c1.encode) ++ junk = bss.flatten ++ junk' → l = l' := by
    intro l
    induction l with
    | nil =>
      intro bss l' hF e
      cases hF with
      | nil => rfl
      | cons hB _ =>
        have := congrArg List.length e
        have := hB.1
        simp at *
        omega
    | cons q l ih =>
      intro bss l' hF e
      cases hF with
      | nil =>
        have := congrArg List.length e
        have := h1.length_encode q
        simp at *
        omega
      | cons hB hF =>
        simp only [List.flatMap_cons, List.flatten_cons, List.append_assoc] at e
        obtain ⟨e1, e2⟩ := List.append_inj e (by rw [h1.length_encode, hB.1])
        have := hB.2.1
        rw [← e1, h1.decode_encode] at this
        cases this
        rw [ih _ _ hF e2]
  simp only [vkWrite, List.append_assoc] at e
  obtain ⟨e1, e⟩ := List.append_inj e (by rw [h1.length_encode, l1])
  obtain ⟨e2, e⟩ := List.append_inj e (by rw [h2.length_encode, l2])
  obtain ⟨e3, e⟩ := List.append_inj e (by rw [h2.length_encode, l3])
  obtain ⟨e4, e⟩ := List.append_inj e (by rw [h2.length_encode, l4])
  rw [← e1, h1.decode_encode] at d1
  rw [← e2, h2.decode_encode] at d2
  rw [← e3, h2.decode_encode] at d3
  rw [← e4, h2.decode_encode] at d4
  have e5 := key _ _ _ hF e
  apply hv
  have : v = w := by
    ext1
    · exact Option.some.inj d1
    · exact Option.some.inj d2
    · exact Option.some.inj d3
    · exact Option.some.inj d4
    · exact e5
  rw [this]; exact hw'

/-- C54: with encodings that are unique (but for infinity), reading is the exact inverse of writing up to a short rest. -/
theorem C54_canonical (h1 : LawfulCodec c1) (h2 : LawfulCodec c2)
    (u1 : ∀ bs g, bs.length = c1.size → c1.decode bs = some g → c1.isZero g = false → bs = c1.encode g)
    (u2 : ∀ bs g, bs.length = c2.size → c2.decode bs = some g → c2.isZero g = false → bs = c2.encode g) (buf : List UInt8) (v : VK G1 G2) :
    vkRead c1 c2 buf = some v ↔
      NoInfinity c1 c2 v ∧ ∃ junk, junk.length < c1.size ∧ buf = vkWrite c1 c2 v ++ junk := by
  constructor
  · intro h
    refine ⟨C54_rejects_infinity h1.size_pos _ _ h, ?_⟩
    obtain ⟨a, b, g, d, bss, junk, rfl, ⟨l1, d1, z1⟩, ⟨l2, d2, z2⟩, ⟨l3, d3, z3⟩, ⟨l4, d4, z4⟩, hF, hj⟩ :=
      (C54_read h1.size_pos _ _).1 h
    refine ⟨junk, hj, ?_⟩
    have : bss = v.ic.map c1.encode := by
      clear h
      generalize v.ic = l at hF
      induction hF with
      | nil => rfl
      | cons hB _ ih => rw [u1 _ _ hB.1 hB.2.1 hB.2.2, ih]; rfl
    rw [u1 _ _ l1 d1 z1, u2 _ _ l2 d2 z2, u2 _ _ l3 d3 z3, u2 _ _ l4 d4 z4, this]
    simp [vkWrite, List.flatMap_def]
  · rintro ⟨hv, junk, hj, rfl⟩
    exact C54_round_trip h1 h2 v hv junk hj

/-- Numbers below 200 as single bytes, 0 as infinity. -/
def byteCodec : Codec (Fin 200) where
  size := 1
  encode g := [UInt8.ofNat g.val]
  decode bs := match bs with
    | [b] => if h : b.toNat < 200 then some ⟨b.toNat, h⟩ else none
    | _ => none
  isZero g := g.val == 0

theorem byteCodec_lawful : LawfulCodec byteCodec where
  size_pos := by decide
  length_encode _ := rfl
  decode_encode := by decide +kernel

/-- Numbers below 200 as two bytes, 0 as infinity. -/
def pairCodec : Codec (Fin 200) where
  size := 2
  encode g := [UInt8.ofNat g.val, 1]
  decode bs := match bs with
    | [b, 1] => if h : b.toNat < 200 then some ⟨b.toNat, h⟩ else none
    | _ => none
  isZero g := g.val == 0

theorem pairCodec_lawful : LawfulCodec pairCodec where
  size_pos := by decide
  length_encode _ := rfl
  decode_encode := by decide +kernel

example : vkRead pairCodec byteCodec (vkWrite pairCodec byteCodec ⟨1, 2, 3, 4, [5, 6, 7]⟩ ++ [9]) =
    some ⟨1, 2, 3, 4, [5, 6, 7]⟩ :=
  C54_round_trip pairCodec_lawful byteCodec_lawful _ (by unfold NoInfinity; decide +kernel) _ (by decide)

example : vkRead pairCodec byteCodec (vkWrite pairCodec byteCodec ⟨1, 2, 3, 4, [5, 0, 7]⟩) = none := by
  have := C54_write_infinity pairCodec_lawful byteCodec_lawful ⟨1, 2, 3, 4, [5, 0, 7]⟩ (by unfold NoInfinity; decide +kernel) []
    (by decide)
  simpa using this

end compressed

/-! ### C55: verification -/

section verify

variable {G1 G2 T : Type} [AddCommGroup G1] [CommMonoid T] [DecidableEq T]

/-- What is assumed of the engine: the final exponentiation of a product of Miller loops is the product of the values of a
pairing that is additive in its first argument. -/
structure PairingEngine (E : Engine G1 G2 T) (e : G1 → G2 → Tˣ) : Prop where
  product : ∀ l, E.finalExponentiation (E.millerLoop l) = some ((l.map fun q => e q.1 q.2).prod : Tˣ)
  add_left : ∀ a a' b, e (a + a') b = e a b * e a' b

omit [CommMonoid T] [DecidableEq T] in
theorem accumulate_eq {r : Nat} (acc : G1) (l : List (ZMod r × G1)) :
    accumulate acc l = acc + (l.map fun q => q.1.val • q.2).sum := by
  induction l generalizing acc with
  | nil => simp [accumulate]
  | cons q l ih => simp [accumulate, ih, add_assoc]

theorem PairingEngine.neg_left {E : Engine G1 G2 T} {e : G1 → G2 → Tˣ} (h : PairingEngine E e) (a : G1) (b : G2) :
    e (-a) b = (e a b)⁻¹ := by
  have h0 : e 0 b = 1 := by
    have := h.add_left 0 0 b
    rw [add_zero] at this
    exact mul_left_cancel (a := e 0 b) (by rw [← this, mul_one])
  rw [eq_inv_iff_mul_eq_one, ← h.add_left, neg_add_cancel, h0]

theorem verify_groth16_eq {r : Nat} {E : Engine G1 G2 T} {e : G1 → G2 → Tˣ} (h : PairingEngine E e) (tvk : VK G1 G2)
    (proof : Proof G1 G2) (inputs : List (ZMod r)) (ic0 : G1) (ics : List G1) (hic : tvk.ic = ic0 :: ics)
    (hlen : inputs.length = ics.length) :
    ∃ b, verify E tvk proof inputs = .ok (.ok b) ∧ (b = true ↔ Groth16Equation e tvk.alphaG1 tvk.betaG2 tvk.gammaG2
      tvk.deltaG2 ic0 ics proof.a proof.b proof.c inputs) := by
  unfold verify
  rw [hic]
  simp only [List.length_cons, hlen, ne_eq, not_true_eq_false, if_false, h.product]
  refine ⟨_, rfl, ?_⟩
  rw [decide_eq_true_iff, accumulate_eq]
  have hz : ((inputs.zip ics).map fun q => q.1.val • q.2) = List.zipWith (fun x P => x.val • P) inputs ics := by
    rw [List.zip, List.map_zipWith]
  rw [hz]
  simp only [List.map_cons, List.map_nil, List.prod_cons, List.prod_nil, mul_one, h.neg_left, Units.val_eq_one]
  unfold Groth16Equation
  rw [inv_mul_eq_one, mul_assoc]

/-- C55: `verify` never panics with such an engine; it returns an error exactly if the number of inputs does not fit the
key. -/
theorem C55_error {r : Nat} {E : Engine G1 G2 T} {e : G1 → G2 → Tˣ} (h : PairingEngine E e) (tvk : VK G1 G2)
    (proof : Proof G1 G2) (inputs : List (ZMod r)) :
    (∃ res, verify E tvk proof inputs = .ok res) ∧
    (verify E tvk proof inputs = .ok (.error .malformedVerifyingKey) ↔ inputs.length + 1 ≠ tvk.ic.length) := by
  by_cases hl : inputs.length + 1 = tvk.ic.length
  · cases hic : tvk.ic with
    | nil => rw [hic] at hl; simp at hl
    | cons ic0 ics =>
      rw [hic] at hl
      obtain ⟨b, hb, -⟩ := verify_groth16_eq h tvk proof inputs ic0 ics hic (by simpa using hl)
      exact ⟨⟨_, hb⟩, by rw [hb]; simpa using hl⟩
  · have : verify E tvk proof inputs = .ok (.error .malformedVerifyingKey) := by unfold verify; rw [if_pos hl]
    exact ⟨⟨_, this⟩, by simp [this, hl]⟩

/-- C55: `verify` returns `Ok(true)` exactly if the number of inputs fits and the Groth16 equation holds. -/
theorem C55_accepts {r : Nat} {E : Engine G1 G2 T} {e : G1 → G2 → Tˣ} (h : PairingEngine E e) (tvk : VK G1 G2)
    (proof : Proof G1 G2) (inputs : List (ZMod r)) :
    verify E tvk proof inputs = .ok (.ok true) ↔
      ∃ ic0 ics, tvk.ic = ic0 :: ics ∧ inputs.length = ics.length ∧ Groth16Equation e tvk.alphaG1 tvk.betaG2 tvk.gammaG2
        tvk.deltaG2 ic0 ics proof.a proof.b proof.c inputs := by
  constructor
  · intro hv
    have hl : inputs.length + 1 = tvk.ic.length := by
      by_contra hl
      rw [((C55_error h tvk proof inputs).2).2 hl] at hv
      simp at hv
    cases hic : tvk.ic with
    | nil => rw [hic] at hl; simp at hl
    | cons ic0 ics =>
      rw [hic] at hl
      have hl' : inputs.length = ics.length := by simpa using hl
      obtain ⟨b, hb, hb'⟩ := verify_groth16_eq h tvk proof inputs ic0 ics hic hl'
      rw [hb] at hv
      cases hv
      exact ⟨ic0, ics, rfl, hl', hb'.1 rfl⟩
  · rintro ⟨ic0, ics, hic, hl, heq⟩
    obtain ⟨b, hb, hb'⟩ := verify_groth16_eq h tvk proof inputs ic0 ics hic hl
    rw [hb, hb'.2 heq]

/-- C55: `verify` returns `Ok(false)` exactly if the number of inputs fits and the Groth16 equation fails. -/
theorem C55_rejects {r : Nat} {E : Engine G1 G2 T} {e : G1 → G2 → Tˣ} (h : PairingEngine E e) (tvk : VK G1 G2)
    (proof : Proof G1 G2) (inputs : List (ZMod r)) :
    verify E tvk proof inputs = .ok (.ok false) ↔
      ∃ ic0 ics, tvk.ic = ic0 :: ics ∧ inputs.length = ics.length ∧ ¬ Groth16Equation e tvk.alphaG1 tvk.betaG2 tvk.gammaG2
        tvk.deltaG2 ic0 ics proof.a proof.b proof.c inputs := by
  constructor
  · intro hv
    have hl : inputs.length + 1 = tvk.ic.length := by
      by_contra hl
      rw [((C55_error h tvk proof inputs).2).2 hl] at hv
      simp at hv
    cases hic : tvk.ic with
    | nil => rw [hic] at hl; simp at hl
    | cons ic0 ics =>
      rw [hic] at hl
      have hl' : inputs.length = ics.length := by simpa using hl
      obtain ⟨b, hb, hb'⟩ := verify_groth16_eq h tvk proof inputs ic0 ics hic hl'
      rw [hb] at hv
      cases hv
      exact ⟨ic0, ics, rfl, hl', fun heq => by simpa using hb'.2 heq⟩
  · rintro ⟨ic0, ics, hic, hl, heq⟩
    obtain ⟨b, hb, hb'⟩ := verify_groth16_eq h tvk proof inputs ic0 ics hic hl
    rw [hb]
    cases b
    · rfl
    · exact absurd (hb'.1 rfl) heq

/-- The pairing `(a, b) ↦ 3^(ab)` from `ℤ/5` to the fifth roots of unity modulo 11. -/
def toyPairing (a b : ZMod 5) : (ZMod 11)ˣ := ⟨3, 4, by decide, by decide⟩ ^ (a.val * b.val)

/-- An engine that computes it. -/
def toyEngine : Engine (ZMod 5) (ZMod 5) (ZMod 11) where
  millerLoop l := ((l.map fun q => toyPairing q.1 q.2).prod : (ZMod 11)ˣ)
  finalExponentiation t := some t

theorem toyEngine_computes : PairingEngine toyEngine toyPairing where
  product _ := rfl
  add_left := by decide

example : verify toyEngine ⟨1, 2, 1, 1, [1, 2]⟩ ⟨3, 2, 1⟩ [(1 : ZMod 5)] = .ok (.ok true) :=
  (C55_accepts toyEngine_computes _ _ _).2 ⟨1, [2], rfl, rfl, by unfold Groth16Equation; decide⟩

example : verify toyEngine ⟨1, 2, 1, 1, [1, 2]⟩ ⟨3, 2, 1⟩ [(2 : ZMod 5)] = .ok (.ok false) :=
  (C55_rejects toyEngine_computes _ _ _).2 ⟨1, [2], rfl, rfl, by unfold Groth16Equation; decide⟩

example : verify toyEngine ⟨1, 2, 1, 1, [1, 2]⟩ ⟨3, 2, 1⟩ [(2 : ZMod 5), 1] = .ok (.error .malformedVerifyingKey) :=
  ((C55_error toyEngine_computes _ _ _).2).2 (by decide)

end verify

end Fawkes.Props
