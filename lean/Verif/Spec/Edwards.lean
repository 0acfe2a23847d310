import Mathlib.Algebra.Field.Basic
import Mathlib.Algebra.Group.Even
import Mathlib.Tactic.Ring
import Mathlib.Tactic.FieldSimp
import Mathlib.Tactic.LinearCombination

/-!
# Specification: the twisted Edwards group `y² - x² = 1 + d x² y²`

This file does not mention the library.  It defines the affine curve and its addition law from the
literature (Bernstein, Birkner, Joye, Lange, Peters, "Twisted Edwards Curves", with `a = -1`) and
proves that for non-square `d` and square `-1` the law has no exceptional cases and makes the curve
points a commutative group.
-/

namespace Fawkes

/-- Parameters of a complete twisted Edwards curve with `a = -1`. -/
structure EdCurve (F : Type) [Field F] where
  d : F
  d_nonsquare : ¬ IsSquare d
  neg_one_square : IsSquare (-1 : F)
  two_ne_zero : (2 : F) ≠ 0

/-- The affine curve equation `y² - x² = 1 + d x² y²`. -/
def OnCurve {F : Type} [Field F] (d x y : F) : Prop := y ^ 2 - x ^ 2 = 1 + d * x ^ 2 * y ^ 2

/-- The points of the curve. -/
@[ext] structure EdPoint {F : Type} [Field F] (C : EdCurve F) where
  x : F
  y : F
  on : OnCurve C.d x y

namespace EdPoint

variable {F : Type} [Field F]

theorem d_ne_zero (C : EdCurve F) : C.d ≠ 0 := fun h => C.d_nonsquare (h ▸ IsSquare.zero)

/-- `1 ± d x₁x₂y₁y₂` never vanish on the curve. -/
theorem denom_sq_ne_one (C : EdCurve F) {x1 y1 x2 y2 : F} (h1 : OnCurve C.d x1 y1)
    (h2 : OnCurve C.d x2 y2) : (C.d * x1 * x2 * y1 * y2) ^ 2 ≠ 1 := by
  intro he
  obtain ⟨i, hi⟩ := C.neg_one_square
  unfold OnCurve at h1 h2
  have hne : C.d * x1 * x2 * y1 * y2 ≠ 0 := by
    intro h0; rw [h0] at he; exact zero_ne_one (α := F) (by simp at he)
  have hx1 : x1 ≠ 0 := by rintro rfl; simp at hne
  have hx2 : x2 ≠ 0 := by rintro rfl; simp at hne
  have hy1 : y1 ≠ 0 := by rintro rfl; simp at hne
  have hi0 : i ≠ 0 := by
    rintro rfl; simp at hi
  set e := C.d * x1 * x2 * y1 * y2 with hedef
  -- the two square identities
  have kp : (i * x1 + e * y1) ^ 2 = C.d * (x1 * y1 * (i * x2 + y2)) ^ 2 * 1 := by
    rw [hedef] at he ⊢
    linear_combination (x1 ^ 2 - C.d * x1^2 * y1^2 * x2^2) * (-hi) + h1 - C.d * x1^2*y1^2 * h2
      + (y1^2 - 1) * he
  have km : (i * x1 - e * y1) ^ 2 = C.d * (x1 * y1 * (i * x2 - y2)) ^ 2 * 1 := by
    rw [hedef] at he ⊢
    linear_combination (x1 ^ 2 - C.d * x1^2 * y1^2 * x2^2) * (-hi) + h1 - C.d * x1^2*y1^2 * h2
      + (y1^2 - 1) * he
  by_cases hp : i * x2 + y2 = 0
  · have hm : i * x2 - y2 ≠ 0 := by
      intro hm
      have : 2 * (i * x2) = 0 := by linear_combination hp + hm
      rcases mul_eq_zero.1 this with h | h
      · exact C.two_ne_zero h
      · exact (mul_ne_zero hi0 hx2) h
    apply C.d_nonsquare
    refine ⟨(i * x1 - e * y1) / (x1 * y1 * (i * x2 - y2)), ?_⟩
    field_simp
    linear_combination -km
  · apply C.d_nonsquare
    refine ⟨(i * x1 + e * y1) / (x1 * y1 * (i * x2 + y2)), ?_⟩
    field_simp
    linear_combination -kp

theorem denom_add_ne (C : EdCurve F) {x1 y1 x2 y2 : F} (h1 : OnCurve C.d x1 y1)
    (h2 : OnCurve C.d x2 y2) : 1 + C.d * x1 * x2 * y1 * y2 ≠ 0 := by
  intro h
  apply denom_sq_ne_one C h1 h2
  linear_combination (C.d * x1 * x2 * y1 * y2 - 1) * h

theorem denom_sub_ne (C : EdCurve F) {x1 y1 x2 y2 : F} (h1 : OnCurve C.d x1 y1)
    (h2 : OnCurve C.d x2 y2) : 1 - C.d * x1 * x2 * y1 * y2 ≠ 0 := by
  intro h
  apply denom_sq_ne_one C h1 h2
  linear_combination (-(C.d * x1 * x2 * y1 * y2) - 1) * h

variable {C : EdCurve F}

/-- The twisted Edwards addition law. -/
instance : Add (EdPoint C) where
  add p q :=
    { x := (p.x * q.y + p.y * q.x) / (1 + C.d * p.x * q.x * p.y * q.y)
      y := (p.y * q.y + p.x * q.x) / (1 - C.d * p.x * q.x * p.y * q.y)
      on := by
        have hp := p.on
        have hq := q.on
        have h1 := denom_add_ne C hp hq
        have h2 := denom_sub_ne C hp hq
        revert hp hq h1 h2
        generalize p.x = x1, p.y = y1, q.x = x2, q.y = y2, C.d = d
        unfold OnCurve
        intro hp hq h1 h2
        generalize hD1 : 1 + d * x1 * x2 * y1 * y2 = D1 at h1 ⊢
        generalize hD2 : 1 - d * x1 * x2 * y1 * y2 = D2 at h2 ⊢
        field_simp
        subst hD1 hD2
        linear_combination
          (x1^2*y1^2*x2^4*y2^4*d^3 - x1^2*x2^4*y2^4*d^2 - x1^2*x2^4*y2^2*d + x1^2*x2^2*y2^4*d +
          y1^2*x2^4*y2^4*d^2 + y1^2*x2^4*y2^2*d - y1^2*x2^2*y2^4*d - x2^4*y2^4*d^2 - 2*x2^4*y2^4*d
          - 2*x2^4*y2^2 + x2^4 + 2*x2^2*y2^4 - 2*x2^2*y2^2*d - 4*x2^2*y2^2 + y2^4) * hp +
          (x1^4*x2^2*y2^2*d + 2*x1^2*x2^2*y2^2*d + 2*x1^2*x2^2*y2^2 - x1^2*x2^2 + x1^2*y2^2 +
          y1^4*x2^2*y2^2*d - 2*y1^2*x2^2*y2^2*d - 2*y1^2*x2^2*y2^2 + y1^2*x2^2 - y1^2*y2^2 +
          x2^2*y2^2*d + 2*x2^2*y2^2 - x2^2 + y2^2 + 1) * hq }

theorem add_x (p q : EdPoint C) :
    (p + q).x = (p.x * q.y + p.y * q.x) / (1 + C.d * p.x * q.x * p.y * q.y) := rfl

theorem add_y (p q : EdPoint C) :
    (p + q).y = (p.y * q.y + p.x * q.x) / (1 - C.d * p.x * q.x * p.y * q.y) := rfl

/-- The neutral element `(0, 1)`. -/
instance : Zero (EdPoint C) where
  zero := ⟨0, 1, by simp [OnCurve]⟩

@[simp] theorem zero_x : (0 : EdPoint C).x = 0 := rfl
@[simp] theorem zero_y : (0 : EdPoint C).y = 1 := rfl

/-- The inverse `(-x, y)`. -/
instance : Neg (EdPoint C) where
  neg p := ⟨-p.x, p.y, by have := p.on; unfold OnCurve at *; linear_combination this⟩

@[simp] theorem neg_x (p : EdPoint C) : (-p).x = -p.x := rfl
@[simp] theorem neg_y (p : EdPoint C) : (-p).y = p.y := rfl

theorem add_comm' (p q : EdPoint C) : p + q = q + p := by
  ext
  · rw [add_x, add_x]; congr 1 <;> ring
  · rw [add_y, add_y]; congr 1 <;> ring

theorem zero_add' (p : EdPoint C) : 0 + p = p := by
  ext
  · rw [add_x]; simp
  · rw [add_y]; simp

theorem neg_add_cancel' (p : EdPoint C) : -p + p = 0 := by
  have hp := p.on
  have h2 := denom_sub_ne C (-p).on hp
  ext
  · rw [add_x]; simp; left; ring
  · rw [add_y]
    simp only [neg_x, neg_y, zero_y] at h2 ⊢
    rw [div_eq_one_iff_eq h2]
    unfold OnCurve at hp
    linear_combination hp

private theorem assoc_x_poly {d x1 y1 x2 y2 x3 y3 : F} (h1 : OnCurve d x1 y1) (h2 : OnCurve d x2 y2)
    (h3 : OnCurve d x3 y3) :
    ((x1*y2+y1*x2) * (1 - d*x1*x2*y1*y2) * y3 + (y1*y2+x1*x2) * (1 + d*x1*x2*y1*y2) * x3) *
    ((1 + d*x2*x3*y2*y3) * (1 - d*x2*x3*y2*y3) + d*x1*y1*(x2*y3+y2*x3)*(y2*y3+x2*x3)) =
    (x1*(y2*y3+x2*x3)*(1 + d*x2*x3*y2*y3) + y1*(x2*y3+y2*x3)*(1 - d*x2*x3*y2*y3)) *
    ((1 + d*x1*x2*y1*y2) * (1 - d*x1*x2*y1*y2) + d*(x1*y2+y1*x2)*(y1*y2+x1*x2)*x3*y3) := by
  unfold OnCurve at h1 h2 h3
  linear_combination
    (- x1*x2^4*y2^3*x3^2*y3*d^2 - x1*x2^4*y2*x3^2*y3*d - x1*x2^3*y2^4*x3*y3^2*d^2 -
      x1*x2^3*y2^2*x3^3*d - x1*x2^3*y2^2*x3*d + x1*x2^2*y2^3*y3^3*d - x1*x2^2*y2^3*y3*d +
      x1*x2*y2^4*x3*y3^2*d + y1*x2^4*y2^3*x3*y3^2*d^2 + y1*x2^4*y2*x3*y3^2*d +
      y1*x2^3*y2^4*x3^2*y3*d^2 + y1*x2^3*y2^2*y3^3*d - y1*x2^3*y2^2*y3*d - y1*x2^2*y2^3*x3^3*d -
      y1*x2^2*y2^3*x3*d - y1*x2*y2^4*x3^2*y3*d) * h1 +
    (x1^3*x2^2*y2*x3^2*y3*d + x1^3*x2*y2^2*x3*y3^2*d + x1^3*x2*x3^3*y3^2*d + x1^3*x2*x3^3 -
      x1^3*x2*x3*y3^2 + x1^3*x2*x3 + x1^3*y2*x3^2*y3^3*d + x1^3*y2*x3^2*y3 - x1^3*y2*y3^3 +
      x1^3*y2*y3 + x1^2*y1*x2^2*y2*x3^3*y3^2*d^2 - x1^2*y1*x2^2*y2*x3*y3^2*d -
      x1^2*y1*x2*y2^2*x3^2*y3^3*d^2 - x1^2*y1*x2*y2^2*x3^2*y3*d + x1^2*y1*x2*x3^2*y3^3*d +
      x1^2*y1*x2*x3^2*y3 - x1^2*y1*x2*y3^3 + x1^2*y1*x2*y3 + x1^2*y1*y2*x3^3*y3^2*d +
      x1^2*y1*y2*x3^3 - x1^2*y1*y2*x3*y3^2 + x1^2*y1*y2*x3 - x1*y1^2*x2^2*y2*x3^2*y3^3*d^2 -
      x1*y1^2*x2^2*y2*x3^2*y3*d + x1*y1^2*x2*y2^2*x3^3*y3^2*d^2 - x1*y1^2*x2*y2^2*x3*y3^2*d -
      x1*y1^2*x2*x3^3*y3^2*d - x1*y1^2*x2*x3^3 + x1*y1^2*x2*x3*y3^2 - x1*y1^2*x2*x3 -
      x1*y1^2*y2*x3^2*y3^3*d - x1*y1^2*y2*x3^2*y3 + x1*y1^2*y2*y3^3 - x1*y1^2*y2*y3 +
      x1*x2^2*y2*x3^2*y3*d + x1*x2*y2^2*x3*y3^2*d + x1*x2*x3^3*y3^2*d + x1*x2*x3^3 - x1*x2*x3*y3^2
      + x1*x2*x3 + x1*y2*x3^2*y3^3*d + x1*y2*x3^2*y3 - x1*y2*y3^3 + x1*y2*y3 +
      y1^3*x2^2*y2*x3*y3^2*d + y1^3*x2*y2^2*x3^2*y3*d - y1^3*x2*x3^2*y3^3*d - y1^3*x2*x3^2*y3 +
      y1^3*x2*y3^3 - y1^3*x2*y3 - y1^3*y2*x3^3*y3^2*d - y1^3*y2*x3^3 + y1^3*y2*x3*y3^2 -
      y1^3*y2*x3 - y1*x2^2*y2*x3*y3^2*d - y1*x2*y2^2*x3^2*y3*d + y1*x2*x3^2*y3^3*d + y1*x2*x3^2*y3
      - y1*x2*y3^3 + y1*x2*y3 + y1*y2*x3^3*y3^2*d + y1*y2*x3^3 - y1*y2*x3*y3^2 + y1*y2*x3) * h2 +
    (- x1^3*x2^3*x3 - x1^3*x2^2*y2*y3 + x1^3*x2*y2^2*x3 - x1^3*x2*x3 + x1^3*y2^3*y3 - x1^3*y2*y3
      - x1^2*y1*x2^3*y3 - x1^2*y1*x2^2*y2*x3*d - x1^2*y1*x2^2*y2*x3 + x1^2*y1*x2*y2^2*y3*d +
      x1^2*y1*x2*y2^2*y3 - x1^2*y1*x2*y3 + x1^2*y1*y2^3*x3 - x1^2*y1*y2*x3 + x1*y1^2*x2^3*x3 +
      x1*y1^2*x2^2*y2*y3*d + x1*y1^2*x2^2*y2*y3 - x1*y1^2*x2*y2^2*x3*d - x1*y1^2*x2*y2^2*x3 +
      x1*y1^2*x2*x3 - x1*y1^2*y2^3*y3 + x1*y1^2*y2*y3 - x1*x2^3*x3 - x1*x2^2*y2*y3 + x1*x2*y2^2*x3
      - x1*x2*x3 + x1*y2^3*y3 - x1*y2*y3 + y1^3*x2^3*y3 + y1^3*x2^2*y2*x3 - y1^3*x2*y2^2*y3 +
      y1^3*x2*y3 - y1^3*y2^3*x3 + y1^3*y2*x3 - y1*x2^3*y3 - y1*x2^2*y2*x3 + y1*x2*y2^2*y3 -
      y1*x2*y3 + y1*y2^3*x3 - y1*y2*x3) * h3

private theorem assoc_y_poly {d x1 y1 x2 y2 x3 y3 : F} (h1 : OnCurve d x1 y1) (h2 : OnCurve d x2 y2)
    (h3 : OnCurve d x3 y3) :
    ((y1*y2+x1*x2) * (1 + d*x1*x2*y1*y2) * y3 + (x1*y2+y1*x2) * (1 - d*x1*x2*y1*y2) * x3) *
    ((1 + d*x2*x3*y2*y3) * (1 - d*x2*x3*y2*y3) - d*x1*y1*(x2*y3+y2*x3)*(y2*y3+x2*x3)) =
    (y1*(y2*y3+x2*x3)*(1 + d*x2*x3*y2*y3) + x1*(x2*y3+y2*x3)*(1 - d*x2*x3*y2*y3)) *
    ((1 + d*x1*x2*y1*y2) * (1 - d*x1*x2*y1*y2) - d*(x1*y2+y1*x2)*(y1*y2+x1*x2)*x3*y3) := by
  unfold OnCurve at h1 h2 h3
  linear_combination
    (x1*x2^4*y2^3*x3*y3^2*d^2 + x1*x2^4*y2*x3*y3^2*d + x1*x2^3*y2^4*x3^2*y3*d^2 +
      x1*x2^3*y2^2*y3^3*d - x1*x2^3*y2^2*y3*d - x1*x2^2*y2^3*x3^3*d - x1*x2^2*y2^3*x3*d -
      x1*x2*y2^4*x3^2*y3*d - y1*x2^4*y2^3*x3^2*y3*d^2 - y1*x2^4*y2*x3^2*y3*d -
      y1*x2^3*y2^4*x3*y3^2*d^2 - y1*x2^3*y2^2*x3^3*d - y1*x2^3*y2^2*x3*d + y1*x2^2*y2^3*y3^3*d -
      y1*x2^2*y2^3*y3*d + y1*x2*y2^4*x3*y3^2*d) * h1 +
    (- x1^3*x2^2*y2*x3*y3^2*d - x1^3*x2*y2^2*x3^2*y3*d + x1^3*x2*x3^2*y3^3*d + x1^3*x2*x3^2*y3 -
      x1^3*x2*y3^3 + x1^3*x2*y3 + x1^3*y2*x3^3*y3^2*d + x1^3*y2*x3^3 - x1^3*y2*x3*y3^2 +
      x1^3*y2*x3 + x1^2*y1*x2^2*y2*x3^2*y3^3*d^2 + x1^2*y1*x2^2*y2*x3^2*y3*d -
      x1^2*y1*x2*y2^2*x3^3*y3^2*d^2 + x1^2*y1*x2*y2^2*x3*y3^2*d + x1^2*y1*x2*x3^3*y3^2*d +
      x1^2*y1*x2*x3^3 - x1^2*y1*x2*x3*y3^2 + x1^2*y1*x2*x3 + x1^2*y1*y2*x3^2*y3^3*d +
      x1^2*y1*y2*x3^2*y3 - x1^2*y1*y2*y3^3 + x1^2*y1*y2*y3 - x1*y1^2*x2^2*y2*x3^3*y3^2*d^2 +
      x1*y1^2*x2^2*y2*x3*y3^2*d + x1*y1^2*x2*y2^2*x3^2*y3^3*d^2 + x1*y1^2*x2*y2^2*x3^2*y3*d -
      x1*y1^2*x2*x3^2*y3^3*d - x1*y1^2*x2*x3^2*y3 + x1*y1^2*x2*y3^3 - x1*y1^2*x2*y3 -
      x1*y1^2*y2*x3^3*y3^2*d - x1*y1^2*y2*x3^3 + x1*y1^2*y2*x3*y3^2 - x1*y1^2*y2*x3 -
      x1*x2^2*y2*x3*y3^2*d - x1*x2*y2^2*x3^2*y3*d + x1*x2*x3^2*y3^3*d + x1*x2*x3^2*y3 - x1*x2*y3^3
      + x1*x2*y3 + x1*y2*x3^3*y3^2*d + x1*y2*x3^3 - x1*y2*x3*y3^2 + x1*y2*x3 -
      y1^3*x2^2*y2*x3^2*y3*d - y1^3*x2*y2^2*x3*y3^2*d - y1^3*x2*x3^3*y3^2*d - y1^3*x2*x3^3 +
      y1^3*x2*x3*y3^2 - y1^3*x2*x3 - y1^3*y2*x3^2*y3^3*d - y1^3*y2*x3^2*y3 + y1^3*y2*y3^3 -
      y1^3*y2*y3 + y1*x2^2*y2*x3^2*y3*d + y1*x2*y2^2*x3*y3^2*d + y1*x2*x3^3*y3^2*d + y1*x2*x3^3 -
      y1*x2*x3*y3^2 + y1*x2*x3 + y1*y2*x3^2*y3^3*d + y1*y2*x3^2*y3 - y1*y2*y3^3 + y1*y2*y3) * h2 +
    (- x1^3*x2^3*y3 - x1^3*x2^2*y2*x3 + x1^3*x2*y2^2*y3 - x1^3*x2*y3 + x1^3*y2^3*x3 - x1^3*y2*x3
      - x1^2*y1*x2^3*x3 - x1^2*y1*x2^2*y2*y3*d - x1^2*y1*x2^2*y2*y3 + x1^2*y1*x2*y2^2*x3*d +
      x1^2*y1*x2*y2^2*x3 - x1^2*y1*x2*x3 + x1^2*y1*y2^3*y3 - x1^2*y1*y2*y3 + x1*y1^2*x2^3*y3 +
      x1*y1^2*x2^2*y2*x3*d + x1*y1^2*x2^2*y2*x3 - x1*y1^2*x2*y2^2*y3*d - x1*y1^2*x2*y2^2*y3 +
      x1*y1^2*x2*y3 - x1*y1^2*y2^3*x3 + x1*y1^2*y2*x3 - x1*x2^3*y3 - x1*x2^2*y2*x3 + x1*x2*y2^2*y3
      - x1*x2*y3 + x1*y2^3*x3 - x1*y2*x3 + y1^3*x2^3*x3 + y1^3*x2^2*y2*y3 - y1^3*x2*y2^2*x3 +
      y1^3*x2*x3 - y1^3*y2^3*y3 + y1^3*y2*y3 - y1*x2^3*x3 - y1*x2^2*y2*y3 + y1*x2*y2^2*x3 -
      y1*x2*x3 + y1*y2^3*y3 - y1*y2*y3) * h3

theorem add_assoc' (p q r : EdPoint C) : p + q + r = p + (q + r) := by
  have hp := p.on
  have hq := q.on
  have hr := r.on
  have n1 := denom_add_ne C hp hq
  have n2 := denom_sub_ne C hp hq
  have n3 := denom_add_ne C hq hr
  have n4 := denom_sub_ne C hq hr
  have n5 := denom_add_ne C (p + q).on hr
  have n6 := denom_sub_ne C (p + q).on hr
  have n7 := denom_add_ne C hp (q + r).on
  have n8 := denom_sub_ne C hp (q + r).on
  have ax := assoc_x_poly hp hq hr
  have ay := assoc_y_poly hp hq hr
  ext
  · rw [add_x (p + q) r, add_x p (q + r), div_eq_div_iff n5 n7]
    simp only [add_x, add_y]
    generalize hD1 : 1 + C.d * p.x * q.x * p.y * q.y = D1 at n1 ⊢
    generalize hD2 : 1 - C.d * p.x * q.x * p.y * q.y = D2 at n2 ⊢
    generalize hD3 : 1 + C.d * q.x * r.x * q.y * r.y = D3 at n3 ⊢
    generalize hD4 : 1 - C.d * q.x * r.x * q.y * r.y = D4 at n4 ⊢
    field_simp
    subst hD1 hD2 hD3 hD4
    linear_combination ax
  · rw [add_y (p + q) r, add_y p (q + r), div_eq_div_iff n6 n8]
    simp only [add_x, add_y]
    generalize hD1 : 1 + C.d * p.x * q.x * p.y * q.y = D1 at n1 ⊢
    generalize hD2 : 1 - C.d * p.x * q.x * p.y * q.y = D2 at n2 ⊢
    generalize hD3 : 1 + C.d * q.x * r.x * q.y * r.y = D3 at n3 ⊢
    generalize hD4 : 1 - C.d * q.x * r.x * q.y * r.y = D4 at n4 ⊢
    field_simp
    subst hD1 hD2 hD3 hD4
    linear_combination ay

/-- The curve points form a commutative group. -/
instance : AddCommGroup (EdPoint C) where
  add_assoc := add_assoc'
  zero_add := zero_add'
  add_zero p := by rw [add_comm', zero_add']
  neg_add_cancel := neg_add_cancel'
  add_comm := add_comm'
  nsmul := nsmulRec
  zsmul := zsmulRec

end EdPoint

end Fawkes
