import Verif.Spec.Algebraic
import Verif.Props.Proving

/-!
# Algebraic provers: the equation as a polynomial in the secrets
-/

namespace Fawkes.Groth16

open Polynomial Finset

/-! ### Zeros of polynomials in five variables -/

section counting

variable {F : Type} [Field F] [Fintype F] [DecidableEq F]

/-- One more variable. -/
theorem few_step {Y : Type} [Fintype Y] (d : Nat) (f : Nat → Y → F) (i : Nat) (hi : i ≤ d) (N : Nat)
    (h : (univ.filter fun y => f i y = 0).card ≤ N) :
    (univ.filter fun q : F × Y => ∑ i ∈ range (d + 1), f i q.2 * q.1 ^ i = 0).card ≤
      d * Fintype.card Y + Fintype.card F * N := by
  classical
  have h1 : ∀ y, (∑ x : F, if ∑ i ∈ range (d + 1), f i y * x ^ i = 0 then 1 else 0) ≤
      d + if f i y = 0 then Fintype.card F else 0 := by
    intro y
    rw [← Finset.card_filter]
    split_ifs with h0
    · exact (Finset.card_le_univ _).trans (Nat.le_add_left _ _)
    · let p : F[X] := Domain.poly (d + 1) fun i => f i y
      have hp : p ≠ 0 := by
        intro hp
        have := Domain.coeff_poly (d + 1) (fun i => f i y) i
        rw [show Domain.poly (d + 1) (fun i => f i y) = 0 from hp, coeff_zero, if_pos (by omega)] at this
        exact h0 this.symm
      have hs : (univ.filter fun x : F => ∑ i ∈ range (d + 1), f i y * x ^ i = 0) ⊆ p.roots.toFinset := by
        intro x hx
        rw [Multiset.mem_toFinset, mem_roots hp, IsRoot.def, Domain.eval_poly]
        exact (Finset.mem_filter.1 hx).2
      refine (Finset.card_le_card hs).trans ((Multiset.toFinset_card_le _).trans ((card_roots' _).trans ?_))
      have := Domain.degree_poly (d + 1) fun i => f i y
      exact this.trans (by omega)
  rw [Finset.card_filter, Fintype.sum_prod_type_right]
  refine (Finset.sum_le_sum fun y _ => h1 y).trans ?_
  rw [Finset.sum_add_distrib, Finset.sum_const, smul_eq_mul, Finset.card_univ, mul_comm, ← Finset.sum_filter, Finset.sum_const,
    smul_eq_mul, mul_comm (Finset.card _)]
  exact Nat.add_le_add_left (Nat.mul_le_mul_left _ h) _

/-- The five secrets of the key generator: alpha, beta, gamma, delta, tau. -/
abbrev Secrets (F : Type) : Type := F × F × F × F × F

/-- The value of a polynomial in the secrets, given by its coefficients. -/
def valueOf (c : Nat → Nat → Nat → Nat → F[X]) (q : Secrets F) : F :=
  ∑ i ∈ range 2, (∑ j ∈ range 3, (∑ k ∈ range 3, (∑ l ∈ range 4, (c i j k l).eval q.2.2.2.2 * q.2.2.2.1 ^ l) *
    q.2.2.1 ^ k) * q.2.1 ^ j) * q.1 ^ i

theorem few_zeros (c : Nat → Nat → Nat → Nat → F[X]) (i j k l : Nat) (hi : i ≤ 1) (hj : j ≤ 2) (hk : k ≤ 2) (hl : l ≤ 3)
    (hc : c i j k l ≠ 0) (N : Nat) (hN : (c i j k l).natDegree ≤ N) :
    (univ.filter fun q : Secrets F => valueOf c q = 0).card ≤ (8 + N) * Fintype.card F ^ 4 := by
  classical
  have h0 : (univ.filter fun t : F => (c i j k l).eval t = 0).card ≤ N := by
    have hs : (univ.filter fun t : F => (c i j k l).eval t = 0) ⊆ (c i j k l).roots.toFinset := by
      intro x hx
      rw [Multiset.mem_toFinset, mem_roots hc, IsRoot.def]
      exact (Finset.mem_filter.1 hx).2
    exact (Finset.card_le_card hs).trans ((Multiset.toFinset_card_le _).trans ((card_roots' _).trans hN))
  have h1 := few_step 3 (fun l (t : F) => (c i j k l).eval t) l hl _ h0
  have h2 := few_step 2 (fun k (q : F × F) => ∑ l ∈ range 4, (c i j k l).eval q.2 * q.1 ^ l) k hk _ h1
  have h3 := few_step 2 (fun j (q : F × F × F) => ∑ k ∈ range 3, (∑ l ∈ range 4, (c i j k l).eval q.2.2 * q.2.1 ^ l) *
    q.1 ^ k) j hj _ h2
  have h4 := few_step 1 (fun i (q : F × F × F × F) => ∑ j ∈ range 3, (∑ k ∈ range 3, (∑ l ∈ range 4, (c i j k l).eval q.2.2.2 *
    q.2.2.1 ^ l) * q.2.1 ^ k) * q.1 ^ j) i hi _ h3
  refine h4.trans (le_of_eq ?_)
  simp only [Fintype.card_prod]
  ring

end counting

/-! ### The verification equation -/

section core

variable {F : Type} [Field F]

/-- The discrete logarithm of a point of the first group as a polynomial in the secrets and the inverses of two of them. -/
structure Part (F : Type) [Field F] where
  alpha : F
  beta : F
  delta : F
  p : F[X]
  u : F[X]
  v : F[X]
  w : F[X]
  x : F[X]
  y : F[X]
  z : F[X]

noncomputable def Part.at (a : Part F) (q : Secrets F) : F :=
  let (al, be, ga, de, t) := q
  a.alpha * al + a.beta * be + a.delta * de + a.p.eval t + ga⁻¹ * (be * a.u.eval t + al * a.v.eval t + a.w.eval t) +
    de⁻¹ * (be * a.x.eval t + al * a.y.eval t + a.z.eval t)

/-- The discrete logarithm of a point of the second group. -/
structure Part2 (F : Type) [Field F] where
  beta : F
  gamma : F
  delta : F
  p : F[X]

noncomputable def Part2.at (b : Part2 F) (q : Secrets F) : F :=
  let (_, be, ga, de, t) := q
  b.beta * be + b.gamma * ga + b.delta * de + b.p.eval t

/-- The coefficients of the equation, multiplied by gamma and delta. -/
noncomputable def table (a : Part F) (b : Part2 F) (c : Part F) (U V W : F[X]) : Nat → Nat → Nat → Nat → F[X]
  | 1, 1, 1, 1 => C (a.alpha * b.beta) - 1
  | 0, 2, 1, 1 => C (a.beta * b.beta)
  | 0, 1, 1, 2 => C (a.delta * b.beta + a.beta * b.delta - c.beta)
  | 0, 1, 1, 1 => a.p * C b.beta + a.u * C b.gamma + a.x * C b.delta + C a.beta * b.p - U - c.x
  | 0, 2, 0, 1 => a.u * C b.beta
  | 1, 1, 0, 1 => a.v * C b.beta
  | 0, 1, 0, 1 => a.w * C b.beta + a.u * b.p
  | 0, 2, 1, 0 => a.x * C b.beta
  | 1, 1, 1, 0 => a.y * C b.beta
  | 0, 1, 1, 0 => a.z * C b.beta + a.x * b.p
  | 1, 0, 2, 1 => C (a.alpha * b.gamma)
  | 0, 1, 2, 1 => C (a.beta * b.gamma)
  | 0, 0, 2, 2 => C (a.delta * b.gamma)
  | 0, 0, 2, 1 => a.p * C b.gamma
  | 1, 0, 1, 1 => a.v * C b.gamma + a.y * C b.delta + C a.alpha * b.p - V - c.y
  | 0, 0, 1, 1 => a.w * C b.gamma + a.z * C b.delta + a.p * b.p - W - c.z
  | 0, 1, 2, 0 => a.x * C b.gamma
  | 1, 0, 2, 0 => a.y * C b.gamma
  | 0, 0, 2, 0 => a.z * C b.gamma
  | 1, 0, 1, 2 => C (a.alpha * b.delta - c.alpha)
  | 0, 0, 1, 3 => C (a.delta * b.delta - c.delta)
  | 0, 0, 1, 2 => a.p * C b.delta + C a.delta * b.p - c.p
  | 0, 1, 0, 2 => a.u * C b.delta - c.u
  | 1, 0, 0, 2 => a.v * C b.delta - c.v
  | 0, 0, 0, 2 => a.w * C b.delta - c.w
  | 1, 0, 0, 1 => a.v * b.p
  | 0, 0, 0, 1 => a.w * b.p
  | 1, 0, 1, 0 => a.y * b.p
  | 0, 0, 1, 0 => a.z * b.p
  | _, _, _, _ => 0

theorem table_value (a : Part F) (b : Part2 F) (c : Part F) (U V W : F[X]) (al be ga de t : F) (hg : ga ≠ 0) (hd : de ≠ 0)
    (h : a.at (al, be, ga, de, t) * b.at (al, be, ga, de, t) = al * be + (be * U.eval t + al * V.eval t + W.eval t) +
      c.at (al, be, ga, de, t) * de) : valueOf (table a b c U V W) (al, be, ga, de, t) = 0 := by
  have key : valueOf (table a b c U V W) (al, be, ga, de, t) = ga * de * (a.at (al, be, ga, de, t) * b.at (al, be, ga, de, t) -
      (al * be + (be * U.eval t + al * V.eval t + W.eval t) + c.at (al, be, ga, de, t) * de)) := by
    have ea : ga * de * a.at (al, be, ga, de, t) = a.alpha * al * ga * de + a.beta * be * ga * de + a.delta * de * ga * de +
        a.p.eval t * ga * de + de * (be * a.u.eval t + al * a.v.eval t + a.w.eval t) +
        ga * (be * a.x.eval t + al * a.y.eval t + a.z.eval t) := by
      simp only [Part.at]; field_simp
    have ec : ga * de * c.at (al, be, ga, de, t) = c.alpha * al * ga * de + c.beta * be * ga * de + c.delta * de * ga * de +
        c.p.eval t * ga * de + de * (be * c.u.eval t + al * c.v.eval t + c.w.eval t) +
        ga * (be * c.x.eval t + al * c.y.eval t + c.z.eval t) := by
      simp only [Part.at]; field_simp
    have er : ga * de * (a.at (al, be, ga, de, t) * b.at (al, be, ga, de, t) -
        (al * be + (be * U.eval t + al * V.eval t + W.eval t) + c.at (al, be, ga, de, t) * de)) =
        (ga * de * a.at (al, be, ga, de, t)) * b.at (al, be, ga, de, t) -
        ga * de * (al * be + (be * U.eval t + al * V.eval t + W.eval t)) - (ga * de * c.at (al, be, ga, de, t)) * de := by ring
    have ev : valueOf (table a b c U V W) (al, be, ga, de, t) = ((((table a b c U V W 0 0 0 0).eval t * de ^ 0 + (table a b c U V W 0 0 0 1).eval t * de ^ 1 + (table a b c U V W 0 0 0 2).eval t * de ^ 2 + (table a b c U V W 0 0 0 3).eval t * de ^ 3) * ga ^ 0 +
        ((table a b c U V W 0 0 1 0).eval t * de ^ 0 + (table a b c U V W 0 0 1 1).eval t * de ^ 1 + (table a b c U V W 0 0 1 2).eval t * de ^ 2 + (table a b c U V W 0 0 1 3).eval t * de ^ 3) * ga ^ 1 +
        ((table a b c U V W 0 0 2 0).eval t * de ^ 0 + (table a b c U V W 0 0 2 1).eval t * de ^ 1 + (table a b c U V W 0 0 2 2).eval t * de ^ 2 + (table a b c U V W 0 0 2 3).eval t * de ^ 3) * ga ^ 2) * be ^ 0 +
      (((table a b c U V W 0 1 0 0).eval t * de ^ 0 + (table a b c U V W 0 1 0 1).eval t * de ^ 1 + (table a b c U V W 0 1 0 2).eval t * de ^ 2 + (table a b c U V W 0 1 0 3).eval t * de ^ 3) * ga ^ 0 +
        ((table a b c U V W 0 1 1 0).eval t * de ^ 0 + (table a b c U V W 0 1 1 1).eval t * de ^ 1 + (table a b c U V W 0 1 1 2).eval t * de ^ 2 + (table a b c U V W 0 1 1 3).eval t * de ^ 3) * ga ^ 1 +
        ((table a b c U V W 0 1 2 0).eval t * de ^ 0 + (table a b c U V W 0 1 2 1).eval t * de ^ 1 + (table a b c U V W 0 1 2 2).eval t * de ^ 2 + (table a b c U V W 0 1 2 3).eval t * de ^ 3) * ga ^ 2) * be ^ 1 +
      (((table a b c U V W 0 2 0 0).eval t * de ^ 0 + (table a b c U V W 0 2 0 1).eval t * de ^ 1 + (table a b c U V W 0 2 0 2).eval t * de ^ 2 + (table a b c U V W 0 2 0 3).eval t * de ^ 3) * ga ^ 0 +
        ((table a b c U V W 0 2 1 0).eval t * de ^ 0 + (table a b c U V W 0 2 1 1).eval t * de ^ 1 + (table a b c U V W 0 2 1 2).eval t * de ^ 2 + (table a b c U V W 0 2 1 3).eval t * de ^ 3) * ga ^ 1 +
        ((table a b c U V W 0 2 2 0).eval t * de ^ 0 + (table a b c U V W 0 2 2 1).eval t * de ^ 1 + (table a b c U V W 0 2 2 2).eval t * de ^ 2 + (table a b c U V W 0 2 2 3).eval t * de ^ 3) * ga ^ 2) * be ^ 2) * al ^ 0 +
      ((((table a b c U V W 1 0 0 0).eval t * de ^ 0 + (table a b c U V W 1 0 0 1).eval t * de ^ 1 + (table a b c U V W 1 0 0 2).eval t * de ^ 2 + (table a b c U V W 1 0 0 3).eval t * de ^ 3) * ga ^ 0 +
        ((table a b c U V W 1 0 1 0).eval t * de ^ 0 + (table a b c U V W 1 0 1 1).eval t * de ^ 1 + (table a b c U V W 1 0 1 2).eval t * de ^ 2 + (table a b c U V W 1 0 1 3).eval t * de ^ 3) * ga ^ 1 +
        ((table a b c U V W 1 0 2 0).eval t * de ^ 0 + (table a b c U V W 1 0 2 1).eval t * de ^ 1 + (table a b c U V W 1 0 2 2).eval t * de ^ 2 + (table a b c U V W 1 0 2 3).eval t * de ^ 3) * ga ^ 2) * be ^ 0 +
      (((table a b c U V W 1 1 0 0).eval t * de ^ 0 + (table a b c U V W 1 1 0 1).eval t * de ^ 1 + (table a b c U V W 1 1 0 2).eval t * de ^ 2 + (table a b c U V W 1 1 0 3).eval t * de ^ 3) * ga ^ 0 +
        ((table a b c U V W 1 1 1 0).eval t * de ^ 0 + (table a b c U V W 1 1 1 1).eval t * de ^ 1 + (table a b c U V W 1 1 1 2).eval t * de ^ 2 + (table a b c U V W 1 1 1 3).eval t * de ^ 3) * ga ^ 1 +
        ((table a b c U V W 1 1 2 0).eval t * de ^ 0 + (table a b c U V W 1 1 2 1).eval t * de ^ 1 + (table a b c U V W 1 1 2 2).eval t * de ^ 2 + (table a b c U V W 1 1 2 3).eval t * de ^ 3) * ga ^ 2) * be ^ 1 +
      (((table a b c U V W 1 2 0 0).eval t * de ^ 0 + (table a b c U V W 1 2 0 1).eval t * de ^ 1 + (table a b c U V W 1 2 0 2).eval t * de ^ 2 + (table a b c U V W 1 2 0 3).eval t * de ^ 3) * ga ^ 0 +
        ((table a b c U V W 1 2 1 0).eval t * de ^ 0 + (table a b c U V W 1 2 1 1).eval t * de ^ 1 + (table a b c U V W 1 2 1 2).eval t * de ^ 2 + (table a b c U V W 1 2 1 3).eval t * de ^ 3) * ga ^ 1 +
        ((table a b c U V W 1 2 2 0).eval t * de ^ 0 + (table a b c U V W 1 2 2 1).eval t * de ^ 1 + (table a b c U V W 1 2 2 2).eval t * de ^ 2 + (table a b c U V W 1 2 2 3).eval t * de ^ 3) * ga ^ 2) * be ^ 2) * al ^ 1 := by
      simp only [valueOf, Finset.sum_range_succ, Finset.sum_range_zero, zero_add]
    rw [er, ea, ec, ev]
    rw [show table a b c U V W 0 0 0 0 = 0 from rfl]
    rw [show table a b c U V W 0 0 0 1 = a.w * b.p from rfl]
    rw [show table a b c U V W 0 0 0 2 = a.w * C b.delta - c.w from rfl]
    rw [show table a b c U V W 0 0 0 3 = 0 from rfl]
    rw [show table a b c U V W 0 0 1 0 = a.z * b.p from rfl]
    rw [show table a b c U V W 0 0 1 1 = a.w * C b.gamma + a.z * C b.delta + a.p * b.p - W - c.z from rfl]
    rw [show table a b c U V W 0 0 1 2 = a.p * C b.delta + C a.delta * b.p - c.p from rfl]
    rw [show table a b c U V W 0 0 1 3 = C (a.delta * b.delta - c.delta) from rfl]
    rw [show table a b c U V W 0 0 2 0 = a.z * C b.gamma from rfl]
    rw [show table a b c U V W 0 0 2 1 = a.p * C b.gamma from rfl]
    rw [show table a b c U V W 0 0 2 2 = C (a.delta * b.gamma) from rfl]
    rw [show table a b c U V W 0 0 2 3 = 0 from rfl]
    rw [show table a b c U V W 0 1 0 0 = 0 from rfl]
    rw [show table a b c U V W 0 1 0 1 = a.w * C b.beta + a.u * b.p from rfl]
    rw [show table a b c U V W 0 1 0 2 = a.u * C b.delta - c.u from rfl]
    rw [show table a b c U V W 0 1 0 3 = 0 from rfl]
    rw [show table a b c U V W 0 1 1 0 = a.z * C b.beta + a.x * b.p from rfl]
    rw [show table a b c U V W 0 1 1 1 = a.p * C b.beta + a.u * C b.gamma + a.x * C b.delta + C a.beta * b.p - U - c.x from rfl]
    rw [show table a b c U V W 0 1 1 2 = C (a.delta * b.beta + a.beta * b.delta - c.beta) from rfl]
    rw [show table a b c U V W 0 1 1 3 = 0 from rfl]
    rw [show table a b c U V W 0 1 2 0 = a.x * C b.gamma from rfl]
    rw [show table a b c U V W 0 1 2 1 = C (a.beta * b.gamma) from rfl]
    rw [show table a b c U V W 0 1 2 2 = 0 from rfl]
    rw [show table a b c U V W 0 1 2 3 = 0 from rfl]
    rw [show table a b c U V W 0 2 0 0 = 0 from rfl]
    rw [show table a b c U V W 0 2 0 1 = a.u * C b.beta from rfl]
    rw [show table a b c U V W 0 2 0 2 = 0 from rfl]
    rw [show table a b c U V W 0 2 0 3 = 0 from rfl]
    rw [show table a b c U V W 0 2 1 0 = a.x * C b.beta from rfl]
    rw [show table a b c U V W 0 2 1 1 = C (a.beta * b.beta) from rfl]
    rw [show table a b c U V W 0 2 1 2 = 0 from rfl]
    rw [show table a b c U V W 0 2 1 3 = 0 from rfl]
    rw [show table a b c U V W 0 2 2 0 = 0 from rfl]
    rw [show table a b c U V W 0 2 2 1 = 0 from rfl]
    rw [show table a b c U V W 0 2 2 2 = 0 from rfl]
    rw [show table a b c U V W 0 2 2 3 = 0 from rfl]
    rw [show table a b c U V W 1 0 0 0 = 0 from rfl]
    rw [show table a b c U V W 1 0 0 1 = a.v * b.p from rfl]
    rw [show table a b c U V W 1 0 0 2 = a.v * C b.delta - c.v from rfl]
    rw [show table a b c U V W 1 0 0 3 = 0 from rfl]
    rw [show table a b c U V W 1 0 1 0 = a.y * b.p from rfl]
    rw [show table a b c U V W 1 0 1 1 = a.v * C b.gamma + a.y * C b.delta + C a.alpha * b.p - V - c.y from rfl]
    rw [show table a b c U V W 1 0 1 2 = C (a.alpha * b.delta - c.alpha) from rfl]
    rw [show table a b c U V W 1 0 1 3 = 0 from rfl]
    rw [show table a b c U V W 1 0 2 0 = a.y * C b.gamma from rfl]
    rw [show table a b c U V W 1 0 2 1 = C (a.alpha * b.gamma) from rfl]
    rw [show table a b c U V W 1 0 2 2 = 0 from rfl]
    rw [show table a b c U V W 1 0 2 3 = 0 from rfl]
    rw [show table a b c U V W 1 1 0 0 = 0 from rfl]
    rw [show table a b c U V W 1 1 0 1 = a.v * C b.beta from rfl]
    rw [show table a b c U V W 1 1 0 2 = 0 from rfl]
    rw [show table a b c U V W 1 1 0 3 = 0 from rfl]
    rw [show table a b c U V W 1 1 1 0 = a.y * C b.beta from rfl]
    rw [show table a b c U V W 1 1 1 1 = C (a.alpha * b.beta) - 1 from rfl]
    rw [show table a b c U V W 1 1 1 2 = 0 from rfl]
    rw [show table a b c U V W 1 1 1 3 = 0 from rfl]
    rw [show table a b c U V W 1 1 2 0 = 0 from rfl]
    rw [show table a b c U V W 1 1 2 1 = 0 from rfl]
    rw [show table a b c U V W 1 1 2 2 = 0 from rfl]
    rw [show table a b c U V W 1 1 2 3 = 0 from rfl]
    rw [show table a b c U V W 1 2 0 0 = 0 from rfl]
    rw [show table a b c U V W 1 2 0 1 = 0 from rfl]
    rw [show table a b c U V W 1 2 0 2 = 0 from rfl]
    rw [show table a b c U V W 1 2 0 3 = 0 from rfl]
    rw [show table a b c U V W 1 2 1 0 = 0 from rfl]
    rw [show table a b c U V W 1 2 1 1 = 0 from rfl]
    rw [show table a b c U V W 1 2 1 2 = 0 from rfl]
    rw [show table a b c U V W 1 2 1 3 = 0 from rfl]
    rw [show table a b c U V W 1 2 2 0 = 0 from rfl]
    rw [show table a b c U V W 1 2 2 1 = 0 from rfl]
    rw [show table a b c U V W 1 2 2 2 = 0 from rfl]
    rw [show table a b c U V W 1 2 2 3 = 0 from rfl]
    simp only [eval_add, eval_sub, eval_mul, eval_C, eval_one, eval_zero, Part2.at]
    ring
  rw [key, h, sub_self, mul_zero]

/-- If the needed coefficients vanish, the prover's polynomials satisfy the equation of the circuit. -/
theorem table_zero {a : Part F} {b : Part2 F} {c : Part F} {U V W : F[X]}
    (h : ∀ i ≤ 1, ∀ j ≤ 2, ∀ k ≤ 1, ∀ l ≤ 1, table a b c U V W i j k l = 0) (h' : table a b c U V W 1 0 2 1 = 0) :
    (U + c.x) * (V + c.y) = W + c.z := by
  have e1 : C (a.alpha * b.beta) - 1 = (0 : F[X]) := h 1 (by omega) 1 (by omega) 1 (by omega) 1 (by omega)
  have e1' : a.alpha * b.beta = 1 := by
    rw [← C_1, ← C_sub, C_eq_zero] at e1
    linear_combination e1
  have hb : b.beta ≠ 0 := by rintro hb; rw [hb, mul_zero] at e1'; exact zero_ne_one e1'
  have ha : a.alpha ≠ 0 := by rintro ha; rw [ha, zero_mul] at e1'; exact zero_ne_one e1'
  have hbC : (C b.beta : F[X]) ≠ 0 := by rwa [Ne, C_eq_zero]
  have e2 : (C (a.beta * b.beta) : F[X]) = 0 := h 0 (by omega) 2 (by omega) 1 (by omega) 1 (by omega)
  have hbeta : a.beta = 0 := by
    rw [C_eq_zero] at e2
    exact (mul_eq_zero.1 e2).resolve_right hb
  have hu : a.u = 0 := (mul_eq_zero.1 (h 0 (by omega) 2 (by omega) 0 (by omega) 1 (by omega))).resolve_right hbC
  have hv : a.v = 0 := (mul_eq_zero.1 (h 1 (by omega) 1 (by omega) 0 (by omega) 1 (by omega))).resolve_right hbC
  have hw : a.w = 0 := by
    have e : a.w * C b.beta + a.u * b.p = 0 := h 0 (by omega) 1 (by omega) 0 (by omega) 1 (by omega)
    rw [hu, zero_mul, add_zero] at e
    exact (mul_eq_zero.1 e).resolve_right hbC
  have hx : a.x = 0 := (mul_eq_zero.1 (h 0 (by omega) 2 (by omega) 1 (by omega) 0 (by omega))).resolve_right hbC
  have hy : a.y = 0 := (mul_eq_zero.1 (h 1 (by omega) 1 (by omega) 1 (by omega) 0 (by omega))).resolve_right hbC
  have hz : a.z = 0 := by
    have e : a.z * C b.beta + a.x * b.p = 0 := h 0 (by omega) 1 (by omega) 1 (by omega) 0 (by omega)
    rw [hx, zero_mul, add_zero] at e
    exact (mul_eq_zero.1 e).resolve_right hbC
  have hg : b.gamma = 0 := by
    have e : (C (a.alpha * b.gamma) : F[X]) = 0 := h'
    rw [C_eq_zero] at e
    exact (mul_eq_zero.1 e).resolve_left ha
  have f1 : a.p * C b.beta + a.u * C b.gamma + a.x * C b.delta + C a.beta * b.p - U - c.x = 0 :=
    h 0 (by omega) 1 (by omega) 1 (by omega) 1 (by omega)
  have f2 : a.v * C b.gamma + a.y * C b.delta + C a.alpha * b.p - V - c.y = 0 :=
    h 1 (by omega) 0 (by omega) 1 (by omega) 1 (by omega)
  have f3 : a.w * C b.gamma + a.z * C b.delta + a.p * b.p - W - c.z = 0 :=
    h 0 (by omega) 0 (by omega) 1 (by omega) 1 (by omega)
  rw [hu, hx, hbeta, hg] at f1
  rw [hv, hy, hg] at f2
  rw [hw, hz, hg] at f3
  simp only [C_0, zero_mul, mul_zero, add_zero, zero_add] at f1 f2 f3
  have g1 : U + c.x = a.p * C b.beta := by linear_combination -f1
  have g2 : V + c.y = C a.alpha * b.p := by linear_combination -f2
  have g3 : W + c.z = a.p * b.p := by linear_combination -f3
  have e3 : (C a.alpha * C b.beta : F[X]) = 1 := by rw [← C_mul, e1', C_1]
  rw [g1, g2, g3]
  linear_combination a.p * b.p * e3

/-- The degrees of the polynomials. -/
structure Part.Small (a : Part F) (m : Nat) : Prop where
  p : a.p.natDegree ≤ m
  u : a.u.natDegree ≤ m
  v : a.v.natDegree ≤ m
  w : a.w.natDegree ≤ m
  x : a.x.natDegree ≤ m
  y : a.y.natDegree ≤ m
  z : a.z.natDegree ≤ 2 * m

theorem table_degree {a : Part F} {b : Part2 F} {c : Part F} {U V W : F[X]} {m : Nat} (ha : a.Small m) (hb : b.p.natDegree ≤ m)
    (hc : c.Small m) (hU : U.natDegree ≤ m) (hV : V.natDegree ≤ m) (hW : W.natDegree ≤ m) (i j k l : Nat) :
    (table a b c U V W i j k l).natDegree ≤ 3 * m := by
  have two : ∀ {n}, n ≤ m → n ≤ 3 * m := fun h => by omega
  have z3 : ∀ {n}, n ≤ 2 * m → n ≤ 3 * m := fun h => by omega
  have hmul : ∀ {p q : F[X]}, p.natDegree ≤ m → q.natDegree ≤ m → (p * q).natDegree ≤ 3 * m := fun h h' =>
    natDegree_mul_le.trans (by omega)
  have hmc : ∀ {p : F[X]} (x : F), p.natDegree ≤ 3 * m → (p * C x).natDegree ≤ 3 * m := fun x h =>
    (natDegree_mul_C_le _ _).trans h
  have hcm : ∀ {p : F[X]} (x : F), p.natDegree ≤ 3 * m → (C x * p).natDegree ≤ 3 * m := fun x h =>
    (natDegree_C_mul_le _ _).trans h
  have hcc : ∀ x : F, (C x).natDegree ≤ 3 * m := fun x => by rw [natDegree_C]; omega
  have h1 : (1 : F[X]).natDegree ≤ 3 * m := by rw [natDegree_one]; omega
  have h0 : (0 : F[X]).natDegree ≤ 3 * m := by rw [natDegree_zero]; omega
  have hadd : ∀ {p q : F[X]}, p.natDegree ≤ 3 * m → q.natDegree ≤ 3 * m → (p + q).natDegree ≤ 3 * m := fun h h' =>
    natDegree_add_le_of_degree_le h h'
  have hsub : ∀ {p q : F[X]}, p.natDegree ≤ 3 * m → q.natDegree ≤ 3 * m → (p - q).natDegree ≤ 3 * m := fun h h' =>
    natDegree_sub_le_of_le h h' |>.trans (by simp)
  obtain ⟨ap, au, av, aw, ax, ay, az⟩ := ha
  obtain ⟨cp, cu, cv, cw, cx, cy, cz⟩ := hc
  unfold table
  split
  · exact hsub (hcc _) h1
  · exact hcc _
  · exact hcc _
  · exact hsub (hsub (hadd (hadd (hadd (hmc _ (two ap)) (hmc _ (two au))) (hmc _ (two ax))) (hcm _ (two hb))) (two hU)) (two cx)
  · exact hmc _ (two au)
  · exact hmc _ (two av)
  · exact hadd (hmc _ (two aw)) (hmul au hb)
  · exact hmc _ (two ax)
  · exact hmc _ (two ay)
  · exact hadd (hmc _ (z3 az)) (hmul ax hb)
  · exact hcc _
  · exact hcc _
  · exact hcc _
  · exact hmc _ (two ap)
  · exact hsub (hsub (hadd (hadd (hmc _ (two av)) (hmc _ (two ay))) (hcm _ (two hb))) (two hV)) (two cy)
  · exact hsub (hsub (hadd (hadd (hmc _ (two aw)) (hmc _ (z3 az))) (hmul ap hb)) (two hW)) (z3 cz)
  · exact hmc _ (two ax)
  · exact hmc _ (two ay)
  · exact hmc _ (z3 az)
  · exact hcc _
  · exact hcc _
  · exact hsub (hadd (hmc _ (two ap)) (hcm _ (two hb))) (two cp)
  · exact hsub (hmc _ (two au)) (two cu)
  · exact hsub (hmc _ (two av)) (two cv)
  · exact hsub (hmc _ (two aw)) (two cw)
  · exact hmul av hb
  · exact hmul aw hb
  · exact hmul ay hb
  · exact natDegree_mul_le.trans (by omega)
  · exact h0

end core

end Fawkes.Groth16
