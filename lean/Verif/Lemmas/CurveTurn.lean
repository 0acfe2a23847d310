import Verif.Lemmas.TwistCount

/-!
# The endomorphism `(x, y) ↦ (βx, y)` of `y² = x³ + b`, and squares of primes that divide the number of points
-/

namespace Fawkes.Props

open Groth16 Groth16.Contract

section turn

variable {K : Type} [Field K] [DecidableEq K] {b : K}

theorem turn_nonsingular (G : GoodCurve b) {β : K} (hβ : β ^ 3 = 1) {x y : K} (h : (curve b).Nonsingular x y) :
    (curve b).Nonsingular (β * x) y := by
  have e := (nonsingular_iff G.two G.three G.coeff x y).1 h
  exact (nonsingular_iff G.two G.three G.coeff _ _).2 (by rw [mul_pow, hβ, one_mul]; exact e)

/-- A point with its abscissa multiplied by a cube root of one. -/
def turned (G : GoodCurve b) {β : K} (hβ : β ^ 3 = 1) : PointsOf b → PointsOf b
  | .zero => .zero
  | .some x y h => .some (β * x) y (turn_nonsingular G hβ h)

theorem turned_add (G : GoodCurve b) {β : K} (hβ : β ^ 3 = 1) (P Q : PointsOf b) :
    turned G hβ (P + Q) = turned G hβ P + turned G hβ Q := by
  have hβ0 : β ≠ 0 := by rintro rfl; simp at hβ
  cases P with
  | zero => show turned G hβ (0 + Q) = 0 + turned G hβ Q; rw [zero_add, zero_add]
  | some x y hP =>
    cases Q with
    | zero => show turned G hβ (_ + 0) = _ + 0; rw [add_zero, add_zero]
    | some x' y' hQ =>
      by_cases h : x = x' ∧ y = (curve b).negY x' y'
      · rw [WeierstrassCurve.Affine.Point.add_of_Y_eq h.1 h.2]
        show (0 : PointsOf b) = .some (β * x) y _ + .some (β * x') y' _
        rw [WeierstrassCurve.Affine.Point.add_of_Y_eq (by rw [h.1])]
        have := h.2
        rw [Ops.negY_curve] at this ⊢
        exact this
      · have h' : ¬ (β * x = β * x' ∧ y = (curve b).negY (β * x') y') := by
          rintro ⟨h1, h2⟩
          refine h ⟨mul_left_cancel₀ hβ0 h1, ?_⟩
          rw [Ops.negY_curve] at h2 ⊢
          exact h2
        have hs : (curve b).slope (β * x) (β * x') y y' = β ^ 2 * (curve b).slope x x' y y' := by
          by_cases hx : x = x'
          · subst hx
            have hy : y ≠ (curve b).negY x y' := fun hy => h ⟨rfl, hy⟩
            have hy' : y ≠ (curve b).negY (β * x) y' := fun hy => h' ⟨rfl, hy⟩
            rw [WeierstrassCurve.Affine.slope_of_Y_ne rfl hy, WeierstrassCurve.Affine.slope_of_Y_ne rfl hy', Ops.negY_curve, Ops.negY_curve]
            simp only [curve, mul_zero, zero_mul, add_zero, sub_zero]
            rw [mul_pow]
            ring
          · rw [WeierstrassCurve.Affine.slope_of_X_ne hx, WeierstrassCurve.Affine.slope_of_X_ne fun e => hx (mul_left_cancel₀ hβ0 e)]
            have hd : x - x' ≠ 0 := sub_ne_zero.2 hx
            rw [← mul_sub, mul_div_assoc', div_eq_div_iff (mul_ne_zero hβ0 hd) hd]
            linear_combination (-(y - y') * (x - x')) * hβ
        rw [WeierstrassCurve.Affine.Point.add_some h]
        show WeierstrassCurve.Affine.Point.some _ _ _ = WeierstrassCurve.Affine.Point.some (β * x) y _ + .some (β * x') y' _
        rw [WeierstrassCurve.Affine.Point.add_some h', WeierstrassCurve.Affine.Point.some.injEq]
        rw [hs, Ops.addX_curve, Ops.addX_curve, Ops.addY_curve, Ops.addY_curve]
        generalize (curve b).slope x x' y y' = s
        constructor
        · linear_combination (-β * s ^ 2) * hβ
        · linear_combination (s * (s ^ 2 * (1 + β ^ 3) - 2 * x - x')) * hβ

/-- The endomorphism. -/
def turn (G : GoodCurve b) {β : K} (hβ : β ^ 3 = 1) : PointsOf b →+ PointsOf b where
  toFun := turned G hβ
  map_zero' := rfl
  map_add' := turned_add G hβ

end turn

section divide

variable {A : Type} [AddCommGroup A] [Finite A] {p : Nat}

/-- Two elements of order `p`, the second not a multiple of the first. -/
theorem sq_dvd_card (hp : p.Prime) {P Q : A} (hP : p • P = 0) (hQ : p • Q = 0) (hP0 : P ≠ 0) (h : ∀ k : Nat, Q ≠ k • P) :
    p ^ 2 ∣ Nat.card A := by
  haveI : Fact p.Prime := ⟨hp⟩
  let H := AddSubgroup.zmultiples P
  have hH : Nat.card H = p := by rw [Nat.card_zmultiples, addOrderOf_eq_prime hP hP0]
  have hn : (QuotientAddGroup.mk Q : A ⧸ H) ≠ 0 := by
    intro e
    rw [QuotientAddGroup.eq_zero_iff] at e
    obtain ⟨k, hk⟩ := AddSubgroup.mem_zmultiples_iff.1 e
    have hord := addOrderOf_eq_prime hP hP0
    refine h ((k % p).toNat) ?_
    rw [← hk, ← natCast_zsmul, Int.toNat_of_nonneg (Int.emod_nonneg _ (by exact_mod_cast hp.ne_zero)), ← hord, mod_addOrderOf_zsmul]
  have hk : p • (QuotientAddGroup.mk Q : A ⧸ H) = 0 := by
    rw [← QuotientAddGroup.mk_nsmul, hQ]; rfl
  have h1 : p ∣ Nat.card (A ⧸ H) := by
    rw [← addOrderOf_eq_prime hk hn]; exact addOrderOf_dvd_natCard _
  rw [AddSubgroup.card_eq_card_quotient_mul_card_addSubgroup H, hH, pow_two]
  exact Nat.mul_dvd_mul h1 dvd_rfl

/-- Elements of order `p` that an endomorphism multiplies by different numbers. -/
theorem sq_dvd_split (hp : p.Prime) (f : A →+ A) {P Q : A} {k l : Nat} (hP : p • P = 0) (hQ : p • Q = 0) (hP0 : P ≠ 0) (hQ0 : Q ≠ 0)
    (hk : f P = k • P) (hl : f Q = l • Q) (hkl : k < l) (hlp : l < p) : p ^ 2 ∣ Nat.card A := by
  haveI : Fact p.Prime := ⟨hp⟩
  refine sq_dvd_card hp hP hQ hP0 ?_
  rintro m rfl
  have e : k • (m • P) = l • (m • P) := by
    rw [← hl, map_nsmul, hk, nsmul_left_comm]
  have h0 : (l - k) • (m • P) = 0 := by
    have : l • (m • P) = (l - k) • (m • P) + k • (m • P) := by rw [← add_nsmul]; congr 1; omega
    rw [this] at e
    exact (right_eq_add.1 e)
  have hd := addOrderOf_dvd_of_nsmul_eq_zero h0
  rw [addOrderOf_eq_prime hQ hQ0] at hd
  exact absurd (Nat.le_of_dvd (by omega) hd) (by omega)

/-- An element of order `p` that an endomorphism of order three moves, where `p - 1` is not a multiple of three. -/
theorem sq_dvd_inert (hp : p.Prime) (h3 : (p - 1) % 3 ≠ 0) (f : A →+ A) {P : A} (hf : f (f (f P)) = P) (hP : p • P = 0)
    (hP1 : f P ≠ P) : p ^ 2 ∣ Nat.card A := by
  haveI : Fact p.Prime := ⟨hp⟩
  have hP0 : P ≠ 0 := by rintro rfl; exact hP1 (map_zero f)
  refine sq_dvd_card (Q := f P) hp hP (by rw [← map_nsmul, hP, map_zero]) hP0 ?_
  intro k hk
  rw [hk, map_nsmul, hk, map_nsmul, map_nsmul, hk, ← mul_nsmul', ← mul_nsmul'] at hf
  have hord := addOrderOf_eq_prime hP hP0
  have e : (k * k * k) • P = 1 • P := by rw [one_nsmul]; exact hf
  rw [nsmul_eq_nsmul_iff_modEq, hord] at e
  have e1 : (k : ZMod p) ^ 3 = 1 := by
    have := (ZMod.natCast_eq_natCast_iff _ _ p).2 e
    push_cast at this
    rw [← this]; ring
  have e2 : (k : ZMod p) ≠ 0 := by intro h; rw [h] at e1; simp at e1
  have e3 := ZMod.pow_card_sub_one_eq_one e2
  have e4 : (k : ZMod p) = 1 := by
    rw [← Nat.div_add_mod (p - 1) 3, pow_add, pow_mul, e1, one_pow, one_mul] at e3
    have : (p - 1) % 3 = 1 ∨ (p - 1) % 3 = 2 := by omega
    rcases this with h | h
    · rw [h, pow_one] at e3; exact e3
    · rw [h] at e3; rw [pow_succ, e3, one_mul] at e1; exact e1
  have e5 : k ≡ 1 [MOD p] := by
    rw [← ZMod.natCast_eq_natCast_iff, e4, Nat.cast_one]
  rw [← hord, ← nsmul_eq_nsmul_iff_modEq, one_nsmul] at e5
  exact hP1 (hk.trans e5)

theorem dvd_card (hp : p.Prime) {P : A} (hP : p • P = 0) (hP0 : P ≠ 0) : p ∣ Nat.card A := by
  haveI : Fact p.Prime := ⟨hp⟩
  rw [← addOrderOf_eq_prime hP hP0]; exact addOrderOf_dvd_natCard _

end divide

/-! ### Certificates -/

section certificate

variable {N K : Type} [Field K] [DecidableEq K] {b : K}

/-- The opposite. -/
def opposite (A : Ops N) (y : N) : N := A.sub A.one (A.add A.one y)

/-- The point is on the curve. -/
def isOn (A : Ops N) (bN : N) (p : N × N) : Bool := A.eq (A.mul p.2 p.2) (A.add (A.mul p.1 (A.mul p.1 p.1)) bN)

/-- The point is killed by `k`. -/
def isKilled (A : Ops N) (fuel k : Nat) (p : N × N) : Bool := A.isMultiple p fuel (k - 1) (p.1, opposite A p.2)

/-- The endomorphism multiplies the point by `k`. -/
def isTurned (A : Ops N) (β : N) (fuel k : Nat) (p : N × N) : Bool := A.isMultiple p fuel k (A.mul β p.1, p.2)

/-- The number is a cube root of one. -/
def isRoot (A : Ops N) (β : N) : Bool := A.eq (A.mul β (A.mul β β)) A.one

/-- The endomorphism moves the point. -/
def isMoved (A : Ops N) (β : N) (p : N × N) : Bool :=
  let d := A.sub (A.mul β p.1) p.1
  A.eq (A.mul d (A.inv d)) A.one

variable {A : Ops N} {val : N → K} (I : A.Into val) (G : GoodCurve b) {bN β : N} (hb : val bN = b)

include I

theorem root_val (h : isRoot A β = true) : val β ^ 3 = 1 := by
  have := I.eq _ _ h
  rw [I.mul, I.mul, I.one] at this
  rw [← this]; ring

include G hb

theorem point_at {p : N × N} (h : isOn A bN p = true) : ∃ P : PointsOf b, Ops.At val p P := by
  have := I.eq _ _ h
  rw [I.mul, I.add, I.mul, I.mul, hb] at this
  exact ⟨_, (nonsingular_iff G.two G.three G.coeff _ _).2 (by rw [pow_two, this]; ring), rfl⟩

omit hb G in
theorem killed_at {p : N × N} {P : PointsOf b} (h : Ops.At val p P) {fuel k : Nat} (hk : 0 < k) (hr : isKilled A fuel k p = true) :
    k • P = 0 := by
  have := Ops.killed I h fuel (k - 1) hr (by unfold opposite; rw [I.sub, I.add, I.one]; ring)
  rwa [Nat.sub_add_cancel hk] at this

omit I G hb in
theorem at_ne_zero {p : N × N} {P : PointsOf b} (h : Ops.At val p P) : P ≠ 0 := by
  obtain ⟨h1, rfl⟩ := h
  exact WeierstrassCurve.Affine.Point.some_ne_zero _

omit hb in
theorem turned_at (hβ : val β ^ 3 = 1) {p : N × N} {P : PointsOf b} (h : Ops.At val p P) {fuel k : Nat}
    (hr : isTurned A β fuel k p = true) : turn G hβ P = k • P := by
  obtain ⟨h1, h2⟩ := Ops.at_isMultiple I h fuel k hr
  obtain ⟨h3, rfl⟩ := h
  rw [h2]
  show WeierstrassCurve.Affine.Point.some _ _ _ = _
  rw [WeierstrassCurve.Affine.Point.some.injEq]
  exact ⟨(I.mul _ _).symm, rfl⟩

/-- A point of order `p`. -/
theorem cert_single [Finite (PointsOf b)] {p fuel : Nat} (hp : p.Prime) {P : N × N}
    (h : (isOn A bN P && isKilled A fuel p P) = true) : p ∣ Nat.card (PointsOf b) := by
  rw [Bool.and_eq_true] at h
  obtain ⟨Q, hQ⟩ := point_at I G hb h.1
  exact dvd_card hp (killed_at I hQ hp.pos h.2) (at_ne_zero hQ)

/-- Two points of order `p` on which the endomorphism acts in different ways. -/
theorem cert_split [Finite (PointsOf b)] (hβ : isRoot A β = true) {p fuel k l : Nat} (hp : p.Prime) (hkl : k < l ∧ l < p) {P Q : N × N}
    (hP : (isOn A bN P && isKilled A fuel p P && isTurned A β fuel k P) = true)
    (hQ : (isOn A bN Q && isKilled A fuel p Q && isTurned A β fuel l Q) = true) : p ^ 2 ∣ Nat.card (PointsOf b) := by
  rw [Bool.and_eq_true, Bool.and_eq_true] at hP hQ
  obtain ⟨P', h1⟩ := point_at I G hb hP.1.1
  obtain ⟨Q', h2⟩ := point_at I G hb hQ.1.1
  have h3 := root_val I hβ
  exact sq_dvd_split hp (turn G h3) (killed_at I h1 hp.pos hP.1.2) (killed_at I h2 hp.pos hQ.1.2) (at_ne_zero h1) (at_ne_zero h2)
    (turned_at I G h3 h1 hP.2) (turned_at I G h3 h2 hQ.2) hkl.1 hkl.2

/-- A point of order `p` that the endomorphism moves. -/
theorem cert_inert [Finite (PointsOf b)] (hβ : isRoot A β = true) {p fuel : Nat} (hp : p.Prime) (hp3 : (p - 1) % 3 ≠ 0) {P : N × N}
    (hP : (isOn A bN P && isKilled A fuel p P && isMoved A β P) = true) : p ^ 2 ∣ Nat.card (PointsOf b) := by
  rw [Bool.and_eq_true, Bool.and_eq_true] at hP
  obtain ⟨P', h1⟩ := point_at I G hb hP.1.1
  have h3 := root_val I hβ
  have hm := I.eq _ _ hP.2
  rw [I.mul, I.sub, I.mul, I.one] at hm
  have hk := killed_at I h1 hp.pos hP.1.2
  obtain ⟨h4, rfl⟩ := h1
  refine sq_dvd_inert hp hp3 (turn G h3) ?_ hk ?_
  · show WeierstrassCurve.Affine.Point.some _ _ _ = _
    rw [WeierstrassCurve.Affine.Point.some.injEq]
    exact ⟨by linear_combination val P.1 * h3, rfl⟩
  · show WeierstrassCurve.Affine.Point.some _ _ _ ≠ _
    rw [Ne, WeierstrassCurve.Affine.Point.some.injEq]
    rintro ⟨e, -⟩
    exact left_ne_zero_of_mul_eq_one hm (by rw [e, sub_self])

end certificate

end Fawkes.Props
