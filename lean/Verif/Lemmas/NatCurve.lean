import Mathlib.NumberTheory.LegendreSymbol.Basic
import Verif.Lemmas.Ecc
import Verif.Lemmas.Pratt

/-!
# Evaluating the curve arithmetic on integers

The kernel multiplies points with integer coordinates modulo `r`; these lemmas transfer the outcome to `ZMod r`.
-/

namespace Fawkes

/-- Extended coordinates as integers modulo `r`. -/
structure NPoint where
  x : Nat
  y : Nat
  t : Nat
  z : Nat

namespace NPoint

/-- `a - b` modulo `r`, for `b < r`. -/
def sub (r a b : Nat) : Nat := (a + (r - b % r)) % r

/-- Addition on integers modulo `r`. -/
def add (r d : Nat) (p q : NPoint) : NPoint :=
  let a := p.x * q.x % r
  let b := p.y * q.y % r
  let c := d * p.t % r * q.t % r
  let z := p.z * q.z % r
  let h := (b + a) % r
  let e := sub r ((p.x + p.y) * (q.x + q.y) % r) h
  let f := sub r z c
  let g := (z + c) % r
  ⟨e * f % r, g * h % r, e * h % r, f * g % r⟩

/-- Square-and-multiply, most significant bit first (`n` bits of `k`). -/
def mul (r d : Nat) (p : NPoint) (k : Nat) : Nat → NPoint
  | 0 => ⟨0, 1, 0, 1⟩
  | n + 1 =>
    let q := mul r d p (k / 2) n
    let q2 := add r d q q
    if k % 2 = 1 then add r d q2 p else q2

variable (r : Nat) [Fact r.Prime]

/-- The point over `ZMod r`. -/
def cast (p : NPoint) : EdwardsPointEx (ZMod r) := ⟨p.x, p.y, p.t, p.z⟩

theorem cast_sub (a b : Nat) : ((sub r a b : Nat) : ZMod r) = a - b := by
  unfold sub
  have hr : 0 < r := (Fact.out : r.Prime).pos
  rw [ZMod.natCast_mod, Nat.cast_add, Nat.cast_sub (Nat.mod_lt b hr).le]
  simp; ring

theorem cast_add (J : JubJubParams (ZMod r)) (d : Nat) (hd : J.d = d) (p q : NPoint) :
    cast r (add r d p q) = (cast r p).add (cast r q) J := by
  unfold cast add EdwardsPointEx.add
  simp [cast_sub, hd]

theorem mul_represents {C : EdCurve (ZMod r)} {d : Nat} (hd : C.d = d) {p : NPoint} {Q : EdPoint C}
    (h : Represents (cast r p) Q) (n : Nat) : ∀ k, Represents (cast r (mul r d p k n)) ((k % 2 ^ n) • Q) := by
  let J : JubJubParams (ZMod r) := ⟨0, ⟨0, 0⟩, C.d, 0, 0, 0⟩
  have hJ : J.d = C.d := rfl
  induction n with
  | zero =>
    intro k
    rw [pow_zero, Nat.mod_one, zero_nsmul]
    have : cast r (mul r d p k 0) = EdwardsPointEx.zero := by simp [mul, cast, EdwardsPointEx.zero]
    rw [this]; exact Represents.zero
  | succ n ih =>
    intro k
    have hk : k % 2 ^ (n + 1) = (k / 2 % 2 ^ n) + (k / 2 % 2 ^ n) + k % 2 := by
      rw [pow_succ, mul_comm, Nat.mod_mul]; omega
    have hD := (ih (k / 2)).add hJ (ih (k / 2))
    rw [← cast_add r J d (hJ.trans hd), ← add_nsmul] at hD
    unfold mul
    simp only []
    split
    · next h1 =>
      have := hD.add hJ h
      rw [← cast_add r J d (hJ.trans hd)] at this
      rw [hk, h1, add_nsmul _ _ 1, one_nsmul]
      exact this
    · next h1 =>
      have : k % 2 = 0 := by omega
      rw [hk, this, add_zero]
      exact hD

end NPoint

/-- Comparing two points given by integers. -/
def npEq (r : Nat) (p q : NPoint) : Bool :=
  decide (p.x * q.z % r = q.x * p.z % r) && decide (p.y * q.z % r = q.y * p.z % r)

theorem npEq_of {r : Nat} [Fact r.Prime] {C : EdCurve (ZMod r)} {p q : NPoint} {P Q : EdPoint C}
    (h : Represents (NPoint.cast r p) P) (h' : Represents (NPoint.cast r q) Q) : npEq r p q = true ↔ P = Q := by
  rw [← h.eq_iff h']
  unfold npEq EdwardsPointEx.eq
  simp only [Bool.and_eq_true, decide_eq_true_eq, beq_iff_eq, NPoint.cast]
  have : ∀ a b c d : Nat, a * b % r = c * d % r ↔ (a : ZMod r) * b = c * d := by
    intro a b c d
    rw [← Nat.cast_mul, ← Nat.cast_mul, ZMod.natCast_eq_natCast_iff]; rfl
  rw [this, this]

/-- A curve point with integer coordinates. -/
def EdPoint.ofNat {r : Nat} [Fact r.Prime] (C : EdCurve (ZMod r)) (x y : Nat) (h : OnCurve C.d (x : ZMod r) y) :
    EdPoint C := ⟨x, y, h⟩

theorem EdPoint.ofNat_represents {r : Nat} [Fact r.Prime] (C : EdCurve (ZMod r)) (x y : Nat)
    (h : OnCurve C.d (x : ZMod r) y) :
    Represents (NPoint.cast r ⟨x, y, x * y % r, 1⟩) (EdPoint.ofNat C x y h) := by
  refine ⟨?_, ?_, ?_, ?_⟩ <;> simp [NPoint.cast, EdPoint.ofNat]

/-- Deciding `k • P = Q` on integers. -/
def natMulCheck (r d x y k n x' y' : Nat) : Bool :=
  decide (k < 2 ^ n) && npEq r (NPoint.mul r d ⟨x, y, x * y % r, 1⟩ k n) ⟨x', y', x' * y' % r, 1⟩

theorem natMulCheck_iff {r : Nat} [Fact r.Prime] {C : EdCurve (ZMod r)} {d : Nat} (hd : C.d = d) {x y x' y' : Nat}
    (h : OnCurve C.d (x : ZMod r) y) (h' : OnCurve C.d (x' : ZMod r) y') {k n : Nat} (hk : k < 2 ^ n) :
    natMulCheck r d x y k n x' y' = true ↔ k • EdPoint.ofNat C x y h = EdPoint.ofNat C x' y' h' := by
  have h1 := NPoint.mul_represents r hd (EdPoint.ofNat_represents C x y h) n k
  rw [Nat.mod_eq_of_lt hk] at h1
  unfold natMulCheck
  rw [Bool.and_eq_true, npEq_of h1 (EdPoint.ofNat_represents C x' y' h')]
  simp [hk]

/-- The curve equation on integers. -/
def natOnCurve (r d x y : Nat) : Bool := decide (y ^ 2 % r = (1 + d * x ^ 2 * y ^ 2 + x ^ 2) % r)

theorem natOnCurve_ok {r : Nat} [Fact r.Prime] {C : EdCurve (ZMod r)} {d : Nat} (hd : C.d = d) {x y : Nat}
    (h : natOnCurve r d x y = true) : OnCurve C.d (x : ZMod r) y := by
  unfold natOnCurve at h
  rw [decide_eq_true_eq] at h
  unfold OnCurve
  rw [hd]
  have : ((y ^ 2 : Nat) : ZMod r) = ((1 + d * x ^ 2 * y ^ 2 + x ^ 2 : Nat) : ZMod r) :=
    (ZMod.natCast_eq_natCast_iff _ _ _).2 h
  push_cast at this
  linear_combination this

theorem natCast_eq_of {r a b : Nat} (h : a % r = b % r) : (a : ZMod r) = b := (ZMod.natCast_eq_natCast_iff _ _ _).2 h

/-- Euler's criterion on integers. -/
theorem not_isSquare_of_powMod {r : Nat} [Fact r.Prime] (h2 : r ≠ 2) (f a : Nat) (hf : r < 2 ^ f)
    (h : powMod r f a (r / 2) = r - 1) : ¬ IsSquare (a : ZMod r) := by
  have hr := (Fact.out : r.Prime)
  have hr2 : 2 ≤ r := hr.two_le
  rw [powMod_eq _ _ _ _ (lt_of_le_of_lt (Nat.div_le_self _ _) hf)] at h
  have hpow : (a : ZMod r) ^ (r / 2) = -1 := by
    have : ((a ^ (r / 2) : Nat) : ZMod r) = ((r - 1 : Nat) : ZMod r) := by
      rw [ZMod.natCast_eq_natCast_iff]
      unfold Nat.ModEq
      rw [h, Nat.mod_eq_of_lt (by omega)]
    push_cast at this
    rw [this, Nat.cast_sub (by omega)]; simp
  have hne : (1 : ZMod r) ≠ -1 := by
    intro he
    haveI : Fact (2 < r) := ⟨by omega⟩
    exact ZMod.neg_one_ne_one he.symm
  have ha : (a : ZMod r) ≠ 0 := by
    intro h0
    rw [h0, zero_pow (by omega)] at hpow
    have : (1 : ZMod r) = 0 := by linear_combination hpow
    exact one_ne_zero this
  rw [ZMod.euler_criterion r ha, hpow]
  exact hne.symm

end Fawkes
