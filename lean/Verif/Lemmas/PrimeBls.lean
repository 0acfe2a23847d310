import Verif.Lemmas.ShortCurve
import Verif.Lemmas.Primes
import Verif.Model.Groth16
import Mathlib.GroupTheory.OrderOfElement
import Mathlib.Data.Fintype.Card

/-!
# The base field modulus of BLS12-381 is prime

An elliptic curve certificate (Goldwasser–Kilian): modulo a prime factor `l` with `l² ≤ q` the generator would be a point of
order `r` on a curve with at most `2l + 1` points, and `r` is larger than that.
-/

namespace Fawkes

open Groth16 WeierstrassCurve.Affine

/-- The coordinates of the generator of BLS12-381. -/
def blsGx : Nat := 0x17f1d3a73197d7942695638c4fa9ac0fc3688c4f9774b905a14e3a3f171bac586c55e83ff97a1aeffb3af00adb22c6bb

/-- The coordinates of the generator of BLS12-381. -/
def blsGy : Nat := 0x08b3f481e3aaa0f1a09e30ed741d8ae4fcf5e095d5d00af600db18cb2c04b3edd03cc744a2888ae40caa232946c5e7e1

theorem blsG_multiple : (natOps blsQ 381).isMultiple (blsGx, blsGy) 256 (blsR - 1) (blsGx, blsQ - blsGy) = true := by
  decide +kernel

/-- A point of prime order `r` needs `(r - 1) / 2` different first coordinates. -/
theorem order_bound {L : Type} [Field L] [DecidableEq L] [Fintype L] {W : WeierstrassCurve.Affine L} (P : W.Point)
    (hP : P ≠ 0) {r : Nat} (hr : r.Prime) (h : r • P = 0) : (r - 1) / 2 ≤ Fintype.card L := by
  have hord : addOrderOf P = r := by
    haveI : Fact r.Prime := ⟨hr⟩
    exact addOrderOf_eq_prime h hP
  let X : W.Point → L := fun Q => match Q with
    | .zero => 0
    | .some x _ _ => x
  have key : ∀ Q R : W.Point, Q ≠ 0 → R ≠ 0 → X Q = X R → Q = R ∨ Q = -R := by
    intro Q R hQ hR hX
    cases Q with
    | zero => exact absurd rfl hQ
    | some x y hxy =>
      cases R with
      | zero => exact absurd rfl hR
      | some x' y' hxy' =>
        change x = x' at hX
        subst hX
        rcases Y_eq_of_X_eq hxy.1 hxy'.1 rfl with h | h
        · left; subst h; rfl
        · right; rw [Point.neg_some]; subst h; rfl
  have hinj : Function.Injective (fun k : Fin ((r - 1) / 2) => X ((k.val + 1) • P)) := by
    intro j k hjk
    have hne : ∀ i : Nat, 0 < i → i < r → i • P ≠ 0 := by
      intro i hi hi' h0
      have := addOrderOf_dvd_of_nsmul_eq_zero h0
      rw [hord] at this
      exact absurd (Nat.le_of_dvd hi this) (by omega)
    have hj := j.2
    have hk := k.2
    rcases key _ _ (hne (j.val + 1) (by omega) (by omega)) (hne (k.val + 1) (by omega) (by omega)) hjk with e | e
    · rcases lt_trichotomy j.val k.val with hl | hl | hl
      · exfalso
        have : (k.val - j.val) • P = 0 := by
          have h1 : (k.val + 1) • P = (k.val - j.val) • P + (j.val + 1) • P := by
            rw [← add_nsmul]; congr 1; omega
          rw [← e] at h1
          exact (left_eq_add.1 (h1.trans (add_comm _ _)))
        exact hne _ (by omega) (by omega) this
      · exact Fin.ext hl
      · exfalso
        have : (j.val - k.val) • P = 0 := by
          have h1 : (j.val + 1) • P = (j.val - k.val) • P + (k.val + 1) • P := by
            rw [← add_nsmul]; congr 1; omega
          rw [e] at h1
          exact (left_eq_add.1 (h1.trans (add_comm _ _)))
        exact hne _ (by omega) (by omega) this
    · exfalso
      have : (j.val + k.val + 2) • P = 0 := by
        rw [show j.val + k.val + 2 = (j.val + 1) + (k.val + 1) by omega, add_nsmul, e, neg_add_cancel]
      exact hne _ (by omega) (by omega) this
  have := Fintype.card_le_of_injective _ hinj
  rwa [Fintype.card_fin] at this

/-- The certificate: `G` is a point of `y² = x³ + b` modulo `q` with `r • G` at infinity, `r` prime and large. -/
theorem prime_of_curve {q r gx gy b f fuel k : Nat} (h1 : 1 < q) (hr : r.Prime) (hk : k + 1 = r) (hy : gy ≤ q)
    (hc : Nat.gcd q (6 * b) = 1) (hG : gy ^ 2 % q = (gx ^ 3 + b) % q)
    (hm : (natOps q f).isMultiple (gx, gy) fuel k (gx, q - gy) = true) (hbig : q < ((r - 1) / 2) ^ 2) : q.Prime := by
  by_contra hn
  have hpos : 0 < q := by omega
  let l := q.minFac
  have hl : l.Prime := Nat.minFac_prime (by omega)
  haveI : Fact l.Prime := ⟨hl⟩
  have hd : l ∣ q := Nat.minFac_dvd _
  have hsq : l ^ 2 ≤ q := Nat.minFac_sq_le_self hpos hn
  have hq0 : ((q : Nat) : ZMod l) = 0 := (ZMod.natCast_eq_zero_iff _ _).2 hd
  have h6 : ((6 * b : Nat) : ZMod l) ≠ 0 := by
    intro h
    rw [ZMod.natCast_eq_zero_iff] at h
    have := Nat.dvd_gcd hd h
    rw [hc] at this
    exact hl.one_lt.ne' (Nat.dvd_one.1 this)
  push_cast at h6
  have hb : (b : ZMod l) ≠ 0 := right_ne_zero_of_mul h6
  have h2 : (2 : ZMod l) ≠ 0 := by
    intro h
    exact left_ne_zero_of_mul h6 (by rw [show (6 : ZMod l) = 2 * 3 by norm_num, h, zero_mul])
  have h3 : (3 : ZMod l) ≠ 0 := by
    intro h
    exact left_ne_zero_of_mul h6 (by rw [show (6 : ZMod l) = 2 * 3 by norm_num, h, mul_zero])
  have heq : (gy : ZMod l) ^ 2 = (gx : ZMod l) ^ 3 + b := by
    have h : gy ^ 2 ≡ gx ^ 3 + b [MOD q] := hG
    have := (ZMod.natCast_eq_natCast_iff _ _ l).2 (h.of_dvd hd)
    push_cast at this
    exact this
  have hns : (curve (b : ZMod l)).Nonsingular (gx : ZMod l) (gy : ZMod l) := by
    have hΔ : (curve (b : ZMod l)).Δ ≠ 0 := by
      have : (curve (b : ZMod l)).Δ = -(2 ^ 4 * 3 ^ 3 * (b : ZMod l) ^ 2) := by
        simp only [curve, WeierstrassCurve.Δ, WeierstrassCurve.b₂, WeierstrassCurve.b₄, WeierstrassCurve.b₆,
          WeierstrassCurve.b₈]
        ring
      rw [this]
      exact neg_ne_zero.2 (mul_ne_zero (mul_ne_zero (pow_ne_zero _ h2) (pow_ne_zero _ h3)) (pow_ne_zero _ hb))
    rw [← equation_iff_nonsingular_of_Δ_ne_zero hΔ, equation_iff]
    simp only [curve, zero_mul, add_zero]
    exact heq
  let P : (curve (b : ZMod l)).Point := .some _ _ hns
  have hAt : Ops.At (fun a : Nat => (a : ZMod l)) (gx, gy) P := ⟨hns, rfl⟩
  have hy' : ((q - gy : Nat) : ZMod l) = -(gy : ZMod l) := by
    rw [Nat.cast_sub hy, hq0, zero_sub]
  have hkill := Ops.killed (natOps_into q f hpos hq0) hAt fuel k hm hy'
  rw [hk] at hkill
  have hb := order_bound P (WeierstrassCurve.Affine.Point.some_ne_zero _) hr hkill
  rw [ZMod.card] at hb
  have : ((r - 1) / 2) ^ 2 ≤ q := le_trans (Nat.pow_le_pow_left hb 2) hsq
  omega

theorem blsQ_prime : blsQ.Prime :=
  prime_of_curve (q := blsQ) (r := blsR) (gx := blsGx) (gy := blsGy) (b := 4) (f := 381) (fuel := 256) (k := blsR - 1)
    (by decide +kernel) blsR_prime (by decide +kernel) (by decide +kernel) (by decide +kernel) (by decide +kernel)
    blsG_multiple (by decide +kernel)

instance instFactPrimeBlsQ : Fact blsQ.Prime := ⟨blsQ_prime⟩

end Fawkes
