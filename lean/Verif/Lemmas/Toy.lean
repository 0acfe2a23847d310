import Mathlib.Tactic.NormNum.Prime
import Verif.Lemmas.GroupOrder
import Verif.Lemmas.Ecc

/-!
# A small curve with the shape of the shipped ones

`y² - x² = 1 + 5 x² y²` over the field of order 73 has `88 = 8 · 11` points.  It serves as a witness in refutations, where
the kernel has to run the gadgets.
-/

namespace Fawkes

instance fact_prime_73 : Fact (Nat.Prime 73) := ⟨by norm_num⟩
instance fact_prime_11 : Fact (Nat.Prime 11) := ⟨by norm_num⟩

/-- The small curve. -/
def toyCurve : EdCurve (ZMod 73) where
  d := 5
  d_nonsquare := by decide +kernel
  neg_one_square := by decide +kernel
  two_ne_zero := by decide +kernel

/-- A point of order 11. -/
def toyG : EdPoint toyCurve := ⟨8, 21, by show OnCurve (5 : ZMod 73) 8 21; unfold OnCurve; decide +kernel⟩

/-- A point of order 8. -/
def toyQ : EdPoint toyCurve := ⟨25, 18, by show OnCurve (5 : ZMod 73) 25 18; unfold OnCurve; decide +kernel⟩

/-- Parameters of the small curve. -/
def toyParams : JubJubParams (ZMod 73) := ⟨11, ⟨8, 21⟩, 5, 23, 48, 5⟩

theorem toy_nsmul_zero_iff (Q : EdPoint toyCurve) (n : UInt64) :
    n.toNat • Q = 0 ↔ (Q.affine.intoExtended.mulRaw [n] toyParams).isZero = true := by
  have h := mulRaw_represents (C := toyCurve) (J := toyParams) rfl (Represents.of_affine Q) [n]
  have hn : reprNat [n] = n.toNat := by simp [reprNat]
  rw [hn] at h
  exact h.isZero_iff.symm

theorem toyG_order : 11 • toyG = 0 := (toy_nsmul_zero_iff toyG 11).2 (by decide +kernel)

theorem toyG_ne_zero : toyG ≠ 0 := by
  intro h
  have : (8 : ZMod 73) = 0 := congrArg EdPoint.x h
  exact absurd this (by decide +kernel)

theorem toyParams_valid : toyParams.Valid toyCurve where
  d_eq := rfl
  a_eq := by show (23 : ZMod 73) = 2 * (1 - 5) / (1 + 5); decide +kernel
  b_eq := by show (48 : ZMod 73) = -4 / (1 + 5); decide +kernel
  u_nonsquare := by decide +kernel
  l_prime := by show Nat.Prime 11; norm_num
  l_large := by show 7 < 11; norm_num
  exponent := EdPoint.exponent_of (l := 11) (by norm_num) (by norm_num) (by norm_num) toyG_ne_zero toyG_order
    ((toy_nsmul_zero_iff toyQ 8).2 (by decide +kernel)) (fun h => absurd ((toy_nsmul_zero_iff toyQ 4).1 h) (by decide +kernel))
    (by show ¬ IsSquare ((1 + 5) * (1 - (18 : ZMod 73) ^ 2)); decide +kernel)
  base := ⟨toyG, rfl, toyG_ne_zero, toyG_order⟩

end Fawkes
