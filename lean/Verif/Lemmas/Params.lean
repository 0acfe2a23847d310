import Verif.Lemmas.NatCurve
import Verif.Lemmas.GroupOrder
import Verif.Lemmas.NumConv
import Verif.Model.Params

/-!
# The shipped curve parameters are valid
-/

namespace Fawkes

/-- A curve from integer certificates. -/
def EdCurve.ofCert (r : Nat) [Fact r.Prime] (d i f : Nat) (h2 : r ≠ 2) (hf : r < 2 ^ f)
    (hd : powMod r f d (r / 2) = r - 1) (hi : (i * i + 1) % r = 0) : EdCurve (ZMod r) where
  d := d
  d_nonsquare := not_isSquare_of_powMod h2 f d hf hd
  neg_one_square := ⟨i, by
    have : ((i * i + 1 : Nat) : ZMod r) = ((0 : Nat) : ZMod r) := natCast_eq_of (by rw [hi, Nat.zero_mod])
    push_cast at this
    linear_combination -this⟩
  two_ne_zero := by
    intro h
    have h' : ((2 : Nat) : ZMod r) = 0 := by exact_mod_cast h
    rw [ZMod.natCast_eq_zero_iff] at h'
    have hr := (Fact.out : r.Prime)
    exact h2 ((Nat.prime_dvd_prime_iff_eq hr Nat.prime_two).1 h')

/-- Certificate that the group has exponent dividing `8 l`: coefficients `a`, `b`, a point `(q8x, q8y)` of order 8 that
is not a double (`w = (1 + d)(1 - q8y²)` is not a square), a point `(gx, gy)` of order `l`. -/
def groupCert (r l f d q8x q8y gx gy w : Nat) : Bool :=
  decide (r < 2 ^ f) && decide (7 < l) && decide (2 * r < 24 * l) && decide (l < 2 ^ f) &&
  natOnCurve r d q8x q8y && natOnCurve r d gx gy &&
  natMulCheck r d q8x q8y 8 4 0 1 && !natMulCheck r d q8x q8y 4 3 0 1 &&
  decide ((w + (1 + d) * q8y ^ 2) % r = (1 + d) % r) && decide (powMod r f w (r / 2) = r - 1) &&
  natMulCheck r d gx gy l f 0 1 && !natMulCheck r d gx gy 1 1 0 1

section

variable {r : Nat} [Fact r.Prime] {C : EdCurve (ZMod r)}

theorem onCurve_zero_one : OnCurve C.d ((0 : Nat) : ZMod r) ((1 : Nat) : ZMod r) := by simp [OnCurve]

theorem ofNat_zero_one : EdPoint.ofNat C 0 1 onCurve_zero_one = 0 := by
  ext
  · simp [EdPoint.ofNat]
  · simp [EdPoint.ofNat]

theorem exponent_of_cert {l f d q8x q8y gx gy w : Nat} (hl : l.Prime) (hd : C.d = d)
    (h : groupCert r l f d q8x q8y gx gy w = true) :
    (∀ P : EdPoint C, (8 * l) • P = 0) ∧ ∃ G : EdPoint C, G.affine = ⟨gx, gy⟩ ∧ G ≠ 0 ∧ l • G = 0 := by
  unfold groupCert at h
  simp only [Bool.and_eq_true, decide_eq_true_eq, Bool.not_eq_true'] at h
  obtain ⟨⟨⟨⟨⟨⟨⟨⟨⟨⟨⟨h1, h2⟩, h3⟩, h4⟩, h5⟩, h6⟩, h7⟩, h8⟩, h9⟩, h10⟩, h11⟩, h12⟩ := h
  have hQ := natOnCurve_ok hd h5
  have hG := natOnCurve_ok hd h6
  rw [natMulCheck_iff hd hQ onCurve_zero_one (by norm_num), ofNat_zero_one] at h7
  rw [← Bool.not_eq_true, natMulCheck_iff hd hQ onCurve_zero_one (by norm_num), ofNat_zero_one] at h8
  rw [natMulCheck_iff hd hG onCurve_zero_one h4, ofNat_zero_one] at h11
  rw [← Bool.not_eq_true, natMulCheck_iff hd hG onCurve_zero_one (by norm_num), ofNat_zero_one, one_nsmul] at h12
  refine ⟨?_, EdPoint.ofNat C gx gy hG, rfl, h12, h11⟩
  have hcop : Nat.Coprime 8 l := by
    rw [show 8 = 2 ^ 3 by norm_num]
    apply Nat.Coprime.pow_left
    rw [Nat.coprime_primes Nat.prime_two hl]; omega
  refine EdPoint.exponent_of hl hcop h3 h12 h11 h7 h8 ?_
  have : (1 + C.d) * (1 - (EdPoint.ofNat C q8x q8y hQ).y ^ 2) = (w : ZMod r) := by
    have := natCast_eq_of h9
    push_cast at this
    rw [hd]
    simp only [EdPoint.ofNat]
    linear_combination -this
  rw [this]
  exact not_isSquare_of_powMod C.r_ne_two f w h1 h10

/-- Certificate for the base point: `(qx, qy)`, with Montgomery coordinates `(mx, my)`, is what `from_scalar_raw` maps
`t` to before multiplying by the cofactor. -/
def baseCert (r f d a b u t gx gy qx qy x2 g2 mx my : Nat) : Bool :=
  decide (r < 2 ^ f) && decide ((a * (1 + d) + 2 * d) % r = 2 % r) && decide ((b * (1 + d) + 4) % r = 0) &&
  decide (powMod r f u (r / 2) = r - 1) && natOnCurve r d gx gy && natOnCurve r d qx qy &&
  natMulCheck r d qx qy 8 4 gx gy &&
  decide ((a * x2 * (u * (t + 1) ^ 2) + u * (t + 1) ^ 2 + 1) % r = 0) &&
  decide ((b * g2) % r = (x2 ^ 3 + a * x2 ^ 2 + x2) % r) && decide (powMod r f g2 (r / 2) = r - 1) &&
  decide (mx % r = u * (t + 1) ^ 2 * x2 % r) && decide (mx % r = (1 + qy + mx * qy) % r) &&
  decide (my * qx % r = mx % r) && decide (my < r) && decide (my % 2 = 0) &&
  decide (qx % r ≠ 0) && decide ((t + 1) % r ≠ 0)

theorem coeffs_of_cert {f d a b u t gx gy qx qy x2 g2 mx my : Nat} (hd : C.d = d)
    (h : baseCert r f d a b u t gx gy qx qy x2 g2 mx my = true) :
    C.a = a ∧ C.b = b ∧ ¬ IsSquare (u : ZMod r) := by
  unfold baseCert at h
  simp only [Bool.and_eq_true, decide_eq_true_eq] at h
  obtain ⟨⟨⟨⟨⟨⟨⟨⟨⟨⟨⟨⟨⟨⟨⟨⟨h1, h2⟩, h3⟩, h4⟩, -⟩, -⟩, -⟩, -⟩, -⟩, -⟩, -⟩, -⟩, -⟩, -⟩, -⟩, -⟩, -⟩ := h
  have hne := C.one_add_d_ne
  refine ⟨?_, ?_, not_isSquare_of_powMod C.r_ne_two f u h1 h4⟩
  · have := natCast_eq_of h2
    push_cast at this
    unfold EdCurve.a
    rw [div_eq_iff hne, hd]
    linear_combination -this
  · have := natCast_eq_of (h3.trans (Nat.zero_mod r).symm)
    push_cast at this
    unfold EdCurve.b
    rw [div_eq_iff hne, hd]
    linear_combination -this

theorem base_of_cert {f d a b u t gx gy qx qy x2 g2 mx my : Nat} (hd : C.d = d)
    (h : baseCert r f d a b u t gx gy qx qy x2 g2 mx my = true)
    {sqrt : ZMod r → Option (ZMod r)} (hs : IsSqrt sqrt) :
    EdwardsPoint.fromScalarRaw sqrt (t : ZMod r) C.a C.b (u : ZMod r) = .ok ⟨gx, gy⟩ := by
  obtain ⟨ha, hb, hu⟩ := coeffs_of_cert hd h
  unfold baseCert at h
  simp only [Bool.and_eq_true, decide_eq_true_eq] at h
  obtain ⟨⟨⟨⟨⟨⟨⟨⟨⟨⟨⟨⟨⟨⟨⟨⟨h1, -⟩, -⟩, -⟩, h5⟩, h6⟩, h7⟩, h8⟩, h9⟩, h10⟩, h11⟩, h12⟩, h13⟩, h14⟩, h15⟩, h16⟩, h17⟩ := h
  have hr := (Fact.out : r.Prime)
  have ht : (t : ZMod r) ≠ -1 := by
    intro h
    apply h17
    have : ((t + 1 : Nat) : ZMod r) = 0 := by push_cast; rw [h]; ring
    rw [ZMod.natCast_eq_zero_iff] at this
    exact Nat.mod_eq_zero_of_dvd this
  let J : JubJubParams (ZMod r) := ⟨0, ⟨0, 0⟩, 0, C.a, C.b, u⟩
  obtain ⟨Q, hQ, hrun⟩ := fromScalar_ok (J := J) (C := C) hs rfl rfl hu ht
  have hG := natOnCurve_ok hd h5
  have hQ' := natOnCurve_ok hd h6
  have hqx : (qx : ZMod r) ≠ 0 := by
    intro h
    rw [ZMod.natCast_eq_zero_iff] at h
    exact h16 (Nat.mod_eq_zero_of_dvd h)
  set P := EdPoint.ofNat C qx qy hQ' with hP
  have hPx : P.x = qx := rfl
  have hPy : P.y = qy := rfl
  have hP0 : P ≠ 0 := by
    intro h
    apply hqx
    rw [← hPx, h]; rfl
  have hu0 : (u : ZMod r) ≠ 0 := by intro h; apply hu; rw [h]; exact IsSquare.zero
  have ht1 : (t : ZMod r) + 1 ≠ 0 := fun h => ht (by linear_combination h)
  have hs0 : (u : ZMod r) * ((t : ZMod r) + 1) ^ 2 ≠ 0 := mul_ne_zero hu0 (pow_ne_zero 2 ht1)
  have ha0 := C.a_ne_zero
  have e8 := natCast_eq_of (h8.trans (Nat.zero_mod r).symm)
  have e9 := natCast_eq_of h9
  have e11 := natCast_eq_of h11
  have e12 := natCast_eq_of h12
  have e13 := natCast_eq_of h13
  push_cast at e8 e9 e11 e12 e13
  have hx2 : -(1 + ((u : ZMod r) * ((t : ZMod r) + 1) ^ 2)⁻¹) / C.a = x2 := by
    rw [div_eq_iff ha0, ha]
    field_simp
    linear_combination -e8
  have hmx : P.montX = mx := by
    unfold EdPoint.montX
    rw [div_eq_iff (EdPoint.one_sub_y_ne hP0), hPy]
    linear_combination -e12
  have hmy : P.montY = my := by
    unfold EdPoint.montY
    rw [hmx, hPx, div_eq_iff hqx]
    exact e13.symm
  have hmap : IsMapped C (u : ZMod r) t P := by
    refine ⟨hP0, ?_, Or.inr ⟨?_, ?_⟩⟩
    · rw [hmy, ZMod.val_natCast, Nat.mod_eq_of_lt h14, h15]
    · rw [hx2, exists_montX_iff]
      have : ((x2 : ZMod r) ^ 3 + C.a * (x2 : ZMod r) ^ 2 + x2) / C.b = g2 := by
        rw [div_eq_iff C.b_ne_zero, ha, hb]
        linear_combination -e9
      rw [this]
      exact not_isSquare_of_powMod C.r_ne_two f g2 h1 h10
    · rw [hx2, hmx]; exact e11
  have : Q = P := IsMapped.unique hQ hmap
  rw [natMulCheck_iff hd hQ' hG (by norm_num)] at h7
  unfold EdwardsPoint.fromScalar at hrun
  rw [hrun, this, hP, h7]; rfl

end

theorem fromSeed_ok {p : Nat} [Fact p.Prime] (ha : Aligned p) (hb : numBytes p ≤ 32) (blob : List UInt8) :
    Num.fromSeed p blob = .ok ((Num.biguintFromBE (Blake2s.hash (numBytes p) personalization blob) : Nat) : ZMod p) := by
  unfold Num.fromSeed
  rw [if_pos hb]
  exact fromBigUint_ok ha _

end Fawkes
