import Verif.Lemmas.CountsBits
import Verif.Lemmas.Shipped

/-!
# The shipped base points have no accidental patterns
-/

namespace Fawkes

/-- `a / b - c / d ≠ e / f - g / h` modulo `r`, on integers, together with `b, d, f, h ≠ 0`. -/
def natRatiosNe (r a b c d e f g h : Nat) : Bool :=
  decide (b % r ≠ 0) && decide (d % r ≠ 0) && decide (f % r ≠ 0) && decide (h % r ≠ 0) &&
  decide (NPoint.sub r (a * d) (c * b) * (f * h) % r ≠ NPoint.sub r (e * h) (g * f) * (b * d) % r)

theorem natRatiosNe_ok {r a b c d e f g h : Nat} [Fact r.Prime] (H : natRatiosNe r a b c d e f g h = true) :
    (a / b - c / d : ZMod r) ≠ e / f - g / h := by
  have hz : ∀ {n : Nat}, n % r ≠ 0 → (n : ZMod r) ≠ 0 := fun {n} hn h => by
    rw [ZMod.natCast_eq_zero_iff] at h
    exact hn (Nat.mod_eq_zero_of_dvd h)
  unfold natRatiosNe at H
  simp only [Bool.and_eq_true, decide_eq_true_eq] at H
  obtain ⟨⟨⟨⟨hb, hd⟩, hf⟩, hh⟩, hne⟩ := H
  have hb := hz hb
  have hd := hz hd
  have hf := hz hf
  have hh := hz hh
  intro he
  apply hne
  have : ((NPoint.sub r (a * d) (c * b) * (f * h) : Nat) : ZMod r) = ((NPoint.sub r (e * h) (g * f) * (b * d) : Nat) : ZMod r) := by
    push_cast
    rw [NPoint.cast_sub, NPoint.cast_sub]
    push_cast
    rw [div_sub_div _ _ hb hd, div_sub_div _ _ hf hh, div_eq_div_iff (mul_ne_zero hb hd) (mul_ne_zero hf hh)] at he
    linear_combination he
  exact (ZMod.natCast_eq_natCast_iff _ _ _).1 this

/-- The check on one base point. -/
def natGeneric (r : Nat) (p1 p2 p5 p6 : NPoint) : Bool :=
  let n (p : NPoint) := (p.z + p.y) % r
  let m (p : NPoint) := NPoint.sub r p.z p.y
  natRatiosNe r (n p5) (m p5) (n p1) (m p1) (n p6) (m p6) (n p2) (m p2) &&
  natRatiosNe r (n p5 * p5.z) (m p5 * p5.x) (n p1 * p1.z) (m p1 * p1.x) (n p6 * p6.z) (m p6 * p6.x) (n p2 * p2.z) (m p2 * p2.x)

section

variable {r : Nat} [Fact r.Prime] {C : EdCurve (ZMod r)}

theorem natMontX {p : NPoint} {Q : EdPoint C} (h : Represents (NPoint.cast r p) Q) :
    Q.montX = (((p.z + p.y) % r : Nat) : ZMod r) / ((NPoint.sub r p.z p.y : Nat) : ZMod r) := by
  obtain ⟨hz, -, hy, -⟩ := h
  simp only [NPoint.cast] at hz hy
  unfold EdPoint.montX
  rw [ZMod.natCast_mod, NPoint.cast_sub, Nat.cast_add, hy]
  rw [show (p.z : ZMod r) + Q.y * p.z = (1 + Q.y) * p.z by ring, show (p.z : ZMod r) - Q.y * p.z = (1 - Q.y) * p.z by ring,
    mul_div_mul_right _ _ hz]

theorem natMontY {p : NPoint} {Q : EdPoint C} (h : Represents (NPoint.cast r p) Q) :
    Q.montY = (((p.z + p.y) % r * p.z : Nat) : ZMod r) / ((NPoint.sub r p.z p.y * p.x : Nat) : ZMod r) := by
  unfold EdPoint.montY
  rw [natMontX h]
  obtain ⟨hz, hx, -, -⟩ := h
  simp only [NPoint.cast] at hz hx
  rw [Nat.cast_mul, Nat.cast_mul, hx, div_div, ← mul_assoc, mul_div_mul_right _ _ hz]

theorem natGeneric_ok {p1 p2 p5 p6 : NPoint} {Q : EdPoint C} (H : natGeneric r p1 p2 p5 p6 = true)
    (h1 : Represents (NPoint.cast r p1) (1 • Q)) (h2 : Represents (NPoint.cast r p2) (2 • Q))
    (h5 : Represents (NPoint.cast r p5) (5 • Q)) (h6 : Represents (NPoint.cast r p6) (6 • Q)) : Generic Q := by
  unfold natGeneric at H
  simp only [Bool.and_eq_true] at H
  refine ⟨⟨1, 2, by omega, by omega, by omega, by omega, ?_⟩, ⟨1, 2, by omega, by omega, by omega, by omega, ?_⟩⟩
  · show (5 • Q).montX - (1 • Q).montX ≠ (6 • Q).montX - (2 • Q).montX
    rw [natMontX h1, natMontX h2, natMontX h5, natMontX h6]
    exact natRatiosNe_ok H.1
  · show (5 • Q).montY - (1 • Q).montY ≠ (6 • Q).montY - (2 • Q).montY
    rw [natMontY h1, natMontY h2, natMontY h5, natMontY h6]
    exact natRatiosNe_ok H.2

end

/-- The check on `P, 8 P, 64 P, …`. -/
def natGenericLoop (r d : Nat) : Nat → NPoint → Bool
  | 0, _ => true
  | n + 1, p =>
    let p2 := NPoint.add r d p p
    let p4 := NPoint.add r d p2 p2
    let p5 := NPoint.add r d p4 p
    let p6 := NPoint.add r d p4 p2
    natGeneric r p p2 p5 p6 && natGenericLoop r d n (NPoint.add r d p4 p4)

theorem natGenericLoop_ok {r : Nat} [Fact r.Prime] {C : EdCurve (ZMod r)} {d : Nat} (hd : C.d = d) (n : Nat) :
    ∀ {p : NPoint} {Q : EdPoint C}, Represents (NPoint.cast r p) Q → natGenericLoop r d n p = true → ∀ k, k < n → Generic (8 ^ k • Q) := by
  let J : JubJubParams (ZMod r) := ⟨0, ⟨0, 0⟩, C.d, 0, 0, 0⟩
  have hJ : J.d = C.d := rfl
  have hadd : ∀ {p q : NPoint} {P Q : EdPoint C}, Represents (NPoint.cast r p) P → Represents (NPoint.cast r q) Q →
      Represents (NPoint.cast r (NPoint.add r d p q)) (P + Q) := by
    intro p q P Q hp hq
    have := hp.add hJ hq
    rwa [← NPoint.cast_add r J d (hJ.trans hd)] at this
  induction n with
  | zero => intro p Q _ _ k hk; omega
  | succ n ih =>
    intro p Q hp H k hk
    unfold natGenericLoop at H
    simp only [Bool.and_eq_true] at H
    have h2 : Represents (NPoint.cast r (NPoint.add r d p p)) (2 • Q) := by rw [two_nsmul]; exact hadd hp hp
    have h4 := hadd h2 h2
    rw [← add_nsmul] at h4
    have h8 := hadd h4 h4
    rw [← add_nsmul] at h8
    have h5 := hadd h4 hp
    rw [show (2 + 2) • Q + Q = 5 • Q by rw [← succ_nsmul]] at h5
    have h6 := hadd h4 h2
    rw [← add_nsmul] at h6
    cases k with
    | zero =>
      rw [pow_zero, one_nsmul]
      exact natGeneric_ok H.1 (by rw [one_nsmul]; exact hp) h2 h5 h6
    | succ k =>
      have := ih h8 H.2 k (by omega)
      rw [← mul_nsmul] at this
      rwa [pow_succ, mul_comm]

/-- The check for the shipped base point with coordinates `x`, `y`. -/
def natGenericCheck (r d n x y : Nat) : Bool := natGenericLoop r d n ⟨x, y, x * y % r, 1⟩

theorem natGenericCheck_ok {r : Nat} [Fact r.Prime] {C : EdCurve (ZMod r)} {d n x y : Nat} (hd : C.d = d) {G : EdPoint C}
    (hx : G.x = x) (hy : G.y = y) (H : natGenericCheck r d n x y = true) : ∀ k, k < n → Generic (8 ^ k • G) := by
  refine natGenericLoop_ok hd n ?_ H
  refine ⟨?_, ?_, ?_, ?_⟩ <;> simp [NPoint.cast, hx, hy]

theorem bn_generic_check : natGenericCheck bnR 12181644023421730124874158521699555681764249180949974110617291017600649128846 84
    3136769009115878734591535780061023271603672807505340687898033796924625038576
    9219167653453464779020540250694647714630525780448598382451117487063353539706 = true := by decide +kernel

theorem bn_generic {G : EdPoint bnCurve} (h : bnParams.g = G.affine) : ∀ k, k < 84 → Generic (8 ^ k • G) :=
  natGenericCheck_ok bnCurve_d_nat (congrArg EdwardsPoint.x h).symm (congrArg EdwardsPoint.y h).symm bn_generic_check

theorem bls_generic_check : natGenericCheck blsR 19257038036680949359750312669786877991949435402254120286184196891950884077233 85
    44712518387605426644504699667580005941754982390059929374970847015217361777390
    46846510589459161038357857118145854213068421404599278795502517840024729615816 = true := by decide +kernel

theorem bls_generic {G : EdPoint blsCurve} (h : blsParams.g = G.affine) : ∀ k, k < 85 → Generic (8 ^ k • G) :=
  natGenericCheck_ok blsCurve_d_nat (congrArg EdwardsPoint.x h).symm (congrArg EdwardsPoint.y h).symm bls_generic_check

end Fawkes
