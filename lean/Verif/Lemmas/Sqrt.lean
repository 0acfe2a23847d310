import Verif.Model.Sqrt
import Verif.Lemmas.Ecc
import Verif.Lemmas.NatCurve
import Mathlib.FieldTheory.Finite.Basic
import Mathlib.NumberTheory.LegendreSymbol.Basic
import Mathlib.Algebra.CharP.Lemmas
import Mathlib.Algebra.QuadraticAlgebra.Basic

/-!
# The square roots of `ff` and `pairing`
-/

namespace Fawkes.FieldSqrt

open Groth16 (Fq2)

section

variable {F : Type} [CommRing F] [DecidableEq F]

theorem foldl_powStep (x : F) (l : List Bool) : ∀ k : Nat,
    (l.foldl (powStep x) (x ^ k, true)).1 = x ^ beBits k l := by
  induction l with
  | nil => intro k; rfl
  | cons b l ih =>
    intro k
    show _ = x ^ beBits (2 * k + b.toNat) l
    rw [List.foldl_cons, ← ih]
    congr 2
    cases b <;> simp [powStep, ← pow_add, ← pow_succ, two_mul]

theorem foldl_powStep_zero (x : F) (l : List Bool) : (l.foldl (powStep x) (1, false)).1 = x ^ beBits 0 l := by
  induction l with
  | nil => simp [beBits]
  | cons b l ih =>
    rw [List.foldl_cons]
    cases b
    · show _ = x ^ beBits 0 l
      simpa [powStep] using ih
    · show _ = x ^ beBits 1 l
      have := foldl_powStep x l 1
      simpa [powStep] using this

theorem pow_eq (x : F) (e : List UInt64) : pow x e = x ^ reprNat e := by
  unfold pow
  rw [foldl_powStep_zero, beBits_reprBitsBE]

theorem pow_exponent (x : F) {p e : Nat} [Fact p.Prime] (he : e < p) : pow x (exponent p e) = x ^ e := by
  rw [pow_eq, exponent, reprNat_limbsOf, Nat.mod_eq_of_lt (he.trans (lt_two_pow_limbs p))]

end

variable {p : Nat} [Fact p.Prime]

/-- A modulus that is 3 modulo 4. -/
theorem isSqrt34 (h4 : p % 4 = 3) : IsSqrt (sqrt34 (p := p)) := by
  have hp := (Fact.out : p.Prime)
  have hlt : (p - 3) / 4 < p := by omega
  have e1 : ∀ a : ZMod p, a ≠ 0 → (a ^ ((p - 3) / 4) * a ^ ((p - 3) / 4) * a) * (a ^ ((p - 3) / 4) * a ^ ((p - 3) / 4) * a) = 1 := by
    intro a ha
    have := ZMod.pow_card_sub_one_eq_one ha
    rw [← pow_add, ← pow_succ, ← pow_add, ← this]
    congr 1; omega
  have hneg : (1 : ZMod p) ≠ -1 := by
    intro h
    have h2 : ((2 : Nat) : ZMod p) = 0 := by
      push_cast
      linear_combination h
    rw [ZMod.natCast_eq_zero_iff] at h2
    have := Nat.le_of_dvd (by omega) h2
    interval_cases p <;> omega
  constructor
  · intro a b h
    unfold sqrt34 at h
    rw [pow_exponent a hlt] at h
    simp only at h
    split_ifs at h with hc
    cases h
    by_cases ha : a = 0
    · subst ha; simp
    · rcases mul_self_eq_one_iff.mp (e1 a ha) with h1 | h1
      · calc _ = (a ^ ((p - 3) / 4) * a ^ ((p - 3) / 4) * a) * a := by ring
          _ = a := by rw [h1, one_mul]
      · exact absurd h1 hc
  · rintro a ⟨b, rfl⟩
    unfold sqrt34
    rw [pow_exponent _ hlt]
    simp only
    rw [if_neg]
    · exact ⟨_, rfl⟩
    · by_cases hb : b = 0
      · subst hb; simp
      · intro h
        apply hneg
        rw [← h, ← ZMod.pow_card_sub_one_eq_one hb, ← pow_two b, ← pow_mul, ← pow_add, ← pow_add]
        congr 1; omega

theorem squares_eq (n : Nat) : ∀ c : ZMod p, squares n c = c ^ 2 ^ n := by
  induction n with
  | zero => intro c; simp [squares]
  | succ n ih => intro c; rw [squares, ih, ← pow_two, ← pow_mul, pow_succ, mul_comm]

theorem order_ok (t : ZMod p) (n : Nat) (hn : t ^ 2 ^ n = 1) (fuel : Nat) : ∀ i, i ≤ n → n - i < fuel →
    ∃ j, order fuel (t ^ 2 ^ i) i = some j ∧ i ≤ j ∧ j ≤ n ∧ t ^ 2 ^ j = 1 ∧ ∀ k, i ≤ k → k < j → t ^ 2 ^ k ≠ 1 := by
  induction fuel with
  | zero => intro i _ h; omega
  | succ fuel ih =>
    intro i hi hf
    rw [order]
    split_ifs with h
    · exact ⟨i, rfl, le_rfl, hi, h, fun k h1 h2 => absurd h2 (by omega)⟩
    · have hne : i ≠ n := fun e => h (e ▸ hn)
      obtain ⟨j, h1, h2, h3, h4, h5⟩ := ih (i + 1) (by omega) (by omega)
      refine ⟨j, ?_, by omega, h3, h4, ?_⟩
      · rw [← h1]
        congr 1
        rw [pow_succ, pow_mul, pow_two]
      · intro k hk hkj
        rcases Nat.eq_or_lt_of_le hk with rfl | hk'
        · exact h
        · exact h5 k hk' hkj

theorem shanks_ok (a : ZMod p) (fuel : Nat) : ∀ (m : Nat) (c r t : ZMod p), 1 ≤ m → m ≤ fuel → c ^ 2 ^ (m - 1) = -1 →
    r * r = a * t → t ^ 2 ^ (m - 1) = 1 → ∃ b, shanks fuel c r t m = some b ∧ b * b = a := by
  induction fuel with
  | zero => intro m _ _ _ h1 h2; omega
  | succ fuel ih =>
    intro m c r t h1 hm hc hr ht
    rw [shanks]
    split_ifs with h
    · exact ⟨r, rfl, by rw [hr, h, mul_one]⟩
    · have hm2 : m ≠ 1 := by
        rintro rfl
        apply h
        simpa using ht
      obtain ⟨j, e1, e2, e3, e4, e5⟩ := order_ok t (m - 1) ht (m + 1) 1 (by omega) (by omega)
      rw [pow_one, pow_two] at e1
      rw [e1]
      simp only
      rw [if_neg (by omega), squares_eq]
      have hj : t ^ 2 ^ (j - 1) = -1 := by
        have hsq : t ^ 2 ^ (j - 1) * t ^ 2 ^ (j - 1) = 1 := by
          rw [← pow_two, ← pow_mul, ← pow_succ, Nat.sub_add_cancel e2, e4]
        rcases mul_self_eq_one_iff.mp hsq with h' | h'
        · exfalso
          rcases Nat.eq_or_lt_of_le e2 with hj1 | hj1
          · subst hj1
            apply h
            simpa using h'
          · exact e5 (j - 1) (by omega) (by omega) h'
        · exact h'
      have hc' : (c ^ 2 ^ (m - j - 1) * c ^ 2 ^ (m - j - 1)) ^ 2 ^ (j - 1) = -1 := by
        rw [← hc, ← pow_two, ← pow_mul, ← pow_mul, ← pow_succ', ← pow_add]
        congr 2; omega
      refine ih j _ _ _ e2 (by omega) hc' ?_ ?_
      · linear_combination (c ^ 2 ^ (m - j - 1) * c ^ 2 ^ (m - j - 1)) * hr
      · rw [mul_pow, hj, hc']; ring

/-- A modulus `p` with `p - 1 = t 2^s`, `t` odd, and a number that is not a square. -/
theorem sqrt16_ok {g s : Nat} (hs : 1 ≤ s) (ht : (p - 1) / 2 ^ s % 2 = 1) (hd : 2 ^ s ∣ p - 1)
    (hg : ¬ IsSquare (g : ZMod p)) (a : ZMod p) :
    (IsSquare a → ∃ b, sqrt16 g s a = some (some b) ∧ b * b = a) ∧ (¬ IsSquare a → sqrt16 g s a = some none) := by
  have hp := (Fact.out : p.Prime)
  obtain ⟨t, htd⟩ := hd
  have h2s : 2 ^ s = 2 * 2 ^ (s - 1) := by rw [← pow_succ', Nat.sub_add_cancel hs]
  have htt : (p - 1) / 2 ^ s = t := by rw [htd]; exact Nat.mul_div_cancel_left _ (by positivity)
  rw [htt] at ht
  have hhalf : (p - 1) / 2 = 2 ^ (s - 1) * t := by
    rw [htd, h2s, mul_assoc]; exact Nat.mul_div_cancel_left _ (by norm_num)
  have hpos : 1 ≤ 2 ^ (s - 1) := Nat.one_le_two_pow
  have hp1 := hp.two_le
  have htp : t ≤ (p - 1) / 2 := by rw [hhalf]; exact Nat.le_mul_of_pos_left t hpos
  have hodd : p ≠ 2 := by
    rintro rfl
    have : 2 ∣ 2 - 1 := ⟨2 ^ (s - 1) * t, by rw [htd, h2s, mul_assoc]⟩
    omega
  have hp2 : p / 2 = (p - 1) / 2 := by
    have := hp.eq_two_or_odd
    omega
  have hneg : (1 : ZMod p) ≠ -1 := by
    haveI : Fact (2 < p) := ⟨by omega⟩
    exact (ZMod.neg_one_ne_one (n := p)).symm
  have hleg : ∀ x : ZMod p, legendre x = if x = 0 then .zero else if IsSquare x then .residue else .nonResidue := by
    intro x
    unfold legendre
    rw [pow_exponent x (by omega : (p - 1) / 2 < p)]
    simp only
    by_cases hx : x = 0
    · rw [if_pos hx, hx, zero_pow (by omega), if_pos rfl]
    · rw [if_neg hx, if_neg (pow_ne_zero _ hx), ← hp2]
      by_cases hxs : IsSquare x
      · rw [if_pos hxs, if_pos ((ZMod.euler_criterion p hx).mp hxs)]
      · rw [if_neg hxs, if_neg (fun h => hxs ((ZMod.euler_criterion p hx).mpr h))]
  unfold sqrt16
  rw [htt, hleg]
  simp only
  rw [pow_exponent (g : ZMod p) (by omega : t < p), pow_exponent a (by omega : t < p),
    pow_exponent a (by omega : (t + 1) / 2 < p)]
  by_cases ha : a = 0
  · rw [if_pos ha]
    exact ⟨fun _ => ⟨a, rfl, by rw [ha]; ring⟩, fun h => absurd ⟨0, by rw [ha]; ring⟩ h⟩
  · rw [if_neg ha]
    by_cases hsq : IsSquare a
    · rw [if_pos hsq]
      refine ⟨fun _ => ?_, fun h => absurd hsq h⟩
      have hg0 : (g : ZMod p) ≠ 0 := fun h => hg ⟨0, by rw [h]; ring⟩
      obtain ⟨b, hb, hbb⟩ := shanks_ok a (s + 1) s ((g : ZMod p) ^ t) (a ^ ((t + 1) / 2)) (a ^ t) hs (by omega)
        (by
          rw [← pow_mul, mul_comm, ← hhalf, ← hp2]
          rcases ZMod.pow_div_two_eq_neg_one_or_one p hg0 with h | h
          · exact absurd ((ZMod.euler_criterion p hg0).mpr h) hg
          · exact h)
        (by rw [← pow_add, ← pow_succ']; congr 1; omega)
        (by
          rw [← pow_mul, mul_comm, ← hhalf, ← hp2]
          exact (ZMod.euler_criterion p ha).mp hsq)
      exact ⟨b, by rw [hb], hbb⟩
    · rw [if_neg hsq]
      exact ⟨fun h => absurd h hsq, fun _ => rfl⟩

section Quadratic

variable {q : Nat} [Fact q.Prime] [Fact (∀ r : ZMod q, r ^ 2 ≠ -1 + 0 * r)]

theorem iota_sq : (⟨0, 1⟩ : Fq2 (ZMod q)) * ⟨0, 1⟩ = -1 := by
  ext
  · simp; rfl
  · simp; rfl

theorem split_fq2 (z : Fq2 (ZMod q)) : z = algebraMap (ZMod q) (Fq2 (ZMod q)) z.re +
    algebraMap (ZMod q) (Fq2 (ZMod q)) z.im * ⟨0, 1⟩ := by
  ext <;> simp

/-- The map `c0 + c1 u ↦ c0 - c1 u` is the power map of exponent `q`. -/
theorem frobenius_eq (h4 : q % 4 = 3) (z : Fq2 (ZMod q)) : frobenius z = z ^ q := by
  haveI : CharP (Fq2 (ZMod q)) q := charP_of_injective_algebraMap (algebraMap (ZMod q) (Fq2 (ZMod q))).injective q
  have hi : (⟨0, 1⟩ : Fq2 (ZMod q)) ^ q = -⟨0, 1⟩ := by
    have e : q = 2 * (2 * (q / 4) + 1) + 1 := by omega
    rw [congrArg (fun n => (⟨0, 1⟩ : Fq2 (ZMod q)) ^ n) e]
    show (⟨0, 1⟩ : Fq2 (ZMod q)) ^ (2 * (2 * (q / 4) + 1) + 1) = _
    rw [pow_succ, pow_mul, pow_two, iota_sq, pow_succ, pow_mul, neg_one_sq, one_pow, one_mul, neg_one_mul]
  conv_rhs => rw [split_fq2 z, add_pow_char, mul_pow, ← map_pow, ← map_pow, ZMod.pow_card, ZMod.pow_card, hi]
  ext <;> simp [frobenius]

theorem mul_frobenius (z : Fq2 (ZMod q)) :
    z * frobenius z = algebraMap (ZMod q) (Fq2 (ZMod q)) (z.re * z.re + z.im * z.im) := by
  ext
  · simp [frobenius]
  · simp [frobenius]; ring

theorem pow_sq_sub_one (h4 : q % 4 = 3) {z : Fq2 (ZMod q)} (hz : z ≠ 0) : z ^ ((q + 1) * (q - 1)) = 1 := by
  have h := mul_frobenius z
  rw [frobenius_eq h4, ← pow_succ'] at h
  rw [pow_mul, h, ← map_pow, ZMod.pow_card_sub_one_eq_one, map_one]
  intro h0
  rw [h0, map_zero] at h
  exact pow_ne_zero _ hz h

/-- The quadratic extension of a field whose modulus is 3 modulo 4. -/
theorem isSqrt2 (h4 : q % 4 = 3) : IsSqrt (sqrt2 (q := q)) := by
  have hneg : (1 : Fq2 (ZMod q)) ≠ -1 := by
    intro h
    have h1 := congrArg QuadraticAlgebra.re h
    haveI : Fact (2 < q) := ⟨by omega⟩
    apply ZMod.neg_one_ne_one (n := q)
    exact h1.symm
  have e1 : ∀ a : Fq2 (ZMod q), a ^ ((q - 3) / 4) * a ^ ((q - 3) / 4) * a = a ^ ((q - 1) / 2) := by
    intro a
    rw [← pow_add, ← pow_succ]; congr 1; omega
  have e2 : ∀ a : Fq2 (ZMod q), frobenius (a ^ ((q - 1) / 2)) * a ^ ((q - 1) / 2) = a ^ ((q - 1) / 2 * (q + 1)) := by
    intro a
    rw [frobenius_eq h4, ← pow_mul, ← pow_add]; rfl
  have e3 : ∀ a : Fq2 (ZMod q), a ^ ((q - 3) / 4) * a * (a ^ ((q - 3) / 4) * a) = a ^ ((q - 1) / 2) * a := by
    intro a
    rw [← e1]; ring
  have key : ∀ a : Fq2 (ZMod q), sqrt2 a = if a = 0 then some 0 else
      if a ^ ((q - 1) / 2 * (q + 1)) = -1 then none else
      if a ^ ((q - 1) / 2) = -1 then some (a ^ ((q - 3) / 4) * a * ⟨0, 1⟩) else
      some (a ^ ((q - 3) / 4) * a * (a ^ ((q - 1) / 2) + 1) ^ ((q - 1) / 2)) := by
    intro a
    unfold sqrt2
    rw [pow_exponent a (by omega : (q - 3) / 4 < q)]
    simp only
    rw [e1, e2, pow_exponent _ (by omega : (q - 1) / 2 < q)]
  constructor
  · intro a b h
    rw [key] at h
    split_ifs at h with h0 h1 h2
    · cases h; rw [h0]; ring
    · cases h
      calc _ = a ^ ((q - 3) / 4) * a * (a ^ ((q - 3) / 4) * a) * ((⟨0, 1⟩ : Fq2 (ZMod q)) * ⟨0, 1⟩) := by ring
        _ = a := by rw [e3, h2, iota_sq]; ring
    · cases h
      have hal : a ^ ((q - 1) / 2 * (q + 1)) = 1 := by
        have hsq : a ^ ((q - 1) / 2 * (q + 1)) * a ^ ((q - 1) / 2 * (q + 1)) = 1 := by
          rw [← pow_add, ← pow_sq_sub_one h4 h0]
          congr 1
          have : (q - 1) / 2 + (q - 1) / 2 = q - 1 := by omega
          rw [← Nat.add_mul, this, mul_comm]
        exact (mul_self_eq_one_iff.mp hsq).resolve_right h1
      generalize hα : a ^ ((q - 1) / 2) = α at h2 hal ⊢
      have h1' : α ^ q * α = 1 := by rw [← hal, pow_mul, hα, pow_succ]
      have hb : (α + 1) ^ ((q - 1) / 2) * (α + 1) ^ ((q - 1) / 2) * (α + 1) = α ^ q + 1 := by
        haveI : CharP (Fq2 (ZMod q)) q := charP_of_injective_algebraMap (algebraMap (ZMod q) (Fq2 (ZMod q))).injective q
        rw [← pow_add, ← pow_succ, show (q - 1) / 2 + (q - 1) / 2 + 1 = q by omega, add_pow_char, one_pow]
      have hne : α + 1 ≠ 0 := fun h => h2 (eq_neg_of_add_eq_zero_left h)
      have hone : (α + 1) ^ ((q - 1) / 2) * (α + 1) ^ ((q - 1) / 2) * α = 1 := by
        apply mul_right_cancel₀ hne
        calc _ = ((α + 1) ^ ((q - 1) / 2) * (α + 1) ^ ((q - 1) / 2) * (α + 1)) * α := by ring
          _ = α ^ q * α + α := by rw [hb]; ring
          _ = 1 * (α + 1) := by rw [h1']; ring
      calc _ = (a ^ ((q - 3) / 4) * a * (a ^ ((q - 3) / 4) * a)) * ((α + 1) ^ ((q - 1) / 2) * (α + 1) ^ ((q - 1) / 2)) := by ring
        _ = ((α + 1) ^ ((q - 1) / 2) * (α + 1) ^ ((q - 1) / 2) * α) * a := by rw [e3, hα]; ring
        _ = a := by rw [hone, one_mul]
  · rintro a ⟨b, rfl⟩
    rw [key]
    by_cases hb : b = 0
    · subst hb
      exact ⟨0, by rw [if_pos (by ring)]⟩
    · rw [if_neg (mul_ne_zero hb hb), if_neg]
      · split_ifs <;> exact ⟨_, rfl⟩
      · rw [← pow_two, ← pow_mul, show 2 * ((q - 1) / 2 * (q + 1)) = (q + 1) * (q - 1) by
          have : 2 * ((q - 1) / 2) = q - 1 := by omega
          rw [← mul_assoc, this, mul_comm], pow_sq_sub_one h4 hb]
        exact hneg

end Quadratic

end Fawkes.FieldSqrt
