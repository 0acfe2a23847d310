import Verif.Lemmas.Limbs
import Verif.Spec.Limbs

/-!
# The field operations on machine words
-/

namespace Fawkes.Limbs

variable {p : Nat}

/-- As many words as the field has, below the modulus. -/
structure Good (p : Nat) (w : Words) : Prop where
  length : w.length = nLimbs p
  below : reprNat w < p

/-- The number modulo `p`. -/
def val (p : Nat) (w : Words) : ZMod p := (reprNat w : ZMod p)

theorem good_add {a b : Words} (ha : Good p a) (hb : Good p b) : Good p (add p a b) ∧ val p (add p a b) = val p a + val p b := by
  have h2 := two_mul_le p
  have h1 := ha.below; have h1' := hb.below
  have hl : a.length = b.length := by rw [ha.length, hb.length]
  have he := addNocarry_eq a b hl (by rw [ha.length]; omega)
  obtain ⟨h3, h4, h5⟩ := reduce_eq (p := p) (addNocarry a b) (by rw [addNocarry_length a b hl, ha.length]) (by rw [he]; omega)
  refine ⟨⟨h3, h4⟩, ?_⟩
  show (reprNat (reduce p (addNocarry a b)) : ZMod p) = _
  rw [h5, he, Nat.cast_add]; rfl

theorem good_double {a : Words} (ha : Good p a) : Good p (double p a) ∧ val p (double p a) = 2 * val p a := by
  have h2 := two_mul_le p
  have h1 := ha.below
  have he := mul2_eq a (by rw [ha.length]; omega)
  obtain ⟨h3, h4, h5⟩ := reduce_eq (p := p) (mul2 a) (by rw [mul2_length, ha.length]) (by rw [he]; omega)
  refine ⟨⟨h3, h4⟩, ?_⟩
  show (reprNat (reduce p (mul2 a)) : ZMod p) = _
  rw [h5, he, Nat.cast_mul, Nat.cast_ofNat]; rfl

theorem good_sub {a b : Words} (ha : Good p a) (hb : Good p b) : Good p (sub p a b) ∧ val p (sub p a b) = val p a - val p b := by
  have h2 := two_mul_le p
  have h1 := ha.below; have h1' := hb.below
  have hl : a.length = b.length := by rw [ha.length, hb.length]
  have hm : a.length = (modulus p).length := by rw [ha.length, modulus_length]
  unfold sub
  simp only
  cases hh : less a b with
  | true =>
    have hlt := (less_eq a b hl).1 hh
    have he := addNocarry_eq a (modulus p) hm (by rw [reprNat_modulus, ha.length]; omega)
    rw [reprNat_modulus] at he
    have hl2 : (addNocarry a (modulus p)).length = b.length := by rw [addNocarry_length a _ hm, hl]
    have hs := subNoborrow_eq (addNocarry a (modulus p)) b hl2 (by rw [he]; omega)
    rw [if_pos rfl]
    refine ⟨⟨by rw [subNoborrow_length _ _ hl2, hl2, hb.length], by rw [hs, he]; omega⟩, ?_⟩
    unfold val
    rw [hs, he, Nat.cast_sub (by omega), Nat.cast_add, ZMod.natCast_self, add_zero]
  | false =>
    have hle := (less_eq_false a b hl).1 hh
    have hs := subNoborrow_eq a b hl hle
    rw [if_neg (by simp)]
    refine ⟨⟨by rw [subNoborrow_length _ _ hl, ha.length], by rw [hs]; omega⟩, ?_⟩
    unfold val
    rw [hs, Nat.cast_sub hle]

theorem good_neg {a : Words} (ha : Good p a) : Good p (neg p a) ∧ val p (neg p a) = - val p a := by
  unfold neg
  have h1 := ha.below
  split
  · rename_i hz
    have hz := (isZero_eq a).1 hz
    refine ⟨ha, ?_⟩
    unfold val
    rw [hz]; simp
  · rename_i hz
    have hz : reprNat a ≠ 0 := fun h => hz ((isZero_eq a).2 h)
    have hm : (modulus p).length = a.length := by rw [ha.length, modulus_length]
    have hs := subNoborrow_eq (modulus p) a hm (by rw [reprNat_modulus]; omega)
    rw [reprNat_modulus] at hs
    refine ⟨⟨by rw [subNoborrow_length _ _ hm, modulus_length], by rw [hs]; omega⟩, ?_⟩
    unfold val
    rw [hs, Nat.cast_sub (by omega), ZMod.natCast_self, zero_sub]

section
variable [hp : Fact p.Prime]

theorem product_lt {a b : Nat} (ha : a < p) (hb : b < p) : a * b < p * 2 ^ (64 * nLimbs p) := by
  have := two_mul_le p
  exact Nat.mul_lt_mul'' ha (by omega)

theorem good_mul (h2 : p % 2 = 1) {a b : Words} (ha : Good p a) (hb : Good p b) :
    Good p (mul p a b) ∧ val p (mul p a b) * 2 ^ (64 * nLimbs p) = val p a * val p b := by
  obtain ⟨h1, h1'⟩ := mulFull_eq a b (by rw [ha.length, hb.length])
  obtain ⟨h3, h4, h5⟩ := montReduce_eq h2 (mulFull a b) (by rw [h1, ha.length, hb.length]) (by rw [h1']; exact product_lt ha.below hb.below)
  refine ⟨⟨h3, h4⟩, ?_⟩
  unfold val mul
  rw [h5, h1', Nat.cast_mul]

theorem good_square (h2 : p % 2 = 1) {a : Words} (ha : Good p a) :
    Good p (square p a) ∧ val p (square p a) * 2 ^ (64 * nLimbs p) = val p a * val p a := by
  have hne : a ≠ [] := by
    intro h; have h1 := ha.length; have h2 := nLimbs_pos p; rw [h] at h1; simp at h1; omega
  obtain ⟨h1, h1'⟩ := squareFull_eq a hne
  obtain ⟨h3, h4, h5⟩ := montReduce_eq h2 (squareFull a) (by rw [h1, ha.length]) (by rw [h1']; exact product_lt ha.below ha.below)
  refine ⟨⟨h3, h4⟩, ?_⟩
  unfold val square
  rw [h5, h1', Nat.cast_mul]

theorem two_ne (h2 : p % 2 = 1) : (2 : ZMod p) ≠ 0 := by
  intro h
  have : ((2 : Nat) : ZMod p) = 0 := by exact_mod_cast h
  rw [ZMod.natCast_eq_zero_iff] at this
  have h3 := hp.out.two_le
  have := Nat.le_of_dvd (by norm_num) this
  omega

theorem radix_ne (h2 : p % 2 = 1) : (2 : ZMod p) ^ (64 * nLimbs p) ≠ 0 := pow_ne_zero _ (two_ne h2)

theorem good_limbs {n : Nat} (h : n < p) : Good p (limbsOf (nLimbs p) n) ∧ val p (limbsOf (nLimbs p) n) = (n : ZMod p) := by
  have he : reprNat (limbsOf (nLimbs p) n) = n := by
    rw [reprNat_limbsOf, Nat.mod_eq_of_lt (h.trans (lt_two_pow_limbs p))]
  exact ⟨⟨limbsOf_length _ _, by rw [he]; exact h⟩, by unfold val; rw [he]⟩

theorem good_R : Good p (constR p) ∧ val p (constR p) = 2 ^ (64 * nLimbs p) := by
  obtain ⟨h1, h2⟩ := good_limbs (p := p) (Nat.mod_lt (2 ^ (64 * nLimbs p)) hp.out.pos)
  refine ⟨h1, ?_⟩
  unfold constR
  rw [h2, ZMod.natCast_mod]
  push_cast; rfl

theorem good_R2 : Good p (constR2 p) ∧ val p (constR2 p) = 2 ^ (64 * nLimbs p) * 2 ^ (64 * nLimbs p) := by
  obtain ⟨h1, h2⟩ := good_limbs (p := p) (Nat.mod_lt ((2 ^ (64 * nLimbs p) % p) * (2 ^ (64 * nLimbs p) % p)) hp.out.pos)
  refine ⟨h1, ?_⟩
  unfold constR2
  rw [h2, ZMod.natCast_mod, Nat.cast_mul, ZMod.natCast_mod]
  push_cast; rfl

/-! ## Inversion -/

theorem good_halve (h2 : p % 2 = 1) {b : Words} (hb : Good p b) : Good p (halve p b) ∧ 2 * val p (halve p b) = val p b := by
  unfold halve
  have hlt := hb.below
  have h2p := two_mul_le p
  split
  · rename_i he
    have he := (isEven_eq b).1 he
    refine ⟨⟨by rw [div2_length, hb.length], by rw [div2_eq]; omega⟩, ?_⟩
    unfold val
    rw [div2_eq]
    have : 2 * (reprNat b / 2) = reprNat b := by omega
    exact_mod_cast congrArg (Nat.cast : Nat → ZMod p) this
  · rename_i he
    have he : reprNat b % 2 = 1 := by
      by_contra h; exact he ((isEven_eq b).2 (by omega))
    have hm : b.length = (modulus p).length := by rw [hb.length, modulus_length]
    have ha := addNocarry_eq b (modulus p) hm (by rw [reprNat_modulus, hb.length]; omega)
    rw [reprNat_modulus] at ha
    refine ⟨⟨by rw [div2_length, addNocarry_length _ _ hm, hb.length], by rw [div2_eq, ha]; omega⟩, ?_⟩
    unfold val
    rw [div2_eq, ha]
    have : 2 * ((reprNat b + p) / 2) = reprNat b + p := by omega
    have h := congrArg (Nat.cast : Nat → ZMod p) this
    rw [Nat.cast_mul, Nat.cast_add (reprNat b), ZMod.natCast_self, add_zero] at h
    exact_mod_cast h

theorem evenLoop_eq (h2 : p % 2 = 1) (A Q : ZMod p) (fuel : Nat) (u b : Words) (hu : u.length = nLimbs p) (hpos : 0 < reprNat u)
    (hlt : reprNat u < 2 ^ fuel) (hb : Good p b) (hinv : val p b * A = val p u * Q) :
    ∃ u' b' k, evenLoop p fuel u b = some (u', b') ∧ u'.length = nLimbs p ∧ Good p b' ∧ reprNat u' % 2 = 1 ∧
      reprNat u = reprNat u' * 2 ^ k ∧ (reprNat u % 2 = 0 → 1 ≤ k) ∧ val p b' * A = val p u' * Q := by
  induction fuel generalizing u b with
  | zero => simp at hlt; omega
  | succ fuel ih =>
    unfold evenLoop
    split
    · rename_i he
      have he := (isEven_eq u).1 he
      obtain ⟨hg, hv⟩ := good_halve h2 hb
      have hd := div2_eq u
      obtain ⟨u', b', k, h1, h3, h4, h5, h6, -, h8⟩ := ih (div2 u) (halve p b) (by rw [div2_length, hu]) (by rw [hd]; omega)
        (by rw [hd]; rw [pow_succ] at hlt; omega) hg (by
          have hh : (2 : ZMod p) * val p (div2 u) = val p u := by
            unfold val
            rw [hd]
            have : 2 * (reprNat u / 2) = reprNat u := by omega
            exact_mod_cast congrArg (Nat.cast : Nat → ZMod p) this
          apply mul_left_cancel₀ (two_ne h2)
          linear_combination A * hv + hinv - Q * hh)
      refine ⟨u', b', k + 1, h1, h3, h4, h5, ?_, fun _ => by omega, h8⟩
      rw [pow_succ, ← Nat.mul_assoc, ← h6, hd]; omega
    · rename_i he
      have he : reprNat u % 2 = 1 := by
        by_contra h; exact he ((isEven_eq u).2 (by omega))
      exact ⟨u, b, 0, rfl, hu, hb, he, by simp, fun h => by omega, hinv⟩

theorem reprOne_length : (reprOne p).length = nLimbs p := by
  have := nLimbs_pos p
  simp [reprOne, Num.lowRepr]; omega

theorem reprNat_one : reprNat (reprOne p) = 1 := by
  simp [reprOne, Num.lowRepr, reprNat, reprNat_zeros]

theorem eq_one_iff {u : Words} (hu : u.length = nLimbs p) : u = reprOne p ↔ reprNat u = 1 := by
  constructor
  · rintro rfl; exact reprNat_one
  · intro h; exact reprNat_inj (by rw [hu, reprOne_length]) (by rw [h, reprNat_one])

theorem inverseLoop_eq (h2 : p % 2 = 1) (A Q : ZMod p) (fuel : Nat) (u v b c : Words) (hu : u.length = nLimbs p) (hv : v.length = nLimbs p)
    (hpu : 0 < reprNat u) (hpv : 0 < reprNat v) (hco : Nat.Coprime (reprNat u) (reprNat v))
    (hm : (reprNat u % 2 = 0 ∨ reprNat v % 2 = 0) ∧ reprNat u * reprNat v < 2 ^ fuel ∨ 2 * (reprNat u * reprNat v) < 2 ^ fuel)
    (hb : Good p b) (hc : Good p c) (hbi : val p b * A = val p u * Q) (hci : val p c * A = val p v * Q) :
    ∃ d, inverseLoop p fuel u v b c = some d ∧ Good p d ∧ val p d * A = Q := by
  induction fuel generalizing u v b c with
  | zero =>
    have := Nat.mul_pos hpu hpv
    simp at hm; omega
  | succ fuel ih =>
    unfold inverseLoop
    split
    · rename_i hne
      have hu1 : reprNat u ≠ 1 := fun h => hne.1 ((eq_one_iff hu).2 h)
      have hv1 : reprNat v ≠ 1 := fun h => hne.2 ((eq_one_iff hv).2 h)
      have hlu := reprNat_lt u
      have hlv := reprNat_lt v
      rw [hu] at hlu
      rw [hv] at hlv
      obtain ⟨u', b', i, e1, lu, gb, ou, fu, ku, ib⟩ := evenLoop_eq h2 A Q _ u b hu hpu hlu hb hbi
      obtain ⟨v', c', j, e2, lv, gc, ov, fv, kv, ic⟩ := evenLoop_eq h2 A Q _ v c hv hpv hlv hc hci
      rw [e1]
      simp only
      rw [e2]
      simp only
      have hco' : Nat.Coprime (reprNat u') (reprNat v') :=
        Nat.Coprime.coprime_dvd_left (Dvd.intro _ fu.symm) (Nat.Coprime.coprime_dvd_right (Dvd.intro _ fv.symm) hco)
      have hprod : reprNat u * reprNat v = reprNat u' * reprNat v' * 2 ^ (i + j) := by rw [fu, fv, pow_add]; ring
      have hpp : 0 < reprNat u' * reprNat v' := Nat.mul_pos (by omega) (by omega)
      have hm' : reprNat u' * reprNat v' < 2 ^ fuel := by
        rw [pow_succ] at hm
        rcases hm with ⟨he, hlt⟩ | hlt
        · have hij : 1 ≤ i + j := by
            rcases he with he | he
            · have := ku he; omega
            · have := kv he; omega
          have : 2 ^ 1 ≤ 2 ^ (i + j) := Nat.pow_le_pow_right (by norm_num) hij
          have := Nat.mul_le_mul_left (reprNat u' * reprNat v') this
          omega
        · have : 1 ≤ 2 ^ (i + j) := Nat.one_le_two_pow
          have := Nat.mul_le_mul_left (reprNat u' * reprNat v') this
          omega
      have hl : u'.length = v'.length := by rw [lu, lv]
      cases hh : less v' u' with
      | true =>
        have hlt := (less_eq v' u' hl.symm).1 hh
        have hs := subNoborrow_eq u' v' hl hlt.le
        obtain ⟨gs, vs⟩ := good_sub gb gc
        rw [if_pos rfl]
        refine ih (subNoborrow u' v') v' (sub p b' c') c' (by rw [subNoborrow_length _ _ hl, lu]) lv (by rw [hs]; omega) (by omega) ?_ ?_ gs gc ?_ ic
        · rw [hs]; exact (Nat.coprime_sub_self_left hlt.le).2 hco'
        · left
          refine ⟨Or.inl (by rw [hs]; omega), lt_of_le_of_lt ?_ hm'⟩
          rw [hs]; exact Nat.mul_le_mul_right _ (Nat.sub_le _ _)
        · rw [vs]
          unfold val at *
          rw [hs, Nat.cast_sub hlt.le]
          linear_combination ib - ic
      | false =>
        have hle := (less_eq_false v' u' hl.symm).1 hh
        have hne' : reprNat u' ≠ reprNat v' := by
          intro h
          rw [h, Nat.coprime_self] at hco'
          have hi : i ≠ 0 := by rintro rfl; rw [h, hco'] at fu; omega
          have hj : j ≠ 0 := by rintro rfl; rw [hco'] at fv; omega
          have h1 : 2 ∣ reprNat u := by rw [fu]; exact Dvd.dvd.mul_left (dvd_pow_self 2 hi) _
          have h2 : 2 ∣ reprNat v := by rw [fv]; exact Dvd.dvd.mul_left (dvd_pow_self 2 hj) _
          have := Nat.dvd_gcd h1 h2
          rw [hco] at this
          omega
        have hs := subNoborrow_eq v' u' hl.symm hle
        obtain ⟨gs, vs⟩ := good_sub gc gb
        rw [if_neg (by simp)]
        refine ih u' (subNoborrow v' u') b' (sub p c' b') lu (by rw [subNoborrow_length _ _ hl.symm, lv]) (by omega) (by rw [hs]; omega) ?_ ?_ gb gs ib ?_
        · rw [hs]; exact (Nat.coprime_sub_self_right hle).2 hco'
        · left
          refine ⟨Or.inr (by rw [hs]; omega), lt_of_le_of_lt ?_ hm'⟩
          rw [hs]; exact Nat.mul_le_mul_left _ (Nat.sub_le _ _)
        · rw [vs]
          unfold val at *
          rw [hs, Nat.cast_sub hle]
          linear_combination ic - ib
    · rename_i hne
      refine ⟨_, rfl, ?_⟩
      split
      · rename_i h1
        refine ⟨hb, ?_⟩
        rw [hbi]; unfold val; rw [(eq_one_iff hu).1 h1]; simp
      · rename_i h1
        have h3 : v = reprOne p := by by_contra h; exact hne ⟨h1, h⟩
        refine ⟨hc, ?_⟩
        rw [hci]; unfold val; rw [(eq_one_iff hv).1 h3]; simp

theorem inverse_zero {a : Words} (h : reprNat a = 0) : inverse p a = some none := by
  unfold inverse
  rw [if_pos ((isZero_eq a).2 h)]

theorem good_inverse (h2 : p % 2 = 1) {a : Words} (ha : Good p a) (h : reprNat a ≠ 0) :
    ∃ d, inverse p a = some (some d) ∧ Good p d ∧ val p d * val p a = 2 ^ (64 * nLimbs p) * 2 ^ (64 * nLimbs p) := by
  have hlt := ha.below
  obtain ⟨g2, v2⟩ := good_R2 (p := p)
  have hpp := lt_two_pow_limbs p
  obtain ⟨d, h1, h3, h4⟩ := inverseLoop_eq h2 (val p a) (2 ^ (64 * nLimbs p) * 2 ^ (64 * nLimbs p)) (128 * nLimbs p + 1) a (modulus p)
    (constR2 p) (List.replicate (nLimbs p) 0) ha.length modulus_length (by omega) (by rw [reprNat_modulus]; omega)
    (by rw [reprNat_modulus]; exact ((Nat.Prime.coprime_iff_not_dvd hp.out).2 fun hd => by have := Nat.le_of_dvd (by omega) hd; omega).symm)
    (by
      right
      rw [reprNat_modulus, pow_succ, show 128 * nLimbs p = 64 * nLimbs p + 64 * nLimbs p by ring, pow_add, Nat.mul_comm 2]
      exact Nat.mul_lt_mul_of_pos_right (Nat.mul_lt_mul'' (hlt.trans hpp) hpp) (by norm_num))
    g2 ⟨by simp, by rw [reprNat_zeros]; omega⟩ (by rw [v2]; ring)
    (by unfold val; rw [reprNat_zeros, reprNat_modulus]; simp)
  refine ⟨d, ?_, h3, h4⟩
  unfold inverse
  rw [if_neg (fun hz => h ((isZero_eq a).1 hz)), h1]

end

end Fawkes.Limbs
