import Verif.Model.Limbs
import Verif.Lemmas.Num
import Mathlib.FieldTheory.Finite.Basic
import Mathlib.Tactic.LinearCombination

/-!
# Facts about field elements as machine words
-/

namespace Fawkes.Limbs

variable {p : Nat}

/-! ## Carries -/

theorem ofNat_toNat (n : Nat) : (UInt64.ofNat n).toNat = n % 2 ^ 64 := UInt64.toNat_ofNat'

theorem adc_eq (a b c : UInt64) : (adc a b c).1.toNat + 2 ^ 64 * (adc a b c).2.toNat = a.toNat + b.toNat + c.toNat := by
  have ha := a.toNat_lt; have hb := b.toNat_lt; have hc := c.toNat_lt
  simp only [adc, ofNat_toNat]
  omega

theorem mac_lt (a b c d : UInt64) : a.toNat + b.toNat * c.toNat + d.toNat < 2 ^ 128 := by
  have ha := a.toNat_lt; have hb := b.toNat_lt; have hc := c.toNat_lt; have hd := d.toNat_lt
  have : b.toNat * c.toNat ≤ (2 ^ 64 - 1) * (2 ^ 64 - 1) := Nat.mul_le_mul (by omega) (by omega)
  omega

theorem mac_eq (a b c d : UInt64) : (mac a b c d).1.toNat + 2 ^ 64 * (mac a b c d).2.toNat = a.toNat + b.toNat * c.toNat + d.toNat := by
  have h := mac_lt a b c d
  simp only [mac, ofNat_toNat]
  omega

theorem sbb_eq (a b c : UInt64) (hc : c.toNat ≤ 1) :
    (sbb a b c).1.toNat + b.toNat + c.toNat = a.toNat + 2 ^ 64 * (sbb a b c).2.toNat ∧ (sbb a b c).2.toNat ≤ 1 := by
  have ha := a.toNat_lt; have hb := b.toNat_lt
  simp only [sbb, ofNat_toNat]
  split
  · simp only [UInt64.toNat_one]; omega
  · simp only [UInt64.toNat_zero]; omega

/-! ## Integers -/

theorem addLoop_eq (a b : Words) (c : UInt64) (h : a.length = b.length) :
    (addLoop a b c).1.length = a.length ∧
    reprNat (addLoop a b c).1 + 2 ^ (64 * a.length) * (addLoop a b c).2.toNat = reprNat a + reprNat b + c.toNat := by
  induction a generalizing b c with
  | nil => cases b with
    | nil => simp [addLoop, reprNat]
    | cons => simp at h
  | cons x a ih => cases b with
    | nil => simp at h
    | cons y b =>
      have h1 := adc_eq x y c
      obtain ⟨h2, h3⟩ := ih b (adc x y c).2 (by simpa using h)
      refine ⟨by simp [addLoop, h2], ?_⟩
      simp only [addLoop, reprNat, List.length_cons, Nat.mul_add, pow_add, Nat.mul_one]
      linear_combination h1 + 2 ^ 64 * h3

theorem addNocarry_length (a b : Words) (h : a.length = b.length) : (addNocarry a b).length = a.length := (addLoop_eq a b 0 h).1

theorem addNocarry_eq (a b : Words) (h : a.length = b.length) (hlt : reprNat a + reprNat b < 2 ^ (64 * a.length)) :
    reprNat (addNocarry a b) = reprNat a + reprNat b := by
  have h1 := (addLoop_eq a b 0 h).2
  simp only [UInt64.toNat_zero, Nat.add_zero] at h1
  have : (addLoop a b 0).2.toNat = 0 := by
    by_contra hne
    have : 2 ^ (64 * a.length) * 1 ≤ 2 ^ (64 * a.length) * (addLoop a b 0).2.toNat := Nat.mul_le_mul_left _ (by omega)
    omega
  rw [this] at h1
  exact h1

theorem subLoop_eq (a b : Words) (c : UInt64) (h : a.length = b.length) (hc : c.toNat ≤ 1) :
    (subLoop a b c).1.length = a.length ∧
    reprNat (subLoop a b c).1 + reprNat b + c.toNat = reprNat a + 2 ^ (64 * a.length) * (subLoop a b c).2.toNat := by
  induction a generalizing b c with
  | nil => cases b with
    | nil => simp [subLoop, reprNat]
    | cons => simp at h
  | cons x a ih => cases b with
    | nil => simp at h
    | cons y b =>
      obtain ⟨h1, h1'⟩ := sbb_eq x y c hc
      obtain ⟨h2, h3⟩ := ih b (sbb x y c).2 (by simpa using h) h1'
      refine ⟨by simp [subLoop, h2], ?_⟩
      simp only [subLoop, reprNat, List.length_cons, Nat.mul_add, pow_add, Nat.mul_one]
      linear_combination h1 + 2 ^ 64 * h3

theorem subNoborrow_length (a b : Words) (h : a.length = b.length) : (subNoborrow a b).length = a.length :=
  (subLoop_eq a b 0 h (by simp)).1

theorem subNoborrow_eq (a b : Words) (h : a.length = b.length) (hle : reprNat b ≤ reprNat a) :
    reprNat (subNoborrow a b) = reprNat a - reprNat b := by
  obtain ⟨h0, h1⟩ := subLoop_eq a b 0 h (by simp)
  simp only [UInt64.toNat_zero, Nat.add_zero] at h1
  have hlt := reprNat_lt (subLoop a b 0).1
  rw [h0] at hlt
  have hb := reprNat_lt b
  rw [← h] at hb
  have : (subLoop a b 0).2.toNat = 0 := by
    by_contra hne
    have : 2 ^ (64 * a.length) * 1 ≤ 2 ^ (64 * a.length) * (subLoop a b 0).2.toNat := Nat.mul_le_mul_left _ (by omega)
    omega
  rw [this] at h1
  show reprNat (subLoop a b 0).1 = _
  omega

theorem lessLoop_eq (a b : Words) (h : a.length = b.length) : lessLoop a b = true ↔ reprNat a.reverse < reprNat b.reverse := by
  induction a generalizing b with
  | nil => cases b with
    | nil => simp [lessLoop]
    | cons => simp at h
  | cons x a ih => cases b with
    | nil => simp at h
    | cons y b =>
      have hl : a.length = b.length := by simpa using h
      have ha := reprNat_lt a.reverse
      have hb := reprNat_lt b.reverse
      simp only [List.reverse_cons, reprNat_append_single, List.length_reverse] at *
      rw [hl] at ha ⊢
      unfold lessLoop
      generalize 2 ^ (64 * b.length) = M at *
      by_cases h1 : x < y
      · simp only [h1, if_true, true_iff]
        have h1' : x.toNat + 1 ≤ y.toNat := UInt64.lt_iff_toNat_lt.1 h1
        nlinarith [Nat.mul_le_mul_left M h1']
      · by_cases h2 : y < x
        · simp only [h1, h2, if_true, if_false]
          have h1' : y.toNat + 1 ≤ x.toNat := UInt64.lt_iff_toNat_lt.1 h2
          have := Nat.mul_le_mul_left M h1'
          simp only [Bool.false_eq_true, false_iff, not_lt]
          nlinarith
        · simp only [h1, h2, if_false]
          have h3 : x.toNat = y.toNat := by
            have := mt UInt64.lt_iff_toNat_lt.2 h1
            have := mt UInt64.lt_iff_toNat_lt.2 h2
            omega
          rw [ih b hl, h3]
          omega

theorem less_eq (a b : Words) (h : a.length = b.length) : less a b = true ↔ reprNat a < reprNat b := by
  unfold less
  rw [lessLoop_eq _ _ (by simpa using h), List.reverse_reverse, List.reverse_reverse]

theorem less_eq_false (a b : Words) (h : a.length = b.length) : less a b = false ↔ reprNat b ≤ reprNat a := by
  have := less_eq a b h
  cases hh : less a b <;> simp_all

theorem isZero_eq (a : Words) : isZero a = true ↔ reprNat a = 0 := by
  unfold isZero
  induction a with
  | nil => simp [reprNat]
  | cons x a ih =>
    simp only [List.all_cons, Bool.and_eq_true, ih, reprNat, decide_eq_true_eq]
    constructor
    · rintro ⟨rfl, h⟩; simp [h]
    · intro h
      refine ⟨UInt64.toNat_inj.1 (by simp only [UInt64.toNat_zero]; omega), by omega⟩

theorem isOdd_eq (a : Words) : isOdd a = true ↔ reprNat a % 2 = 1 := by
  unfold isOdd
  cases a with
  | nil => simp [reprNat]
  | cons x a =>
    simp only [List.getD_cons_zero, decide_eq_true_eq, reprNat]
    rw [← UInt64.toNat_inj, UInt64.toNat_and, UInt64.toNat_one, Nat.and_one_is_mod]
    omega

theorem isEven_eq (a : Words) : isEven a = true ↔ reprNat a % 2 = 0 := by
  unfold isEven
  have := isOdd_eq a
  cases hh : isOdd a <;> simp_all

theorem shiftLeft_toNat (x : UInt64) (k : Nat) (hk : k < 64) : (x <<< UInt64.ofNat k).toNat = x.toNat * 2 ^ k % 2 ^ 64 := by
  rw [UInt64.toNat_shiftLeft, ofNat_toNat, Nat.shiftLeft_eq]
  congr 2
  congr 1
  omega

theorem shiftRight_toNat (x : UInt64) (k : Nat) (hk : k < 64) : (x >>> UInt64.ofNat k).toNat = x.toNat / 2 ^ k := by
  rw [UInt64.toNat_shiftRight, ofNat_toNat, Nat.shiftRight_eq_div_pow]
  congr 2
  omega

/-- One word of `div2`. -/
theorem half_word (i t : UInt64) (ht : t.toNat = 0 ∨ t.toNat = 2 ^ 63) : ((i >>> 1) ||| t).toNat = i.toNat / 2 + t.toNat := by
  have hi := i.toNat_lt
  have h1 : (i >>> 1).toNat = i.toNat / 2 := shiftRight_toNat i 1 (by omega)
  rw [UInt64.toNat_or, h1]
  rcases ht with h | h
  · rw [h]; simp
  · rw [h, Nat.or_comm]
    have := Nat.two_pow_add_eq_or_of_lt (i := 63) (b := i.toNat / 2) (by omega) 1
    rw [Nat.mul_one] at this
    omega

theorem low_bit (i : UInt64) : (i <<< 63).toNat = 2 ^ 63 * (i.toNat % 2) := by
  have h1 : (i <<< 63).toNat = i.toNat * 2 ^ 63 % 2 ^ 64 := shiftLeft_toNat i 63 (by omega)
  rw [h1]; omega

theorem div2Loop_eq (a : Words) (t : UInt64) (ht : t.toNat = 0 ∨ t.toNat = 2 ^ 63) :
    (div2Loop a t).length = a.length ∧
    reprNat (div2Loop a t).reverse = (reprNat a.reverse + 2 * t.toNat * 2 ^ (64 * a.length) / 2 ^ 64) / 2 := by
  induction a generalizing t with
  | nil => rcases ht with h | h <;> simp [div2Loop, reprNat, h]
  | cons i a ih =>
    have hb := low_bit i
    obtain ⟨h1, h2⟩ := ih (i <<< 63) (by rw [hb]; rcases Nat.mod_two_eq_zero_or_one i.toNat with h | h <;> rw [h] <;> simp)
    refine ⟨by simp [div2Loop, h1], ?_⟩
    simp only [div2Loop, List.reverse_cons, reprNat_append_single, List.length_reverse, h1, h2, half_word i t ht, hb, List.length_cons]
    have ha := reprNat_lt a.reverse
    rw [List.length_reverse] at ha
    have e : 2 ^ (64 * (a.length + 1)) = 2 ^ (64 * a.length) * 2 ^ 64 := by rw [Nat.mul_add, pow_add, Nat.mul_one]
    rw [e]
    have e2 : 2 * t.toNat * (2 ^ (64 * a.length) * 2 ^ 64) / 2 ^ 64 = 2 * t.toNat * 2 ^ (64 * a.length) := by
      rw [← Nat.mul_assoc, Nat.mul_div_cancel _ (by norm_num)]
    rw [e2]
    rcases Nat.eq_zero_or_pos a.length with hz | hz
    · have : a = [] := List.eq_nil_of_length_eq_zero hz
      subst this
      simp [reprNat]
      rcases ht with h | h <;> rw [h] <;> omega
    · obtain ⟨n, hn⟩ : ∃ n, a.length = n + 1 := ⟨a.length - 1, by omega⟩
      have e3 : 2 ^ (64 * a.length) = 2 * (2 ^ 63 * 2 ^ (64 * n)) := by
        rw [hn, Nat.mul_add, pow_add, Nat.mul_one]; norm_num; ring
      have e4 : 2 * (2 ^ 63 * (i.toNat % 2)) * 2 ^ (64 * a.length) / 2 ^ 64 = (i.toNat % 2) * 2 ^ (64 * a.length) := by
        rw [show 2 * (2 ^ 63 * (i.toNat % 2)) * 2 ^ (64 * a.length) = (i.toNat % 2) * 2 ^ (64 * a.length) * 2 ^ 64 by ring,
          Nat.mul_div_cancel _ (by norm_num)]
      rw [e4]
      have hd : i.toNat = 2 * (i.toNat / 2) + i.toNat % 2 := by omega
      generalize hM : 2 ^ (64 * a.length) = M at *
      have : reprNat a.reverse + M * i.toNat + 2 * t.toNat * M = (reprNat a.reverse + i.toNat % 2 * M) + 2 * (M * (i.toNat / 2 + t.toNat)) := by
        conv_lhs => rw [hd]
        ring
      rw [this]
      omega

theorem div2_length (a : Words) : (div2 a).length = a.length := by
  unfold div2
  rw [List.length_reverse, (div2Loop_eq a.reverse 0 (by simp)).1, List.length_reverse]

theorem div2_eq (a : Words) : reprNat (div2 a) = reprNat a / 2 := by
  unfold div2
  rw [(div2Loop_eq a.reverse 0 (by simp)).2, List.reverse_reverse]
  simp

/-- One word of `mul2`. -/
theorem twice_word (i t : UInt64) (ht : t.toNat ≤ 1) : ((i <<< 1) ||| t).toNat + 2 ^ 64 * (i >>> 63).toNat = 2 * i.toNat + t.toNat ∧ (i >>> 63).toNat ≤ 1 := by
  have hi := i.toNat_lt
  have h1 : (i <<< 1).toNat = i.toNat * 2 ^ 1 % 2 ^ 64 := shiftLeft_toNat i 1 (by omega)
  have h2 : (i >>> 63).toNat = i.toNat / 2 ^ 63 := shiftRight_toNat i 63 (by omega)
  rw [UInt64.toNat_or, h1, h2]
  have h3 := Nat.two_pow_add_eq_or_of_lt (i := 1) (b := t.toNat) (by omega) (i.toNat % 2 ^ 63)
  have h4 : i.toNat * 2 ^ 1 % 2 ^ 64 = 2 ^ 1 * (i.toNat % 2 ^ 63) := by omega
  rw [h4, ← h3]
  omega

theorem mul2Loop_eq (a : Words) (t : UInt64) (ht : t.toNat ≤ 1) :
    (mul2Loop a t).1.length = a.length ∧
    reprNat (mul2Loop a t).1 + 2 ^ (64 * a.length) * (mul2Loop a t).2.toNat = 2 * reprNat a + t.toNat := by
  induction a generalizing t with
  | nil => simp [mul2Loop, reprNat]
  | cons i a ih =>
    obtain ⟨h1, h1'⟩ := twice_word i t ht
    obtain ⟨h2, h3⟩ := ih (i >>> 63) h1'
    refine ⟨by simp [mul2Loop, h2], ?_⟩
    simp only [mul2Loop, reprNat, List.length_cons, Nat.mul_add, pow_add, Nat.mul_one]
    linear_combination h1 + 2 ^ 64 * h3

theorem mul2_length (a : Words) : (mul2 a).length = a.length := (mul2Loop_eq a 0 (by simp)).1

theorem mul2_eq (a : Words) (h : 2 * reprNat a < 2 ^ (64 * a.length)) : reprNat (mul2 a) = 2 * reprNat a := by
  have h1 := (mul2Loop_eq a 0 (by simp)).2
  simp only [UInt64.toNat_zero, Nat.add_zero] at h1
  have : (mul2Loop a 0).2.toNat = 0 := by
    by_contra hne
    have : 2 ^ (64 * a.length) * 1 ≤ 2 ^ (64 * a.length) * (mul2Loop a 0).2.toNat := Nat.mul_le_mul_left _ (by omega)
    omega
  rw [this] at h1
  exact h1

/-! ## Products -/

theorem macRow_eq (r m : Words) (k c : UInt64) (h : r.length = m.length) :
    (macRow r k m c).1.length = r.length ∧
    reprNat (macRow r k m c).1 + 2 ^ (64 * r.length) * (macRow r k m c).2.toNat = reprNat r + k.toNat * reprNat m + c.toNat := by
  induction r generalizing m c with
  | nil => cases m with
    | nil => simp [macRow, reprNat]
    | cons => simp at h
  | cons x r ih => cases m with
    | nil => simp at h
    | cons y m =>
      have h1 := mac_eq x k y c
      obtain ⟨h2, h3⟩ := ih m (mac x k y c).2 (by simpa using h)
      refine ⟨by simp [macRow, h2], ?_⟩
      simp only [macRow, reprNat, List.length_cons, Nat.mul_add, pow_add, Nat.mul_one]
      linear_combination h1 + 2 ^ 64 * h3

theorem mulRows_eq (a b w : Words) (h : w.length = b.length) (hb : b ≠ []) :
    (mulRows a b w).length = a.length + b.length ∧ reprNat (mulRows a b w) = reprNat w + reprNat a * reprNat b := by
  induction a generalizing w with
  | nil => simp [mulRows, reprNat, h]
  | cons x a ih =>
    obtain ⟨h1, h2⟩ := macRow_eq w b x 0 h
    have hpos : 0 < b.length := List.length_pos_iff.2 hb
    simp only [mulRows]
    cases ho : (macRow w x b 0).1 with
    | nil => rw [ho] at h1; simp at h1; omega
    | cons y o =>
      rw [ho] at h1 h2
      simp only [List.length_cons] at h1
      obtain ⟨h3, h4⟩ := ih (o ++ [(macRow w x b 0).2]) (by simp; omega)
      simp only [List.getD_cons_zero, List.tail_cons]
      refine ⟨by simp [h3]; omega, ?_⟩
      simp only [reprNat, h4, reprNat_append_single]
      simp only [reprNat, ← h1, Nat.mul_add, pow_add, Nat.mul_one, UInt64.toNat_zero, Nat.add_zero] at h2
      linear_combination h2

theorem mulFull_eq (a b : Words) (h : a.length = b.length) :
    (mulFull a b).length = a.length + b.length ∧ reprNat (mulFull a b) = reprNat a * reprNat b := by
  have hz : ∀ n, reprNat (List.replicate n 0) = 0 := fun n => by
    induction n with
    | zero => rfl
    | succ n ih => simp [List.replicate_succ, reprNat, ih]
  unfold mulFull
  by_cases hb : b = []
  · subst hb
    have : a = [] := List.eq_nil_of_length_eq_zero (by simpa using h)
    subst this
    simp [mulRows, reprNat]
  · obtain ⟨h1, h2⟩ := mulRows_eq a b (List.replicate a.length 0) (by simpa using h) hb
    exact ⟨h1, by rw [h2, hz, Nat.zero_add]⟩

/-- The products of different words. -/
def cross : Words → Nat
  | [] => 0
  | a :: as => a.toNat * reprNat as + 2 ^ 128 * cross as

/-- The squares of the words. -/
def squaresOf : Words → Nat
  | [] => 0
  | a :: as => a.toNat * a.toNat + 2 ^ 128 * squaresOf as

theorem square_split (a : Words) : reprNat a * reprNat a = squaresOf a + 2 ^ 64 * (2 * cross a) := by
  induction a with
  | nil => rfl
  | cons x a ih =>
    simp only [reprNat, squaresOf, cross]
    linear_combination 2 ^ 128 * ih

theorem offDiagonal_eq (a w : Words) (ha : a ≠ []) (h : w.length + 1 = a.length) :
    (offDiagonal a w).length = 2 * (a.length - 1) ∧ reprNat (offDiagonal a w) = reprNat w + cross a := by
  induction a generalizing w with
  | nil => exact absurd rfl ha
  | cons x a ih =>
    cases a with
    | nil =>
      have : w = [] := List.eq_nil_of_length_eq_zero (by simpa using h)
      subst this
      simp [offDiagonal, reprNat, cross]
    | cons y a =>
      have hl : w.length = (y :: a).length := by simpa using h
      obtain ⟨h1, h2⟩ := macRow_eq w (y :: a) x 0 hl
      unfold offDiagonal
      simp only
      cases ho : (macRow w x (y :: a) 0).1 with
      | nil => rw [ho] at h1; simp [hl] at h1
      | cons z o =>
        rw [ho] at h1 h2
        generalize (macRow w x (y :: a) 0).2 = c at *
        have hol : o.length = a.length := by simp [hl] at h1; omega
        obtain ⟨v, o', hv⟩ : ∃ v o', o ++ [c] = v :: o' := by cases o <;> exact ⟨_, _, rfl⟩
        have hlen : (o ++ [c]).length = a.length + 1 := by simp [hol]
        rw [hv, List.length_cons] at hlen
        have hval : reprNat (o ++ [c]) = v.toNat + 2 ^ 64 * reprNat o' := by rw [hv]; rfl
        rw [reprNat_append_single] at hval
        obtain ⟨h3, h4⟩ := ih o' (by simp) (by simp; omega)
        simp only [List.cons_append, hv, List.getD_cons_zero, List.getD_cons_succ, List.drop_succ_cons, List.drop_zero]
        refine ⟨by simp [h3] ; omega, ?_⟩
        simp only [List.length_cons] at h1
        simp only [← h1, reprNat, Nat.mul_add, pow_add, Nat.mul_one, UInt64.toNat_zero, Nat.add_zero] at h2
        simp only [reprNat, h4, cross]
        linear_combination h2 - 2 ^ 64 * hval

theorem diagonal_eq (a r : Words) (c : UInt64) (h : r.length = 2 * a.length) (hlt : reprNat r + squaresOf a + c.toNat < 2 ^ (64 * r.length)) :
    (diagonal a r c).length = r.length ∧ reprNat (diagonal a r c) = reprNat r + squaresOf a + c.toNat := by
  induction a generalizing r c with
  | nil =>
    have : r = [] := List.eq_nil_of_length_eq_zero (by simpa using h)
    subst this
    simp [reprNat, squaresOf] at hlt
    simp [diagonal, reprNat, squaresOf, hlt]
  | cons x a ih =>
    match r, h with
    | [], h => simp at h
    | [_], h => simp at h; omega
    | r0 :: r1 :: r, h =>
      have h1 := mac_eq r0 x x c
      have h2 := adc_eq r1 0 (mac r0 x x c).2
      simp only [UInt64.toNat_zero, Nat.add_zero] at h2
      simp only [List.length_cons, Nat.mul_add, pow_add, Nat.mul_one] at hlt
      simp only [reprNat, squaresOf] at hlt
      have key : reprNat r + squaresOf a + (adc r1 0 (mac r0 x x c).2).2.toNat < 2 ^ (64 * r.length) := by
        by_contra hn
        have := Nat.mul_le_mul_left (2 ^ 128) (not_lt.1 hn)
        generalize 2 ^ (64 * r.length) = M at *
        omega
      obtain ⟨h3, h4⟩ := ih r (adc r1 0 (mac r0 x x c).2).2 (by simp at h; omega) key
      refine ⟨by simp [diagonal, h3], ?_⟩
      simp only [diagonal, reprNat, h4, squaresOf]
      linear_combination h1 + 2 ^ 64 * h2

theorem reprNat_zeros (n : Nat) : reprNat (List.replicate n 0) = 0 := by
  induction n with
  | zero => rfl
  | succ n ih => simp [List.replicate_succ, reprNat, ih]

theorem squareFull_eq (a : Words) (ha : a ≠ []) :
    (squareFull a).length = a.length + a.length ∧ reprNat (squareFull a) = reprNat a * reprNat a := by
  have hpos : 0 < a.length := List.length_pos_iff.2 ha
  obtain ⟨h1, h2⟩ := offDiagonal_eq a (List.replicate (a.length - 1) 0) ha (by simp; omega)
  rw [reprNat_zeros, Nat.zero_add] at h2
  obtain ⟨h3, h4⟩ := mul2Loop_eq (offDiagonal a (List.replicate (a.length - 1) 0)) 0 (by simp)
  rw [h1] at h3 h4
  rw [h2] at h4
  unfold squareFull
  simp only
  have hr : reprNat (0 :: (mul2Loop (offDiagonal a (List.replicate (a.length - 1) 0)) 0).1 ++
      [(mul2Loop (offDiagonal a (List.replicate (a.length - 1) 0)) 0).2]) = 2 ^ 64 * (2 * cross a) := by
    rw [reprNat_append_single, List.length_cons, h3]
    simp only [reprNat, UInt64.toNat_zero, Nat.zero_add, Nat.mul_add, pow_add, Nat.mul_one] at h4 ⊢
    linear_combination 2 ^ 64 * h4
  have hl : (0 :: (mul2Loop (offDiagonal a (List.replicate (a.length - 1) 0)) 0).1 ++
      [(mul2Loop (offDiagonal a (List.replicate (a.length - 1) 0)) 0).2]).length = 2 * a.length := by
    simp [h3]; omega
  have hsq := square_split a
  have hlt := reprNat_lt a
  have hlt2 : reprNat a * reprNat a < 2 ^ (64 * (2 * a.length)) := by
    rw [show 64 * (2 * a.length) = 64 * a.length + 64 * a.length by ring, pow_add]
    exact Nat.mul_lt_mul'' hlt hlt
  obtain ⟨h5, h6⟩ := diagonal_eq a _ 0 hl (by rw [hr, hl]; simp only [UInt64.toNat_zero]; omega)
  refine ⟨by rw [h5, hl]; omega, ?_⟩
  rw [h6, hr]
  simp only [UInt64.toNat_zero]
  omega

/-! ## Montgomery reduction -/

theorem modulus_length : (modulus p).length = nLimbs p := limbsOf_length _ _

theorem reprNat_modulus : reprNat (modulus p) = p := by
  unfold modulus
  rw [reprNat_limbsOf, Nat.mod_eq_of_lt (lt_two_pow_limbs p)]

/-- The words have room for twice the modulus. -/
theorem two_mul_le (p : Nat) : 2 * p < 2 ^ (64 * nLimbs p) := by
  have h1 := lt_two_pow_numBits p
  have h2 := numBits_lt p
  calc 2 * p < 2 * 2 ^ numBits p := by omega
    _ = 2 ^ (numBits p + 1) := by rw [pow_succ]; ring
    _ ≤ _ := Nat.pow_le_pow_right (by norm_num) h2

theorem nLimbs_pos (p : Nat) : 0 < nLimbs p := by unfold nLimbs; omega

/-- A word modulo `2^64`. -/
def residue (x : UInt64) : ZMod (2 ^ 64) := (x.toNat : ZMod (2 ^ 64))

theorem residue_mul (x y : UInt64) : residue (x * y) = residue x * residue y := by
  unfold residue
  rw [UInt64.toNat_mul, ZMod.natCast_mod, Nat.cast_mul]

theorem residue_neg (x : UInt64) : residue (-x) = -residue x := by
  unfold residue
  have hx := x.toNat_lt
  have e : (-x).toNat = (2 ^ 64 - x.toNat) % 2 ^ 64 := UInt64.toNat_neg x
  rw [e, ZMod.natCast_mod, Nat.cast_sub (by omega), ZMod.natCast_self, zero_sub]

theorem invLoop_eq (m : UInt64) (k : Nat) (x : UInt64) :
    ∃ e, residue (invLoop m k x) = residue x ^ (2 ^ k) * residue m ^ e ∧ e + 1 = 2 ^ k := by
  induction k generalizing x with
  | zero => exact ⟨0, by simp [invLoop], rfl⟩
  | succ k ih =>
    obtain ⟨e, h1, h2⟩ := ih (x * x * m)
    refine ⟨2 ^ k + e, ?_, by rw [pow_succ]; omega⟩
    rw [invLoop, h1, residue_mul, residue_mul, mul_pow, ← pow_two, ← pow_mul, ← pow_succ', mul_assoc, pow_add (residue m)]

theorem odd_pow (m : Nat) (h : m % 2 = 1) : (m : ZMod (2 ^ 64)) ^ (2 ^ 63) = 1 := by
  have hc : Nat.Coprime m (2 ^ 64) := Nat.Coprime.pow_right _ (Nat.coprime_two_right.2 (Nat.odd_iff.2 h))
  have := ZMod.pow_totient (ZMod.unitOfCoprime m hc)
  rw [Nat.totient_prime_pow Nat.prime_two (by norm_num)] at this
  have h2 := congrArg Units.val this
  simpa using h2

theorem residue_inv (h : p % 2 = 1) : residue (constINV p) * (p : ZMod (2 ^ 64)) = -1 := by
  have hm : residue ((modulus p).getD 0 0) = (p : ZMod (2 ^ 64)) := by
    have := reprNat_modulus (p := p)
    cases hl : modulus p with
    | nil =>
      have h1 := modulus_length (p := p)
      have h2 := nLimbs_pos p
      rw [hl] at h1; simp at h1; omega
    | cons x xs =>
      rw [hl] at this
      simp only [List.getD_cons_zero, residue]
      rw [← this, reprNat, Nat.cast_add, Nat.cast_mul, ZMod.natCast_self, zero_mul, add_zero]
  unfold constINV
  obtain ⟨e, h1, h2⟩ := invLoop_eq ((modulus p).getD 0 0) 63 1
  rw [residue_neg, h1, hm, show residue 1 = 1 by simp [residue], one_pow, one_mul, neg_mul, ← pow_succ, h2, odd_pow p h]

/-- The factor of a step makes the lowest word zero. -/
theorem step_dvd (h : p % 2 = 1) (w : UInt64) (ws : Words) : 2 ^ 64 ∣ reprNat (w :: ws) + (w * constINV p).toNat * p := by
  rw [← CharP.cast_eq_zero_iff (ZMod (2 ^ 64)) (2 ^ 64)]
  have h1 : ((w * constINV p).toNat : ZMod (2 ^ 64)) = residue w * residue (constINV p) := residue_mul _ _
  rw [Nat.cast_add, Nat.cast_mul, h1, reprNat, Nat.cast_add, Nat.cast_mul, ZMod.natCast_self, zero_mul, add_zero, mul_assoc, residue_inv h]
  show residue w + residue w * -1 = 0
  ring

theorem montLoop_eq (h : p % 2 = 1) (rest w : Words) (c2 : UInt64) (hw : w.length = nLimbs p) :
    (montLoop p w rest c2).length = nLimbs p ∧ ∃ K c, K < 2 ^ (64 * rest.length) ∧
      (reprNat (montLoop p w rest c2) + 2 ^ (64 * nLimbs p) * c) * 2 ^ (64 * rest.length) =
        reprNat w + 2 ^ (64 * nLimbs p) * (reprNat rest + c2.toNat) + K * p := by
  induction rest generalizing w c2 with
  | nil => exact ⟨by simp [montLoop, hw], 0, c2.toNat, by simp, by simp [montLoop, reprNat]⟩
  | cons x rest ih =>
    have hn := nLimbs_pos p
    cases w with
    | nil => simp at hw; omega
    | cons w0 w =>
      obtain ⟨h1, h2⟩ := macRow_eq (w0 :: w) (modulus p) (w0 * constINV p) 0 (by rw [hw, modulus_length])
      rw [reprNat_modulus] at h2
      have hd := step_dvd h w0 w
      rw [montLoop]
      simp only [List.getD_cons_zero]
      cases ho : (macRow (w0 :: w) (w0 * constINV p) (modulus p) 0).1 with
      | nil => rw [ho] at h1; simp at h1
      | cons y o =>
        rw [ho] at h1 h2
        generalize (macRow (w0 :: w) (w0 * constINV p) (modulus p) 0).2 = c at *
        have hk := (w0 * constINV p).toNat_lt
        generalize (w0 * constINV p).toNat = k at *
        have h3 := adc_eq x c2 c
        generalize (adc x c2 c).1 = x' at *
        generalize (adc x c2 c).2 = c2' at *
        rw [hw] at h1 h2
        simp only [List.length_cons] at h1
        obtain ⟨h4, K, c', h5, h6⟩ := ih (o ++ [x']) c2' (by simp; omega)
        simp only [List.tail_cons]
        refine ⟨h4, k + 2 ^ 64 * K, c', ?_, ?_⟩
        · simp only [List.length_cons, Nat.mul_add, pow_add, Nat.mul_one]
          generalize 2 ^ (64 * rest.length) = M at *
          nlinarith
        · rw [reprNat_append_single] at h6
          have he : 2 ^ (64 * nLimbs p) = 2 ^ (64 * o.length) * 2 ^ 64 := by rw [← h1, Nat.mul_add, pow_add]
          simp only [UInt64.toNat_zero, Nat.add_zero] at h2
          have hy : y.toNat = 0 := by
            have hy' := y.toNat_lt
            rw [← h2, he, reprNat] at hd
            have : 2 ^ 64 ∣ y.toNat := by
              rw [show y.toNat + 2 ^ 64 * reprNat o + 2 ^ (64 * o.length) * 2 ^ 64 * c.toNat =
                y.toNat + 2 ^ 64 * (reprNat o + 2 ^ (64 * o.length) * c.toNat) by ring] at hd
              exact (Nat.dvd_add_left (Dvd.intro _ rfl)).1 hd
            exact Nat.eq_zero_of_dvd_of_lt this hy'
          simp only [reprNat, hy, Nat.zero_add] at h2 ⊢
          simp only [List.length_cons, Nat.mul_add, pow_add, Nat.mul_one]
          simp only [Nat.mul_add] at h6
          rw [he] at *
          generalize 2 ^ (64 * rest.length) = M at *
          generalize 2 ^ (64 * o.length) = N at *
          linear_combination 2 ^ 64 * h6 + h2 + N * 2 ^ 64 * h3

theorem reprNat_append (a b : Words) : reprNat (a ++ b) = reprNat a + 2 ^ (64 * a.length) * reprNat b := by
  induction a with
  | nil => simp [reprNat]
  | cons x a ih =>
    simp only [List.cons_append, reprNat, ih, List.length_cons, Nat.mul_add, pow_add, Nat.mul_one]
    ring

theorem reduce_eq (a : Words) (ha : a.length = nLimbs p) (h : reprNat a < 2 * p) :
    (reduce p a).length = nLimbs p ∧ reprNat (reduce p a) < p ∧ (reprNat (reduce p a) : ZMod p) = (reprNat a : ZMod p) := by
  unfold reduce isValid
  have hl : a.length = (modulus p).length := by rw [ha, modulus_length]
  have h1 := less_eq a (modulus p) hl
  rw [reprNat_modulus] at h1
  split
  · rename_i hh; exact ⟨ha, h1.1 hh, rfl⟩
  · rename_i hh
    have hge : p ≤ reprNat a := by by_contra hc; exact hh (h1.2 (by omega))
    have h2 := subNoborrow_eq a (modulus p) hl (by rw [reprNat_modulus]; exact hge)
    rw [reprNat_modulus] at h2
    refine ⟨by rw [subNoborrow_length a _ hl, ha], by rw [h2]; omega, ?_⟩
    rw [h2, Nat.cast_sub hge, ZMod.natCast_self, sub_zero]

theorem montReduce_eq (h : p % 2 = 1) (r : Words) (hr : r.length = nLimbs p + nLimbs p) (hlt : reprNat r < p * 2 ^ (64 * nLimbs p)) :
    (montReduce p r).length = nLimbs p ∧ reprNat (montReduce p r) < p ∧
      (reprNat (montReduce p r) : ZMod p) * 2 ^ (64 * nLimbs p) = (reprNat r : ZMod p) := by
  have h0 : (r.take (nLimbs p)).length = nLimbs p := by simp [hr]
  have h0' : (r.drop (nLimbs p)).length = nLimbs p := by simp [hr]
  obtain ⟨h1, K, c, h2, h3⟩ := montLoop_eq h (r.drop (nLimbs p)) (r.take (nLimbs p)) 0 h0
  have hv : reprNat r = reprNat (r.take (nLimbs p)) + 2 ^ (64 * nLimbs p) * reprNat (r.drop (nLimbs p)) := by
    conv_lhs => rw [← List.take_append_drop (nLimbs p) r]
    rw [reprNat_append, h0]
  simp only [UInt64.toNat_zero, Nat.add_zero] at h3
  rw [← hv, h0'] at h3
  rw [h0'] at h2
  have h2p := two_mul_le p
  have hp : 0 < p := by omega
  unfold montReduce
  generalize montLoop p (r.take (nLimbs p)) (r.drop (nLimbs p)) 0 = o at *
  have hlt2 : reprNat o + 2 ^ (64 * nLimbs p) * c < 2 * p := by
    have : (reprNat o + 2 ^ (64 * nLimbs p) * c) * 2 ^ (64 * nLimbs p) < (2 * p) * 2 ^ (64 * nLimbs p) := by
      rw [h3]
      have := Nat.mul_lt_mul_of_pos_right h2 hp
      linarith
    exact Nat.lt_of_mul_lt_mul_right this
  have hc : c = 0 := by
    by_contra hne
    have : 2 ^ (64 * nLimbs p) * 1 ≤ 2 ^ (64 * nLimbs p) * c := Nat.mul_le_mul_left _ (by omega)
    omega
  subst hc
  rw [Nat.mul_zero, Nat.add_zero] at h3 hlt2
  obtain ⟨h4, h5, h6⟩ := reduce_eq o h1 hlt2
  refine ⟨h4, h5, ?_⟩
  rw [h6]
  have := congrArg (Nat.cast : Nat → ZMod p) h3
  rw [Nat.cast_mul, Nat.cast_add, Nat.cast_mul K, ZMod.natCast_self, mul_zero, add_zero, Nat.cast_pow, Nat.cast_ofNat] at this
  exact this

end Fawkes.Limbs
