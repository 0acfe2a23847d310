import Verif.Model.Bellman
import Mathlib.RingTheory.RootsOfUnity.PrimitiveRoots
import Mathlib.Algebra.Polynomial.BigOperators
import Mathlib.Algebra.Polynomial.Eval.Degree
import Mathlib.Algebra.Polynomial.Roots

/-!
# Discrete Fourier transforms and the quotient of the prover
-/

namespace Fawkes.Groth16

open Polynomial Finset

variable {F : Type} [Field F]

/-- The parameters of the domain are what they should be. -/
structure Domain.Lawful (D : Domain F) : Prop where
  pos : 0 < D.m
  prim : IsPrimitiveRoot D.omega D.m
  card : (D.m : F) ≠ 0
  gen : D.generator ≠ 0
  coset : D.generator ^ D.m ≠ 1

namespace Domain

/-- The polynomial with these coefficients. -/
noncomputable def poly (m : Nat) (v : Nat → F) : F[X] := ∑ i ∈ range m, C (v i) * X ^ i

theorem eval_poly (m : Nat) (v : Nat → F) (x : F) : (poly m v).eval x = ∑ i ∈ range m, v i * x ^ i := by
  simp [poly, eval_finset_sum]

theorem degree_poly (m : Nat) (v : Nat → F) : (poly m v).natDegree ≤ m - 1 := by
  refine natDegree_sum_le_of_forall_le _ _ fun i hi => (natDegree_C_mul_X_pow_le _ _).trans ?_
  have := mem_range.1 hi
  omega

theorem coeff_poly (m : Nat) (v : Nat → F) (i : Nat) : (poly m v).coeff i = if i < m then v i else 0 := by
  simp only [poly, finset_sum_coeff, coeff_C_mul, coeff_X_pow, mul_ite, mul_one, mul_zero, Finset.sum_ite_eq, mem_range]

variable {D : Domain F}

theorem orthogonal (h : D.Lawful) {i k : Nat} (hi : i < D.m) (hk : k < D.m) :
    ∑ j ∈ range D.m, D.omega ^ (j * k) * D.omega⁻¹ ^ (j * i) = if i = k then (D.m : F) else 0 := by
  have h0 : D.omega ≠ 0 := h.prim.ne_zero (by have := h.pos; omega)
  have e : ∀ j, D.omega ^ (j * k) * D.omega⁻¹ ^ (j * i) = (D.omega ^ k * (D.omega ^ i)⁻¹) ^ j := by
    intro j
    rw [mul_pow, inv_pow, inv_pow, ← pow_mul, ← pow_mul, mul_comm k j, mul_comm i j]
  simp only [e]
  split_ifs with hik
  · subst hik
    rw [mul_inv_cancel₀ (pow_ne_zero _ h0)]
    simp
  · have hne : D.omega ^ k * (D.omega ^ i)⁻¹ ≠ 1 := by
      intro h1
      rw [mul_inv_eq_one₀ (pow_ne_zero _ h0)] at h1
      exact hik (h.prim.pow_inj hk hi h1).symm
    have h1 : (D.omega ^ k * (D.omega ^ i)⁻¹) ^ D.m = 1 := by
      rw [mul_pow, inv_pow, ← pow_mul, ← pow_mul, mul_comm k, mul_comm i, pow_mul, pow_mul, h.prim.pow_eq_one]
      simp
    have h2 := geom_sum_mul (D.omega ^ k * (D.omega ^ i)⁻¹) D.m
    rw [h1, sub_self] at h2
    exact (mul_eq_zero.1 h2).resolve_right (sub_ne_zero.2 hne)

theorem fft_eq (v : Nat → F) (k : Nat) : D.fft v k = (poly D.m v).eval (D.omega ^ k) := by
  rw [eval_poly]
  unfold fft dft
  refine sum_congr rfl fun j _ => ?_
  rw [← pow_mul, mul_comm k j]

/-- Interpolation: the polynomial takes the prescribed values on the domain. -/
theorem eval_ifft (h : D.Lawful) (v : Nat → F) {k : Nat} (hk : k < D.m) :
    (poly D.m (D.ifft v)).eval (D.omega ^ k) = v k := by
  rw [eval_poly]
  unfold ifft dft
  have e : ∀ i ∈ range D.m, (D.m : F)⁻¹ * (∑ j ∈ range D.m, v j * D.omega⁻¹ ^ (j * i)) * (D.omega ^ k) ^ i =
      ∑ j ∈ range D.m, (D.m : F)⁻¹ * v j * (D.omega ^ (i * k) * D.omega⁻¹ ^ (i * j)) := by
    intro i _
    rw [mul_sum, sum_mul]
    refine sum_congr rfl fun j _ => ?_
    rw [← pow_mul, mul_comm k i, mul_comm j i]
    ring
  rw [sum_congr rfl e, sum_comm]
  simp only [← mul_sum]
  rw [sum_congr rfl fun j hj => by rw [orthogonal h (mem_range.1 hj) hk]]
  simp only [mul_ite, mul_zero, sum_ite_eq', mem_range, hk, if_true]
  field_simp [h.card]

/-- The transform back gives the coefficients. -/
theorem ifft_eval (h : D.Lawful) (p : F[X]) (hp : p.natDegree < D.m) {i : Nat} (hi : i < D.m) :
    D.ifft (fun k => p.eval (D.omega ^ k)) i = p.coeff i := by
  unfold ifft dft
  have e : ∀ k ∈ range D.m, p.eval (D.omega ^ k) * D.omega⁻¹ ^ (k * i) =
      ∑ j ∈ range D.m, p.coeff j * (D.omega ^ (k * j) * D.omega⁻¹ ^ (k * i)) := by
    intro k _
    rw [eval_eq_sum_range' hp, sum_mul]
    refine sum_congr rfl fun j _ => ?_
    rw [← pow_mul, mul_assoc]
  rw [sum_congr rfl e, sum_comm]
  simp only [← mul_sum]
  rw [sum_congr rfl fun j hj => by rw [orthogonal h hi (mem_range.1 hj)]]
  simp only [mul_ite, mul_zero, sum_ite_eq, mem_range, hi, if_true]
  field_simp [h.card]

/-- The values of the Lagrange polynomials at a point. -/
theorem lagrange_sum (v : Nat → F) (t : F) :
    ∑ j ∈ range D.m, D.ifft (fun i => t ^ i) j * v j = (poly D.m (D.ifft v)).eval t := by
  rw [eval_poly]
  unfold ifft dft
  simp only [mul_sum, sum_mul]
  rw [sum_comm]
  refine sum_congr rfl fun i _ => sum_congr rfl fun j _ => ?_
  rw [mul_comm i j]
  ring

theorem cosetFft_eq (v : Nat → F) (k : Nat) :
    D.cosetFft v k = (poly D.m v).eval (D.generator * D.omega ^ k) := by
  unfold cosetFft
  rw [fft_eq, eval_poly, eval_poly]
  refine sum_congr rfl fun j _ => ?_
  rw [mul_pow]
  ring

theorem icosetFft_eval (h : D.Lawful) (p : F[X]) (hp : p.natDegree < D.m) {i : Nat} (hi : i < D.m) :
    D.icosetFft (fun k => p.eval (D.generator * D.omega ^ k)) i = p.coeff i := by
  unfold icosetFft
  have e : (fun k => p.eval (D.generator * D.omega ^ k)) =
      fun k => (p.comp (C D.generator * X)).eval (D.omega ^ k) := by
    funext k
    simp
  have hd : (p.comp (C D.generator * X)).natDegree < D.m := by
    refine lt_of_le_of_lt natDegree_comp_le ?_
    have : (C D.generator * X : F[X]).natDegree ≤ 1 := (natDegree_C_mul_le _ _).trans natDegree_X_le
    calc p.natDegree * (C D.generator * X : F[X]).natDegree ≤ p.natDegree * 1 := Nat.mul_le_mul_left _ this
      _ < D.m := by omega
  rw [e, ifft_eval h _ hd hi, comp_C_mul_X_coeff]
  rw [inv_pow]
  field_simp [pow_ne_zero i h.gen]

/-- The vanishing polynomial. -/
noncomputable def vanishing (D : Domain F) : F[X] := X ^ D.m - 1

theorem eval_vanishing (t : F) : D.vanishing.eval t = D.z t := by simp [vanishing, z]

theorem vanishing_monic (h : D.Lawful) : D.vanishing.Monic := by
  have := monic_X_pow_sub_C (1 : F) (n := D.m) (by have := h.pos; omega)
  simpa [vanishing] using this

theorem vanishing_natDegree : D.vanishing.natDegree = D.m := by
  have := natDegree_X_pow_sub_C (n := D.m) (r := (1 : F))
  simpa [vanishing] using this

/-- A polynomial that is zero on the domain is a multiple of the vanishing polynomial. -/
theorem vanishing_dvd (h : D.Lawful) (p : F[X]) (hp : ∀ k < D.m, p.eval (D.omega ^ k) = 0) : D.vanishing ∣ p := by
  have hr := modByMonic_add_div p D.vanishing
  have hd : (p %ₘ D.vanishing).degree < D.m := by
    have := degree_modByMonic_lt p (vanishing_monic h)
    rwa [degree_eq_natDegree (vanishing_monic h).ne_zero, vanishing_natDegree] at this
  have h0 : p %ₘ D.vanishing = 0 := by
    by_contra hne
    have hev : ∀ k < D.m, (p %ₘ D.vanishing).eval (D.omega ^ k) = 0 := by
      intro k hk
      have e := congrArg (eval (D.omega ^ k)) hr
      rw [eval_add, eval_mul, eval_vanishing, hp k hk] at e
      have hz : D.z (D.omega ^ k) = 0 := by
        unfold z
        rw [← pow_mul, mul_comm, pow_mul, h.prim.pow_eq_one, one_pow, sub_self]
      rw [hz, zero_mul, add_zero] at e
      exact e
    have hc : D.m ≤ (p %ₘ D.vanishing).natDegree := by
      classical
      have hs : (range D.m).image (fun k => D.omega ^ k) ⊆ (p %ₘ D.vanishing).roots.toFinset := by
        intro x hx
        obtain ⟨k, hk, rfl⟩ := mem_image.1 hx
        rw [Multiset.mem_toFinset, mem_roots hne]
        exact hev k (mem_range.1 hk)
      have h1 := card_le_card hs
      rw [card_image_of_injOn, card_range] at h1
      · exact h1.trans ((Multiset.toFinset_card_le _).trans (card_roots' _))
      · intro i hi k hk e
        exact h.prim.pow_inj (by simpa using hi) (by simpa using hk) e
    rw [degree_eq_natDegree hne] at hd
    have hd' : (p %ₘ D.vanishing).natDegree < D.m := by exact_mod_cast hd
    omega
  exact (modByMonic_eq_zero_iff_dvd (vanishing_monic h)).1 h0

section quotient

variable (D)

/-- The difference that has to be divisible. -/
noncomputable def defect (a b c : Nat → F) : F[X] :=
  poly D.m (D.ifft a) * poly D.m (D.ifft b) - poly D.m (D.ifft c)

theorem degree_defect (a b c : Nat → F) : (D.defect a b c).natDegree ≤ 2 * (D.m - 1) := by
  unfold defect
  refine (natDegree_sub_le _ _).trans (max_le ?_ ?_)
  · refine natDegree_mul_le.trans ?_
    have := degree_poly D.m (D.ifft a)
    have := degree_poly D.m (D.ifft b)
    omega
  · have := degree_poly D.m (D.ifft c)
    omega

/-- The value at a point of the polynomial whose coefficients the prover computes. -/
theorem sum_quotient (a b c : Nat → F) (t : F) :
    (List.zipWith (fun h i => h * t ^ i) (D.quotient a b c) (List.range (D.m - 1))).sum =
      (poly (D.m - 1) fun i => (D.quotient a b c).getD i 0).eval t := by
  have hl : (D.quotient a b c).length = D.m - 1 := by simp [quotient]
  rw [eval_poly]
  generalize D.quotient a b c = q at hl
  have : List.zipWith (fun h i => h * t ^ i) q (List.range (D.m - 1)) =
      (List.range (D.m - 1)).map fun i => q.getD i 0 * t ^ i := by
    apply List.ext_getElem
    · simp [hl]
    · intro i h1 h2
      have hi : i < q.length := by
        have := h2
        simp only [List.length_map, List.length_range] at this
        omega
      simp [List.getD_eq_getElem?_getD, hi]
  rw [this]
  exact (Finset.sum_list_map_count _ _).trans (by
    classical
    rw [List.toFinset_range]
    refine sum_congr rfl fun i hi => ?_
    rw [List.count_range]
    simp [mem_range.1 hi])

end quotient

theorem defect_eval (h : D.Lawful) (a b c : Nat → F) {k : Nat} (hk : k < D.m) :
    (D.defect a b c).eval (D.omega ^ k) = a k * b k - c k := by
  simp [defect, eval_ifft h _ hk]

theorem quotient_vals (h : D.Lawful) (a b c : Nat → F) (q : F[X]) (hq : D.defect a b c = D.vanishing * q) (k : Nat) :
    (D.cosetFft (D.ifft a) k * D.cosetFft (D.ifft b) k - D.cosetFft (D.ifft c) k) * (D.z D.generator)⁻¹ =
      q.eval (D.generator * D.omega ^ k) := by
  rw [cosetFft_eq, cosetFft_eq, cosetFft_eq, ← eval_mul, ← eval_sub]
  have e : poly D.m (D.ifft a) * poly D.m (D.ifft b) - poly D.m (D.ifft c) = D.vanishing * q := hq
  rw [e, eval_mul, eval_vanishing]
  have hz : D.z (D.generator * D.omega ^ k) = D.z D.generator := by
    unfold z
    rw [mul_pow, ← pow_mul, mul_comm k, pow_mul, h.prim.pow_eq_one, one_pow, mul_one]
  have h0 : D.z D.generator ≠ 0 := sub_ne_zero.2 h.coset
  rw [hz]
  field_simp [h0]

/-- For satisfied constraints the prover finds the quotient. -/
theorem quotient_eq (h : D.Lawful) (a b c : Nat → F) (hs : ∀ k < D.m, a k * b k = c k) (t : F) :
    (D.defect a b c).eval t =
      (poly (D.m - 1) fun i => (D.quotient a b c).getD i 0).eval t * D.z t := by
  obtain ⟨q, hq⟩ := vanishing_dvd h (D.defect a b c) fun k hk => by rw [defect_eval h a b c hk, hs k hk, sub_self]
  have hdeg : q ≠ 0 → q.natDegree + D.m ≤ 2 * (D.m - 1) := by
    intro hne
    have h1 := degree_defect D a b c
    rw [hq, natDegree_mul (vanishing_monic h).ne_zero hne, vanishing_natDegree] at h1
    omega
  have hlt : q.natDegree < D.m := by
    by_cases hne : q = 0
    · subst hne; simpa using h.pos
    · have := hdeg hne; have := h.pos; omega
  have hpoly : (poly (D.m - 1) fun i => (D.quotient a b c).getD i 0) = q := by
    ext i
    rw [coeff_poly]
    split_ifs with hi
    · have : (D.quotient a b c).getD i 0 = D.icosetFft (fun k => q.eval (D.generator * D.omega ^ k)) i := by
        unfold quotient
        simp only [quotient_vals h a b c q hq]
        simp [List.getD_eq_getElem?_getD, hi]
      rw [this, icosetFft_eval h q hlt (by omega)]
    · by_cases hne : q = 0
      · simp [hne]
      · rw [coeff_eq_zero_of_natDegree_lt]
        have := hdeg hne
        have := h.pos
        omega
  rw [hpoly, hq, eval_mul, eval_vanishing, mul_comm]

/-- For unsatisfied constraints there is no quotient: the difference is a polynomial of degree at most `2(m-1)`, not
zero. -/
theorem no_quotient (h : D.Lawful) (a b c : Nat → F) (k : Nat) (hk : k < D.m) (hs : a k * b k ≠ c k) (v : Nat → F) :
    D.defect a b c - poly (D.m - 1) v * D.vanishing ≠ 0 ∧
    (D.defect a b c - poly (D.m - 1) v * D.vanishing).natDegree ≤ 2 * (D.m - 1) := by
  constructor
  · intro e
    have e' := congrArg (eval (D.omega ^ k)) e
    rw [eval_sub, eval_mul, defect_eval h a b c hk, eval_vanishing, eval_zero] at e'
    have hz : D.z (D.omega ^ k) = 0 := by
      unfold z
      rw [← pow_mul, mul_comm, pow_mul, h.prim.pow_eq_one, one_pow, sub_self]
    rw [hz, mul_zero, sub_zero, sub_eq_zero] at e'
    exact hs e'
  · refine (natDegree_sub_le _ _).trans (max_le (degree_defect D a b c) ?_)
    by_cases hm : D.m = 1
    · simp [hm, poly]
    · refine natDegree_mul_le.trans ?_
      rw [vanishing_natDegree]
      have := degree_poly (D.m - 1) v
      have := h.pos
      omega

end Domain

end Fawkes.Groth16
