import Mathlib.GroupTheory.OrderOfElement
import Mathlib.GroupTheory.Index
import Mathlib.Data.ZMod.Basic
import Mathlib.Data.Set.Card
import Verif.Lemmas.Ecc

/-!
# The exponent of the curve group divides `8 l`

From an explicit point of order `l` and an explicit point of order 8 that is not a double.
-/

namespace Fawkes

namespace EdPoint

section

variable {F : Type} [Field F] {C : EdCurve F}

/-- Doubles satisfy a square condition. -/
theorem isSquare_of_double (P : EdPoint C) : IsSquare ((1 + C.d) * (1 - (2 • P).y ^ 2)) := by
  have hon := P.on
  unfold OnCurve at hon
  have hD := denom_sub_ne C P.on P.on
  have h2 : (2 • P).y = (P.y * P.y + P.x * P.x) / (1 - C.d * P.x * P.x * P.y * P.y) := by
    rw [two_nsmul, add_y]
  obtain ⟨i, hi⟩ := C.neg_one_square
  refine ⟨2 * i * P.x * P.y * (1 + C.d * P.y ^ 2) * (1 - C.d * P.x ^ 2) / (1 - C.d * P.x * P.x * P.y * P.y), ?_⟩
  have e1 : 1 - C.d * P.x * P.x * P.y * P.y - (P.y * P.y + P.x * P.x) = 2 * (-(P.x ^ 2 * (1 + C.d * P.y ^ 2))) := by
    linear_combination (-1 : F) * hon
  have e2 : 1 - C.d * P.x * P.x * P.y * P.y + (P.y * P.y + P.x * P.x) = 2 * (P.y ^ 2 * (1 - C.d * P.x ^ 2)) := by
    linear_combination (-1 : F) * hon
  have e3 : (1 + C.d * P.y ^ 2) * (1 - C.d * P.x ^ 2) = 1 + C.d := by linear_combination C.d * hon
  rw [h2]
  generalize hDD : 1 - C.d * P.x * P.x * P.y * P.y = D at *
  field_simp
  have : D ^ 2 - (P.y ^ 2 + P.x ^ 2) ^ 2 = (D - (P.y * P.y + P.x * P.x)) * (D + (P.y * P.y + P.x * P.x)) := by ring
  rw [this, e1, e2]
  have hi' : i ^ 2 = -1 := by rw [sq, ← hi]
  have e3' : 1 + C.d = (1 + C.d * P.y ^ 2) * (1 - C.d * P.x ^ 2) := e3.symm
  rw [e3']
  linear_combination (-(4 : F) * P.x ^ 2 * P.y ^ 2 * (1 + C.d * P.y ^ 2) ^ 2 * (1 - C.d * P.x ^ 2) ^ 2) * hi'

/-- The only points of order dividing two. -/
theorem two_nsmul_eq_zero_iff (P : EdPoint C) : 2 • P = 0 ↔ P = 0 ∨ P = torsion2 := by
  rw [← x_eq_zero_iff]
  constructor
  · intro h
    have : P = -P := eq_neg_of_add_eq_zero_left (by rw [← two_nsmul]; exact h)
    have := congrArg EdPoint.x this
    rw [neg_x] at this
    have : 2 * P.x = 0 := by linear_combination this
    exact (mul_eq_zero.1 this).resolve_left C.two_ne_zero
  · intro h
    rcases (x_eq_zero_iff P).1 h with rfl | rfl
    · exact nsmul_zero 2
    · exact two_nsmul_torsion2

end

variable {r : Nat} [Fact r.Prime] {C : EdCurve (ZMod r)}

instance : Finite (EdPoint C) :=
  Finite.of_injective (fun P : EdPoint C => (P.x, P.y)) fun P Q h => by
    ext
    · exact congrArg Prod.fst h
    · exact congrArg Prod.snd h

/-- At most two points have a given abscissa. -/
theorem card_le : Nat.card (EdPoint C) ≤ 2 * r := by
  classical
  haveI : Fintype (EdPoint C) := Fintype.ofFinite _
  rw [Nat.card_eq_fintype_card, ← Finset.card_univ]
  have h := Finset.card_le_mul_card_image_of_maps_to (s := (Finset.univ : Finset (EdPoint C)))
    (t := (Finset.univ : Finset (ZMod r))) (f := fun P => P.x) (fun _ _ => Finset.mem_univ _) 2 ?_
  · rwa [Finset.card_univ (α := ZMod r), ZMod.card] at h
  · intro x _
    by_cases hne : ∃ P : EdPoint C, P.x = x
    · obtain ⟨P, hP⟩ := hne
      apply (Finset.card_le_card (t := {P, torsion2 - P}) ?_).trans Finset.card_le_two
      intro Q hQ
      rw [Finset.mem_filter] at hQ
      rw [Finset.mem_insert, Finset.mem_singleton]
      exact same_x (hP.trans hQ.2.symm)
    · rw [Finset.filter_eq_empty_iff.2]
      · simp
      · intro P _ hP; exact hne ⟨P, hP⟩

/-- `E` has exponent dividing `8 l`, given points of order `l` and 8 and that the latter is not a double. -/
theorem exponent_of {l : Nat} (hl : l.Prime) (hl8 : Nat.Coprime 8 l) (hbig : 2 * r < 24 * l) {G Q : EdPoint C}
    (hG0 : G ≠ 0) (hG : l • G = 0) (hQ8 : 8 • Q = 0) (hQ4 : 4 • Q ≠ 0)
    (hQ : ¬ IsSquare ((1 + C.d) * (1 - Q.y ^ 2))) (P : EdPoint C) : (8 * l) • P = 0 := by
  haveI : Fact l.Prime := ⟨hl⟩
  have hoG : addOrderOf G = l := addOrderOf_eq_prime hG hG0
  have hoQ : addOrderOf Q = 8 := by
    haveI : Fact (Nat.Prime 2) := ⟨Nat.prime_two⟩
    exact addOrderOf_eq_prime_pow (p := 2) (n := 2) hQ4 hQ8
  have d1 : l ∣ Nat.card (EdPoint C) := hoG ▸ addOrderOf_dvd_natCard G
  have d2 : 8 ∣ Nat.card (EdPoint C) := hoQ ▸ addOrderOf_dvd_natCard Q
  obtain ⟨k, hk⟩ := hl8.mul_dvd_of_dvd_of_dvd d2 d1
  have hpos : 0 < Nat.card (EdPoint C) := Nat.card_pos
  have hle := card_le (C := C)
  have hlpos := hl.pos
  have hk3 : k < 3 := by
    by_contra hc
    have : 8 * l * 3 ≤ 8 * l * k := Nat.mul_le_mul_left _ (by omega)
    omega
  have hk0 : k ≠ 0 := by rintro rfl; omega
  have hcard : (Nat.card (EdPoint C)) • P = 0 := by
    have := addOrderOf_dvd_natCard P
    exact addOrderOf_dvd_iff_nsmul_eq_zero.1 this
  have hk12 : k = 1 ∨ k = 2 := by omega
  rcases hk12 with rfl | rfl
  · rwa [hk, mul_one] at hcard
  -- `#E = 16 l`: every point is a double, or `Q` plus a double
  have hall : ∀ R : EdPoint C, (16 * l) • R = 0 := by
    intro R
    have := addOrderOf_dvd_iff_nsmul_eq_zero.1 (addOrderOf_dvd_natCard R)
    rwa [hk, show 8 * l * 2 = 16 * l by ring] at this
  let f : EdPoint C →+ EdPoint C := nsmulAddMonoidHom 2
  have hf : ∀ R, f R = 2 • R := fun _ => rfl
  have hker : Nat.card f.ker = 2 := by
    have : (f.ker : Set (EdPoint C)) = {0, torsion2} := by
      ext R
      simp only [SetLike.mem_coe, AddMonoidHom.mem_ker, hf, Set.mem_insert_iff, Set.mem_singleton_iff]
      exact two_nsmul_eq_zero_iff R
    rw [← SetLike.coe_sort_coe, this, Nat.card_coe_set_eq, Set.ncard_pair torsion2_ne_zero.symm]
  have hidx : f.range.index = 2 := by
    have h1 := AddSubgroup.card_mul_index f.ker
    rw [AddSubgroup.index_ker] at h1
    have h2 := AddSubgroup.card_mul_index f.range
    have h3 : 0 < Nat.card f.range := Nat.card_pos
    rw [← h1, hker, mul_comm] at h2
    exact Nat.eq_of_mul_eq_mul_right h3 h2
  have hQn : Q ∉ f.range := by
    rintro ⟨R, hR⟩
    apply hQ
    rw [← hR, hf]
    exact isSquare_of_double R
  have hdbl : ∀ R ∈ f.range, (8 * l) • R = 0 := by
    rintro _ ⟨R, rfl⟩
    rw [hf, ← mul_nsmul', show 8 * l * 2 = 16 * l by ring]
    exact hall R
  by_cases hP : P ∈ f.range
  · exact hdbl P hP
  · have hPQ : P + Q ∈ f.range := by
      rw [AddSubgroup.add_mem_iff_of_index_two hidx]
      exact ⟨fun h => absurd h hP, fun h => absurd h hQn⟩
    have h1 := hdbl _ hPQ
    have h2 : (8 * l) • Q = 0 := by rw [mul_comm, mul_nsmul', hQ8, nsmul_zero]
    rwa [nsmul_add, h2, add_zero] at h1

end EdPoint

end Fawkes
