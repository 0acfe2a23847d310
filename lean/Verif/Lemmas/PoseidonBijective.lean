import Verif.Lemmas.Poseidon
import Verif.Lemmas.PoseidonMatrix
import Mathlib.Data.Set.Card
import Mathlib.SetTheory.Cardinal.Finite
import Mathlib.FieldTheory.Finite.Basic

/-!
# The Poseidon permutation is a bijection if its matrix is invertible and the fifth power is injective
-/

namespace Fawkes.PoseidonSpec

open Matrix

variable {F : Type} [Field F] [DecidableEq F]

theorem zipWith_sum {t : Nat} (row v : List F) (hr : row.length = t) (hv : v.length = t) :
    (List.zipWith (· * ·) row v).sum = ∑ j : Fin t, row.getD j.val 0 * v.getD j.val 0 := by
  induction t generalizing row v with
  | zero => rw [List.length_eq_zero_iff.1 hr]; simp
  | succ t ih =>
    match row, v, hr, hv with
    | a :: row, b :: v, hr, hv =>
      rw [List.zipWith_cons_cons, List.sum_cons, Fin.sum_univ_succ, ih row v (by simpa using hr) (by simpa using hv)]
      simp

theorem mulVec_getD {t : Nat} {m : List (List F)} (hr : m.length = t) (hc : ∀ row ∈ m, row.length = t) {v : List F} (hv : v.length = t)
    (i : Fin t) : (mulVec m v).getD i.val 0 = (matrixOf t m).mulVec (fun j => v.getD j.val 0) i := by
  have hi : i.val < m.length := by rw [hr]; exact i.isLt
  unfold mulVec Matrix.mulVec dotProduct matrixOf
  rw [List.getD_eq_getElem _ _ (by simpa using hi), List.getElem_map, zipWith_sum _ _ (hc _ (List.getElem_mem hi)) hv]
  refine Finset.sum_congr rfl fun j _ => ?_
  rw [List.getD_eq_getElem m [] hi]

theorem mulVec_injective {t : Nat} {m : List (List F)} (hr : m.length = t) (hc : ∀ row ∈ m, row.length = t)
    (hN : ∃ N : Matrix (Fin t) (Fin t) F, N * matrixOf t m = 1) {v w : List F} (hv : v.length = t) (hw : w.length = t)
    (h : mulVec m v = mulVec m w) : v = w := by
  obtain ⟨N, hN⟩ := hN
  have h1 : (matrixOf t m).mulVec (fun j => v.getD j.val 0) = (matrixOf t m).mulVec (fun j => w.getD j.val 0) := by
    funext i
    rw [← mulVec_getD hr hc hv, ← mulVec_getD hr hc hw, h]
  have h2 := congrArg N.mulVec h1
  rw [Matrix.mulVec_mulVec, Matrix.mulVec_mulVec, hN, Matrix.one_mulVec, Matrix.one_mulVec] at h2
  refine List.ext_getElem (hv.trans hw.symm) fun i hi hi' => ?_
  have := congrFun h2 ⟨i, by omega⟩
  simpa [List.getD_eq_getElem, hi, hi'] using this

variable {P : PoseidonParams F}

theorem round_injective (hP : Shaped P) (hN : ∃ N : Matrix (Fin P.t) (Fin P.t) F, N * matrixOf P.t P.m = 1)
    (h5 : Function.Injective fun x : F => x ^ 5) (b : Bool) (c : F) {v w : List F} (hv : v.length = P.t) (hw : w.length = P.t)
    (h : round P.m b c v = round P.m b c w) : v = w := by
  have hc : Function.Injective (· + c : F → F) := add_left_injective c
  unfold round at h
  have h1 := mulVec_injective hP.rows hP.cols hN ?_ ?_ h
  · cases b with
    | true =>
      simp only [if_pos] at h1
      exact List.map_injective_iff.2 hc (List.map_injective_iff.2 h5 h1)
    | false =>
      match v, w, h1 with
      | [], [], _ => rfl
      | [], _ :: _, h1 => simp at h1
      | _ :: _, [], h1 => simp at h1
      | x :: v, y :: w, h1 =>
        simp only [List.map_cons, Bool.false_eq_true, if_false, List.cons.injEq] at h1
        rw [hc (h5 h1.1), List.map_injective_iff.2 hc h1.2]
  · exact (Poseidon.sbox_length b (v.map (· + c))).trans (by simpa using hv)
  · exact (Poseidon.sbox_length b (w.map (· + c))).trans (by simpa using hw)

theorem permute_injective (hP : Shaped P) (hN : ∃ N : Matrix (Fin P.t) (Fin P.t) F, N * matrixOf P.t P.m = 1)
    (h5 : Function.Injective fun x : F => x ^ 5) {v w : List F} (hv : v.length = P.t) (hw : w.length = P.t)
    (h : permute P v = permute P w) : v = w := by
  unfold permute at h
  generalize (schedule P.f P.p).zip P.c = l at h
  induction l generalizing v w with
  | nil => exact h
  | cons x l ih =>
    exact round_injective hP hN h5 _ _ hv hw (ih (Poseidon.round_length hP _ _ _) (Poseidon.round_length hP _ _ _) h)

/-- The lists of length `t` with a given first element. -/
theorem card_head [Fintype F] (t : Nat) (h : F) : Nat.card {v : List F // v.length = t + 1 ∧ v.headD 0 = h} = Fintype.card F ^ t := by
  have e : {v : List F // v.length = t + 1 ∧ v.headD 0 = h} ≃ List.Vector F t :=
    { toFun := fun v => ⟨v.1.tail, by rw [List.length_tail, v.2.1]; rfl⟩
      invFun := fun v => ⟨h :: v.1, by rw [List.length_cons, v.2], rfl⟩
      left_inv := by
        rintro ⟨v, h1, h2⟩
        match v, h1, h2 with
        | x :: v, h1, h2 => simp only [List.headD_cons] at h2; subst h2; rfl
      right_inv := by rintro ⟨v, h1⟩; rfl }
  rw [Nat.card_congr e, Nat.card_eq_fintype_card, card_vector]

theorem balanced [Fintype F] (hP : Shaped P) (ht : 0 < P.t) (hN : ∃ N : Matrix (Fin P.t) (Fin P.t) F, N * matrixOf P.t P.m = 1)
    (h5 : Function.Injective fun x : F => x ^ 5) (h : F) :
    Nat.card {v : List F // v.length = P.t ∧ (permute P v).headD 0 = h} = Fintype.card F ^ (P.t - 1) := by
  let f : List.Vector F P.t → List.Vector F P.t := fun v => ⟨permute P v.1, Poseidon.permute_length hP _ v.2⟩
  have hf : Function.Bijective f := by
    refine Finite.injective_iff_bijective.1 fun v w hvw => ?_
    exact Subtype.ext (permute_injective hP hN h5 v.2 w.2 (congrArg Subtype.val hvw))
  have e : {v : List F // v.length = P.t ∧ (permute P v).headD 0 = h} ≃ {v : List F // v.length = P.t ∧ v.headD 0 = h} := by
    refine Equiv.ofBijective (fun v => ⟨permute P v.1, Poseidon.permute_length hP _ v.2.1, v.2.2⟩) ⟨?_, ?_⟩
    · intro v w hvw
      exact Subtype.ext (permute_injective hP hN h5 v.2.1 w.2.1 (congrArg Subtype.val hvw))
    · rintro ⟨w, hw, hh⟩
      obtain ⟨v, hv⟩ := hf.2 ⟨w, hw⟩
      have hv' : permute P v.1 = w := congrArg Subtype.val hv
      exact ⟨⟨v.1, v.2, by rw [hv']; exact hh⟩, Subtype.ext hv'⟩
  obtain ⟨t, ht'⟩ : ∃ t, P.t = t + 1 := ⟨P.t - 1, by omega⟩
  rw [Nat.card_congr e, ht', card_head]; rfl

/-- The fifth power is injective if five is coprime to the order of the multiplicative group. -/
theorem pow_injective {r : Nat} [Fact r.Prime] (h : Nat.Coprime 5 (r - 1)) : Function.Injective fun x : ZMod r => x ^ 5 := by
  intro x y hxy
  simp only at hxy
  by_cases hx : x = 0
  · subst hx
    rw [zero_pow (by norm_num)] at hxy
    exact (pow_eq_zero_iff (by norm_num)).1 hxy.symm |>.symm
  · have hy : y ≠ 0 := by
      rintro rfl
      rw [zero_pow (by norm_num)] at hxy
      exact hx ((pow_eq_zero_iff (by norm_num)).1 hxy)
    have hz : (x / y) ^ 5 = 1 := by rw [div_pow, hxy, div_self (pow_ne_zero _ hy)]
    have hz' : (x / y) ^ (r - 1) = 1 := ZMod.pow_card_sub_one_eq_one (div_ne_zero hx hy)
    have := orderOf_dvd_of_pow_eq_one hz
    have h2 := orderOf_dvd_of_pow_eq_one hz'
    have h3 : orderOf (x / y) = 1 := Nat.Coprime.eq_one_of_dvd (Nat.Coprime.coprime_dvd_left this h) h2
    rw [orderOf_eq_one_iff] at h3
    rwa [div_eq_one_iff_eq hy] at h3

end Fawkes.PoseidonSpec
