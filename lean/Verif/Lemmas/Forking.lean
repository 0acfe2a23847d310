import Verif.Lemmas.Rewind
import Mathlib.Logic.Equiv.Fin.Basic

/-!
# Counting pairs of tapes that agree up to a place
-/

namespace Fawkes.Eddsa

open Finset

/-- The first tape up to `i`, the second from `i` on. -/
def splice {A : Type} {q : Nat} (i : Nat) (t t' : Fin q → A) : Fin q → A := fun j => if j.val < i then t j else t' j

theorem ofFn_splice {A : Type} {q : Nat} (i : Nat) (t t' : Fin q → A) :
    List.ofFn (splice i t t') = (List.ofFn t).take i ++ (List.ofFn t').drop i := by
  refine List.ext_getElem (by simp; omega) fun j h1 h2 => ?_
  simp only [List.length_ofFn] at h1
  rw [List.getElem_ofFn, List.getElem_append]
  unfold splice
  by_cases hj : j < i
  · rw [if_pos hj, dif_pos (by simp; omega)]
    simp
  · rw [if_neg hj, dif_neg (by simp; omega)]
    simp only [List.getElem_drop, List.getElem_ofFn, List.length_take, List.length_ofFn]
    congr 1
    apply Fin.ext
    show j = i + (j - min i q)
    omega

theorem sq_sum_split {T X Y : Type} [Fintype T] [Fintype X] [Fintype Y] (e : T ≃ X × Y) (w : T → Nat) :
    (∑ t, w t) ^ 2 ≤ ∑ t, ∑ t', w t * w (e.symm ((e t).1, (e t').2)) := by
  have h1 : ∑ t, w t = ∑ x, ∑ y, w (e.symm (x, y)) := by
    rw [← Fintype.sum_prod_type' (f := fun x y => w (e.symm (x, y)))]
    exact Fintype.sum_equiv e _ _ fun t => by simp
  have h2 : ∑ t, ∑ t', w t * w (e.symm ((e t).1, (e t').2)) =
      Fintype.card X * ∑ x, (∑ y, w (e.symm (x, y))) ^ 2 := by
    have hin : ∀ t, ∑ t', w t * w (e.symm ((e t).1, (e t').2)) = Fintype.card X * (w t * ∑ y, w (e.symm ((e t).1, y))) := by
      intro t
      rw [Fintype.sum_equiv e _ (fun p : X × Y => w t * w (e.symm ((e t).1, p.2))) (fun t' => by simp), Fintype.sum_prod_type]
      simp only [← mul_sum, sum_const, card_univ, smul_eq_mul]
      ring
    rw [sum_congr rfl fun t _ => hin t, ← mul_sum]
    congr 1
    rw [Fintype.sum_equiv e _ (fun p : X × Y => w (e.symm p) * ∑ y, w (e.symm (p.1, y))) (fun t => by simp), Fintype.sum_prod_type]
    refine sum_congr rfl fun x _ => ?_
    simp only [← sum_mul]
    rw [pow_two]
  rw [h1, h2]
  exact sq_sum_le_card_mul_sum_sq

theorem sq_sum_splice {A : Type} [Fintype A] {q : Nat} (i : Nat) (w : (Fin q → A) → Nat) :
    (∑ t, w t) ^ 2 ≤ ∑ t, ∑ t', w t * w (splice i t t') := by
  refine (sq_sum_split (Equiv.piEquivPiSubtypeProd (fun j : Fin q => j.val < i) fun _ => A) w).trans (le_of_eq ?_)
  refine sum_congr rfl fun t _ => sum_congr rfl fun t' _ => ?_
  congr 2

/-- The forking lemma as an inequality of numbers of tapes: `win t` is the place of success on the tape `t`. -/
theorem fork_pairs {A : Type} [Fintype A] {q : Nat} (win : (Fin q → A) → Option Nat) (hwin : ∀ t i, win t = some i → i < q) :
    (∑ t, if (win t).isSome then 1 else 0) ^ 2 ≤
      q * ∑ t, ∑ t', if ∃ i, win t = some i ∧ win (splice i t t') = some i then 1 else 0 := by
  have h1 : ∀ t, (if (win t).isSome then 1 else 0) = ∑ i ∈ range q, if win t = some i then 1 else 0 := by
    intro t
    cases h : win t with
    | none => simp
    | some j =>
      have := hwin t j h
      simp [this]
  rw [sum_congr rfl fun t _ => h1 t, sum_comm]
  refine sq_sum_le_card_mul_sum_sq.trans ?_
  rw [card_range]
  refine Nat.mul_le_mul_left _ ?_
  refine (sum_le_sum fun i _ => sq_sum_splice i fun t => if win t = some i then 1 else 0).trans ?_
  rw [sum_comm]
  refine sum_le_sum fun t _ => ?_
  rw [sum_comm]
  refine sum_le_sum fun t' _ => ?_
  cases h : win t with
  | none => simp
  | some j =>
    have hj := hwin t j h
    rw [sum_eq_single j]
    · simp
    · intro i _ hij
      rw [if_neg (by simpa using Ne.symm hij), zero_mul]
    · intro hn; exact absurd (mem_range.2 hj) hn

theorem card_symbol {A : Type} [Fintype A] [DecidableEq A] {q : Nat} (i : Nat) (hi : i < q) (B : Finset A) :
    (univ.filter fun t : Fin q → A => t ⟨i, hi⟩ ∈ B).card = B.card * Fintype.card A ^ (q - 1) := by
  have : (univ.filter fun t : Fin q → A => t ⟨i, hi⟩ ∈ B) = Fintype.piFinset fun j => if j = ⟨i, hi⟩ then B else univ := by
    ext t
    rw [mem_filter, Fintype.mem_piFinset]
    constructor
    · rintro ⟨-, h⟩ j
      by_cases hj : j = ⟨i, hi⟩
      · rw [if_pos hj, hj]; exact h
      · rw [if_neg hj]; exact mem_univ _
    · intro h
      have := h ⟨i, hi⟩
      rw [if_pos rfl] at this
      exact ⟨mem_univ _, this⟩
  rw [this, Fintype.card_piFinset, ← mul_prod_erase univ _ (mem_univ (⟨i, hi⟩ : Fin q)), if_pos rfl]
  congr 1
  rw [prod_congr rfl (g := fun _ => Fintype.card A) fun j hj => by rw [if_neg (ne_of_mem_erase hj), card_univ]]
  simp

theorem card_residue {r l : Nat} [NeZero r] [NeZero l] (c : ZMod l) :
    (univ.filter fun h : ZMod r => (h.val : ZMod l) = c).card ≤ r / l + 1 := by
  rw [← card_range (r / l + 1)]
  refine card_le_card_of_injOn (fun h => h.val / l) ?_ ?_
  · intro h _
    have := Nat.div_le_div_right (c := l) (ZMod.val_lt h).le
    simp only [coe_range, Set.mem_Iio]
    omega
  · intro h hh h' hh' he
    have h1 := (mem_filter.1 hh).2
    have h2 := (mem_filter.1 hh').2
    have h3 : h.val % l = h'.val % l := (ZMod.natCast_eq_natCast_iff' _ _ _).1 (h1.trans h2.symm)
    simp only at he
    refine ZMod.val_injective _ ?_
    rw [← Nat.div_add_mod h.val l, ← Nat.div_add_mod h'.val l, he, h3]

end Fawkes.Eddsa
