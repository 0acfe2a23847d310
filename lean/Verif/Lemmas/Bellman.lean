import Verif.Lemmas.Domain
import Verif.Props.Groth16
import Verif.Lemmas.CNum
import Mathlib.GroupTheory.OrderOfElement
import Mathlib.Tactic.LinearCombination

/-!
# Keys and proofs in the exponent
-/

namespace Fawkes.Groth16

open Polynomial Finset
open Fawkes.Props

section scalars

variable {G : Type} [AddCommGroup G] {r : Nat} [Fact r.Prime] {g : G}

theorem mod_smul (hg : r • g = 0) (n : Nat) : (n % r) • g = n • g := by
  conv_rhs => rw [← Nat.mod_add_div n r, add_smul, mul_comm, mul_smul, hg, smul_zero, add_zero]

theorem val_add_smul (hg : r • g = 0) (x y : ZMod r) : (x + y).val • g = x.val • g + y.val • g := by
  rw [ZMod.val_add, mod_smul hg, add_smul]

theorem val_mul_smul (hg : r • g = 0) (x y : ZMod r) : x.val • y.val • g = (x * y).val • g := by
  rw [ZMod.val_mul, mod_smul hg, mul_smul]

theorem val_sum_smul (hg : r • g = 0) (l : List (ZMod r)) : (l.map fun x => x.val • g).sum = l.sum.val • g := by
  induction l with
  | nil => simp
  | cons x l ih => rw [List.map_cons, List.sum_cons, List.sum_cons, val_add_smul hg, ih]

/-- A sum of multiples. -/
def sumexp {r : Nat} (xs : List (ZMod r)) (ps : List G) : G := (List.zipWith (fun x P => x.val • P) xs ps).sum

theorem sumexp_eq (hg : r • g = 0) {α : Type} (l : List α) (w c : α → ZMod r) :
    sumexp (l.map w) (l.map fun k => (c k).val • g) = (l.map fun k => w k * c k).sum.val • g := by
  unfold sumexp
  rw [← val_sum_smul hg, List.map_map]
  congr 1
  rw [List.zipWith_map, List.zipWith_self]
  exact List.map_congr_left fun k _ => val_mul_smul hg _ _

theorem sumexp_zip (hg : r • g = 0) {α : Type} (l : List α) (xs : List (ZMod r)) (c : α → ZMod r) :
    sumexp xs (l.map fun k => (c k).val • g) = (List.zipWith (fun x k => x * c k) xs l).sum.val • g := by
  unfold sumexp
  rw [← val_sum_smul hg, List.map_zipWith, List.zipWith_map_right]
  congr 1
  induction xs generalizing l with
  | nil => rfl
  | cons x xs ih =>
    cases l with
    | nil => rfl
    | cons k l => rw [List.zipWith_cons_cons, List.zipWith_cons_cons, ih, val_mul_smul hg]

end scalars

section columns

variable {F : Type} [Field F]

theorem coeff_eval (w : Index → F) (vars : List Index) (hn : vars.Nodup) (l : LC F) (hl : ∀ t ∈ l, t.1 ∈ vars) :
    (vars.map fun k => w k * coeff k l).sum = l.eval w := by
  induction l with
  | nil => simp [coeff, LC.eval]
  | cons t l ih =>
    obtain ⟨k', v⟩ := t
    have h1 := ih fun t ht => hl t (List.mem_cons_of_mem _ ht)
    have e : (vars.map fun k => w k * coeff k ((k', v) :: l)) =
        vars.map fun k => (if k' = k then v * w k' else 0) + w k * coeff k l := by
      refine List.map_congr_left fun k _ => ?_
      show w k * (if k' = k then v + coeff k l else coeff k l) = _
      split_ifs with hk
      · subst hk; ring
      · ring
    rw [e, List.sum_map_add, h1]
    have h2 : (vars.map fun k => if k' = k then v * w k' else 0).sum = v * w k' := by
      rw [← List.sum_toFinset _ hn, Finset.sum_ite_eq, if_pos]
      exact List.mem_toFinset.2 (hl _ List.mem_cons_self)
    rw [h2]
    simp [LC.eval]

/-- The value of the interpolation polynomial of the values of linear combinations. -/
def colValue (lagrange : Nat → F) (w : Index → F) : (j : Nat) → List (LC F) → F
  | _, [] => 0
  | j, l :: ls => lagrange j * l.eval w + colValue lagrange w (j + 1) ls

theorem column_sum (lagrange : Nat → F) (w : Index → F) (vars : List Index) (hn : vars.Nodup) (ls : List (LC F))
    (hl : ∀ l ∈ ls, ∀ t ∈ l, t.1 ∈ vars) (j : Nat) :
    (vars.map fun k => w k * column lagrange k j ls).sum = colValue lagrange w j ls := by
  induction ls generalizing j with
  | nil => simp [column, colValue]
  | cons l ls ih =>
    have h1 := ih (fun l h => hl l (List.mem_cons_of_mem _ h)) (j + 1)
    unfold colValue
    rw [← h1, ← coeff_eval w vars hn l (hl l List.mem_cons_self), ← List.sum_map_mul_left, ← List.sum_map_add]
    congr 1
    refine List.map_congr_left fun k _ => ?_
    show w k * (lagrange j * coeff k l + column lagrange k (j + 1) ls) = _
    ring

/-- The values of a column of linear combinations. -/
def valueAt (w : Index → F) (ls : List (LC F)) (j : Nat) : F :=
  match ls[j]? with
  | none => 0
  | some l => l.eval w

theorem colValue_eq (lagrange : Nat → F) (w : Index → F) (ls : List (LC F)) (j n : Nat) (hn : ls.length ≤ n) :
    colValue lagrange w j ls = ∑ i ∈ range n, lagrange (j + i) * valueAt w ls i := by
  induction ls generalizing j n with
  | nil => simp [colValue, valueAt]
  | cons l ls ih =>
    cases n with
    | zero => simp at hn
    | succ n =>
      rw [sum_range_succ']
      unfold colValue
      rw [ih (j + 1) n (by simpa using hn), add_comm]
      congr 1
      refine sum_congr rfl fun i _ => ?_
      rw [show j + 1 + i = j + (i + 1) by omega]
      simp [valueAt]

end columns

section state

variable {r : Nat} [Fact r.Prime]

theorem mem_vars (s : CS (ZMod r)) (i : Index) : i ∈ inputVars s ++ auxVars s ↔ inRange s i = true := by
  cases i <;> simp [inputVars, auxVars, inRange]

theorem vars_nodup (s : CS (ZMod r)) : (inputVars s ++ auxVars s).Nodup := by
  refine List.nodup_append.2 ⟨?_, ?_, ?_⟩
  · exact List.Nodup.map (fun a b h => by injection h) List.nodup_range
  · exact List.Nodup.map (fun a b h => by injection h) List.nodup_range
  · intro a ha b hb
    simp only [inputVars, auxVars, List.mem_map] at ha hb
    obtain ⟨_, _, rfl⟩ := ha
    obtain ⟨_, _, rfl⟩ := hb
    simp

theorem rows_in_vars (s : CS (ZMod r)) (h : rowsInRange s = true) :
    ∀ q ∈ rows s, (∀ t ∈ q.1, t.1 ∈ inputVars s ++ auxVars s) ∧ (∀ t ∈ q.2.1, t.1 ∈ inputVars s ++ auxVars s) ∧
      (∀ t ∈ q.2.2, t.1 ∈ inputVars s ++ auxVars s) := by
  intro q hq
  simp only [mem_vars]
  rcases List.mem_append.1 hq with hq | hq
  · obtain ⟨c, hc, rfl⟩ := List.mem_map.1 hq
    have h1 := List.all_eq_true.1 h c hc
    rw [List.all_eq_true] at h1
    simp only [List.mem_append] at h1
    exact ⟨fun t ht => h1 t (.inl (.inl ht)), fun t ht => h1 t (.inl (.inr ht)), fun t ht => h1 t (.inr ht)⟩
  · obtain ⟨i, hi, rfl⟩ := List.mem_map.1 hq
    simpa [inRange] using hi

/-- Key generation looks at the numbers of variables and the matrices only. -/
theorem rowsInRange_congr {s s' : CS (ZMod r)} (hi : s.ninputs = s'.ninputs) (ha : s.naux = s'.naux)
    (hc : s.cons.map Constraint.shape = s'.cons.map Constraint.shape) : rowsInRange s = rowsInRange s' := by
  have e : ∀ s : CS (ZMod r), rowsInRange s =
      (s.cons.map Constraint.shape).all fun q => (q.1 ++ q.2.1 ++ q.2.2).all fun t => inRange s t.1 := by
    intro s
    rw [List.all_map]
    rfl
  have e' : (fun q : LC (ZMod r) × LC (ZMod r) × LC (ZMod r) => (q.1 ++ q.2.1 ++ q.2.2).all fun t => inRange s t.1) =
      fun q => (q.1 ++ q.2.1 ++ q.2.2).all fun t => inRange s' t.1 := by
    funext q
    congr 1
    funext t
    cases t.1 <;> simp [inRange, hi, ha]
  rw [e, e, hc, e']

theorem generateParameters_congr {G1 G2 : Type} [AddCommGroup G1] [AddCommGroup G2] [DecidableEq G1] [DecidableEq G2]
    (K : TwoAdic (ZMod r)) (t : Toxic G1 G2 r) {s s' : CS (ZMod r)} (hi : s.ninputs = s'.ninputs) (ha : s.naux = s'.naux)
    (hc : s.cons.map Constraint.shape = s'.cons.map Constraint.shape) :
    generateParameters K t s = generateParameters K t s' := by
  unfold generateParameters keysOf Groth16.ext columnAt
  rw [rowsInRange_congr hi ha hc]
  have h1 : rows s = rows s' := by unfold rows; rw [hc, hi]
  have h2 : inputVars s = inputVars s' := by unfold inputVars; rw [hi]
  have h3 : auxVars s = auxVars s' := by unfold auxVars; rw [ha]
  rw [h1, h2, h3]

end state

/-! ### Pairings in the exponent -/

section pairing

variable {G1 G2 T : Type} [AddCommGroup G1] [AddCommGroup G2] [CommGroup T] {r : Nat} [Fact r.Prime]
  {e : G1 → G2 → T} {g1 : G1} {g2 : G2}

theorem pair_smul_left (hl : ∀ a a' b, e (a + a') b = e a b * e a' b) (n : Nat) (a : G1) (b : G2) :
    e (n • a) b = e a b ^ n := by
  have h0 : e 0 b = 1 := by
    have := hl 0 0 b
    rw [add_zero] at this
    exact mul_left_cancel (a := e 0 b) (by rw [← this, mul_one])
  induction n with
  | zero => rw [zero_smul, pow_zero, h0]
  | succ n ih => rw [succ_nsmul, hl, ih, pow_succ]

theorem pair_smul_right (hr : ∀ a b b', e a (b + b') = e a b * e a b') (n : Nat) (a : G1) (b : G2) :
    e a (n • b) = e a b ^ n := by
  have h0 : e a 0 = 1 := by
    have := hr a 0 0
    rw [add_zero] at this
    exact mul_left_cancel (a := e a 0) (by rw [← this, mul_one])
  induction n with
  | zero => rw [zero_smul, pow_zero, h0]
  | succ n ih => rw [succ_nsmul, hr, ih, pow_succ]

theorem pair_order (hl : ∀ a a' b, e (a + a') b = e a b * e a' b) (h1 : r • g1 = 0) : e g1 g2 ^ r = 1 := by
  rw [← pair_smul_left hl, h1]
  have := pair_smul_left hl 0 g1 g2
  rwa [zero_smul, pow_zero] at this

theorem pow_val_add {t : T} (ht : t ^ r = 1) (x y : ZMod r) : t ^ (x + y).val = t ^ x.val * t ^ y.val := by
  rw [ZMod.val_add, ← pow_add, ← pow_mod_of_pow_eq_one]
  exact ht
where
  pow_mod_of_pow_eq_one {t : T} {n : Nat} (ht : t ^ r = 1) : t ^ n = t ^ (n % r) := by
    conv_lhs => rw [← Nat.mod_add_div n r, pow_add, pow_mul, ht, one_pow, mul_one]

theorem pair_val (hl : ∀ a a' b, e (a + a') b = e a b * e a' b) (hr : ∀ a b b', e a (b + b') = e a b * e a b')
    (h1 : r • g1 = 0) (x y : ZMod r) : e (x.val • g1) (y.val • g2) = e g1 g2 ^ (x * y).val := by
  rw [pair_smul_left hl, pair_smul_right hr, ← pow_mul, ZMod.val_mul, mul_comm y.val]
  exact pow_val_add.pow_mod_of_pow_eq_one (pair_order hl h1)

theorem pow_val_inj {t : T} (ht : t ^ r = 1) (hne : t ≠ 1) (x y : ZMod r) : t ^ x.val = t ^ y.val ↔ x = y := by
  have ho : orderOf t = r := orderOf_eq_prime ht hne
  constructor
  · intro h
    have := pow_inj_mod.1 h
    rw [ho, Nat.mod_eq_of_lt (ZMod.val_lt x), Nat.mod_eq_of_lt (ZMod.val_lt y)] at this
    exact ZMod.val_injective r this
  · rintro rfl; rfl

end pairing

end Fawkes.Groth16
