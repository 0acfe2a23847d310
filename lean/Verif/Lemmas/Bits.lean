import Verif.Spec.Bits
import Verif.Lemmas.Num
import Mathlib.Data.Nat.Size

/-!
# Bits of natural numbers
-/

set_option linter.unusedSectionVars false

namespace Fawkes

theorem bitsNat_lt (bs : List Bool) : bitsNat bs < 2 ^ bs.length := by
  induction bs with
  | nil => simp [bitsNat]
  | cons b bs ih =>
    simp only [bitsNat, List.length_cons, pow_succ]
    cases b <;> simp <;> omega

theorem bitsNat_append (a b : List Bool) : bitsNat (a ++ b) = bitsNat a + 2 ^ a.length * bitsNat b := by
  induction a with
  | nil => simp [bitsNat]
  | cons x a ih => simp only [List.cons_append, bitsNat, ih, List.length_cons, pow_succ]; ring

theorem bitsNat_replicate_false (n : Nat) : bitsNat (List.replicate n false) = 0 := by
  induction n with
  | zero => rfl
  | succ n ih => simp [List.replicate_succ, bitsNat, ih]

theorem lowBits_length (n x : Nat) : (lowBits n x).length = n := by simp [lowBits]

theorem lowBits_succ (n x : Nat) : lowBits (n + 1) x = decide (x % 2 = 1) :: lowBits n (x / 2) := by
  unfold lowBits
  rw [List.range_succ_eq_map, List.map_cons, List.map_map, Nat.testBit_zero]
  congr 2
  funext i; simp [Nat.testBit_succ]

theorem bitsNat_lowBits (n x : Nat) : bitsNat (lowBits n x) = x % 2 ^ n := by
  induction n generalizing x with
  | zero => simp [lowBits, bitsNat, Nat.mod_one]
  | succ n ih =>
    rw [lowBits_succ, bitsNat, ih, pow_succ, mul_comm (2 ^ n) 2, Nat.mod_mul]
    rcases Nat.mod_two_eq_zero_or_one x with h | h <;> simp [h]

theorem bitsNat_inj {a b : List Bool} (hl : a.length = b.length) (h : bitsNat a = bitsNat b) : a = b := by
  induction a generalizing b with
  | nil => cases b with
    | nil => rfl
    | cons _ _ => simp at hl
  | cons x a ih =>
    cases b with
    | nil => simp at hl
    | cons y b =>
      simp only [bitsNat] at h
      have h1 : x.toNat < 2 := Bool.toNat_lt x
      have h2 : y.toNat < 2 := Bool.toNat_lt y
      have hx : x.toNat = y.toNat := by omega
      rw [ih (by simpa using hl) (by omega)]
      cases x <;> cases y <;> simp_all

theorem lowBits_bitsNat (bs : List Bool) : lowBits bs.length (bitsNat bs) = bs := by
  apply bitsNat_inj (lowBits_length _ _)
  rw [bitsNat_lowBits, Nat.mod_eq_of_lt (bitsNat_lt bs)]

theorem take_lowBits {m n : Nat} (h : m ≤ n) (x : Nat) : (lowBits n x).take m = lowBits m x := by
  unfold lowBits
  rw [← List.map_take, List.take_range, Nat.min_eq_left h]

theorem iterbitLE_lowBits {p : Nat} [NeZero p] (x : ZMod p) : Num.iterbitLE x = lowBits (64 * nLimbs p) x.val :=
  iterbitLE_eq x

theorem weighted_bits {p : Nat} [Fact p.Prime] (bs : List Bool) :
    weighted (bs.map fun b => if b = true then (1 : ZMod p) else 0) = (bitsNat bs : ZMod p) := by
  induction bs with
  | nil => simp [weighted, bitsNat]
  | cons b bs ih =>
    simp only [List.map_cons, weighted, ih, bitsNat]
    cases b <;> simp

end Fawkes
