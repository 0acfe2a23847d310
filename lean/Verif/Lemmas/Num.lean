import Verif.Model.Num
import Verif.Spec.Bytes
import Mathlib.Data.Nat.Digits.Lemmas
import Mathlib.Algebra.Field.ZMod
import Mathlib.Data.Nat.Bitwise

/-!
# Bits, limbs and bytes of field elements
-/

set_option linter.unusedSectionVars false

namespace Fawkes

/-! ## Bytes -/

theorem leNat_append (a b : List UInt8) : leNat (a ++ b) = leNat a + 256 ^ a.length * leNat b := by
  induction a with
  | nil => simp [leNat]
  | cons x a ih => simp only [List.cons_append, leNat, ih, List.length_cons, pow_succ]; ring

theorem leNat_lt (a : List UInt8) : leNat a < 256 ^ a.length := by
  induction a with
  | nil => simp [leNat]
  | cons x a ih =>
    have := x.toNat_lt
    simp only [leNat, List.length_cons, pow_succ]; omega

theorem leNat_inj {a b : List UInt8} (hl : a.length = b.length) (h : leNat a = leNat b) : a = b := by
  induction a generalizing b with
  | nil => cases b with
    | nil => rfl
    | cons => simp at hl
  | cons x a ih => cases b with
    | nil => simp at hl
    | cons y b =>
      simp only [leNat] at h
      have hx := x.toNat_lt
      have hy := y.toNat_lt
      have h1 : x.toNat = y.toNat := by omega
      have h2 : leNat a = leNat b := by omega
      rw [UInt8.toNat_inj.1 h1, ih (by simpa using hl) h2]

theorem leNat_replicate_zero (n : Nat) : leNat (List.replicate n 0) = 0 := by
  induction n with
  | zero => rfl
  | succ n ih => simp [List.replicate_succ, leNat, ih]

theorem biguintFromBE_eq (bs : List UInt8) : Num.biguintFromBE bs = beNat bs := by
  have key : ∀ (bs : List UInt8) (acc : Nat), bs.foldl (fun acc b => acc * 256 + b.toNat) acc =
      acc * 256 ^ bs.length + leNat bs.reverse := by
    intro bs
    induction bs with
    | nil => simp [leNat]
    | cons b bs ih =>
      intro acc
      rw [List.foldl_cons, ih, List.reverse_cons, leNat_append, List.length_cons, List.length_reverse]
      simp only [leNat, pow_succ]; ring
  have := key bs 0
  simpa [Num.biguintFromBE, beNat] using this

theorem foldr_leNat (bs : List UInt8) : bs.foldr (fun b acc => b.toNat + 256 * acc) 0 = leNat bs := by
  induction bs with
  | nil => rfl
  | cons b bs ih => simp [leNat, ih]

/-- Fixed-width digits. -/
theorem leNat_digits (k n : Nat) :
    leNat ((List.range k).map fun i => UInt8.ofNat (n / 256 ^ i)) = n % 256 ^ k := by
  induction k with
  | zero => simp [leNat, Nat.mod_one]
  | succ k ih =>
    rw [List.range_succ, List.map_append, leNat_append, ih]
    simp only [List.map_cons, List.map_nil, leNat, List.length_map, List.length_range, Nat.mul_zero, Nat.add_zero]
    rw [UInt8.toNat_ofNat', show (2 : ℕ) ^ 8 = 256 by norm_num, Nat.pow_succ 256 k, Nat.mod_mul]

theorem wordLE_length (l : UInt64) : (Num.wordLE l).length = 8 := by simp [Num.wordLE]

theorem leNat_wordLE (l : UInt64) : leNat (Num.wordLE l) = l.toNat := by
  unfold Num.wordLE
  rw [leNat_digits]
  exact Nat.mod_eq_of_lt (by have := l.toNat_lt; norm_num at this ⊢; exact this)

theorem writeLE_length (r : List UInt64) : (Num.writeLE r).length = 8 * r.length := by
  induction r with
  | nil => rfl
  | cons l r ih =>
    simp only [Num.writeLE, List.flatMap_cons, List.length_append, wordLE_length, List.length_cons] at ih ⊢
    omega

theorem leNat_writeLE (r : List UInt64) : leNat (Num.writeLE r) = reprNat r := by
  induction r with
  | nil => rfl
  | cons l r ih =>
    have : Num.writeLE (l :: r) = Num.wordLE l ++ Num.writeLE r := rfl
    rw [this, leNat_append, ih, leNat_wordLE, wordLE_length, reprNat]
    norm_num

theorem writeBE_eq (r : List UInt64) : Num.writeBE r = (Num.writeLE r).reverse := by
  unfold Num.writeBE Num.writeLE
  induction r with
  | nil => rfl
  | cons l r ih => simp [List.flatMap_append, ih]

theorem writeBE_length (r : List UInt64) : (Num.writeBE r).length = 8 * r.length := by
  rw [writeBE_eq, List.length_reverse, writeLE_length]

theorem beNat_writeBE (r : List UInt64) : beNat (Num.writeBE r) = reprNat r := by
  unfold beNat; rw [writeBE_eq, List.reverse_reverse, leNat_writeLE]

theorem readWordLE_toNat {bs : List UInt8} (h : bs.length = 8) : (Num.readWordLE bs).toNat = leNat bs := by
  unfold Num.readWordLE
  rw [foldr_leNat, UInt64.toNat_ofNat']
  have := leNat_lt bs
  rw [h] at this
  exact Nat.mod_eq_of_lt (by norm_num at this ⊢; exact this)

/-- `read_le` consumes exactly `8k` bytes and yields their little-endian value. -/
theorem readLE_spec (k : Nat) (bs : List UInt8) :
    (8 * k ≤ bs.length → ∃ r, Num.readLE k bs = some (r, bs.drop (8 * k)) ∧ r.length = k ∧
      reprNat r = leNat (bs.take (8 * k))) ∧
    (bs.length < 8 * k → Num.readLE k bs = none) := by
  induction k generalizing bs with
  | zero => simp [Num.readLE, reprNat, leNat]
  | succ k ih =>
    constructor
    · intro h
      have h8 : ¬ bs.length < 8 := by omega
      obtain ⟨r, h1, h2, h3⟩ := (ih (bs.drop 8)).1 (by rw [List.length_drop]; omega)
      refine ⟨Num.readWordLE (bs.take 8) :: r, ?_, by simp [h2], ?_⟩
      · simp only [Num.readLE, if_neg h8, h1, List.drop_drop]
        rw [show 8 + 8 * k = 8 * (k + 1) by ring]
      · have hl : (bs.take 8).length = 8 := by rw [List.length_take]; omega
        rw [reprNat, readWordLE_toNat hl, h3, show 8 * (k + 1) = 8 + 8 * k by ring, List.take_add, leNat_append, hl]
        norm_num
    · intro h
      simp only [Num.readLE]
      split
      · rfl
      · rw [(ih (bs.drop 8)).2 (by rw [List.length_drop]; omega)]

theorem reprNat_append_single (r : List UInt64) (l : UInt64) :
    reprNat (r ++ [l]) = reprNat r + 2 ^ (64 * r.length) * l.toNat := by
  induction r with
  | nil => simp [reprNat]
  | cons a r ih => simp only [List.cons_append, reprNat, ih, List.length_cons, Nat.mul_add, pow_add]; ring

/-- `read_be` consumes exactly `8k` bytes and yields their big-endian value. -/
theorem readBE_spec (k : Nat) (bs : List UInt8) :
    (8 * k ≤ bs.length → ∃ r, Num.readBE k bs = some (r, bs.drop (8 * k)) ∧ r.length = k ∧
      reprNat r = beNat (bs.take (8 * k))) ∧
    (bs.length < 8 * k → Num.readBE k bs = none) := by
  induction k generalizing bs with
  | zero => simp [Num.readBE, reprNat, leNat, beNat]
  | succ k ih =>
    constructor
    · intro h
      have h8 : ¬ bs.length < 8 := by omega
      obtain ⟨r, h1, h2, h3⟩ := (ih (bs.drop 8)).1 (by rw [List.length_drop]; omega)
      refine ⟨r ++ [Num.readWordLE (bs.take 8).reverse], ?_, by simp [h2], ?_⟩
      · simp only [Num.readBE, if_neg h8, h1, List.drop_drop]
        rw [show 8 + 8 * k = 8 * (k + 1) by ring]
      · have hl : (bs.take 8).length = 8 := by rw [List.length_take]; omega
        have hl2 : ((bs.drop 8).take (8 * k)).length = 8 * k := by
          rw [List.length_take, List.length_drop]; omega
        rw [reprNat_append_single, readWordLE_toNat (by rw [List.length_reverse, hl]), h3,
          show 8 * (k + 1) = 8 + 8 * k by ring, List.take_add]
        unfold beNat
        rw [List.reverse_append, leNat_append, List.length_reverse, hl2, h2]
        congr 2
        rw [show (256 : ℕ) = 2 ^ 8 by norm_num, ← pow_mul]; congr 1; ring
    · intro h
      simp only [Num.readBE]
      split
      · rfl
      · rw [(ih (bs.drop 8)).2 (by rw [List.length_drop]; omega)]

/-! ## Limbs -/

theorem limbsOf_length (k n : Nat) : (limbsOf k n).length = k := by simp [limbsOf]

theorem reprNat_limbsOf (k n : Nat) : reprNat (limbsOf k n) = n % 2 ^ (64 * k) := by
  induction k with
  | zero => simp [limbsOf, reprNat, Nat.mod_one]
  | succ k ih =>
    have : limbsOf (k + 1) n = limbsOf k n ++ [UInt64.ofNat (n / 2 ^ (64 * k))] := by
      simp [limbsOf, List.range_succ]
    rw [this, reprNat_append_single, ih, limbsOf_length, UInt64.toNat_ofNat', Nat.mul_add, pow_add, Nat.mod_mul]

theorem reprNat_lt (r : List UInt64) : reprNat r < 2 ^ (64 * r.length) := by
  induction r with
  | nil => simp [reprNat]
  | cons l r ih =>
    have := l.toNat_lt
    simp only [reprNat, List.length_cons, Nat.mul_add, pow_add] at ih ⊢
    norm_num at this ⊢
    omega

theorem reprNat_inj {a b : List UInt64} (hl : a.length = b.length) (h : reprNat a = reprNat b) : a = b := by
  induction a generalizing b with
  | nil => cases b with
    | nil => rfl
    | cons => simp at hl
  | cons x a ih => cases b with
    | nil => simp at hl
    | cons y b =>
      simp only [reprNat] at h
      have hx := x.toNat_lt
      have hy := y.toNat_lt
      have h1 : x.toNat = y.toNat := by omega
      have h2 : reprNat a = reprNat b := by omega
      rw [UInt64.toNat_inj.1 h1, ih (by simpa using hl) h2]

theorem lt_two_pow_numBits (p : Nat) : p < 2 ^ numBits p := Nat.lt_size_self p

theorem numBits_lt (p : Nat) : numBits p < 64 * nLimbs p := by
  unfold nLimbs; have := Nat.lt_div_mul_add (a := numBits p) (b := 64) (by norm_num); omega

theorem lt_two_pow_limbs (p : Nat) : p < 2 ^ (64 * nLimbs p) :=
  (lt_two_pow_numBits p).trans (Nat.pow_lt_pow_right (by norm_num) (numBits_lt p))

section
variable {p : Nat} [NeZero p]

theorem intoRepr_length (x : ZMod p) : (Num.intoRepr x).length = nLimbs p := limbsOf_length _ _

theorem reprNat_intoRepr (x : ZMod p) : reprNat (Num.intoRepr x) = x.val := by
  unfold Num.intoRepr
  rw [reprNat_limbsOf]
  exact Nat.mod_eq_of_lt ((ZMod.val_lt x).trans (lt_two_pow_limbs p))

theorem fromRepr_eq (r : List UInt64) (x : ZMod p) :
    Num.fromRepr r = some x ↔ reprNat r = x.val := by
  unfold Num.fromRepr
  constructor
  · intro h
    split at h
    · next hlt => injection h with h; subst h; rw [ZMod.val_natCast_of_lt hlt]
    · cases h
  · intro h
    rw [if_pos (h ▸ ZMod.val_lt x), h, ZMod.natCast_zmod_val]

theorem fromRepr_none (r : List UInt64) : (Num.fromRepr r : Option (ZMod p)) = none ↔ p ≤ reprNat r := by
  unfold Num.fromRepr
  split <;> simp_all

/-! ## Bits -/

omit [NeZero p] in
theorem testBit_reprNat (r : List UInt64) (n : Nat) :
    (reprNat r).testBit n = ((r.getD (n / 64) 0).toNat).testBit (n % 64) := by
  induction r generalizing n with
  | nil => simp [reprNat]
  | cons l r ih =>
    have hl := l.toNat_lt
    rw [reprNat]
    by_cases hn : n < 64
    · rw [Nat.div_eq_of_lt hn, Nat.mod_eq_of_lt hn, List.getD_cons_zero, add_comm,
        Nat.testBit_two_pow_mul_add _ hl, if_pos hn]
    · have h1 : n / 64 = (n - 64) / 64 + 1 := by omega
      have h2 : n % 64 = (n - 64) % 64 := by omega
      rw [add_comm, Nat.testBit_two_pow_mul_add _ hl, if_neg hn, h1, h2, List.getD_cons_succ, ih]

omit [NeZero p] in
theorem bitAt_eq (r : List UInt64) (n : Nat) : Num.bitAt r n = (reprNat r).testBit n := by
  rw [testBit_reprNat]
  unfold Num.bitAt
  have h : n - 64 * (n / 64) = n % 64 := by omega
  simp only [h]
  rw [Nat.one_shiftLeft, Nat.and_two_pow]
  cases hb : Nat.testBit (List.getD r (n / 64) 0).toNat (n % 64) <;> simp

theorem iterbitLE_eq (x : ZMod p) :
    Num.iterbitLE x = (List.range (64 * nLimbs p)).map fun i => x.val.testBit i := by
  unfold Num.iterbitLE
  simp only [intoRepr_length, Nat.mul_comm]
  apply List.map_congr_left
  intro i _
  rw [bitAt_eq, reprNat_intoRepr]

theorem iterbitLE_length (x : ZMod p) : (Num.iterbitLE x).length = 64 * nLimbs p := by
  rw [iterbitLE_eq]; simp

theorem isOdd_eq (x : ZMod p) : Num.isOdd x = decide (x.val % 2 = 1) := by
  have h := reprNat_intoRepr x
  have hl := intoRepr_length x
  unfold Num.isOdd
  cases hr : Num.intoRepr x with
  | nil => rw [hr] at hl; simp [nLimbs] at hl
  | cons l ls =>
    rw [hr, reprNat] at h
    simp only
    rw [← h, Nat.add_mod, show 2 ^ 64 * reprNat ls % 2 = 0 by rw [Nat.mul_mod]; norm_num]
    simp
    rfl

end

end Fawkes
