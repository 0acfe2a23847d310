import Verif.Lemmas.NumConv
import Verif.Lemmas.Primes

/-!
# C45–C51, C63: conversions of field elements

`x.val` (Mathlib) is the canonical representative of `x : ZMod p`, `((n : ℕ) : ZMod p)` and
`((n : ℤ) : ZMod p)` the residue of an integer; `leNat`, `beNat` (Spec/Bytes.lean) the integers spelled by
byte strings.  `Aligned p` says that the byte length of the modulus is a multiple of the limb size; the
code's byte conversions panic otherwise (`C46_unaligned_panics`); it holds for every field the crate is
instantiated with (`aligned_bnR` …).
-/

set_option linter.unusedSectionVars false

namespace Fawkes.Props

open Fawkes

instance : Fact (1 < bnR) := ⟨by decide +kernel⟩
instance : Fact (1 < bnL) := ⟨by decide +kernel⟩
instance : Fact (1 < blsR) := ⟨by decide +kernel⟩
instance : Fact (1 < blsL) := ⟨by decide +kernel⟩

theorem aligned_bnR : Aligned bnR := by decide +kernel
theorem aligned_bnL : Aligned bnL := by decide +kernel
theorem aligned_blsR : Aligned blsR := by decide +kernel
theorem aligned_blsL : Aligned blsL := by decide +kernel

variable {p : Nat} [hp : Fact (1 < p)]

/-! ## C45 -/

/-- C45: `Num::from(u64)` is the residue of the integer (and panics exactly when `n ≥ p`). -/
theorem C45_from_u64 (n : UInt64) :
    (n.toNat < p → Num.fromU64 p n = .ok (n.toNat : ZMod p)) ∧
    (p ≤ n.toNat → ∃ e, Num.fromU64 p n = .error e) := by
  unfold Num.fromU64
  rw [fromLow_eq (UInt64.toNat_lt n)]
  constructor
  · intro h; rw [if_pos h]
  · intro h; exact ⟨_, if_neg (by omega)⟩

/-- C45: `Num::from(u32)` -/
theorem C45_from_u32 (n : UInt32) :
    (n.toNat < p → Num.fromU32 p n = .ok (n.toNat : ZMod p)) ∧
    (p ≤ n.toNat → ∃ e, Num.fromU32 p n = .error e) := by
  unfold Num.fromU32
  rw [fromLow_eq ((UInt32.toNat_lt n).trans (by norm_num))]
  constructor
  · intro h; rw [if_pos h]
  · intro h; exact ⟨_, if_neg (by omega)⟩

example : Num.fromU64 bnR 0xffffffffffffffff = .ok (0xffffffffffffffff : ZMod bnR) :=
  (C45_from_u64 (p := bnR) 0xffffffffffffffff).1 (by decide +kernel)

/-- C45, the full claim about signed integers of `bits` bits (`checks`: arithmetic overflow checks on). -/
def C45_signed_full (p : Nat) : Prop :=
  ∀ (checks : Bool) (bits : Nat), bits = 32 ∨ bits = 64 →
    ∀ n : ℤ, -(2 ^ (bits - 1) : ℤ) ≤ n → n < 2 ^ (bits - 1) →
      Num.fromSigned p checks bits n = .ok (n : ZMod p)

/-- C45 holds for every signed integer except the most negative one. Missing: `i32::MIN`, `i64::MIN`. -/
theorem C45_from_signed_partial (checks : Bool) (bits : Nat) (hb : bits = 32 ∨ bits = 64) (n : ℤ)
    (h1 : -(2 ^ (bits - 1) : ℤ) < n) (h2 : n < 2 ^ (bits - 1)) (hn : |n| < p) :
    Num.fromSigned p checks bits n = .ok (n : ZMod p) :=
  fromSigned_ok checks bits n (by omega) ⟨h1, h2⟩ hn

example : Num.fromSigned bnR true 32 (-7) = .ok (-7 : ZMod bnR) := by
  have h := C45_from_signed_partial (p := bnR) true 32 (Or.inl rfl) (-7) (by norm_num) (by norm_num)
    (by decide +kernel)
  rw [h]; norm_num

/-- C45: with overflow checks off, `Num::from(i64::MIN)` is also right. -/
theorem C45_from_i64_min (hn : 2 ^ 63 < p) :
    Num.fromSigned p false 64 (-2 ^ 63) = .ok (((-2 ^ 63 : ℤ)) : ZMod p) := by
  unfold Num.fromSigned Num.absSigned
  rw [if_pos (by norm_num)]
  simp only [Bind.bind, Except.bind, Bool.false_eq_true, if_false]
  have : Num.asU64 (-2 ^ 63) = 2 ^ 63 := by decide
  rw [this, fromLow_eq (by norm_num), if_pos hn]
  simp only [Pure.pure, Except.pure]
  rw [if_neg (by norm_num)]
  push_cast; rfl

/-- C45 is false of the code for `i32::MIN`: in a build without overflow checks the conversion yields
`2^31 − 2^64` instead of `−2^31`; with checks it panics. -/
theorem C45_signed_refuted : ¬ C45_signed_full bnR := by
  intro h
  have h1 := h false 32 (Or.inl rfl) (-2 ^ 31) (by norm_num) (by norm_num)
  revert h1
  decide +kernel

theorem C45_i32_min_wrong :
    Num.fromSigned bnR false 32 (-2 ^ 31) = .ok ((2 ^ 31 - 2 ^ 64 : ℤ) : ZMod bnR) ∧
    (∃ e, Num.fromSigned bnR true 32 (-2 ^ 31) = .error e) ∧
    (∃ e, Num.fromSigned bnR true 64 (-2 ^ 63) = .error e) := by
  refine ⟨by decide +kernel, ⟨.assertion, by decide +kernel⟩, ⟨.assertion, by decide +kernel⟩⟩

/-- C45: `Num::from(bool)` -/
theorem C45_from_bool (b : Bool) : Num.fromBool p b = ((b.toNat : ℕ) : ZMod p) := by
  cases b <;> simp [Num.fromBool]

/-- C45: `Num::from(BigUint)` is the residue of the integer. -/
theorem C45_from_biguint (ha : Aligned p) (n : ℕ) : Num.fromBigUint p n = .ok (n : ZMod p) :=
  fromBigUint_ok ha n

/-- C45: `Num::from(BigInt)` is the residue of the integer, negative ones included. -/
theorem C45_from_bigint (ha : Aligned p) (n : ℤ) : Num.fromBigInt p n = .ok (n : ZMod p) :=
  fromBigInt_ok ha n

example : Num.fromBigInt bnR (-10 ^ 100) = .ok (((-10 ^ 100 : ℤ)) : ZMod bnR) := C45_from_bigint aligned_bnR _

/-- C45: `Into<BigUint>` returns the canonical representative. -/
theorem C45_into_biguint (ha : Aligned p) (x : ZMod p) : Num.intoBigUint x = .ok x.val :=
  intoBigUint_ok ha x

/-- C45: `Into<u64>` returns the canonical representative and panics exactly when it does not fit. -/
theorem C45_into_u64 (x : ZMod p) :
    (x.val < 2 ^ 64 → Num.intoU64 x = .ok x.val) ∧ (2 ^ 64 ≤ x.val → ∃ e, Num.intoU64 x = .error e) := by
  have hl := intoRepr_length x
  have hv := reprNat_intoRepr x
  unfold Num.intoU64
  cases hr : Num.intoRepr x with
  | nil => rw [hr] at hl; simp [nLimbs] at hl
  | cons l ls =>
    rw [hr, reprNat] at hv
    have hzero : ls.all (· == 0) = true ↔ reprNat ls = 0 := by
      clear hv hr hl
      induction ls with
      | nil => simp [reprNat]
      | cons a ls ih =>
        simp only [List.all_cons, Bool.and_eq_true, beq_iff_eq, reprNat, ih]
        rw [← UInt64.toNat_inj]
        change a.toNat = 0 ∧ _ ↔ _
        omega
    have hlt := UInt64.toNat_lt l
    simp only
    by_cases hz : reprNat ls = 0
    · rw [if_pos (hzero.2 hz)]
      rw [hz] at hv
      refine ⟨fun _ => by rw [show l.toNat = x.val by omega], fun h => by omega⟩
    · rw [if_neg (by rwa [hzero])]
      exact ⟨fun h => by norm_num at h hv; omega, fun _ => ⟨_, rfl⟩⟩

example : Num.intoU64 (42 : ZMod bnR) = .ok 42 := (C45_into_u64 (42 : ZMod bnR)).1 (by decide +kernel)
example : ∃ e, Num.intoU64 (-1 : ZMod bnR) = .error e :=
  (C45_into_u64 (-1 : ZMod bnR)).2 (by decide +kernel)

/-! ## C46 -/

/-- C46: `into_binary_be` has exactly `⌈NUM_BITS/8⌉` bytes and spells the canonical representative. -/
theorem C46_into_binary_be (ha : Aligned p) (x : ZMod p) :
    ∃ bs, Num.intoBinaryBE x = .ok bs ∧ bs.length = (Nat.size p + 7) / 8 ∧ beNat bs = x.val := by
  obtain ⟨bs, h1, h2, h3⟩ := intoBinaryBE_ok ha x
  refine ⟨bs, h1, ?_, h3⟩
  rw [h2]; unfold numBytes numBits
  split <;> omega

/-- C46: `from_binary_be` of any byte string is its big-endian integer modulo `p`. -/
theorem C46_from_binary_be (ha : Aligned p) (bs : List UInt8) :
    Num.fromBinaryBE p bs = .ok (beNat bs : ZMod p) := by
  unfold Num.fromBinaryBE
  rw [biguintFromBE_eq]; exact fromBigUint_ok ha _

/-- C46: `from_binary_be(into_binary_be(x)) = x`. -/
theorem C46_round_trip (ha : Aligned p) (x : ZMod p) :
    ∃ bs, Num.intoBinaryBE x = .ok bs ∧ Num.fromBinaryBE p bs = .ok x := by
  obtain ⟨bs, h1, -, h3⟩ := intoBinaryBE_ok ha x
  exact ⟨bs, h1, by rw [C46_from_binary_be ha, h3, ZMod.natCast_zmod_val]⟩

example : ∃ bs, Num.intoBinaryBE (-1 : ZMod bnR) = .ok bs ∧ Num.fromBinaryBE bnR bs = .ok (-1) :=
  C46_round_trip aligned_bnR _

/-- Beyond C46: for a modulus whose byte length does not fill the limbs every byte conversion panics
(e.g. any prime below `2^56`); no field shipped with the crate is of this kind. -/
theorem C46_unaligned_panics (ha : ¬ Aligned p) (x : ZMod p) (bs : List UInt8) :
    (∃ e, Num.intoBinaryBE x = .error e) ∧ ∃ e, Num.fromBinaryBE p bs = .error e :=
  ⟨⟨_, writeBEInto_err ha (intoRepr_length x)⟩, ⟨_, fromBigUint_err ha _⟩⟩

/-! ## C47 -/

/-- C47: `into_other` and `from_other` give the residue of the canonical integer. -/
theorem C47_residue {q : Nat} [Fact (1 < q)] (hp' : Aligned p) (hq : Aligned q) (x : ZMod p) :
    Num.intoOther q x = .ok (x.val : ZMod q) ∧ Num.fromOther q x = .ok (x.val : ZMod q) := by
  obtain ⟨bs, h1, -, h3⟩ := intoBinaryBE_ok hp' x
  have h1' : Num.writeBEInto (numBytes p) (Num.intoRepr x) = .ok bs := h1
  unfold Num.intoOther Num.fromOther
  simp only [h1', Bind.bind, Except.bind]
  rw [C46_from_binary_be hq, h3]
  exact ⟨rfl, rfl⟩

/-- C47: converting to a field with a modulus that is not smaller, and back, is the identity. -/
theorem C47_round_trip {q : Nat} [Fact (1 < q)] (hp' : Aligned p) (hq : Aligned q) (h : p ≤ q) (x : ZMod p) :
    ∃ y : ZMod q, Num.intoOther q x = .ok y ∧ y.val = x.val ∧ Num.intoOther p y = .ok x := by
  have hv : ((x.val : ℕ) : ZMod q).val = x.val := ZMod.val_natCast_of_lt ((ZMod.val_lt x).trans_le h)
  refine ⟨x.val, (C47_residue hp' hq x).1, hv, ?_⟩
  rw [(C47_residue hq hp' _).1, hv, ZMod.natCast_zmod_val]

example (x : ZMod bnL) : ∃ y : ZMod bnR, Num.intoOther bnR x = .ok y ∧ y.val = x.val ∧
    Num.intoOther bnL y = .ok x :=
  C47_round_trip aligned_bnL aligned_bnR (by decide +kernel) x

/-! ## C48 -/

/-- C48: `iterbit_le` yields one boolean per limb bit, the `i`-th being bit `i` of the canonical
representative; `iterbit_be` yields them in the opposite order. -/
theorem C48_iterbit (x : ZMod p) :
    (Num.iterbitLE x).length = 64 * nLimbs p ∧
    (∀ i (h : i < (Num.iterbitLE x).length), (Num.iterbitLE x)[i] = x.val.testBit i) ∧
    bitsNat (Num.iterbitLE x) = x.val ∧
    Num.iterbitBE x = (Num.iterbitLE x).reverse := by
  refine ⟨iterbitLE_length x, ?_, ?_, rfl⟩
  · intro i h
    simp [iterbitLE_eq]
  · have key : ∀ (k n : Nat), bitsNat ((List.range k).map fun i => n.testBit i) = n % 2 ^ k := by
      intro k
      induction k with
      | zero => intro n; simp [bitsNat, Nat.mod_one]
      | succ k ih =>
        intro n
        rw [List.range_succ_eq_map, List.map_cons, List.map_map, bitsNat]
        have : ((fun i => n.testBit i) ∘ Nat.succ) = fun i => (n / 2).testBit i := by
          funext i; simp [Nat.testBit_succ]
        rw [this, ih, Nat.testBit_zero, pow_succ, mul_comm (2 ^ k) 2, Nat.mod_mul]
        rcases Nat.mod_two_eq_zero_or_one n with h | h <;> simp [h]
    rw [iterbitLE_eq, key, Nat.mod_eq_of_lt ((ZMod.val_lt x).trans (lt_two_pow_limbs p))]

/-- C48: `is_odd`/`is_even` are the parity of the canonical representative. -/
theorem C48_parity (x : ZMod p) : (Num.isOdd x = true ↔ Odd x.val) ∧ (Num.isEven x = true ↔ Even x.val) := by
  unfold Num.isEven
  rw [isOdd_eq, Nat.odd_iff, Nat.even_iff]
  constructor
  · simp
  · simp

/-! ## C49 -/

/-- C49: decoding an encoding followed by anything gives the value and leaves the rest. -/
theorem C49_round_trip (x : ZMod p) (rest : List UInt8) :
    Num.borshDeserialize p (Num.borshSerialize x ++ rest) = some (x, rest) := by
  have hlen : (Num.borshSerialize x).length = 8 * nLimbs p := by
    unfold Num.borshSerialize; rw [writeLE_length, intoRepr_length]
  obtain ⟨r, h1, -, h3⟩ := (readLE_spec (nLimbs p) (Num.borshSerialize x ++ rest)).1
    (by rw [List.length_append, hlen]; omega)
  unfold Num.borshDeserialize
  rw [h1]
  simp only
  have : Num.fromRepr r = some x := by
    rw [fromRepr_eq, h3, List.take_left' hlen]
    unfold Num.borshSerialize
    rw [leNat_writeLE, reprNat_intoRepr]
  rw [this]
  simp only
  rw [List.drop_left' hlen]

/-- C49: exactly what is accepted: a buffer is decoded to `(x, rest)` if and only if it is `x`'s
encoding followed by `rest`. In particular each value has exactly one accepted encoding. -/
theorem C49_unique (buf rest : List UInt8) (x : ZMod p) :
    Num.borshDeserialize p buf = some (x, rest) ↔ buf = Num.borshSerialize x ++ rest := by
  constructor
  · intro h
    unfold Num.borshDeserialize at h
    by_cases hl : 8 * nLimbs p ≤ buf.length
    · obtain ⟨r, h1, h2, h3⟩ := (readLE_spec (nLimbs p) buf).1 hl
      rw [h1] at h
      simp only at h
      cases hf : (Num.fromRepr r : Option (ZMod p)) with
      | none => rw [hf] at h; simp at h
      | some y =>
        rw [hf] at h
        simp only [Option.some.injEq, Prod.mk.injEq] at h
        obtain ⟨rfl, rfl⟩ := h
        rw [fromRepr_eq, h3] at hf
        conv_lhs => rw [← List.take_append_drop (8 * nLimbs p) buf]
        congr 1
        refine leNat_inj ?_ ?_
        · unfold Num.borshSerialize
          rw [List.length_take, writeLE_length, intoRepr_length]; omega
        · unfold Num.borshSerialize
          rw [hf, leNat_writeLE, reprNat_intoRepr]
    · rw [(readLE_spec (nLimbs p) buf).2 (by omega)] at h; simp at h
  · rintro rfl; exact C49_round_trip x rest

/-- C49: decoding fails exactly on buffers that are too short or spell an integer `≥ p`. -/
theorem C49_rejects (buf : List UInt8) :
    Num.borshDeserialize p buf = none ↔
      buf.length < 8 * nLimbs p ∨ p ≤ leNat (buf.take (8 * nLimbs p)) := by
  unfold Num.borshDeserialize
  by_cases hl : 8 * nLimbs p ≤ buf.length
  · obtain ⟨r, h1, h2, h3⟩ := (readLE_spec (nLimbs p) buf).1 hl
    rw [h1]
    simp only
    have hn := fromRepr_none (p := p) r
    rw [h3] at hn
    cases hf : (Num.fromRepr r : Option (ZMod p)) with
    | none => simp only [true_iff]; exact Or.inr (hn.1 hf)
    | some y =>
      simp only [reduceCtorEq, false_iff, not_or]
      refine ⟨by omega, fun h => ?_⟩
      rw [hn.2 h] at hf; simp at hf
  · rw [(readLE_spec (nLimbs p) buf).2 (by omega)]
    simp only [true_iff]; left; omega

example : Num.borshDeserialize bnR (Num.borshSerialize (5 : ZMod bnR) ++ [1, 2, 3]) = some (5, [1, 2, 3]) :=
  C49_round_trip _ _

/-! ## C50 -/

/-- C50: `deserialize(serialize(x)) = x` -/
theorem C50_round_trip (ha : Aligned p) (x : ZMod p) :
    ∃ s, Num.serdeSerialize x = .ok s ∧ Num.serdeDeserialize p s = .ok (some x) := by
  refine ⟨Num.decimal x.val, ?_, ?_⟩
  · unfold Num.serdeSerialize; rw [intoBigUint_ok ha]; rfl
  · unfold Num.serdeDeserialize
    rw [parse_decimal]
    simp only
    rw [fromSigned_ok true 32 (-1) (by norm_num) (by norm_num) (by have := hp.out; norm_num; omega)]
    simp only [Bind.bind, Except.bind]
    rw [intoBigUint_ok ha, fromBigUint_ok ha]
    simp only
    have h1 : ((-1 : ℤ) : ZMod p).val = p - 1 := by
      obtain ⟨k, rfl⟩ : ∃ k, p = k + 1 := ⟨p - 1, by have := hp.out; omega⟩
      simp [ZMod.val_neg_one]
    have := ZMod.val_lt x
    rw [h1, if_neg (by omega), ZMod.natCast_zmod_val]
    rfl

/-- C50: the decimal string of an integer is accepted exactly when the integer is below `p`; it is never
reduced. -/
theorem C50_accepts (ha : Aligned p) (n : Nat) :
    Num.serdeDeserialize p (Num.decimal n) = .ok (if n < p then some (n : ZMod p) else none) := by
  unfold Num.serdeDeserialize
  rw [parse_decimal]
  simp only
  rw [fromSigned_ok true 32 (-1) (by norm_num) (by norm_num) (by have := hp.out; norm_num; omega)]
  simp only [Bind.bind, Except.bind]
  rw [intoBigUint_ok ha, fromBigUint_ok ha]
  simp only
  have h1 : ((-1 : ℤ) : ZMod p).val = p - 1 := by
    obtain ⟨k, rfl⟩ : ∃ k, p = k + 1 := ⟨p - 1, by have := hp.out; omega⟩
    simp [ZMod.val_neg_one]
  have := hp.out
  rw [h1]
  by_cases h : n < p
  · rw [if_pos h, if_neg (by omega)]; rfl
  · rw [if_neg h, if_pos (by omega)]; rfl

/-- C50: whatever string is accepted (signs, underscores and leading zeros included), its integer is below
`p` and the result is that integer. -/
theorem C50_never_reduces (ha : Aligned p) (s : List Char) (x : ZMod p)
    (h : Num.serdeDeserialize p s = .ok (some x)) : Num.parseBigUint s = some x.val := by
  unfold Num.serdeDeserialize at h
  cases hs : Num.parseBigUint s with
  | none => rw [hs] at h; simp at h
  | some n =>
    rw [hs] at h
    have h2 := C50_accepts ha n
    unfold Num.serdeDeserialize at h2
    rw [parse_decimal] at h2
    simp only at h h2
    rw [h] at h2
    by_cases hn : n < p
    · rw [if_pos hn] at h2
      simp only [Except.ok.injEq, Option.some.injEq] at h2
      rw [h2, ZMod.val_natCast_of_lt hn]
    · rw [if_neg hn] at h2; simp at h2

example : Num.serdeDeserialize bnR (Num.decimal bnR) = .ok none := by
  rw [C50_accepts aligned_bnR]; simp

example : ∃ s, Num.serdeSerialize (-1 : ZMod bnR) = .ok s ∧ Num.serdeDeserialize bnR s = .ok (some (-1)) :=
  C50_round_trip aligned_bnR _

/-! ## C63 -/

/-- C63: `Num::from(&str)` of the decimal numeral of any integer is its residue (it reduces, unlike
deserialisation). -/
theorem C63_from_str_decimal (n : Nat) : Num.fromStr p (Num.decimal n) = .ok (n : ZMod p) :=
  fromStr_decimal n

/-- C63: every other string makes it panic: signs, underscores, leading zeros, the empty string. -/
theorem C63_from_str_panics (s : List Char) (h : ∀ n, s ≠ Num.decimal n) :
    ∃ e, Num.fromStr p s = .error e :=
  fromStr_panics s h

example : Num.fromStr bnR ['1', '2', '3'] = .ok (123 : ZMod bnR) := C63_from_str_decimal 123
example : ∃ e, Num.fromStr bnR ['0', '1'] = .error e := ⟨.unwrap, rfl⟩

/-! ## C51 -/

/-- C51: `num_vec_to_buf` is the concatenation of fixed-size big-endian encodings. -/
theorem C51_buffer (xs : List (ZMod p)) :
    (Num.numVecToBuf xs).length = 8 * nLimbs p * xs.length ∧
    ∀ i (h : i < xs.length),
      beNat (((Num.numVecToBuf xs).drop (8 * nLimbs p * i)).take (8 * nLimbs p)) = xs[i].val :=
  ⟨numVecToBuf_length xs, numVecToBuf_get xs⟩

/-- C51: a buffer is read as the vector `xs` if and only if it is the encoding of `xs`. -/
theorem C51_read_iff (data : List UInt8) (xs : List (ZMod p)) :
    Num.readNumVec p data = some xs ↔ data = Num.numVecToBuf xs :=
  readNumVec_iff data xs

/-- C51: `read_num_vec(num_vec_to_buf(v)) = v`. -/
theorem C51_round_trip (xs : List (ZMod p)) : Num.readNumVec p (Num.numVecToBuf xs) = some xs :=
  (readNumVec_iff _ xs).2 rfl

/-- C51: reading fails exactly when the length is not a multiple of the element size or some element is
not canonical. -/
theorem C51_rejects (data : List UInt8) :
    Num.readNumVec p data = none ↔
      ¬ 8 * nLimbs p ∣ data.length ∨
      ∃ i, i < data.length / (8 * nLimbs p) ∧
        p ≤ beNat ((data.drop (8 * nLimbs p * i)).take (8 * nLimbs p)) :=
  readNumVec_none data

example : Num.readNumVec bnR (Num.numVecToBuf [1, -1, (7 : ZMod bnR)]) = some [1, -1, 7] := C51_round_trip _
example : Num.readNumVec bnR [1, 2, 3] = none := by
  rw [C51_rejects]; left
  have : nLimbs bnR = 4 := by decide +kernel
  rw [this]; decide

end Fawkes.Props
