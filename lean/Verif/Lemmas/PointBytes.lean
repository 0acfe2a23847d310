import Verif.Lemmas.NumConv
import Verif.Props.Groth16
import Verif.Spec.Ecc
import Verif.Model.PointBytes
import Verif.Spec.PointBytes

/-!
# The bytes of points as numbers
-/

namespace Fawkes.Groth16
open Fawkes Props

theorem beNat_append (a b : List UInt8) : beNat (a ++ b) = beNat a * 256 ^ b.length + beNat b := by
  unfold beNat
  rw [List.reverse_append, leNat_append, List.length_reverse]; ring

theorem beNat_cons (b : UInt8) (t : List UInt8) : beNat (b :: t) = b.toNat * 256 ^ t.length + beNat t := by
  rw [← List.singleton_append, beNat_append]
  simp [beNat, leNat]

theorem beNat_lt (bs : List UInt8) : beNat bs < 256 ^ bs.length := by
  unfold beNat
  have := leNat_lt bs.reverse
  rwa [List.length_reverse] at this

theorem beNat_inj {a b : List UInt8} (hl : a.length = b.length) (h : beNat a = beNat b) : a = b :=
  List.reverse_injective (leNat_inj (by simpa using hl) h)

theorem forall_byte {P : UInt8 → Prop} [DecidablePred P] (h : ∀ n < 256, P (UInt8.ofNat n)) (b : UInt8) : P b := by
  have := h b.toNat b.toNat_lt
  rwa [UInt8.ofNat_toNat] at this

theorem byte_bn (b : UInt8) : b.toNat = (b &&& 0x3f).toNat + (if ((b &&& 0x40) != 0) = true then 64 else 0) +
    (if ((b &&& 0x80) != 0) = true then 128 else 0) ∧ (b &&& 0x3f).toNat < 64 := by
  revert b
  exact forall_byte (by decide +kernel)

theorem byte_bls (b : UInt8) : b.toNat = (b &&& 0x1f).toNat + (if ((b &&& 0x20) != 0) = true then 32 else 0) +
    (if ((b &&& 0x40) != 0) = true then 64 else 0) + (if ((b &&& 0x80) != 0) = true then 128 else 0) ∧ (b &&& 0x1f).toNat < 32 ∧
    (b &&& 0x3f).toNat = (b &&& 0x1f).toNat + (if ((b &&& 0x20) != 0) = true then 32 else 0) := by
  revert b
  exact forall_byte (by decide +kernel)

theorem byte_or80 (b : UInt8) : b.toNat < 128 → (b ||| 0x80).toNat = b.toNat + 128 := by
  revert b; exact forall_byte (by decide +kernel)
theorem byte_or40 (b : UInt8) : b.toNat < 64 → (b ||| 0x40).toNat = b.toNat + 64 := by
  revert b; exact forall_byte (by decide +kernel)
theorem byte_or20 (b : UInt8) : b.toNat < 32 → (b ||| 0x20).toNat = b.toNat + 32 := by
  revert b; exact forall_byte (by decide +kernel)

theorem two_pow_bits (m : Nat) : 2 ^ (8 * (m + 1) - 1) = 128 * 256 ^ m ∧ 2 ^ (8 * (m + 1) - 2) = 64 * 256 ^ m ∧
    2 ^ (8 * (m + 1) - 3) = 32 * 256 ^ m := by
  have h : (256 : Nat) = 2 ^ 8 := by norm_num
  refine ⟨?_, ?_, ?_⟩
  · rw [show 8 * (m + 1) - 1 = 7 + 8 * m by omega, pow_add, pow_mul, ← h]; norm_num
  · rw [show 8 * (m + 1) - 2 = 6 + 8 * m by omega, pow_add, pow_mul, ← h]; norm_num
  · rw [show 8 * (m + 1) - 3 = 5 + 8 * m by omega, pow_add, pow_mul, ← h]; norm_num

theorem length_orHead (m : UInt8) (bs : List UInt8) : (orHead m bs).length = bs.length := by cases bs <;> rfl

theorem length_andHead (m : UInt8) (bs : List UInt8) : (andHead m bs).length = bs.length := by cases bs <;> rfl

/-- The flags of BN256 in the number the bytes spell. -/
theorem flags_bn {bs : List UInt8} {n : Nat} (hn : 0 < n) (h : bs.length = n) :
    beNat bs = beNat (andHead 0x3f bs) + (if testHead 0x40 bs = true then 2 ^ (8 * n - 2) else 0) +
      (if testHead 0x80 bs = true then 2 ^ (8 * n - 1) else 0) ∧ beNat (andHead 0x3f bs) < 2 ^ (8 * n - 2) := by
  cases bs with
  | nil => simp at h; omega
  | cons b t =>
    subst h
    obtain ⟨h1, h2⟩ := byte_bn b
    have ht := beNat_lt t
    rw [List.length_cons, (two_pow_bits t.length).1, (two_pow_bits t.length).2.1]
    simp only [andHead, testHead, beNat_cons]
    generalize 256 ^ t.length = P at *
    constructor
    · rw [h1]
      have c6 := Bool.eq_false_or_eq_true (b &&& 0x40 != 0)
      have c7 := Bool.eq_false_or_eq_true (b &&& 0x80 != 0)
      rcases c6 with c6 | c6 <;> rcases c7 with c7 | c7 <;>
        simp only [c6, c7, if_true, if_false, Bool.false_eq_true] <;> ring
    · nlinarith

/-- The flags of BLS12-381 in the number the bytes spell. -/
theorem flags_bls {bs : List UInt8} {n : Nat} (hn : 0 < n) (h : bs.length = n) :
    beNat bs = beNat (andHead 0x1f bs) + (if testHead 0x20 bs = true then 2 ^ (8 * n - 3) else 0) +
      (if testHead 0x40 bs = true then 2 ^ (8 * n - 2) else 0) + (if testHead 0x80 bs = true then 2 ^ (8 * n - 1) else 0) ∧
    beNat (andHead 0x1f bs) < 2 ^ (8 * n - 3) ∧
    beNat (andHead 0x3f bs) = beNat (andHead 0x1f bs) + (if testHead 0x20 bs = true then 2 ^ (8 * n - 3) else 0) := by
  cases bs with
  | nil => simp at h; omega
  | cons b t =>
    subst h
    obtain ⟨h1, h2, h3⟩ := byte_bls b
    have ht := beNat_lt t
    rw [List.length_cons, (two_pow_bits t.length).1, (two_pow_bits t.length).2.1, (two_pow_bits t.length).2.2]
    simp only [andHead, testHead, beNat_cons]
    generalize 256 ^ t.length = P at *
    refine ⟨?_, ?_, ?_⟩
    · rw [h1]
      have c5 := Bool.eq_false_or_eq_true (b &&& 0x20 != 0)
      have c6 := Bool.eq_false_or_eq_true (b &&& 0x40 != 0)
      have c7 := Bool.eq_false_or_eq_true (b &&& 0x80 != 0)
      rcases c5 with c5 | c5 <;> rcases c6 with c6 | c6 <;> rcases c7 with c7 | c7 <;>
        simp only [c5, c6, c7, if_true, if_false, Bool.false_eq_true] <;> ring
    · nlinarith
    · rw [h3]
      have c5 := Bool.eq_false_or_eq_true (b &&& 0x20 != 0)
      rcases c5 with c5 | c5 <;>
        simp only [c5, if_true, if_false, Bool.false_eq_true] <;> ring

theorem orHead_bits {bs : List UInt8} {n : Nat} (hn : 0 < n) (h : bs.length = n) :
    (beNat bs < 2 ^ (8 * n - 1) → beNat (orHead 0x80 bs) = beNat bs + 2 ^ (8 * n - 1)) ∧
    (beNat bs < 2 ^ (8 * n - 2) → beNat (orHead 0x40 bs) = beNat bs + 2 ^ (8 * n - 2)) ∧
    (beNat bs < 2 ^ (8 * n - 3) → beNat (orHead 0x20 bs) = beNat bs + 2 ^ (8 * n - 3)) := by
  cases bs with
  | nil => simp at h; omega
  | cons b t =>
    subst h
    have hP : 0 < 256 ^ t.length := by positivity
    rw [List.length_cons, (two_pow_bits t.length).1, (two_pow_bits t.length).2.1, (two_pow_bits t.length).2.2]
    simp only [orHead, beNat_cons]
    have key : ∀ k, b.toNat * 256 ^ t.length + beNat t < k * 256 ^ t.length → b.toNat < k := by
      intro k hk
      by_contra hc
      have := Nat.mul_le_mul_right (256 ^ t.length) (not_lt.1 hc)
      omega
    refine ⟨fun hk => ?_, fun hk => ?_, fun hk => ?_⟩
    · rw [byte_or80 b (key _ hk)]; ring
    · rw [byte_or40 b (key _ hk)]; ring
    · rw [byte_or20 b (key _ hk)]; ring

theorem beNat_zeros (n : Nat) : beNat (List.replicate n 0) = 0 := by
  induction n with
  | zero => rfl
  | succ n ih => rw [List.replicate_succ, beNat_cons, ih]; simp

theorem all_zero_iff (bs : List UInt8) : bs.all (· == 0) = true ↔ beNat bs = 0 := by
  constructor
  · intro h
    have : bs = List.replicate bs.length 0 := List.eq_replicate_iff.2 ⟨rfl, by simpa using h⟩
    rw [this, beNat_zeros]
  · intro h
    have : bs = List.replicate bs.length 0 := beNat_inj (by simp) (by rw [h, beNat_zeros])
    rw [this]; simp


/-- What the two fields have in common: elements are written as numbers, and compared as these. -/
structure LawfulBytes {K : Type} (c : CoordBytes K) (num : K → Nat) : Prop where
  pos : 0 < c.size
  length_write : ∀ x, (c.write x).length = c.size
  write : ∀ x, beNat (c.write x) = num x
  read : ∀ bs x, c.size ≤ bs.length → (c.read bs = some x ↔ beNat (bs.take c.size) = num x)
  lt : ∀ a b, c.lt a b = true ↔ num a < num b

theorem fqBytes_lawful (q : Nat) [Fact q.Prime] : LawfulBytes (fqBytes q) fqNumber where
  pos := by simp [fqBytes, nLimbs]
  length_write x := enc_length x
  write x := by
    show beNat (Num.writeBE (Num.intoRepr x)) = x.val
    rw [beNat_writeBE, reprNat_intoRepr]
  read bs x h := readNum_eq bs x h
  lt a b := by simp [fqBytes, fqNumber]

theorem fqNumber_lt {q : Nat} [Fact q.Prime] (x : ZMod q) : fqNumber x < q := ZMod.val_lt x

theorem val_lt_limbs {q : Nat} [Fact q.Prime] (x : ZMod q) : x.val < 2 ^ (64 * nLimbs q) :=
  lt_trans (ZMod.val_lt x) (lt_two_pow_limbs q)

theorem pow256 (k : Nat) : 256 ^ (8 * k) = 2 ^ (64 * k) := by
  rw [show (256 : Nat) = 2 ^ 8 by norm_num, ← pow_mul]; congr 1; ring

theorem divmod_inj {P a b c d : Nat} (hb : b < P) (hd : d < P) : a * P + b = c * P + d ↔ a = c ∧ b = d := by
  constructor
  · intro h
    have h1 : (a * P + b) / P = a := by
      rw [Nat.add_comm, Nat.add_mul_div_right _ _ (by omega), Nat.div_eq_of_lt hb, Nat.zero_add]
    have h2 : (c * P + d) / P = c := by
      rw [Nat.add_comm, Nat.add_mul_div_right _ _ (by omega), Nat.div_eq_of_lt hd, Nat.zero_add]
    have h3 : a = c := by rw [← h1, ← h2, h]
    subst h3
    exact ⟨rfl, by omega⟩
  · rintro ⟨rfl, rfl⟩; rfl

theorem fq2Bytes_lawful (q : Nat) [Fact q.Prime] : LawfulBytes (fq2Bytes q) (fq2Number (64 * nLimbs q)) where
  pos := by simp [fq2Bytes, nLimbs]
  length_write x := by
    show (Num.writeBE (Num.intoRepr x.im) ++ Num.writeBE (Num.intoRepr x.re)).length = 2 * (8 * nLimbs q)
    rw [List.length_append, enc_length, enc_length]; ring
  write x := by
    show beNat (Num.writeBE (Num.intoRepr x.im) ++ Num.writeBE (Num.intoRepr x.re)) = _
    rw [beNat_append, enc_length, pow256, beNat_writeBE, beNat_writeBE, reprNat_intoRepr, reprNat_intoRepr]
    rfl
  read bs x h := by
    have h' : 2 * (8 * nLimbs q) ≤ bs.length := h
    show (do let c1 ← Num.readNum q bs; let c0 ← Num.readNum q (bs.drop (8 * nLimbs q)); pure ⟨c0, c1⟩ : Option (Fq2 (ZMod q))) =
      some x ↔ beNat (bs.take (2 * (8 * nLimbs q))) = _
    have e1 := fun y => readNum_eq (p := q) bs y (by omega)
    have e2 := fun y => readNum_eq (p := q) (bs.drop (8 * nLimbs q)) y (by rw [List.length_drop]; omega)
    have ht : bs.take (2 * (8 * nLimbs q)) = bs.take (8 * nLimbs q) ++ (bs.drop (8 * nLimbs q)).take (8 * nLimbs q) := by
      rw [two_mul, List.take_add]
    have hl : ((bs.drop (8 * nLimbs q)).take (8 * nLimbs q)).length = 8 * nLimbs q := by
      rw [List.length_take, List.length_drop]; omega
    have hlt := beNat_lt ((bs.drop (8 * nLimbs q)).take (8 * nLimbs q))
    rw [hl, pow256] at hlt
    rw [ht, beNat_append, hl, pow256]
    unfold fq2Number
    rw [divmod_inj hlt (val_lt_limbs _), ← e1, ← e2]
    cases hx : Num.readNum q bs with
    | none => simp
    | some c1 =>
      cases hy : Num.readNum q (bs.drop (8 * nLimbs q)) with
      | none => simp
      | some c0 =>
        simp only [Option.bind_eq_bind, Option.bind_some, Option.pure_def, Option.some.injEq]
        constructor
        · rintro rfl; exact ⟨rfl, rfl⟩
        · rintro ⟨rfl, rfl⟩; rfl
  lt a b := by
    show (if a.im.val < b.im.val then true else if b.im.val < a.im.val then false else decide (a.re.val < b.re.val)) = true ↔ _
    unfold fq2Number
    have ha := val_lt_limbs a.re
    have hb := val_lt_limbs b.re
    generalize 2 ^ (64 * nLimbs q) = P at *
    by_cases h1 : a.im.val < b.im.val
    · rw [if_pos h1]
      have := Nat.mul_le_mul_right P (Nat.succ_le_of_lt h1)
      rw [Nat.succ_mul] at this
      simp only [true_iff]; omega
    · rw [if_neg h1]
      by_cases h2 : b.im.val < a.im.val
      · rw [if_pos h2]
        have := Nat.mul_le_mul_right P (Nat.succ_le_of_lt h2)
        rw [Nat.succ_mul] at this
        simp only [Bool.false_eq_true, false_iff]; omega
      · rw [if_neg h2, show a.im.val = b.im.val by omega]
        simp

section points

variable {K : Type} [Field K] [DecidableEq K] {c : CoordBytes K} {num : K → Nat}

omit [Field K] [DecidableEq K] in
theorem LawfulBytes.inj (L : LawfulBytes c num) {x y : K} (h : num x = num y) : x = y := by
  have h1 := (L.read (c.write x) x (by rw [L.length_write])).2 (by rw [List.take_of_length_le (by rw [L.length_write]), L.write])
  have h2 := (L.read (c.write x) y (by rw [L.length_write])).2 (by rw [List.take_of_length_le (by rw [L.length_write]), L.write, h])
  exact Option.some.inj (h1.symm.trans h2)

theorem pointFromX_iff (L : LawfulBytes c num) (h2 : (2 : K) ≠ 0) {sqrt : K → Option K} (hs : IsSqrt sqrt) (b x : K) (g : Bool)
    (p : Affine K) : pointFromX c sqrt b x g = some p ↔
      p.x = x ∧ p.infinity = false ∧ p.y ^ 2 = x ^ 3 + b ∧ (p.y = 0 ∨ (g = true ↔ num (-p.y) < num p.y)) := by
  have hneg : ∀ y : K, y ≠ 0 → num y ≠ num (-y) := by
    intro y hy h
    have := L.inj h
    apply hy
    have h3 : (2 : K) * y = 0 := by linear_combination this
    exact (mul_eq_zero.1 h3).resolve_left h2
  unfold pointFromX
  simp only
  cases hq : sqrt (x * x * x + b) with
  | none =>
    simp only [reduceCtorEq, false_iff]
    rintro ⟨-, -, h3, -⟩
    obtain ⟨y, hy⟩ := hs.complete (x * x * x + b) ⟨p.y, by linear_combination -h3⟩
    rw [hq] at hy; cases hy
  | some y =>
    have hy := hs.sound _ _ hq
    have hl1 := L.lt y (-y)
    simp only [Option.some.injEq]
    by_cases h0 : y = 0
    · subst h0
      have : (if (c.lt 0 (-0) ^^ g) = true then (0 : K) else -0) = 0 := by rw [neg_zero, ite_self]
      rw [this]
      constructor
      · rintro rfl
        exact ⟨rfl, rfl, by linear_combination hy, Or.inl rfl⟩
      · rintro ⟨rfl, h3, h4, -⟩
        have h5 : p.y ^ 2 = 0 := by linear_combination h4 - hy
        have h6 := pow_eq_zero_iff (two_ne_zero) |>.1 h5
        obtain ⟨px, py, pi⟩ := p
        simp only at h3 h6 ⊢
        rw [h3, h6]
    · have hne := hneg y h0
      constructor
      · rintro rfl
        refine ⟨rfl, rfl, ?_, Or.inr ?_⟩
        · show (if _ then y else -y) ^ 2 = _
          split
          · linear_combination hy
          · linear_combination hy
        · show g = true ↔ num (- (if (c.lt y (-y) ^^ g) = true then y else -y)) < num (if (c.lt y (-y) ^^ g) = true then y else -y)
          cases hlt : c.lt y (-y)
          · rw [hlt] at hl1
            simp only [Bool.false_eq_true, false_iff, not_lt] at hl1
            cases g
            · simp only [Bool.xor_false, Bool.false_eq_true, if_false, neg_neg, false_iff, not_lt]; omega
            · simp only [Bool.false_xor, if_true, true_iff]; omega
          · rw [hlt] at hl1
            simp only [true_iff] at hl1
            cases g
            · simp only [Bool.xor_false, Bool.false_eq_true, if_true, false_iff, not_lt]; omega
            · simp only [Bool.xor_self, Bool.false_eq_true, if_false, neg_neg, true_iff]; omega
      · rintro ⟨rfl, h3, h4, h5⟩
        have h6 : (p.y - y) * (p.y + y) = 0 := by linear_combination h4 - hy
        have h7 : p.y ≠ 0 := by
          intro h7
          rw [h7] at h4
          exact h0 (mul_self_eq_zero.1 (by linear_combination hy - h4))
        have h8 := h5.resolve_left h7
        obtain ⟨px, py, pi⟩ := p
        simp only at h3 h6 h8 h7 ⊢
        subst h3
        congr 1
        rcases mul_eq_zero.1 h6 with h | h
        · have : py = y := sub_eq_zero.1 h
          subst this
          cases hlt : c.lt py (-py)
          · rw [hlt] at hl1
            simp only [Bool.false_eq_true, false_iff, not_lt] at hl1
            have : g = true := h8.2 (by omega)
            simp [this]
          · rw [hlt] at hl1
            simp only [true_iff] at hl1
            have : g = false := by
              cases g
              · rfl
              · exact absurd (h8.1 rfl) (by omega)
            simp [this]
        · have : py = -y := eq_neg_of_add_eq_zero_left h
          subst this
          rw [neg_neg] at h8
          cases hlt : c.lt y (-y)
          · rw [hlt] at hl1
            simp only [Bool.false_eq_true, false_iff, not_lt] at hl1
            have : g = false := by
              cases g
              · rfl
              · exact absurd (h8.1 rfl) (by omega)
            simp [this]
          · rw [hlt] at hl1
            simp only [true_iff] at hl1
            have : g = true := h8.2 (by omega)
            simp [this]


theorem pow_flags {n : Nat} (hn : 0 < n) : 2 ^ (8 * n - 1) = 2 * 2 ^ (8 * n - 2) ∧ 2 ^ (8 * n - 2) = 2 * 2 ^ (8 * n - 3) ∧
    0 < 2 ^ (8 * n - 3) := by
  refine ⟨?_, ?_, by positivity⟩
  · rw [← pow_succ']; congr 1; omega
  · rw [← pow_succ']; congr 1; omega

/-! ### BN256 -/

omit [DecidableEq K] in
theorem compressBn_spec (L : LawfulBytes c num) (hr : ∀ x, num x < 2 ^ (8 * c.size - 2)) (p : Affine K) :
    (compressBn c p).length = c.size ∧ beNat (compressBn c p) = bnCode num (8 * c.size) (affinePoint p) := by
  obtain ⟨e1, e2, e3⟩ := pow_flags L.pos
  unfold compressBn affinePoint
  cases hp : p.infinity with
  | true =>
    simp only [if_true]
    refine ⟨by simp [length_orHead], ?_⟩
    rw [(orHead_bits L.pos (by simp : (List.replicate c.size (0 : UInt8)).length = c.size)).2.1 (by rw [beNat_zeros]; omega), beNat_zeros, Nat.zero_add]
    rfl
  | false =>
    simp only [Bool.false_eq_true, if_false]
    simp only [bnCode]
    by_cases h : num (-p.y) < num p.y
    · rw [if_pos ((L.lt _ _).2 h), if_pos h, length_orHead, L.length_write,
        (orHead_bits L.pos (L.length_write _)).1 (by rw [L.write]; have := hr p.x; omega), L.write]
      exact ⟨rfl, rfl⟩
    · rw [if_neg (fun hc => h ((L.lt _ _).1 hc)), if_neg h, L.length_write, L.write]
      exact ⟨rfl, rfl⟩

omit [DecidableEq K] in
theorem zeroIfClear_iff (bs : List UInt8) (p : Affine K) : zeroIfClear bs = some p ↔ beNat bs = 0 ∧ p = zeroAffine := by
  unfold zeroIfClear
  by_cases h : bs.all (· == 0) = true
  · rw [if_pos h]
    simp only [Option.some.injEq, (all_zero_iff bs).1 h, true_and]
    exact eq_comm
  · rw [if_neg h]
    rw [all_zero_iff] at h
    simp [h]

theorem decompressBn_iff (L : LawfulBytes c num) (hr : ∀ x, num x < 2 ^ (8 * c.size - 2)) (h2 : (2 : K) ≠ 0) {sqrt : K → Option K}
    (hs : IsSqrt sqrt) (b : K) {bs : List UInt8} (hl : bs.length = c.size) (p : Affine K) :
    decompressBn c sqrt b bs = some p ↔
      (p = zeroAffine ∧ (beNat bs = bnCode num (8 * c.size) none ∨
        beNat bs = bnCode num (8 * c.size) none + 2 ^ (8 * c.size - 1))) ∨
      (p.infinity = false ∧ p.y ^ 2 = p.x ^ 3 + b ∧
        (beNat bs = bnCode num (8 * c.size) (some (p.x, p.y)) ∨ p.y = 0 ∧ beNat bs = num p.x + 2 ^ (8 * c.size - 1))) := by
  obtain ⟨f1, f2⟩ := flags_bn L.pos hl
  obtain ⟨e1, e2, e3⟩ := pow_flags L.pos
  have hread := fun x => L.read (andHead 0x3f bs) x (by rw [length_andHead, hl])
  rw [List.take_of_length_le (by rw [length_andHead, hl])] at hread
  have hz : ∀ p : Affine K, p = zeroAffine → p.infinity = true := by rintro _ rfl; rfl
  unfold decompressBn
  simp only [bnCode]
  cases h6 : testHead 0x40 bs with
  | true =>
    rw [h6] at f1
    simp only [if_true] at f1 ⊢
    rw [zeroIfClear_iff]
    constructor
    · rintro ⟨h0, rfl⟩
      refine Or.inl ⟨rfl, ?_⟩
      rw [h0] at f1
      split at f1
      · right; omega
      · left; omega
    · rintro (⟨rfl, h⟩ | ⟨-, -, h⟩)
      · refine ⟨?_, rfl⟩
        split at f1 <;> omega
      · exfalso
        have := hr p.x
        rcases h with h | ⟨-, h⟩ <;> split at f1 <;> try split at h
        all_goals omega
  | false =>
    rw [h6] at f1
    simp only [Bool.false_eq_true, if_false] at f1 ⊢
    have hnz : ¬ (p = zeroAffine ∧ (beNat bs = 2 ^ (8 * c.size - 2) ∨ beNat bs = 2 ^ (8 * c.size - 2) + 2 ^ (8 * c.size - 1))) := by
      rintro ⟨-, h⟩
      split at f1 <;> omega
    rw [or_iff_right hnz]
    cases hx : c.read (andHead 0x3f bs) with
    | none =>
      simp only [reduceCtorEq, false_iff]
      rintro ⟨-, -, h⟩
      have hne : beNat (andHead 0x3f bs) ≠ num p.x := fun hc => by
        have := (hread p.x).2 hc
        rw [hx] at this; cases this
      have := hr p.x
      rcases h with h | ⟨-, h⟩ <;> split at f1 <;> try split at h
      all_goals omega
    | some x =>
      have hxn := (hread x).1 hx
      simp only
      rw [pointFromX_iff L h2 hs]
      have hrx := hr x
      constructor
      · rintro ⟨rfl, h3, h4, h5⟩
        refine ⟨h3, h4, ?_⟩
        by_cases h0 : p.y = 0
        · cases h7 : testHead 0x80 bs with
          | true =>
            rw [h7] at f1
            simp only [if_true] at f1
            exact Or.inr ⟨h0, by omega⟩
          | false =>
            rw [h7] at f1
            simp only [Bool.false_eq_true, if_false] at f1
            left
            rw [h0, neg_zero, if_neg (lt_irrefl _)]; omega
        · have h8 := h5.resolve_left h0
          left
          cases h7 : testHead 0x80 bs with
          | true =>
            rw [h7] at f1 h8
            rw [if_pos (h8.1 rfl)]
            simp only [if_true] at f1
            omega
          | false =>
            rw [h7] at f1 h8
            rw [if_neg (fun hc => by simpa using h8.2 hc)]
            simp only [Bool.false_eq_true, if_false] at f1
            omega
      · rintro ⟨h3, h4, h5⟩
        have hrp := hr p.x
        have hxe : p.x = x := by
          apply L.inj
          rcases h5 with h | ⟨-, h⟩ <;> split at f1 <;> try split at h
          all_goals omega
        subst hxe
        refine ⟨rfl, h3, h4, ?_⟩
        rcases h5 with h | ⟨h, -⟩
        · right
          cases h7 : testHead 0x80 bs with
          | true =>
            rw [h7] at f1
            simp only [if_true] at f1
            simp only [true_iff]
            by_contra hc
            rw [if_neg hc] at h
            omega
          | false =>
            rw [h7] at f1
            simp only [Bool.false_eq_true, if_false] at f1
            simp only [Bool.false_eq_true, false_iff]
            intro hc
            rw [if_pos hc] at h
            omega
        · exact Or.inl h

/-! ### BLS12-381 -/

omit [DecidableEq K] in
theorem compressBls_spec (L : LawfulBytes c num) (hr : ∀ x, num x < 2 ^ (8 * c.size - 3)) (p : Affine K) :
    (compressBls c p).length = c.size ∧ beNat (compressBls c p) = blsCode num (8 * c.size) (affinePoint p) := by
  obtain ⟨e1, e2, e3⟩ := pow_flags L.pos
  unfold compressBls affinePoint
  cases hp : p.infinity with
  | true =>
    simp only [if_true]
    have hz := (orHead_bits L.pos (by simp : (List.replicate c.size (0 : UInt8)).length = c.size)).2.1 (by rw [beNat_zeros]; omega)
    rw [beNat_zeros, Nat.zero_add] at hz
    have hlz : (orHead 0x40 (List.replicate c.size 0)).length = c.size := by simp [length_orHead]
    refine ⟨by rw [length_orHead, hlz], ?_⟩
    rw [(orHead_bits L.pos hlz).1 (by omega), hz]
    simp only [blsCode]; ring
  | false =>
    simp only [Bool.false_eq_true, if_false]
    simp only [blsCode]
    have hrx := hr p.x
    have hw := L.write p.x
    by_cases h : num (-p.y) < num p.y
    · have hb := (orHead_bits L.pos (L.length_write p.x)).2.2 (by omega)
      have hlb : (orHead 0x20 (c.write p.x)).length = c.size := by rw [length_orHead, L.length_write]
      rw [if_pos ((L.lt _ _).2 h), if_pos h, length_orHead, hlb, (orHead_bits L.pos hlb).1 (by omega), hb, hw]
      exact ⟨rfl, by ring⟩
    · rw [if_neg (fun hc => h ((L.lt _ _).1 hc)), if_neg h, length_orHead, L.length_write,
        (orHead_bits L.pos (L.length_write _)).1 (by omega), hw]
      exact ⟨rfl, by ring⟩

theorem decompressBls_iff (L : LawfulBytes c num) (hr : ∀ x, num x < 2 ^ (8 * c.size - 3)) (h2 : (2 : K) ≠ 0) {sqrt : K → Option K}
    (hs : IsSqrt sqrt) (b : K) {bs : List UInt8} (hl : bs.length = c.size) (p : Affine K) :
    decompressBls c sqrt b bs = some p ↔
      (p = zeroAffine ∧ beNat bs = blsCode num (8 * c.size) none) ∨
      (p.infinity = false ∧ p.y ^ 2 = p.x ^ 3 + b ∧ (beNat bs = blsCode num (8 * c.size) (some (p.x, p.y)) ∨
        p.y = 0 ∧ beNat bs = 2 ^ (8 * c.size - 1) + num p.x + 2 ^ (8 * c.size - 3))) := by
  obtain ⟨f1, f2, f3⟩ := flags_bls L.pos hl
  obtain ⟨e1, e2, e3⟩ := pow_flags L.pos
  have hread := fun x => L.read (andHead 0x1f bs) x (by rw [length_andHead, hl])
  rw [List.take_of_length_le (by rw [length_andHead, hl])] at hread
  unfold decompressBls
  simp only [blsCode]
  cases h7 : testHead 0x80 bs with
  | false =>
    rw [h7] at f1
    simp only [Bool.false_eq_true, if_false] at f1
    simp only [Bool.not_false, if_true, reduceCtorEq, false_iff]
    have hlt : beNat bs < 2 ^ (8 * c.size - 1) := by
      split at f1 <;> split at f1 <;> omega
    rintro (⟨-, h⟩ | ⟨-, -, h⟩)
    · omega
    · rcases h with h | ⟨-, h⟩
      · split at h <;> omega
      · omega
  | true =>
    rw [h7] at f1
    simp only [if_true] at f1
    simp only [Bool.not_true, Bool.false_eq_true, if_false]
    cases h6 : testHead 0x40 bs with
    | true =>
      rw [h6] at f1
      simp only [if_true] at f1 ⊢
      rw [zeroIfClear_iff]
      constructor
      · rintro ⟨h0, rfl⟩
        exact Or.inl ⟨rfl, by omega⟩
      · rintro (⟨rfl, h⟩ | ⟨-, -, h⟩)
        · exact ⟨by omega, rfl⟩
        · exfalso
          have := hr p.x
          rcases h with h | ⟨-, h⟩ <;> split at f1 <;> try split at h
          all_goals omega
    | false =>
      rw [h6] at f1
      simp only [Bool.false_eq_true, if_false] at f1 ⊢
      have hnz : ¬ (p = zeroAffine ∧ beNat bs = 2 ^ (8 * c.size - 1) + 2 ^ (8 * c.size - 2)) := by
        rintro ⟨-, h⟩
        split at f1 <;> omega
      rw [or_iff_right hnz]
      cases hx : c.read (andHead 0x1f bs) with
      | none =>
        simp only [reduceCtorEq, false_iff]
        rintro ⟨-, -, h⟩
        have hne : beNat (andHead 0x1f bs) ≠ num p.x := fun hc => by
          have := (hread p.x).2 hc
          rw [hx] at this; cases this
        have := hr p.x
        rcases h with h | ⟨-, h⟩ <;> split at f1 <;> try split at h
        all_goals omega
      | some x =>
        have hxn := (hread x).1 hx
        simp only
        rw [pointFromX_iff L h2 hs]
        have hrx := hr x
        constructor
        · rintro ⟨rfl, h3, h4, h5⟩
          refine ⟨h3, h4, ?_⟩
          by_cases h0 : p.y = 0
          · cases h7 : testHead 0x20 bs with
            | true =>
              rw [h7] at f1
              simp only [if_true] at f1
              exact Or.inr ⟨h0, by omega⟩
            | false =>
              rw [h7] at f1
              simp only [Bool.false_eq_true, if_false] at f1
              left
              rw [h0, neg_zero, if_neg (lt_irrefl _)]; omega
          · have h8 := h5.resolve_left h0
            left
            cases h7 : testHead 0x20 bs with
            | true =>
              rw [h7] at f1 h8
              rw [if_pos (h8.1 rfl)]
              simp only [if_true] at f1
              omega
            | false =>
              rw [h7] at f1 h8
              rw [if_neg (fun hc => by simpa using h8.2 hc)]
              simp only [Bool.false_eq_true, if_false] at f1
              omega
        · rintro ⟨h3, h4, h5⟩
          have hrp := hr p.x
          have hxe : p.x = x := by
            apply L.inj
            rcases h5 with h | ⟨-, h⟩ <;> split at f1 <;> try split at h
            all_goals omega
          subst hxe
          refine ⟨rfl, h3, h4, ?_⟩
          rcases h5 with h | ⟨h, -⟩
          · right
            cases h7 : testHead 0x20 bs with
            | true =>
              rw [h7] at f1
              simp only [if_true] at f1
              simp only [true_iff]
              by_contra hc
              rw [if_neg hc] at h
              omega
            | false =>
              rw [h7] at f1
              simp only [Bool.false_eq_true, if_false] at f1
              simp only [Bool.false_eq_true, false_iff]
              intro hc
              rw [if_pos hc] at h
              omega
          · exact Or.inl h


/-! ### Uncompressed points -/

omit [Field K] [DecidableEq K] in
theorem readBoth_iff (L : LawfulBytes c num) (hr : ∀ x, num x < 2 ^ (8 * c.size - 2)) {bs : List UInt8}
    (hl : bs.length = 2 * c.size) (p : Affine K) :
    readBoth c bs = some p ↔ p.infinity = false ∧ beNat bs = num p.x * 2 ^ (8 * c.size) + num p.y := by
  have h256 : 256 ^ c.size = 2 ^ (8 * c.size) := by rw [pow_mul]; norm_num
  have e0 : 2 ^ (8 * c.size) = 4 * 2 ^ (8 * c.size - 2) := by
    have := L.pos
    rw [show (4 : Nat) = 2 ^ 2 by norm_num, ← pow_add]; congr 1; omega
  have hld : (bs.drop c.size).length = c.size := by rw [List.length_drop]; omega
  have r1 := fun x => L.read bs x (by omega)
  have r2 := fun x => L.read (bs.drop c.size) x (by omega)
  rw [List.take_of_length_le (by omega)] at r2
  have hb : beNat bs = beNat (bs.take c.size) * 2 ^ (8 * c.size) + beNat (bs.drop c.size) := by
    conv_lhs => rw [← List.take_append_drop c.size bs]
    rw [beNat_append, hld, h256]
  have hlt := beNat_lt (bs.drop c.size)
  rw [hld, h256] at hlt
  have hy := hr p.y
  rw [hb, divmod_inj hlt (by omega), ← r1, ← r2]
  unfold readBoth
  cases hx : c.read bs with
  | none => simp
  | some x =>
    cases hy : c.read (bs.drop c.size) with
    | none => simp
    | some y =>
      simp only [Option.bind_eq_bind, Option.bind_some, Option.pure_def, Option.some.injEq]
      constructor
      · rintro rfl; exact ⟨rfl, rfl, rfl⟩
      · obtain ⟨px, py, pi⟩ := p
        rintro ⟨h1, h2, h3⟩
        simp only at h1 h2 h3
        rw [h1, h2, h3]

omit [Field K] [DecidableEq K] in
/-- The numbers of uncompressed points leave the two top bits free. -/
theorem raw_room {k : Nat} (hk : k ≤ 8 * c.size) (hr : ∀ x, num x < 2 ^ (8 * c.size - k)) (x y : K) :
    num x * 2 ^ (8 * c.size) + num y < 2 ^ (8 * (2 * c.size) - k) := by
  have h1 := hr x
  have h2 : num y < 2 ^ (8 * c.size) := lt_of_lt_of_le (hr y) (Nat.pow_le_pow_right (by norm_num) (by omega))
  have h3 : 2 ^ (8 * (2 * c.size) - k) = 2 ^ (8 * c.size - k) * 2 ^ (8 * c.size) := by
    rw [← pow_add]; congr 1; omega
  rw [h3]
  have := Nat.mul_le_mul_right (2 ^ (8 * c.size)) (Nat.succ_le_of_lt h1)
  rw [Nat.succ_mul] at this
  omega

theorem raw_bits (n : Nat) : 2 * (8 * n) = 8 * (2 * n) := by ring

omit [DecidableEq K] in
theorem uncompressed_spec (L : LawfulBytes c num) (p : Affine K) :
    (uncompressedBn c p).length = 2 * c.size ∧ beNat (uncompressedBn c p) = rawCode num (8 * c.size) (affinePoint p) := by
  have hpos : 0 < 2 * c.size := by have := L.pos; omega
  obtain ⟨e1, e2, e3⟩ := pow_flags hpos
  unfold uncompressedBn affinePoint
  cases hp : p.infinity with
  | true =>
    simp only [if_true]
    refine ⟨by simp [length_orHead], ?_⟩
    rw [(orHead_bits hpos (by simp : (List.replicate (2 * c.size) (0 : UInt8)).length = 2 * c.size)).2.1 (by rw [beNat_zeros]; omega),
      beNat_zeros, Nat.zero_add]
    simp only [rawCode, raw_bits]
  | false =>
    simp only [Bool.false_eq_true, if_false, rawCode]
    refine ⟨by rw [List.length_append, L.length_write, L.length_write]; ring, ?_⟩
    rw [beNat_append, L.write, L.write, L.length_write, pow_mul]
    norm_num

omit [DecidableEq K] in
theorem readUncheckedBn_iff (L : LawfulBytes c num) (hr : ∀ x, num x < 2 ^ (8 * c.size - 2)) {bs : List UInt8}
    (hl : bs.length = 2 * c.size) (p : Affine K) :
    readUncheckedBn c bs = some p ↔
      (p = zeroAffine ∧ (beNat bs = rawCode num (8 * c.size) none ∨
        beNat bs = rawCode num (8 * c.size) none + 2 ^ (8 * (2 * c.size) - 1))) ∨
      (p.infinity = false ∧ beNat bs = rawCode num (8 * c.size) (some (p.x, p.y))) := by
  have hpos : 0 < 2 * c.size := by have := L.pos; omega
  obtain ⟨f1, f2⟩ := flags_bn hpos hl
  obtain ⟨e1, e2, e3⟩ := pow_flags hpos
  have hroom := raw_room (by have := L.pos; omega) hr p.x p.y
  unfold readUncheckedBn
  simp only [rawCode, raw_bits]
  cases h6 : testHead 0x40 bs with
  | true =>
    rw [h6] at f1
    simp only [if_true] at f1 ⊢
    rw [zeroIfClear_iff]
    constructor
    · rintro ⟨h0, rfl⟩
      refine Or.inl ⟨rfl, ?_⟩
      split at f1
      · right; omega
      · left; omega
    · rintro (⟨rfl, h⟩ | ⟨-, h⟩)
      · refine ⟨?_, rfl⟩
        split at f1 <;> omega
      · exfalso
        split at f1 <;> omega
  | false =>
    rw [h6] at f1
    simp only [Bool.false_eq_true, if_false] at f1 ⊢
    have hnz : ¬ (p = zeroAffine ∧ (beNat bs = 2 ^ (8 * (2 * c.size) - 2) ∨
        beNat bs = 2 ^ (8 * (2 * c.size) - 2) + 2 ^ (8 * (2 * c.size) - 1))) := by
      rintro ⟨-, h⟩
      split at f1 <;> omega
    rw [or_iff_right hnz]
    cases h7 : testHead 0x80 bs with
    | true =>
      rw [h7] at f1
      simp only [if_true] at f1 ⊢
      simp only [reduceCtorEq, false_iff]
      rintro ⟨-, h⟩
      omega
    | false =>
      rw [h7] at f1
      simp only [Bool.false_eq_true, if_false] at f1 ⊢
      rw [readBoth_iff L hr (by rw [length_andHead, hl])]
      constructor
      · rintro ⟨h1, h2⟩; exact ⟨h1, by omega⟩
      · rintro ⟨h1, h2⟩; exact ⟨h1, by omega⟩

omit [DecidableEq K] in
theorem readUncheckedBls_iff (L : LawfulBytes c num) (hr : ∀ x, num x < 2 ^ (8 * c.size - 3)) {bs : List UInt8}
    (hl : bs.length = 2 * c.size) (p : Affine K) :
    readUncheckedBls c bs = some p ↔
      (p = zeroAffine ∧ beNat bs = rawCode num (8 * c.size) none) ∨
      (p.infinity = false ∧ beNat bs = rawCode num (8 * c.size) (some (p.x, p.y))) := by
  have hpos : 0 < 2 * c.size := by have := L.pos; omega
  obtain ⟨f1, f2, f3⟩ := flags_bls hpos hl
  obtain ⟨e1, e2, e3⟩ := pow_flags hpos
  have hr2 : ∀ x, num x < 2 ^ (8 * c.size - 2) := fun x => lt_of_lt_of_le (hr x) (Nat.pow_le_pow_right (by norm_num) (by omega))
  have hroom := raw_room (by have := L.pos; omega) hr p.x p.y
  unfold readUncheckedBls
  simp only [rawCode, raw_bits]
  cases h7 : testHead 0x80 bs with
  | true =>
    rw [h7] at f1
    simp only [if_true] at f1 ⊢
    simp only [reduceCtorEq, false_iff]
    rintro (⟨-, h⟩ | ⟨-, h⟩) <;> split at f1 <;> split at f1 <;> omega
  | false =>
    rw [h7] at f1
    simp only [Bool.false_eq_true, if_false] at f1 ⊢
    cases h6 : testHead 0x40 bs with
    | true =>
      rw [h6] at f1
      simp only [if_true] at f1 ⊢
      rw [zeroIfClear_iff]
      constructor
      · rintro ⟨h0, rfl⟩
        exact Or.inl ⟨rfl, by omega⟩
      · rintro (⟨rfl, h⟩ | ⟨-, h⟩)
        · exact ⟨by omega, rfl⟩
        · exfalso
          split at f1 <;> omega
    | false =>
      rw [h6] at f1
      simp only [Bool.false_eq_true, if_false] at f1 ⊢
      have hnz : ¬ (p = zeroAffine ∧ beNat bs = 2 ^ (8 * (2 * c.size) - 2)) := by
        rintro ⟨-, h⟩
        split at f1 <;> omega
      rw [or_iff_right hnz]
      cases h5 : testHead 0x20 bs with
      | true =>
        rw [h5] at f1
        simp only [if_true] at f1 ⊢
        simp only [reduceCtorEq, false_iff]
        rintro ⟨-, h⟩
        omega
      | false =>
        rw [h5] at f1
        simp only [Bool.false_eq_true, if_false] at f1 ⊢
        rw [readBoth_iff L hr2 (by rw [length_andHead, hl])]
        constructor
        · rintro ⟨h1, h2⟩; exact ⟨h1, by omega⟩
        · rintro ⟨h1, h2⟩; exact ⟨h1, by omega⟩

theorem checkCurve_iff (b : K) (o : Option (Affine K)) (p : Affine K) :
    checkCurve b o = some p ↔ o = some p ∧ OnCurve b (affinePoint p) := by
  unfold checkCurve
  cases o with
  | none => simp
  | some q =>
    simp only [Option.some.injEq]
    have : isOnCurve q.x q.y q.infinity b = true ↔ OnCurve b (affinePoint q) := by
      unfold isOnCurve affinePoint OnCurve
      cases q.infinity with
      | true => simp
      | false =>
        simp only [Bool.false_eq_true, if_false, beq_iff_eq]
        constructor
        · intro h; linear_combination h
        · intro h; linear_combination h
    by_cases h : isOnCurve q.x q.y q.infinity b = true
    · rw [if_pos h]
      constructor
      · intro e
        cases e
        exact ⟨rfl, this.1 h⟩
      · rintro ⟨rfl, -⟩; rfl
    · rw [if_neg h]
      simp only [reduceCtorEq, false_iff]
      rintro ⟨rfl, hc⟩
      exact h (this.2 hc)

end points

end Fawkes.Groth16
