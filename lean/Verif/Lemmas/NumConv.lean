import Verif.Lemmas.Num

/-!
# Conversions of field elements
-/

set_option linter.unusedSectionVars false

namespace Fawkes

theorem numBytes_bounds (p : Nat) : numBits p ≤ 8 * numBytes p ∧ numBytes p ≤ 8 * nLimbs p := by
  have h := numBits_lt p
  have h1 : numBits p / 8 * 8 + numBits p % 8 = numBits p := Nat.div_add_mod' _ _
  have h2 : numBits p % 8 < 8 := Nat.mod_lt _ (by norm_num)
  unfold numBytes
  split <;> constructor <;> omega

theorem lt_pow_numBytes (p : Nat) : p < 256 ^ numBytes p := by
  refine (lt_two_pow_numBits p).trans_le ?_
  rw [show (256 : ℕ) = 2 ^ 8 by norm_num, ← pow_mul]
  exact Nat.pow_le_pow_right (by norm_num) (numBytes_bounds p).1

/-- The byte length of the field elements fills the limbs: needed by every byte conversion. -/
def Aligned (p : Nat) : Prop := numBytes p = 8 * nLimbs p

instance (p : Nat) : Decidable (Aligned p) := inferInstanceAs (Decidable (_ = _))

theorem writeBEInto_ok {p : Nat} (h : Aligned p) {r : List UInt64} (hr : r.length = nLimbs p) :
    Num.writeBEInto (numBytes p) r = .ok (Num.writeBE r) := by
  unfold Num.writeBEInto
  rw [hr, h]; simp

theorem writeBEInto_err {p : Nat} (h : ¬ Aligned p) {r : List UInt64} (hr : r.length = nLimbs p) :
    Num.writeBEInto (numBytes p) r = .error .unwrap := by
  unfold Num.writeBEInto
  have := (numBytes_bounds p).2
  unfold Aligned at h
  rw [hr, if_pos (by omega)]

theorem leNat_map_ofNat (l : List Nat) (h : ∀ d ∈ l, d < 256) :
    leNat (l.map UInt8.ofNat) = Nat.ofDigits 256 l := by
  induction l with
  | nil => rfl
  | cons d l ih =>
    rw [List.map_cons, leNat, ih fun d hd => h d (by simp [hd]), Nat.ofDigits_cons, UInt8.toNat_ofNat',
      Nat.mod_eq_of_lt (h d (by simp))]

theorem beNat_biguintToBE (n : Nat) : beNat (Num.biguintToBE n) = n := by
  unfold Num.biguintToBE beNat
  split
  · next h => subst h; rfl
  · rw [List.reverse_reverse, leNat_map_ofNat _ fun d hd => Nat.digits_lt_base (by norm_num) hd,
      Nat.ofDigits_digits]

theorem biguintToBE_length {p n : Nat} (hp : 1 < p) (h : n < p) : (Num.biguintToBE n).length ≤ numBytes p := by
  unfold Num.biguintToBE
  split
  · have := lt_pow_numBytes p
    have : numBytes p ≠ 0 := fun h0 => by rw [h0] at this; simp at this; omega
    simp; omega
  · rw [List.length_reverse, List.length_map, Nat.digits_length_le_iff (by norm_num)]
    exact h.trans (lt_pow_numBytes p)

theorem beNat_pad (k : Nat) (bs : List UInt8) : beNat (List.replicate k 0 ++ bs) = beNat bs := by
  unfold beNat
  rw [List.reverse_append, leNat_append, List.reverse_replicate, leNat_replicate_zero]; simp

section
variable {p : Nat} [hp : Fact (1 < p)]

instance : NeZero p := ⟨by have := hp.out; omega⟩

theorem order_bytes : Num.biguintFromBE (Num.writeBE (limbsOf (nLimbs p) p)) = p := by
  rw [biguintFromBE_eq, beNat_writeBE, reprNat_limbsOf, Nat.mod_eq_of_lt (lt_two_pow_limbs p)]

/-- Decoding the padded minimal big-endian digits of an integer below `p`. -/
theorem decode_padded (ha : Aligned p) {n : Nat} (hn : n < p) :
    ∃ r rest, Num.readBE (nLimbs p) (List.replicate (numBytes p - (Num.biguintToBE n).length) 0 ++
      Num.biguintToBE n) = some (r, rest) ∧ Num.fromRepr r = some (n : ZMod p) := by
  have hl := biguintToBE_length hp.out hn
  have hlen : (List.replicate (numBytes p - (Num.biguintToBE n).length) (0 : UInt8) ++
      Num.biguintToBE n).length = 8 * nLimbs p := by
    rw [List.length_append, List.length_replicate, ← show numBytes p = 8 * nLimbs p from ha]; omega
  obtain ⟨r, h1, -, h3⟩ := (readBE_spec (nLimbs p) _).1 hlen.ge
  refine ⟨r, _, h1, ?_⟩
  rw [fromRepr_eq, h3, List.take_of_length_le hlen.le, beNat_pad, beNat_biguintToBE, ZMod.val_natCast_of_lt hn]

theorem fromBigUint_ok (ha : Aligned p) (x : Nat) : Num.fromBigUint p x = .ok (x : ZMod p) := by
  unfold Num.fromBigUint
  rw [writeBEInto_ok ha (limbsOf_length _ _)]
  have hx : x % p < p := Nat.mod_lt _ (by have := hp.out; omega)
  obtain ⟨r, rest, h1, h2⟩ := decode_padded ha hx
  simp only [Bind.bind, Except.bind, order_bytes]
  rw [if_neg (by have := biguintToBE_length hp.out hx; omega), h1]
  simp only [h2]
  congr 1
  exact ZMod.natCast_mod x p

theorem fromBigUint_err (ha : ¬ Aligned p) (x : Nat) : Num.fromBigUint p x = .error .unwrap := by
  unfold Num.fromBigUint
  rw [writeBEInto_err ha (limbsOf_length _ _)]; rfl

theorem fromBigInt_ok (ha : Aligned p) (x : Int) : Num.fromBigInt p x = .ok (x : ZMod p) := by
  unfold Num.fromBigInt
  rw [writeBEInto_ok ha (limbsOf_length _ _)]
  simp only [Bind.bind, Except.bind, order_bytes]
  have hp0 : (0 : Int) < p := by have := hp.out; omega
  set m : Int := if x.tmod p < 0 then x.tmod p + p else x.tmod p with hm
  have hm' : m = x % p := by
    rw [hm, Int.tmod_eq_emod]
    have h1 := Int.emod_nonneg x hp0.ne'
    have h2 := Int.emod_lt_of_pos x hp0
    have h3 : (p : Int).natAbs = p := Int.natAbs_natCast p
    split
    · split
      · omega
      · omega
    · next h =>
      split
      · push_cast [h3]
        ring
      · next h' => push_cast [h3] at h' ⊢; omega
  have hm0 : ¬ m < 0 := by rw [hm']; exact not_lt.2 (Int.emod_nonneg x hp0.ne')
  have hlt : m.toNat < p := by
    have := Int.emod_lt_of_pos x hp0
    rw [hm']; omega
  rw [if_neg hm0, if_neg (by have := biguintToBE_length hp.out hlt; omega)]
  obtain ⟨r, rest, h1, h2⟩ := decode_padded ha hlt
  rw [h1]
  simp only [h2]
  congr 1
  have : ((m.toNat : ℕ) : ZMod p) = ((m : ℤ) : ZMod p) := by
    rw [← Int.cast_natCast, Int.toNat_of_nonneg (not_lt.1 hm0)]
  rw [this, hm', ZMod.intCast_mod]

theorem reprNat_lowRepr {n : Nat} (h : n < 2 ^ 64) : reprNat (Num.lowRepr p n) = n := by
  have : ∀ k, reprNat (List.replicate k 0) = 0 := by
    intro k
    induction k with
    | zero => rfl
    | succ k ih => simp [List.replicate_succ, reprNat, ih]
  unfold Num.lowRepr
  rw [reprNat, this, UInt64.toNat_ofNat', Nat.mod_eq_of_lt h]; rfl

theorem fromLow_eq {n : Nat} (h : n < 2 ^ 64) :
    Num.fromLow p n = if n < p then .ok (n : ZMod p) else .error .unwrap := by
  unfold Num.fromLow Num.fromRepr
  rw [reprNat_lowRepr h]
  by_cases h' : n < p
  · rw [if_pos h', if_pos h']
  · rw [if_neg h', if_neg h']

theorem fromSigned_ok (checks : Bool) (bits : Nat) (n : Int) (hb : bits ≤ 64)
    (hn : -(2 ^ (bits - 1) : Int) < n ∧ n < 2 ^ (bits - 1)) (hp' : |n| < p) :
    Num.fromSigned p checks bits n = .ok (n : ZMod p) := by
  unfold Num.fromSigned Num.absSigned
  rw [if_neg (by omega)]
  simp only [Bind.bind, Except.bind]
  have hle : (2 : Int) ^ (bits - 1) ≤ 2 ^ 63 := pow_le_pow_right₀ (by norm_num) (by omega)
  have h64 : |n| < 2 ^ 64 := by
    rw [abs_lt]; constructor
    · have : (2 : Int) ^ 63 < 2 ^ 64 := by norm_num
      omega
    · have : (2 : Int) ^ 63 < 2 ^ 64 := by norm_num
      omega
  have hA : Num.asU64 |n| = n.natAbs := by
    unfold Num.asU64
    rw [Int.emod_eq_of_lt (abs_nonneg n) h64, Int.abs_eq_natAbs, Int.toNat_natCast]
  rw [hA, fromLow_eq (by rw [Int.abs_eq_natAbs] at h64; exact_mod_cast h64),
    if_pos (by rw [Int.abs_eq_natAbs] at hp'; exact_mod_cast hp')]
  simp only [Pure.pure, Except.pure]
  congr 1
  split
  · next h => rw [← Int.cast_natCast, Int.natAbs_of_nonneg h]
  · next h =>
    rw [← Int.cast_natCast, ← Int.cast_neg]
    congr 1; omega

theorem intoBinaryBE_ok (ha : Aligned p) (x : ZMod p) :
    ∃ bs, Num.intoBinaryBE x = .ok bs ∧ bs.length = numBytes p ∧ beNat bs = x.val := by
  refine ⟨_, writeBEInto_ok ha (intoRepr_length x), ?_, ?_⟩
  · rw [writeBE_length, intoRepr_length]; exact ha.symm
  · rw [beNat_writeBE, reprNat_intoRepr]

theorem intoBigUint_ok (ha : Aligned p) (x : ZMod p) : Num.intoBigUint x = .ok x.val := by
  obtain ⟨bs, h1, -, h3⟩ := intoBinaryBE_ok ha x
  unfold Num.intoBigUint
  rw [h1]
  simp only [Bind.bind, Except.bind, Pure.pure, Except.pure]
  rw [biguintFromBE_eq, h3]

/-! ## Decimal strings -/

theorem parseDigits_append (a b : List Char) (acc : Nat) :
    Num.parseDigits acc (a ++ b) = (Num.parseDigits acc a).bind fun m => Num.parseDigits m b := by
  induction a generalizing acc with
  | nil => rfl
  | cons c a ih =>
    simp only [List.cons_append, Num.parseDigits]
    split
    · exact ih _
    · split
      · exact ih _
      · rfl

theorem parseDigits_digitChar (acc d : Nat) (hd : d < 10) :
    Num.parseDigits acc [Nat.digitChar d] = some (acc * 10 + d) := by
  interval_cases d <;> rfl

theorem parseDigits_digits (l : List Nat) (h : ∀ d ∈ l, d < 10) :
    Num.parseDigits 0 ((l.map Nat.digitChar).reverse) = some (Nat.ofDigits 10 l) := by
  induction l with
  | nil => rfl
  | cons d l ih =>
    rw [List.map_cons, List.reverse_cons, parseDigits_append, ih fun d hd => h d (by simp [hd])]
    simp only [Option.bind]
    rw [parseDigits_digitChar _ _ (h d (by simp)), Nat.ofDigits_cons]
    congr 1; ring

theorem digitChar_ne {d : Nat} (h : d < 10) : Nat.digitChar d ≠ '+' ∧ Nat.digitChar d ≠ '_' := by
  interval_cases d <;> decide

theorem parse_decimal (n : Nat) : Num.parseBigUint (Num.decimal n) = some n := by
  unfold Num.decimal
  split
  · next h => subst h; rfl
  · next h =>
    have hd : ∀ d ∈ Nat.digits 10 n, d < 10 := fun d hd => Nat.digits_lt_base (by norm_num) hd
    have hp := parseDigits_digits _ hd
    rw [Nat.ofDigits_digits] at hp
    have hne : ((Nat.digits 10 n).map Nat.digitChar).reverse ≠ [] := by
      simp [Nat.digits_ne_nil_iff_ne_zero.2 h]
    cases hl : ((Nat.digits 10 n).map Nat.digitChar).reverse with
    | nil => exact absurd hl hne
    | cons c cs =>
      have hc : c ∈ ((Nat.digits 10 n).map Nat.digitChar).reverse := by rw [hl]; simp
      simp only [List.mem_reverse, List.mem_map] at hc
      obtain ⟨d, hdm, rfl⟩ := hc
      obtain ⟨h1, h2⟩ := digitChar_ne (hd d hdm)
      rw [hl] at hp
      unfold Num.parseBigUint
      simp only
      split
      · next heq => simp at heq
      · next heq =>
        split at heq
        · next heq' => injection heq' with h3 _; exact absurd h3 h1
        · injection heq with h3 _; exact absurd h3 h2
      · next heq =>
        split
        · next heq' => injection heq' with h3 _; exact absurd h3 h1
        · exact hp

/-! ## Public input buffers -/

theorem readNum_eq (data : List UInt8) (x : ZMod p) (h : 8 * nLimbs p ≤ data.length) :
    Num.readNum p data = some x ↔ beNat (data.take (8 * nLimbs p)) = x.val := by
  obtain ⟨r, h1, -, h3⟩ := (readBE_spec (nLimbs p) data).1 h
  unfold Num.readNum
  rw [h1]; simp only
  rw [fromRepr_eq, h3]

theorem readNum_none (data : List UInt8) (h : 8 * nLimbs p ≤ data.length) :
    Num.readNum p data = none ↔ p ≤ beNat (data.take (8 * nLimbs p)) := by
  obtain ⟨r, h1, -, h3⟩ := (readBE_spec (nLimbs p) data).1 h
  unfold Num.readNum
  rw [h1]; simp only
  rw [fromRepr_none, h3]

end

theorem numVecLoop_eq {p : Nat} (sz : Nat) (hsz : ∀ x : ZMod p, (Num.writeBE (Num.intoRepr x)).length = sz)
    (xs : List (ZMod p)) : ∀ (i : Nat) (pre : List UInt8), pre.length = sz * i →
    Num.numVecLoop sz i xs (pre ++ List.replicate (sz * xs.length) 0) =
      pre ++ xs.flatMap fun x => Num.writeBE (Num.intoRepr x) := by
  induction xs with
  | nil => intro i pre _; simp [Num.numVecLoop]
  | cons x xs ih =>
    intro i pre hi
    unfold Num.numVecLoop
    have h1 : (pre ++ List.replicate (sz * (x :: xs).length) (0 : UInt8)).take (sz * i) = pre := by
      rw [← hi, List.take_left']; rfl
    have h2 : (pre ++ List.replicate (sz * (x :: xs).length) (0 : UInt8)).drop
        (sz * i + (Num.writeBE (Num.intoRepr x)).length) = List.replicate (sz * xs.length) 0 := by
      rw [hsz x, ← hi, List.drop_append]
      simp only [Nat.add_sub_cancel_left, List.drop_replicate, List.length_cons]
      rw [List.drop_eq_nil_of_le (by omega), List.nil_append]
      congr 1
      rw [Nat.mul_add]; omega
    rw [h1, h2, ih (i + 1) (pre ++ Num.writeBE (Num.intoRepr x))
      (by rw [List.length_append, hi, hsz x]; ring)]
    simp

section
variable {p : Nat} [hp : Fact (1 < p)]

theorem numVecToBuf_eq (xs : List (ZMod p)) :
    Num.numVecToBuf xs = xs.flatMap fun x => Num.writeBE (Num.intoRepr x) := by
  have hsz : ∀ x : ZMod p, (Num.writeBE (Num.intoRepr x)).length = 8 * nLimbs p := fun x => by
    rw [writeBE_length, intoRepr_length]
  have h := numVecLoop_eq _ hsz xs 0 [] (by simp)
  rw [List.nil_append, List.nil_append] at h
  exact h

theorem numVecToBuf_length (xs : List (ZMod p)) : (Num.numVecToBuf xs).length = 8 * nLimbs p * xs.length := by
  rw [numVecToBuf_eq, List.length_flatMap]
  simp only [writeBE_length, intoRepr_length, List.map_const', List.sum_replicate, smul_eq_mul]; ring

theorem enc_length (x : ZMod p) : (Num.writeBE (Num.intoRepr x)).length = 8 * nLimbs p := by
  rw [writeBE_length, intoRepr_length]

theorem numVecToBuf_get (xs : List (ZMod p)) : ∀ i (h : i < xs.length),
    beNat (((Num.numVecToBuf xs).drop (8 * nLimbs p * i)).take (8 * nLimbs p)) = xs[i].val := by
  rw [numVecToBuf_eq]
  induction xs with
  | nil => intro i h; simp at h
  | cons x xs ih =>
    intro i h
    rw [List.flatMap_cons]
    cases i with
    | zero =>
      rw [Nat.mul_zero, List.drop_zero, List.take_left' (enc_length x), beNat_writeBE, reprNat_intoRepr]; rfl
    | succ i =>
      rw [Nat.mul_add, Nat.mul_one, Nat.add_comm, ← List.drop_drop, List.drop_left' (enc_length x),
        ih i (by simpa using h)]
      rfl

theorem readNumLoop_shift (data : List UInt8) (sz : Nat) (offs : List Nat) :
    Num.readNumLoop p data (offs.map fun o => o + sz) = Num.readNumLoop p (data.drop sz) offs := by
  induction offs with
  | nil => rfl
  | cons o offs ih =>
    simp only [List.map_cons, Num.readNumLoop, ih, List.drop_drop, Nat.add_comm sz o]

theorem range_offs (sz m : Nat) : (List.range (m + 1)).map (· * sz) =
    0 :: ((List.range m).map (· * sz)).map fun o => o + sz := by
  rw [List.range_succ_eq_map, List.map_cons, List.map_map, List.map_map, Nat.zero_mul]
  congr 2
  funext i; simp [Nat.succ_mul]

theorem readNumLoop_iff (m : Nat) (data : List UInt8) (hl : data.length = 8 * nLimbs p * m)
    (xs : List (ZMod p)) :
    Num.readNumLoop p data ((List.range m).map (· * (8 * nLimbs p))) = some xs ↔
      data = xs.flatMap fun x => Num.writeBE (Num.intoRepr x) := by
  induction m generalizing data xs with
  | zero =>
    have : data = [] := List.eq_nil_of_length_eq_zero (by simpa using hl)
    subst this
    simp only [List.range_zero, List.map_nil, Num.readNumLoop, Option.some.injEq]
    constructor
    · rintro rfl; rfl
    · intro h
      have := congrArg List.length h
      cases xs with
      | nil => rfl
      | cons x xs =>
        simp [enc_length, nLimbs] at this; omega
  | succ m ih =>
    rw [range_offs]
    have hge : 8 * nLimbs p ≤ data.length := by rw [hl, Nat.mul_add]; omega
    have ih' := ih (data.drop (8 * nLimbs p)) (by rw [List.length_drop, hl, Nat.mul_add]; omega)
    simp only [Num.readNumLoop, List.drop_zero]
    rw [readNumLoop_shift]
    constructor
    · intro h
      cases hx : Num.readNum p data with
      | none => rw [hx] at h; simp at h
      | some x =>
        rw [hx] at h
        simp only at h
        cases hy : Num.readNumLoop p (data.drop (8 * nLimbs p)) ((List.range m).map (· * (8 * nLimbs p))) with
        | none => rw [hy] at h; simp at h
        | some ys =>
          rw [hy] at h
          simp only [Option.some.injEq] at h
          subst h
          rw [List.flatMap_cons, ← (ih' ys).1 hy]
          conv_lhs => rw [← List.take_append_drop (8 * nLimbs p) data]
          congr 1
          rw [readNum_eq data x hge] at hx
          have : (data.take (8 * nLimbs p)).reverse = (Num.writeBE (Num.intoRepr x)).reverse := by
            apply leNat_inj
            · rw [List.length_reverse, List.length_reverse, enc_length, List.length_take]; omega
            · change beNat _ = beNat _
              rw [hx, beNat_writeBE, reprNat_intoRepr]
          exact List.reverse_injective this
    · intro h
      cases xs with
      | nil => rw [h] at hge; simp [nLimbs] at hge
      | cons x xs =>
        rw [List.flatMap_cons] at h
        have hx : Num.readNum p data = some x := by
          rw [readNum_eq data x hge, h, List.take_left' (enc_length x), beNat_writeBE, reprNat_intoRepr]
        have hy := (ih' xs).2 (by rw [h, List.drop_left' (enc_length x)])
        rw [hx, hy]

theorem readNumVec_iff (data : List UInt8) (xs : List (ZMod p)) :
    Num.readNumVec p data = some xs ↔ data = Num.numVecToBuf xs := by
  rw [numVecToBuf_eq]
  unfold Num.readNumVec
  simp only
  by_cases h : data.length % (8 * nLimbs p) = 0
  · rw [if_neg (by simpa using h)]
    refine readNumLoop_iff _ data ?_ xs
    exact (Nat.mul_div_cancel' (Nat.dvd_of_mod_eq_zero h)).symm
  · rw [if_pos h]
    simp only [reduceCtorEq, false_iff]
    intro he
    apply h
    rw [he, ← numVecToBuf_eq, numVecToBuf_length]
    exact Nat.mul_mod_right _ _

theorem readNumLoop_none (m : Nat) (data : List UInt8) (hl : data.length = 8 * nLimbs p * m) :
    Num.readNumLoop p data ((List.range m).map (· * (8 * nLimbs p))) = none ↔
      ∃ i, i < m ∧ p ≤ beNat ((data.drop (8 * nLimbs p * i)).take (8 * nLimbs p)) := by
  induction m generalizing data with
  | zero => simp [Num.readNumLoop]
  | succ m ih =>
    rw [range_offs]
    have hge : 8 * nLimbs p ≤ data.length := by rw [hl, Nat.mul_add]; omega
    have ih' := ih (data.drop (8 * nLimbs p)) (by rw [List.length_drop, hl, Nat.mul_add]; omega)
    have hn := readNum_none (p := p) data hge
    simp only [Num.readNumLoop, List.drop_zero]
    rw [readNumLoop_shift]
    constructor
    · intro h
      cases hx : Num.readNum p data with
      | none => exact ⟨0, by omega, by rw [Nat.mul_zero, List.drop_zero]; exact hn.1 hx⟩
      | some x =>
        rw [hx] at h
        simp only at h
        cases hy : Num.readNumLoop p (data.drop (8 * nLimbs p)) ((List.range m).map (· * (8 * nLimbs p))) with
        | none =>
          obtain ⟨i, hi, hb⟩ := ih'.1 hy
          refine ⟨i + 1, by omega, ?_⟩
          rw [List.drop_drop] at hb
          rwa [Nat.mul_add, Nat.mul_one, Nat.add_comm]
        | some ys => rw [hy] at h; simp at h
    · rintro ⟨i, hi, hb⟩
      cases hx : Num.readNum p data with
      | none => rfl
      | some x =>
        simp only
        cases i with
        | zero =>
          rw [Nat.mul_zero, List.drop_zero] at hb
          rw [hn.2 hb] at hx; simp at hx
        | succ i =>
          rw [ih'.2 ⟨i, by omega, by
            rw [List.drop_drop]; rwa [Nat.mul_add, Nat.mul_one, Nat.add_comm] at hb⟩]

theorem readNumVec_none (data : List UInt8) :
    Num.readNumVec p data = none ↔
      ¬ 8 * nLimbs p ∣ data.length ∨
      ∃ i, i < data.length / (8 * nLimbs p) ∧
        p ≤ beNat ((data.drop (8 * nLimbs p * i)).take (8 * nLimbs p)) := by
  unfold Num.readNumVec
  simp only
  rw [Nat.dvd_iff_mod_eq_zero]
  by_cases h : data.length % (8 * nLimbs p) = 0
  · rw [if_neg (by simpa using h)]
    rw [readNumLoop_none _ data (Nat.mul_div_cancel' (Nat.dvd_of_mod_eq_zero h)).symm]
    simp [h]
  · rw [if_pos h]; simp [h]

/-! ## ff `from_str` -/

/-- The digits of a string, if all its characters are decimal digits. -/
def strDigits : List Char → Option (List Nat)
  | [] => some []
  | c :: cs =>
    if '0' ≤ c ∧ c ≤ '9' then (strDigits cs).map ((c.toNat - '0'.toNat) :: ·) else none

theorem digit_of_range {c : Char} (h : '0' ≤ c ∧ c ≤ '9') :
    c.toNat - '0'.toNat < 10 ∧ c = Nat.digitChar (c.toNat - '0'.toNat) := by
  have h1 : '0'.toNat ≤ c.toNat := h.1
  have h2 : c.toNat ≤ '9'.toNat := h.2
  have h3 : c = Char.ofNat c.toNat := (Char.ofNat_toNat c).symm
  have e0 : '0'.toNat = 48 := rfl
  have e9 : '9'.toNat = 57 := rfl
  rw [e0] at h1 ⊢
  rw [e9] at h2
  refine ⟨by omega, ?_⟩
  generalize c.toNat = n at *
  subst h3
  interval_cases n <;> rfl

theorem strDigits_spec {s : List Char} {l : List Nat} (h : strDigits s = some l) :
    (∀ d ∈ l, d < 10) ∧ s = l.map Nat.digitChar := by
  induction s generalizing l with
  | nil => simp only [strDigits, Option.some.injEq] at h; subst h; simp
  | cons c cs ih =>
    simp only [strDigits] at h
    split at h
    · next hc =>
      cases hcs : strDigits cs with
      | none => rw [hcs] at h; simp at h
      | some l' =>
        rw [hcs] at h
        simp only [Option.map_some, Option.some.injEq] at h
        subst h
        obtain ⟨h1, h2⟩ := ih hcs
        obtain ⟨h3, h4⟩ := digit_of_range hc
        refine ⟨?_, ?_⟩
        · intro d hd
          rcases List.mem_cons.1 hd with rfl | hd
          · exact h3
          · exact h1 d hd
        · rw [List.map_cons, ← h4, ← h2]
    · simp at h

theorem strDigits_map (l : List Nat) (h : ∀ d ∈ l, d < 10) : strDigits (l.map Nat.digitChar) = some l := by
  induction l with
  | nil => rfl
  | cons d l ih =>
    have hd := h d (by simp)
    have : ('0' ≤ Nat.digitChar d ∧ Nat.digitChar d ≤ '9') ∧ (Nat.digitChar d).toNat - '0'.toNat = d := by
      clear ih h
      interval_cases d <;> decide
    rw [List.map_cons, strDigits, if_pos this.1, ih fun d hd => h d (by simp [hd]), this.2]
    rfl

theorem fromStrLoop_eq (s : List Char) (res : ZMod p) :
    Num.fromStrLoop false res s =
      (strDigits s).map fun l => res * 10 ^ l.length + ((Nat.ofDigits 10 l.reverse : ℕ) : ZMod p) := by
  induction s generalizing res with
  | nil => simp [Num.fromStrLoop, strDigits]
  | cons c cs ih =>
    simp only [Num.fromStrLoop, strDigits, Bool.false_eq_true, false_and, if_false]
    split
    · rw [ih]
      cases strDigits cs with
      | none => rfl
      | some l =>
        simp only [Option.map_some, List.length_cons, List.reverse_cons, Nat.ofDigits_append,
          List.length_reverse, Nat.ofDigits_singleton]
        congr 1
        push_cast; ring
    · rfl

theorem fromStrLoop_true (s : List Char) (hs : s ≠ []) :
    (Num.fromStrLoop true (0 : ZMod p) s) =
      if s.head? = some '0' then none else Num.fromStrLoop false 0 s := by
  cases s with
  | nil => exact absurd rfl hs
  | cons c cs =>
    simp only [Num.fromStrLoop, true_and, List.head?_cons, Option.some.injEq, Bool.false_eq_true, false_and,
      if_false]
    by_cases h0 : c = '0'
    · subst h0; simp
    · simp [h0]

theorem fromStr_decimal (n : Nat) : Num.fromStr p (Num.decimal n) = .ok (n : ZMod p) := by
  unfold Num.decimal
  split
  · next h => subst h; simp [Num.fromStr]
  · next h =>
    have hd : ∀ d ∈ (Nat.digits 10 n).reverse, d < 10 := fun d hd =>
      Nat.digits_lt_base (by norm_num) (List.mem_reverse.1 hd)
    have hne : Nat.digits 10 n ≠ [] := Nat.digits_ne_nil_iff_ne_zero.2 h
    have hlast := Nat.getLast_digit_ne_zero 10 h
    rw [← List.map_reverse]
    have hne' : (Nat.digits 10 n).reverse.map Nat.digitChar ≠ [] := by simpa using hne
    have hhead : ((Nat.digits 10 n).reverse.map Nat.digitChar).head? ≠ some '0' := by
      rw [List.head?_map, List.head?_reverse, List.getLast?_eq_some_getLast hne]
      simp only [Option.map_some, ne_eq, Option.some.injEq]
      have hlt : (Nat.digits 10 n).getLast hne < 10 :=
        Nat.digits_lt_base (by norm_num) (List.getLast_mem hne)
      generalize (Nat.digits 10 n).getLast hne = d at *
      interval_cases d
      · exact absurd rfl hlast
      all_goals decide
    unfold Num.fromStr
    rw [if_neg hne', if_neg (fun h0 => hhead (by rw [h0]; rfl)), fromStrLoop_true _ hne', if_neg hhead,
      fromStrLoop_eq, strDigits_map _ hd]
    simp only [Option.map_some, zero_mul, zero_add, List.reverse_reverse, Nat.ofDigits_digits]

theorem fromStr_panics (s : List Char) (h : ∀ n, s ≠ Num.decimal n) :
    ∃ e, Num.fromStr p s = .error e := by
  unfold Num.fromStr
  split
  · exact ⟨_, rfl⟩
  · next hne =>
    split
    · next h0 => exact absurd h0 (h 0)
    · rw [fromStrLoop_true _ hne]
      split
      · next heq =>
        split at heq
        · exact ⟨_, rfl⟩
        · exact ⟨_, rfl⟩
      · next x heq =>
        split at heq
        · simp at heq
        · next hhead =>
          rw [fromStrLoop_eq] at heq
          cases hs : strDigits s with
          | none => rw [hs] at heq; simp at heq
          | some l =>
            obtain ⟨h1, h2⟩ := strDigits_spec hs
            exfalso
            refine h (Nat.ofDigits 10 l.reverse) ?_
            have hlne : l ≠ [] := by rintro rfl; exact hne h2
            have hrev : l.reverse ≠ [] := by simpa using hlne
            have hl0 : l.reverse.getLast hrev ≠ 0 := by
              intro h0
              apply hhead
              rw [h2, List.head?_map]
              rw [List.getLast_reverse] at h0
              rw [List.head?_eq_some_head hlne, h0]; rfl
            have hdig : Nat.digits 10 (Nat.ofDigits 10 l.reverse) = l.reverse :=
              Nat.digits_ofDigits 10 (by norm_num) _ (fun d hd => h1 d (List.mem_reverse.1 hd))
                (fun _ => hl0)
            unfold Num.decimal
            rw [if_neg, hdig, List.map_reverse, List.reverse_reverse, ← h2]
            intro h0
            rw [h0] at hdig
            simp at hdig
            exact hlne hdig

end

end Fawkes
