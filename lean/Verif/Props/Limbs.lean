import Verif.Lemmas.LimbsField
import Verif.Lemmas.Primes

/-!
# Arithmetic on machine words is that of the field: C115
-/

namespace Fawkes.Props

open Fawkes.Limbs

variable {p : Nat} [Fact p.Prime]

theorem _root_.Fawkes.WordsOf.good {w : Words} {x : ZMod p} (h : WordsOf w x) : Good p w := ⟨h.length, h.below⟩

theorem wordsOf_of {w : Words} {x : ZMod p} (h : Good p w) (hv : val p w = x * 2 ^ (64 * nLimbs p)) : WordsOf w x :=
  ⟨h.length, h.below, hv⟩

/-- C115 (equality): every element has exactly one form, and words that differ are different elements, so comparing words
is comparing elements. -/
theorem C115_unique (h2 : p ≠ 2) : (∀ x : ZMod p, ∃! w, WordsOf w x) ∧
    ∀ (v w : List UInt64) (x y : ZMod p), WordsOf v x → WordsOf w y → (v = w ↔ x = y) := by
  have hodd : p % 2 = 1 := (Fact.out : p.Prime).eq_two_or_odd.resolve_left h2
  have key : ∀ (v w : List UInt64) (x : ZMod p), WordsOf v x → WordsOf w x → v = w := by
    intro v w x hv hw
    refine reprNat_inj (by rw [hv.length, hw.length]) ?_
    have h := hv.value.trans hw.value.symm
    have := congrArg ZMod.val h
    rwa [ZMod.val_cast_of_lt hv.below, ZMod.val_cast_of_lt hw.below] at this
  refine ⟨fun x => ?_, fun v w x y hv hw => ⟨?_, ?_⟩⟩
  · obtain ⟨h1, h3⟩ := good_limbs (p := p) (ZMod.val_lt (x * 2 ^ (64 * nLimbs p)))
    have hr : WordsOf (limbsOf (nLimbs p) (x * 2 ^ (64 * nLimbs p)).val) x :=
      wordsOf_of h1 (by rw [h3, ZMod.natCast_zmod_val])
    exact ⟨_, hr, fun w hw => key _ _ _ hw hr⟩
  · rintro rfl
    exact mul_right_cancel₀ (radix_ne hodd) (hv.value.symm.trans hw.value)
  · rintro rfl
    exact key _ _ _ hv hw

/-- C115 (sums): addition, doubling, subtraction and negation. -/
theorem C115_sums {v w : List UInt64} {x y : ZMod p} (hv : WordsOf v x) (hw : WordsOf w y) :
    WordsOf (Limbs.add p v w) (x + y) ∧ WordsOf (Limbs.double p v) (x + x) ∧ WordsOf (Limbs.sub p v w) (x - y) ∧
      WordsOf (Limbs.neg p v) (-x) := by
  have e1 : val p v = x * 2 ^ (64 * nLimbs p) := hv.value
  have e2 : val p w = y * 2 ^ (64 * nLimbs p) := hw.value
  obtain ⟨a1, a2⟩ := good_add hv.good hw.good
  obtain ⟨b1, b2⟩ := good_double hv.good
  obtain ⟨c1, c2⟩ := good_sub hv.good hw.good
  obtain ⟨d1, d2⟩ := good_neg hv.good
  exact ⟨wordsOf_of a1 (by rw [a2, e1, e2]; ring), wordsOf_of b1 (by rw [b2, e1]; ring), wordsOf_of c1 (by rw [c2, e1, e2]; ring),
    wordsOf_of d1 (by rw [d2, e1]; ring)⟩

/-- C115 (products): multiplication and squaring. -/
theorem C115_products (h2 : p ≠ 2) {v w : List UInt64} {x y : ZMod p} (hv : WordsOf v x) (hw : WordsOf w y) :
    WordsOf (Limbs.mul p v w) (x * y) ∧ WordsOf (Limbs.square p v) (x * x) := by
  have hodd : p % 2 = 1 := (Fact.out : p.Prime).eq_two_or_odd.resolve_left h2
  have e1 : val p v = x * 2 ^ (64 * nLimbs p) := hv.value
  have e2 : val p w = y * 2 ^ (64 * nLimbs p) := hw.value
  obtain ⟨a1, a2⟩ := good_mul hodd hv.good hw.good
  obtain ⟨b1, b2⟩ := good_square hodd hv.good
  refine ⟨wordsOf_of a1 (mul_right_cancel₀ (radix_ne hodd) ?_), wordsOf_of b1 (mul_right_cancel₀ (radix_ne hodd) ?_)⟩
  · rw [a2, e1, e2]; ring
  · rw [b2, e1]; ring

/-- C115 (inverses): the loops end; zero has no inverse, and every other element gets its inverse. -/
theorem C115_inverse (h2 : p ≠ 2) {w : List UInt64} {x : ZMod p} (hw : WordsOf w x) :
    (x = 0 → Limbs.inverse p w = some none) ∧
    (x ≠ 0 → ∃ v, Limbs.inverse p w = some (some v) ∧ WordsOf v x⁻¹) := by
  have hodd : p % 2 = 1 := (Fact.out : p.Prime).eq_two_or_odd.resolve_left h2
  have hR := radix_ne (p := p) hodd
  have e1 : val p w = x * 2 ^ (64 * nLimbs p) := hw.value
  have hz : reprNat w = 0 ↔ x = 0 := by
    have h1 : reprNat w = 0 ↔ val p w = 0 := by
      unfold val
      rw [ZMod.natCast_eq_zero_iff]
      exact ⟨fun h => by rw [h]; exact dvd_zero _, fun h => Nat.eq_zero_of_dvd_of_lt h hw.below⟩
    rw [h1, e1, mul_eq_zero]
    exact ⟨fun h => h.resolve_right hR, Or.inl⟩
  refine ⟨fun h => inverse_zero (hz.2 h), fun h => ?_⟩
  obtain ⟨d, h1, h3, h4⟩ := good_inverse hodd hw.good (fun hh => h (hz.1 hh))
  refine ⟨d, h1, wordsOf_of h3 ?_⟩
  rw [e1] at h4
  apply mul_right_cancel₀ (mul_ne_zero h hR)
  rw [h4]
  field_simp

/-- C115 (integers): `from_repr` accepts the numbers below the modulus and no others, and gives their form; `into_repr`
returns the words of the number itself. -/
theorem C115_repr (h2 : p ≠ 2) :
    (∀ (r : List UInt64) (_ : r.length = nLimbs p), (Num.fromRepr r : Option (ZMod p)) = none ∧ Limbs.fromRepr p r = none ∨
      ∃ (x : ZMod p) (w : List UInt64), Num.fromRepr r = some x ∧ Limbs.fromRepr p r = some w ∧ WordsOf w x) ∧
    ∀ (w : List UInt64) (x : ZMod p), WordsOf w x → Limbs.intoRepr p w = Num.intoRepr x := by
  have hodd : p % 2 = 1 := (Fact.out : p.Prime).eq_two_or_odd.resolve_left h2
  have hR := radix_ne (p := p) hodd
  constructor
  · intro r hr
    have hl : r.length = (modulus p).length := by rw [hr, modulus_length]
    have h1 := less_eq r (modulus p) hl
    rw [reprNat_modulus] at h1
    by_cases hlt : reprNat r < p
    · right
      obtain ⟨g2, v2⟩ := good_R2 (p := p)
      obtain ⟨a1, a2⟩ := good_mul hodd (⟨hr, hlt⟩ : Good p r) g2
      refine ⟨(reprNat r : ZMod p), Limbs.mul p r (constR2 p), by simp [Num.fromRepr, hlt], ?_, wordsOf_of a1 ?_⟩
      · unfold Limbs.fromRepr isValid
        rw [if_pos (h1.2 hlt)]
      · apply mul_right_cancel₀ hR
        rw [a2, v2]
        show (reprNat r : ZMod p) * _ = _
        ring
    · left
      refine ⟨by simp [Num.fromRepr, hlt], ?_⟩
      unfold Limbs.fromRepr isValid
      rw [if_neg (fun h => hlt (h1.1 h))]
  · intro w x hw
    have hlt := hw.below
    have h2p := two_mul_le p
    obtain ⟨h3, h4, h5⟩ := montReduce_eq hodd (w ++ List.replicate (nLimbs p) 0) (by simp [hw.length]) (by
      rw [reprNat_append, reprNat_zeros]
      have : p * 1 ≤ p * 2 ^ (64 * nLimbs p) := Nat.mul_le_mul_left _ Nat.one_le_two_pow
      omega)
    rw [reprNat_append, reprNat_zeros, Nat.mul_zero, Nat.add_zero, hw.value] at h5
    have h6 := mul_right_cancel₀ hR h5
    refine reprNat_inj (by rw [intoRepr_length]; exact h3) ?_
    rw [reprNat_intoRepr, ← h6, ZMod.val_cast_of_lt h4]
    rfl

/-- C115 (constants): the words of zero and one, and `is_zero`. -/
theorem C115_constants (h2 : p ≠ 2) : WordsOf (List.replicate (nLimbs p) 0) (0 : ZMod p) ∧ WordsOf (constR p) (1 : ZMod p) ∧
    ∀ (w : List UInt64) (x : ZMod p), WordsOf w x → (Limbs.isZero w = true ↔ x = 0) := by
  have hp := (Fact.out : p.Prime)
  have hzero : WordsOf (List.replicate (nLimbs p) 0) (0 : ZMod p) :=
    ⟨by simp, by rw [reprNat_zeros]; exact hp.pos, by rw [reprNat_zeros]; simp⟩
  obtain ⟨g, v⟩ := good_R (p := p)
  refine ⟨hzero, wordsOf_of g (by rw [v, one_mul]), fun w x hw => ?_⟩
  rw [isZero_eq, ← (C115_unique h2).2 _ _ _ _ hw hzero]
  constructor
  · intro h; exact reprNat_inj (by rw [hw.length]; simp) (by rw [h, reprNat_zeros])
  · rintro rfl; exact reprNat_zeros _

/-- C115 (no overflow): the 128-bit intermediate results of the carry functions fit, and differences are not negative. -/
theorem C115_no_overflow (a b c d : UInt64) : a.toNat + b.toNat * c.toNat + d.toNat < 2 ^ 128 ∧
    a.toNat + b.toNat + c.toNat < 2 ^ 128 ∧ (c.toNat ≤ 1 → b.toNat + c.toNat ≤ 2 ^ 64 + a.toNat) := by
  have ha := a.toNat_lt; have hb := b.toNat_lt; have hc := c.toNat_lt
  exact ⟨mac_lt a b c d, by omega, fun h => by omega⟩

/-- What a computation with numbers means in the field.  `none`: division by zero, or a constant that is not below the modulus. -/
def meaning (env : Nat → ZMod p) : Limbs.Expr → Option (ZMod p)
  | .input i => some (env i)
  | .constant r => if reprNat r < p then some (reprNat r : ZMod p) else none
  | .add a b => do return (← meaning env a) + (← meaning env b)
  | .sub a b => do return (← meaning env a) - (← meaning env b)
  | .mul a b => do return (← meaning env a) * (← meaning env b)
  | .div a b => do
    let x ← meaning env a
    let y ← meaning env b
    if y = 0 then none else return x / y
  | .neg a => do return -(← meaning env a)
  | .double a => do return 2 * (← meaning env a)
  | .square a => do return (← meaning env a) ^ 2

/-- The constants of a computation are arrays of the field's size. -/
def Sized (n : Nat) : Limbs.Expr → Prop
  | .input _ => True
  | .constant r => r.length = n
  | .add a b | .sub a b | .mul a b | .div a b => Sized n a ∧ Sized n b
  | .neg a | .double a | .square a => Sized n a

/-- C115 (computations): every computation with the operators of `Num` on words ends, panics exactly if it divides by zero
or uses a constant that is not below the modulus, and otherwise returns the words of its value in the field. -/
theorem C115_computation (h2 : p ≠ 2) (words : Nat → List UInt64) (env : Nat → ZMod p) (henv : ∀ i, WordsOf (words i) (env i)) (e : Limbs.Expr)
    (he : Sized (nLimbs p) e) :
    (∀ x, meaning env e = some x → ∃ w, e.run p words = .ok w ∧ WordsOf w x) ∧
      (meaning env e = none → e.run p words = .error .panic) := by
  induction e with
  | input i => exact ⟨fun x h => ⟨words i, rfl, by cases h; exact henv i⟩, fun h => by cases h⟩
  | constant r =>
    rcases (C115_repr h2).1 r he with ⟨h1, h3⟩ | ⟨x, w, h1, h3, h4⟩
    · have h1' : meaning env (.constant r) = none := h1
      rw [h1']
      refine ⟨fun x h => (by cases h), fun _ => ?_⟩
      simp only [Expr.run, h3]
    · have h1' : meaning env (.constant r) = some x := h1
      rw [h1']
      refine ⟨fun y h => ⟨w, by simp only [Expr.run, h3], by cases h; exact h4⟩, fun h => by cases h⟩
  | add a b iha ihb =>
    simp only [meaning, Expr.run]
    cases ha : meaning env a with
    | none => rw [(iha he.1).2 ha]; exact ⟨fun x h => (by cases h), fun _ => rfl⟩
    | some x =>
      obtain ⟨v, h1, h3⟩ := (iha he.1).1 x ha
      rw [h1]
      cases hb : meaning env b with
      | none => rw [(ihb he.2).2 hb]; exact ⟨fun x h => (by cases h), fun _ => rfl⟩
      | some y =>
        obtain ⟨w, h4, h5⟩ := (ihb he.2).1 y hb
        rw [h4]
        exact ⟨fun z h => ⟨_, rfl, by cases h; exact (C115_sums h3 h5).1⟩, fun h => by cases h⟩
  | sub a b iha ihb =>
    simp only [meaning, Expr.run]
    cases ha : meaning env a with
    | none => rw [(iha he.1).2 ha]; exact ⟨fun x h => (by cases h), fun _ => rfl⟩
    | some x =>
      obtain ⟨v, h1, h3⟩ := (iha he.1).1 x ha
      rw [h1]
      cases hb : meaning env b with
      | none => rw [(ihb he.2).2 hb]; exact ⟨fun x h => (by cases h), fun _ => rfl⟩
      | some y =>
        obtain ⟨w, h4, h5⟩ := (ihb he.2).1 y hb
        rw [h4]
        exact ⟨fun z h => ⟨_, rfl, by cases h; exact (C115_sums h3 h5).2.2.1⟩, fun h => by cases h⟩
  | mul a b iha ihb =>
    simp only [meaning, Expr.run]
    cases ha : meaning env a with
    | none => rw [(iha he.1).2 ha]; exact ⟨fun x h => (by cases h), fun _ => rfl⟩
    | some x =>
      obtain ⟨v, h1, h3⟩ := (iha he.1).1 x ha
      rw [h1]
      cases hb : meaning env b with
      | none => rw [(ihb he.2).2 hb]; exact ⟨fun x h => (by cases h), fun _ => rfl⟩
      | some y =>
        obtain ⟨w, h4, h5⟩ := (ihb he.2).1 y hb
        rw [h4]
        exact ⟨fun z h => ⟨_, rfl, by cases h; exact (C115_products h2 h3 h5).1⟩, fun h => by cases h⟩
  | div a b iha ihb =>
    simp only [meaning, Expr.run]
    cases ha : meaning env a with
    | none => rw [(iha he.1).2 ha]; exact ⟨fun x h => (by cases h), fun _ => rfl⟩
    | some x =>
      obtain ⟨v, h1, h3⟩ := (iha he.1).1 x ha
      rw [h1]
      cases hb : meaning env b with
      | none => rw [(ihb he.2).2 hb]; exact ⟨fun x h => (by cases h), fun _ => rfl⟩
      | some y =>
        obtain ⟨w, h4, h5⟩ := (ihb he.2).1 y hb
        rw [h4]
        simp only [bind, Option.bind, Except.bind, pure, Except.pure]
        by_cases hy : y = 0
        · rw [if_pos hy]
          simp only [checkedInverse, (C115_inverse h2 h5).1 hy]
          exact ⟨fun x h => (by cases h), fun _ => by trivial⟩
        · obtain ⟨u, h6, h7⟩ := (C115_inverse h2 h5).2 hy
          rw [if_neg hy]
          simp only [checkedInverse, h6]
          refine ⟨fun z h => ⟨_, rfl, ?_⟩, fun h => by cases h⟩
          cases h
          rw [div_eq_mul_inv]
          exact (C115_products h2 h3 h7).1
  | neg a iha =>
    simp only [meaning, Expr.run]
    cases ha : meaning env a with
    | none => rw [(iha he).2 ha]; exact ⟨fun x h => (by cases h), fun _ => rfl⟩
    | some x =>
      obtain ⟨v, h1, h3⟩ := (iha he).1 x ha
      rw [h1]
      exact ⟨fun z h => ⟨_, rfl, by cases h; exact (C115_sums h3 h3).2.2.2⟩, fun h => by cases h⟩
  | double a iha =>
    simp only [meaning, Expr.run]
    cases ha : meaning env a with
    | none => rw [(iha he).2 ha]; exact ⟨fun x h => (by cases h), fun _ => rfl⟩
    | some x =>
      obtain ⟨v, h1, h3⟩ := (iha he).1 x ha
      rw [h1]
      refine ⟨fun z h => ⟨_, rfl, ?_⟩, fun h => by cases h⟩
      cases h
      rw [two_mul]
      exact (C115_sums h3 h3).2.1
  | square a iha =>
    simp only [meaning, Expr.run]
    cases ha : meaning env a with
    | none => rw [(iha he).2 ha]; exact ⟨fun x h => (by cases h), fun _ => rfl⟩
    | some x =>
      obtain ⟨v, h1, h3⟩ := (iha he).1 x ha
      rw [h1]
      refine ⟨fun z h => ⟨_, rfl, ?_⟩, fun h => by cases h⟩
      cases h
      rw [pow_two]
      exact (C115_products h2 h3 h3).2

/-- Over BN256: `(5 - 7)^2 / 2 = 2`, on words. -/
example : (do
    let w ← (Limbs.Expr.div (.square (.sub (.constant [5, 0, 0, 0]) (.constant [7, 0, 0, 0]))) (.constant [2, 0, 0, 0])).run bnR fun _ => []
    return Limbs.intoRepr bnR w) = .ok [2, 0, 0, 0] := by decide +kernel

/-- Division by zero panics. -/
example : (Limbs.Expr.div (.constant [5, 0, 0, 0]) (.constant [0, 0, 0, 0])).run bnR (fun _ => []) = .error .panic := by decide +kernel

/-- The words of one over BN256, as in the documentation of the curve. -/
example : WordsOf [12436184717236109307, 3962172157175319849, 7381016538464732718, 1011752739694698287] (1 : ZMod bnR) := by
  have h : constR bnR = [12436184717236109307, 3962172157175319849, 7381016538464732718, 1011752739694698287] := by decide +kernel
  rw [← h]
  exact (C115_constants (by decide +kernel)).2.1

end Fawkes.Props
