import Verif.Props.Limbs
import Mathlib.Algebra.Field.Basic

/-!
# The field type as the program has it: arrays of machine words

src/native/num.rs:18-20 wraps a type of the `ff` crate, which `ff_derive_ce` generates as an array of 64-bit words with the operations
of Model/Limbs.  Here these arrays, when their number is below the modulus, are made an instance of `Field`, so that every function of
the model that is written for any field can be run on them.  The operations that the program has are those of Model/Limbs; the others
that Mathlib's `Field` asks for (multiples by numbers, powers, casts) go through the value and are not used by the program.
-/

namespace Fawkes.Limbs

/-- src/native/num.rs:18-20: an element in memory. -/
structure Elem (p : Nat) where
  words : Words
  length : words.length = nLimbs p
  below : reprNat words < p
deriving DecidableEq

namespace Elem

variable {p : Nat} [Fact p.Prime]

@[ext] theorem ext {a b : Elem p} (h : a.words = b.words) : a = b := by
  cases a; cases b; cases h; rfl

/-- The element that the words stand for. -/
def value (a : Elem p) : ZMod p := (reprNat a.words : ZMod p) / 2 ^ (64 * nLimbs p)

/-- The words of an element. -/
def ofValue (x : ZMod p) : Elem p :=
  ⟨limbsOf (nLimbs p) (x * 2 ^ (64 * nLimbs p)).val, (good_limbs (ZMod.val_lt _)).1.length, (good_limbs (ZMod.val_lt _)).1.below⟩

/-- src/native/num.rs:204-206 and `Field::zero` -/
instance instZero : Zero (Elem p) := ⟨⟨List.replicate (nLimbs p) 0, by simp, by rw [reprNat_zeros]; exact (Fact.out : p.Prime).pos⟩⟩

/-- `Field::one` -/
instance instOne : One (Elem p) := ⟨⟨constR p, good_R.1.length, good_R.1.below⟩⟩

/-- src/native/num.rs: `+` -/
instance instAdd : Add (Elem p) := ⟨fun a b =>
  ⟨Limbs.add p a.words b.words, (good_add ⟨a.length, a.below⟩ ⟨b.length, b.below⟩).1.length,
    (good_add ⟨a.length, a.below⟩ ⟨b.length, b.below⟩).1.below⟩⟩

/-- src/native/num.rs: `-` -/
instance instSub : Sub (Elem p) := ⟨fun a b =>
  ⟨Limbs.sub p a.words b.words, (good_sub ⟨a.length, a.below⟩ ⟨b.length, b.below⟩).1.length,
    (good_sub ⟨a.length, a.below⟩ ⟨b.length, b.below⟩).1.below⟩⟩

/-- src/native/num.rs: unary `-` -/
instance instNeg : Neg (Elem p) := ⟨fun a =>
  ⟨Limbs.neg p a.words, (good_neg ⟨a.length, a.below⟩).1.length, (good_neg ⟨a.length, a.below⟩).1.below⟩⟩

variable [odd : Fact (p % 2 = 1)]

/-- src/native/num.rs: `*` -/
instance instMul : Mul (Elem p) := ⟨fun a b =>
  ⟨Limbs.mul p a.words b.words, (good_mul odd.out ⟨a.length, a.below⟩ ⟨b.length, b.below⟩).1.length,
    (good_mul odd.out ⟨a.length, a.below⟩ ⟨b.length, b.below⟩).1.below⟩⟩

/-- src/native/num.rs:164-166: the element that `inverse` unwraps; zero where it has none. -/
instance instInv : Inv (Elem p) := ⟨fun a =>
  match Limbs.inverse p a.words with
  | some (some w) => if h : w.length = nLimbs p ∧ reprNat w < p then ⟨w, h.1, h.2⟩ else 0
  | _ => 0⟩

/-- src/native/num.rs:363-368: `a / b` multiplies by the inverse. -/
instance instDiv : Div (Elem p) := ⟨fun a b => a * b⁻¹⟩

instance instNsmul : SMul ℕ (Elem p) := ⟨fun n a => ofValue (n • a.value)⟩
instance instZsmul : SMul ℤ (Elem p) := ⟨fun n a => ofValue (n • a.value)⟩
instance instNnqsmul : SMul ℚ≥0 (Elem p) := ⟨fun n a => ofValue (n • a.value)⟩
instance instQsmul : SMul ℚ (Elem p) := ⟨fun n a => ofValue (n • a.value)⟩
instance instNpow : Pow (Elem p) ℕ := ⟨fun a n => ofValue (a.value ^ n)⟩
instance instZpow : Pow (Elem p) ℤ := ⟨fun a n => ofValue (a.value ^ n)⟩
instance instNatCast : NatCast (Elem p) := ⟨fun n => ofValue n⟩
instance instIntCast : IntCast (Elem p) := ⟨fun n => ofValue n⟩
instance instNNRatCast : NNRatCast (Elem p) := ⟨fun n => ofValue n⟩
instance instRatCast : RatCast (Elem p) := ⟨fun n => ofValue n⟩

omit [Fact (p % 2 = 1)] in
theorem ne_two_of_odd (h : p % 2 = 1) : p ≠ 2 := by rintro rfl; simp at h

theorem wordsOf (a : Elem p) : WordsOf a.words a.value :=
  ⟨a.length, a.below, by unfold value; rw [div_mul_cancel₀ _ (radix_ne odd.out)]⟩

theorem value_of {a : Elem p} {x : ZMod p} (h : WordsOf a.words x) : a.value = x :=
  ((Props.C115_unique (ne_two_of_odd odd.out)).2 _ _ _ _ a.wordsOf h).1 rfl

theorem value_ofValue (x : ZMod p) : (ofValue x).value = x := by
  refine value_of ⟨(ofValue x).length, (ofValue x).below, ?_⟩
  have := (good_limbs (p := p) (ZMod.val_lt (x * 2 ^ (64 * nLimbs p)))).2
  rw [ZMod.natCast_zmod_val] at this
  exact this

theorem value_injective : Function.Injective (value (p := p)) := fun a b h =>
  ext (((Props.C115_unique (ne_two_of_odd odd.out)).2 _ _ _ _ a.wordsOf b.wordsOf).2 h)

theorem value_zero : (0 : Elem p).value = 0 := value_of (Props.C115_constants (ne_two_of_odd odd.out)).1
theorem value_one : (1 : Elem p).value = 1 := value_of (Props.C115_constants (ne_two_of_odd odd.out)).2.1
theorem value_add (a b : Elem p) : (a + b).value = a.value + b.value := value_of (Props.C115_sums a.wordsOf b.wordsOf).1
theorem value_sub (a b : Elem p) : (a - b).value = a.value - b.value := value_of (Props.C115_sums a.wordsOf b.wordsOf).2.2.1
theorem value_neg (a : Elem p) : (-a).value = -a.value := value_of (Props.C115_sums a.wordsOf a.wordsOf).2.2.2
theorem value_mul (a b : Elem p) : (a * b).value = a.value * b.value :=
  value_of (Props.C115_products (ne_two_of_odd odd.out) a.wordsOf b.wordsOf).1

theorem inv_words (a : Elem p) (h : a.value ≠ 0) : Limbs.inverse p a.words = some (some a⁻¹.words) ∧ a⁻¹.value = a.value⁻¹ := by
  obtain ⟨v, h1, h2⟩ := (Props.C115_inverse (ne_two_of_odd odd.out) a.wordsOf).2 h
  have e : a⁻¹ = ⟨v, h2.length, h2.below⟩ := by
    show (match Limbs.inverse p a.words with
      | some (some w) => if h : w.length = nLimbs p ∧ reprNat w < p then (⟨w, h.1, h.2⟩ : Elem p) else 0
      | _ => 0) = _
    rw [h1]
    exact dif_pos ⟨h2.length, h2.below⟩
  rw [e]
  exact ⟨h1, value_of h2⟩

theorem value_inv (a : Elem p) : (a⁻¹).value = a.value⁻¹ := by
  by_cases h : a.value = 0
  · have h1 := (Props.C115_inverse (ne_two_of_odd odd.out) a.wordsOf).1 h
    have e : a⁻¹ = 0 := by
      show (match Limbs.inverse p a.words with
        | some (some w) => if h : w.length = nLimbs p ∧ reprNat w < p then (⟨w, h.1, h.2⟩ : Elem p) else 0
        | _ => 0) = _
      rw [h1]
    rw [e, h, value_zero, inv_zero]
  · exact (inv_words a h).2

theorem value_div (a b : Elem p) : (a / b).value = a.value / b.value := by
  show (a * b⁻¹).value = _
  rw [value_mul, value_inv, div_eq_mul_inv]

/-- The arrays are a field. -/
instance instField : Field (Elem p) :=
  Function.Injective.field value value_injective value_zero value_one value_add value_mul value_neg value_sub value_inv value_div
    (fun _ _ => value_ofValue _) (fun _ _ => value_ofValue _) (fun _ _ => value_ofValue _) (fun _ _ => value_ofValue _)
    (fun _ _ => value_ofValue _) (fun _ _ => value_ofValue _) (fun _ => value_ofValue _) (fun _ => value_ofValue _)
    (fun _ => value_ofValue _) (fun _ => value_ofValue _)

/-- The value, as an isomorphism. -/
def valueIso : Elem p ≃+* ZMod p where
  toFun := value
  invFun := ofValue
  left_inv a := value_injective (value_ofValue _)
  right_inv := value_ofValue
  map_mul' := value_mul
  map_add' := value_add

end Elem

end Fawkes.Limbs
