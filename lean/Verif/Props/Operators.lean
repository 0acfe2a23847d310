import Verif.Model.Operators
import Verif.Lemmas.Canonical

/-!
# Properties of the operators: C83
-/

namespace Fawkes.Props

open Fawkes Fawkes.Operators

variable {F : Type} [Field F] [DecidableEq F]

/-! ### Numbers -/

/-- C83: on numbers, every form of `+`, `-`, `*` is the operation of the field, for operands by value or by reference, and as an assignment. -/
theorem C83_num (p q : Passing) (a b : F) :
    numAdd p q a b = a + b ∧ numAddAssign p a b = a + b ∧ numSub p q a b = a - b ∧ numSubAssign p a b = a - b ∧
      numMul p q a b = a * b ∧ numMulAssign p a b = a * b ∧ numNeg p a = -a := by
  cases p <;> cases q <;>
    simp [numAdd, numAddAssign, numSub, numSubAssign, numMul, numMulAssign, numNeg, commutative, forwarded, refRef, assign, numCapacity,
      add_comm, mul_comm]

/-- C83: every form of division of numbers gives the quotient, and panics exactly for the divisor 0. -/
theorem C83_num_div (p q : Passing) (a b : F) :
    numDiv p q a b = (if b = 0 then .error .divByZero else .ok (a / b)) ∧
      numDivAssign p a b = (if b = 0 then .error .divByZero else .ok (a / b)) := by
  have h : ∀ p, numDivAssign p a b = (if b = 0 then .error .divByZero else .ok (a / b)) := by
    intro p
    by_cases hb : b = 0
    · cases p <;> simp [numDivAssign, assign, numInverse, hb] <;> rfl
    · cases p <;> simp [numDivAssign, assign, numInverse, hb, numMulAssign, div_eq_mul_inv] <;> rfl
  refine ⟨?_, h p⟩
  cases p <;> cases q <;> exact h .ref

/-- C83: the named operations of numbers. -/
theorem C83_num_named (a : F) :
    (numMinusOne : F) + 1 = 0 ∧ numDouble a = 2 * a ∧ numSquare a = a ^ 2 := by
  refine ⟨?_, ?_, ?_⟩
  · simp [numMinusOne, numNeg]
  · simp [numDouble, two_mul]
  · simp [numSquare, sq]

/-! ### Circuit numbers -/

theorem addAssign_comm {a b : CNum F} (ha : a.lc.Canonical) (hb : b.lc.Canonical) : CNum.addAssign a b = CNum.addAssign b a := by
  unfold CNum.addAssign
  rw [LC.add_comm_of_canonical ha hb]
  congr 1
  cases a.value <;> cases b.value <;> simp [CNum.value₂, add_comm]

/-- C83: the sum of two signals does not depend on how the operands are passed, nor on their order: value, terms and coefficients are the
same.  (Signals in canonical form, which is what the crate makes: C02.) -/
theorem C83_add (p q p' q' t : Passing) {a b : CNum F} (ha : a.lc.Canonical) (hb : b.lc.Canonical) :
    Operators.add p q a b = Operators.add p' q' a b ∧ Operators.add p q a b = Operators.add p' q' b a ∧
      Operators.addAssign t a b = Operators.add p q a b ∧ CNum.add a b = Operators.add p q a b := by
  have key : ∀ p q, ∀ {a b : CNum F}, a.lc.Canonical → b.lc.Canonical → Operators.add p q a b = CNum.addAssign a b := by
    intro p q a b ha hb
    have hc := addAssign_comm ha hb
    cases p <;> cases q <;> simp only [Operators.add, commutative, Operators.addAssign, assign]
    · split <;> simp [hc]
    · exact hc.symm
    · split <;> simp [hc]
  refine ⟨?_, ?_, ?_, ?_⟩
  · rw [key p q ha hb, key p' q' ha hb]
  · rw [key p q ha hb, key p' q' hb ha, addAssign_comm ha hb]
  · rw [key p q ha hb]; cases t <;> rfl
  · rw [key p q ha hb]
    unfold CNum.add
    split
    · rfl
    · exact addAssign_comm hb ha

/-- C83: the other operators of signals: all forms agree with the one that the other properties speak of, in result, allocations,
constraints and panics. -/
theorem C83_forms (p q t : Passing) (a b : CNum F) (k : F) :
    (Operators.sub p q a b = CNum.sub a b ∧ Operators.subAssign t a b = CNum.sub a b) ∧
    (Operators.addConst p q a k = CNum.addConst a k ∧ Operators.addAssignConst t a k = CNum.addConst a k ∧
      Operators.constAdd p q k a = CNum.addConst a k) ∧
    (Operators.subConst p q a k = CNum.subConst a k ∧ Operators.subAssignConst t a k = CNum.subConst a k ∧
      Operators.constSub p q k a = CNum.constSub k a) ∧
    (Operators.mulConst p q a k = CNum.mulConst a k ∧ Operators.mulAssignConst t a k = CNum.mulConst a k ∧
      Operators.constMul p q k a = CNum.mulConst a k) ∧
    (Operators.divConst p q a k = CNum.divConst a k ∧ Operators.divAssignConst t a k = CNum.divConst a k) ∧
    Operators.neg t a = CNum.neg a := by
  refine ⟨⟨?_, ?_⟩, ⟨?_, ?_, ?_⟩, ⟨?_, ?_, ?_⟩, ⟨?_, ?_, ?_⟩, ⟨?_, ?_⟩, ?_⟩ <;> cases p <;> cases q <;> cases t <;> rfl

theorem mulAssign_eq (t : Passing) (a b : CNum F) : Operators.mulAssign t a b = CNum.mul a b := by
  have hv : CNum.value₂ (numMul .val .val) a.value b.value = CNum.value₂ (· * ·) a.value b.value := by
    cases a.value <;> cases b.value <;> simp [CNum.value₂, numMul, commutative, numCapacity, numMulAssign, assign]
  cases t <;>
  · simp only [Operators.mulAssign, assign, CNum.mul, hv]
    cases a.asConst <;> cases b.asConst <;> rfl

theorem divAssign_eq (t : Passing) (a b : CNum F) : Operators.divAssign t a b = CNum.div a b := by
  have hv : quotient a.value b.value = CNum.divValue a.value b.value := by
    unfold CNum.divValue quotient
    rcases a.value with _ | x
    · rfl
    · rcases b.value with _ | y
      · rfl
      · dsimp only
        rw [(C83_num_div .val .val x y).1]
        by_cases hy : y = 0
        · rw [if_pos hy, if_pos hy]; rfl
        · rw [if_neg hy, if_neg hy]; rfl
  cases t <;>
  · simp only [Operators.divAssign, assign, CNum.div, hv]
    cases a.asConst <;> cases b.asConst <;> rfl

/-- C83: products and quotients of signals: all forms agree with the one that the other properties speak of, in result, allocations,
constraints and panics. -/
theorem C83_mul_div (p q t : Passing) (a b : CNum F) :
    (Operators.mul p q a b = CNum.mul a b ∧ Operators.mulAssign t a b = CNum.mul a b) ∧
    (Operators.div p q a b = CNum.div a b ∧ Operators.divAssign t a b = CNum.div a b) := by
  refine ⟨⟨?_, mulAssign_eq t a b⟩, ⟨?_, divAssign_eq t a b⟩⟩
  · cases p <;> cases q <;> exact mulAssign_eq .ref a b
  · cases p <;> cases q <;> exact divAssign_eq .ref a b

theorem neg_canonical {a : CNum F} (ha : a.lc.Canonical) : a.neg.lc.Canonical :=
  ha.map (- ·) fun _ h => neg_ne_zero.2 h

/-- C83: subtraction is addition of the negative, term by term, and negation undoes itself. -/
theorem C83_sub_neg (p q : Passing) (s t : Passing) {a b : CNum F} (ha : a.lc.Canonical) (hb : b.lc.Canonical) :
    Operators.sub p q a b = Operators.add p q a (Operators.neg t b) ∧ Operators.neg s (Operators.neg t a) = a := by
  constructor
  · rw [(C83_forms p q t a b 0).1.1, (C83_forms p q t b b 0).2.2.2.2.2, ← (C83_add p q p q .ref ha (neg_canonical hb)).2.2.1]
    show CNum.sub a b = CNum.addAssign a b.neg
    unfold CNum.sub CNum.addAssign CNum.neg
    congr 1
    cases a.value <;> cases b.value <;> simp [CNum.value₂, sub_eq_add_neg]
  · rw [(C83_forms p q s _ b 0).2.2.2.2.2, (C83_forms p q t a b 0).2.2.2.2.2]
    unfold CNum.neg
    cases a with
    | mk v l =>
      congr 1
      · cases v <;> simp
      · simp [Function.comp_def]

/-! ### A case that meets the hypotheses -/

/-- Two signals that share a variable whose coefficients cancel, of different capacity. -/
example :
    let a : CNum ℚ := ⟨some 7, [(.input 0, 2), (.aux 0, 1)]⟩
    let b : CNum ℚ := ⟨some (-4), [(.input 0, 1), (.aux 0, -1), (.aux 2, 3)]⟩
    a.lc.Canonical ∧ b.lc.Canonical ∧ (Operators.add .val .val a b).lc = [(.input 0, 3), (.aux 2, 3)] ∧
      (Operators.add .ref .val a b).value = some 3 := by
  refine ⟨⟨by simp [Index.Before], by simp⟩, ⟨by simp [Index.Before], by simp⟩, by decide +kernel, by decide +kernel⟩

/-- Without canonical form the order matters: a term that occurs twice is only found once. -/
example :
    let a : CNum ℚ := ⟨none, [(.aux 0, 1)]⟩
    let b : CNum ℚ := ⟨none, [(.aux 0, 1), (.aux 0, -1)]⟩
    CNum.addAssign a b ≠ CNum.addAssign b a := by
  decide +kernel

end Fawkes.Props
