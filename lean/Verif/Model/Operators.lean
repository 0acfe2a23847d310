import Verif.Model.CNum

/-!
# The operator forms (src/macros.rs:3-215 with their uses in src/native/num.rs and src/circuit/num.rs)

In Rust each of `+ - * /` is implemented once per way of passing the operands.  One form, mostly "left operand by value, right operand by
reference", is written by hand; macros forward the others to it.  Here the macros are functions on operators: they take the form that
exists and return all four.
-/

namespace Fawkes

/-- An operand is passed by value or by reference. -/
inductive Passing where
  | val
  | ref
  deriving DecidableEq

namespace Operators

/-- A binary operator: one implementation for each way of passing the two operands. -/
abbrev Op2 (A B C : Type) := Passing → Passing → A → B → C

/-- src/macros.rs:118-130: `forward_ref_ref_binop_ex`: clones the left operand. -/
def refRef {A B C : Type} (valRef : A → B → C) (a : A) (b : B) : C := valRef a b

/-- src/macros.rs:132-138 with 26-74: `forward_all_binop_to_val_ref_commutative_ex`: from the form "value, reference". -/
def commutative {A C : Type} (capacity : A → Nat) (valRef : A → A → C) : Op2 A A C
  | .val, .ref, a, b => valRef a b
  | .val, .val, a, b => if capacity a ≥ capacity b then valRef a b else valRef b a
  | .ref, .val, a, b => valRef b a
  | .ref, .ref, a, b => if capacity a ≥ capacity b then valRef a b else valRef b a

/-- src/macros.rs:140-146 with 76-102: `forward_all_binop_to_val_ref_ex`: from the form "value, reference"; "reference, value" goes to
"reference, reference". -/
def forwarded {A B C : Type} (valRef : A → B → C) : Op2 A B C
  | .val, .ref, a, b => valRef a b
  | .val, .val, a, b => valRef a b
  | .ref, .ref, a, b => refRef valRef a b
  | .ref, .val, a, b => refRef valRef a b

/-- src/macros.rs:208-215 with 156-206: `swap_commutative`: the operator with its operands exchanged, passed as they come. -/
def swapped {A B C : Type} (op : Op2 A B C) : Op2 B A C := fun p q b a => op q p a b

/-- src/macros.rs:3-12: `forward_val_assign_ex`: assignment operators with the right operand by value. -/
def assign {A B C : Type} (byRef : A → B → C) : Passing → A → B → C
  | .ref, a, b => byRef a b
  | .val, a, b => byRef a b

/-! ### Numbers (src/native/num.rs) -/

section native

variable {F : Type} [Field F] [DecidableEq F]

/-- src/native/num.rs:190-193 -/
def numCapacity (_ : F) : Nat := 0

/-- src/native/num.rs:342-347, 370: `a += b`. -/
def numAddAssign : Passing → F → F → F := assign fun a b => a + b

/-- src/native/num.rs:349-354, 371: `a -= b`. -/
def numSubAssign : Passing → F → F → F := assign fun a b => a - b

/-- src/native/num.rs:356-361, 372: `a *= b`. -/
def numMulAssign : Passing → F → F → F := assign fun a b => a * b

/-- src/native/num.rs:163-166: `inverse`. -/
def numInverse (a : F) : Except Panic F := if a = 0 then .error .divByZero else .ok a⁻¹

/-- src/native/num.rs:363-368, 373: `a /= b`: multiplies by the inverse. -/
def numDivAssign : Passing → F → F → Except Panic F := assign fun a b => do
  let i ← numInverse b
  pure (numMulAssign .val a i)

/-- src/native/num.rs:375-382, 393: `a + b`. -/
def numAdd : Op2 F F F := commutative numCapacity fun a b => numAddAssign .ref a b

/-- src/native/num.rs:384-391, 394: `a * b`. -/
def numMul : Op2 F F F := commutative numCapacity fun a b => numMulAssign .ref a b

/-- src/native/num.rs:396-403, 414: `a - b`. -/
def numSub : Op2 F F F := forwarded fun a b => numSubAssign .ref a b

/-- src/native/num.rs:405-412, 415: `a / b`. -/
def numDiv : Op2 F F (Except Panic F) := forwarded fun a b => numDivAssign .ref a b

/-- src/native/num.rs:417-426 with src/macros.rs:14-24: `-a`. -/
def numNeg : Passing → F → F
  | .val, a => -a
  | .ref, a => -a

/-- src/native/num.rs:159-161 -/
def numMinusOne : F := numNeg .val 1

/-- src/native/num.rs:177-181: `double` of the field. -/
def numDouble (a : F) : F := a + a

/-- src/native/num.rs:183-187: `square` of the field. -/
def numSquare (a : F) : F := a * a

end native

/-! ### Circuit numbers (src/circuit/num.rs) -/

section circuit

variable {F : Type} [Field F] [DecidableEq F]

/-- src/circuit/num.rs:297-319, 383: `a += b`. -/
def addAssign : Passing → CNum F → CNum F → CNum F := assign CNum.addAssign

/-- src/circuit/num.rs:328-350, 384: `a -= b`. -/
def subAssign : Passing → CNum F → CNum F → CNum F := assign CNum.sub

/-- src/circuit/num.rs:321-326, 385: `a += k`. -/
def addAssignConst : Passing → CNum F → F → CNum F := assign fun a k => addAssign .val a (CNum.fromConst k)

/-- src/circuit/num.rs:352-357, 386: `a -= k`. -/
def subAssignConst : Passing → CNum F → F → CNum F := assign fun a k => subAssign .val a (CNum.fromConst k)

/-- src/circuit/num.rs:359-371, 387: `a *= k`. -/
def mulAssignConst : Passing → CNum F → F → CNum F := assign CNum.mulConst

/-- src/circuit/num.rs:373-381, 388: `a /= k`. -/
def divAssignConst : Passing → CNum F → F → M F (CNum F) := assign CNum.divConst

/-- src/circuit/num.rs:390-398, 459: `a + b`. -/
def add : Op2 (CNum F) (CNum F) (CNum F) := commutative CNum.capacity fun a b => addAssign .ref a b

/-- src/circuit/num.rs:400-408, 460: `a - b`. -/
def sub : Op2 (CNum F) (CNum F) (CNum F) := forwarded fun a b => subAssign .ref a b

/-- src/circuit/num.rs:410-418, 461: `a + k`. -/
def addConst : Op2 (CNum F) F (CNum F) := forwarded fun a k => addAssign .val a (CNum.fromConst k)

/-- src/circuit/num.rs:420-428, 462: `a - k`. -/
def subConst : Op2 (CNum F) F (CNum F) := forwarded fun a k => subAssign .val a (CNum.fromConst k)

/-- src/circuit/num.rs:430-437, 463: `k - a`. -/
def constSub : Op2 F (CNum F) (CNum F) := forwarded fun k a => sub .val .ref (CNum.fromConst k) a

/-- src/circuit/num.rs:439-447, 465: `a * k`. -/
def mulConst : Op2 (CNum F) F (CNum F) := forwarded fun a k => mulAssignConst .ref a k

/-- src/circuit/num.rs:449-457, 466: `a / k`. -/
def divConst : Op2 (CNum F) F (M F (CNum F)) := forwarded fun a k => divAssignConst .ref a k

/-- src/circuit/num.rs:468: `k + a`. -/
def constAdd : Op2 F (CNum F) (CNum F) := swapped addConst

/-- src/circuit/num.rs:469: `k * a`. -/
def constMul : Op2 F (CNum F) (CNum F) := swapped mulConst

/-- src/circuit/num.rs:471-493, 517: `a *= b`, with the operators it uses itself. -/
def mulAssign : Passing → CNum F → CNum F → M F (CNum F) := assign fun a b =>
  match a.asConst, b.asConst with
  | some x, _ => pure (mulConst .ref .val b x)
  | _, some y => pure (mulAssignConst .val a y)
  | none, none => do
    let c ← CNum.alloc (CNum.value₂ (numMul .val .val) a.value b.value)
    CS.enforce a b c
    pure c

/-- src/circuit/num.rs:504-507: the value of the quotient. -/
def quotient (a b : Option F) : M F (Option F) :=
  match a, b with
  | some x, some y => M.lift ((numDiv .val .val x y).map some)
  | _, _ => pure none

/-- src/circuit/num.rs:495-515, 518: `a /= b`, with the operators it uses itself. -/
def divAssign : Passing → CNum F → CNum F → M F (CNum F) := assign fun a b =>
  match a.asConst, b.asConst with
  | some x, _ => divConst .ref .val b x
  | _, some y => divAssignConst .val a y
  | none, none => do
    let v ← quotient a.value b.value
    let q ← CNum.alloc v
    CS.enforce q b a
    pure q

/-- src/circuit/num.rs:520-528, 540: `a * b`. -/
def mul : Op2 (CNum F) (CNum F) (M F (CNum F)) := forwarded fun a b => mulAssign .ref a b

/-- src/circuit/num.rs:530-538, 541: `a / b`. -/
def div : Op2 (CNum F) (CNum F) (M F (CNum F)) := forwarded fun a b => divAssign .ref a b

/-- src/circuit/num.rs:258-270 with src/macros.rs:14-24: `-a`. -/
def neg : Passing → CNum F → CNum F
  | .val, a => a.neg
  | .ref, a => a.neg

end circuit

end Operators

end Fawkes
