import Verif.Model.CS

/-!
# Circuit numbers (src/circuit/num.rs) and circuit booleans (src/circuit/bool.rs)
-/

namespace Fawkes

/-- src/circuit/num.rs:22-31: `Index::cmp`, as the strict order `a < b`. -/
def Index.lt : Index → Index → Bool
  | .input a, .input b => a < b
  | .input _, .aux _ => true
  | .aux _, .input _ => false
  | .aux a, .aux b => a < b

namespace LC

variable {F : Type} [Field F] [DecidableEq F]

/-- src/circuit/num.rs:278-295: `ll_lookup`. The cursor splits the list into the part already passed
(kept reversed) and the part still ahead; it moves forward until the next key is `≥ k`
or the list ends. -/
def lookup (k : Index) (pre post : LC F) : LC F × LC F :=
  match post with
  | [] => (pre, [])
  | (k', v') :: post' =>
    if k' = k then (pre, post)
    else if k.lt k' then (pre, post)
    else lookup k ((k', v') :: pre) post'

/-- src/circuit/num.rs:307-317: one iteration of the loop of `add_assign` (with `v := -v`, that of
`sub_assign`, lines 338-348): at the cursor either add to the next entry, removing it
if it becomes zero, or insert a new entry (which becomes the next one). -/
def mergeStep (k : Index) (v : F) (cur : LC F × LC F) : LC F × LC F :=
  let (pre, post) := lookup k cur.1 cur.2
  match post with
  | [] => (pre, [(k, v)])
  | (k', v') :: post' =>
    if k' = k then
      if v' + v = 0 then (pre, post') else (pre, (k', v' + v) :: post')
    else (pre, (k, v) :: (k', v') :: post')

/-- The loop over `other.lc`, with the cursor as state. -/
def mergeLoop (cur : LC F × LC F) : LC F → LC F × LC F
  | [] => cur
  | (k, v) :: rest => mergeLoop (mergeStep k v cur) rest

/-- src/circuit/num.rs:305-317: the linear-combination part of `add_assign`. -/
def add (a b : LC F) : LC F :=
  let (pre, post) := mergeLoop ([], a) b
  pre.reverse ++ post

/-- src/circuit/num.rs:336-348: the linear-combination part of `sub_assign`; it differs from
`add_assign` in using `t.1 -= v` and inserting `-v`. -/
def sub (a b : LC F) : LC F :=
  let (pre, post) := mergeLoop ([], a) (b.map fun kv => (kv.1, -kv.2))
  pre.reverse ++ post

end LC

namespace CNum

variable {F : Type} [Field F] [DecidableEq F]

/-- Lift a binary operation to optional values: src/circuit/num.rs:300-303. -/
def value₂ (f : F → F → F) : Option F → Option F → Option F
  | some a, some b => some (f a b)
  | _, _ => none

/-- src/circuit/num.rs:148-151 -/
def capacity (a : CNum F) : Nat := a.lc.length

/-- src/circuit/num.rs:112-118 -/
def fromConst (v : F) : CNum F := ⟨some v, [(.input 0, v)]⟩

/-- src/circuit/num.rs:153-163 -/
def fromVar (v : Option F) (i : Index) : CNum F := ⟨v, [(i, 1)]⟩

/-- src/circuit/num.rs:165-168, 175-178 -/
def zero : CNum F := fromConst 0

/-- src/circuit/num.rs:170-173, 180-183 -/
def one : CNum F := fromConst 1

/-- src/circuit/num.rs:97-110 -/
def asConst (a : CNum F) : Option F :=
  match a.lc with
  | [] => some 0
  | [(k, v)] => if k = .input 0 then some v else none
  | _ => none

/-- src/circuit/num.rs:258-268 -/
def neg (a : CNum F) : CNum F := ⟨a.value.map (- ·), a.lc.map fun kv => (kv.1, -kv.2)⟩

/-- src/circuit/num.rs:297-319: `a += b`; also `owned a + &b` (390-398). -/
def addAssign (a b : CNum F) : CNum F := ⟨value₂ (· + ·) a.value b.value, a.lc.add b.lc⟩

/-- src/circuit/num.rs:459 with src/macros.rs:26-42, 58-74: `a + b` on two owned or two borrowed operands
adds the one with fewer terms into the other. (`&a + owned b` is `addAssign b a`,
src/macros.rs:44-56.) -/
def add (a b : CNum F) : CNum F :=
  if b.capacity ≤ a.capacity then addAssign a b else addAssign b a

/-- src/circuit/num.rs:328-350: `a -= b`; `a - b` in all operand forms (400-408, 460). -/
def sub (a b : CNum F) : CNum F := ⟨value₂ (· - ·) a.value b.value, a.lc.sub b.lc⟩

/-- src/circuit/num.rs:321-326, 410-418, 461, 468: `a + k`, `k + a`. -/
def addConst (a : CNum F) (k : F) : CNum F := addAssign a (fromConst k)

/-- src/circuit/num.rs:352-357, 420-428, 462: `a - k`. -/
def subConst (a : CNum F) (k : F) : CNum F := sub a (fromConst k)

/-- src/circuit/num.rs:430-437, 463: `k - a`. -/
def constSub (k : F) (a : CNum F) : CNum F := sub (fromConst k) a

/-- src/circuit/num.rs:359-371, 439-447, 465, 469: `a * k`, `k * a`. -/
def mulConst (a : CNum F) (k : F) : CNum F :=
  if k = 0 then zero
  else ⟨a.value.map (· * k), a.lc.map fun kv => (kv.1, kv.2 * k)⟩

/-- src/circuit/num.rs:373-381, 449-457, 466: `a / k`. Each `v / k` panics on `k = 0`
(src/native/num.rs:163-166, 363-368), so only an empty signal without value survives that. -/
def divConst (a : CNum F) (k : F) : M F (CNum F) :=
  if k = 0 ∧ (a.value ≠ none ∨ a.lc ≠ []) then M.panic .divByZero
  else pure ⟨a.value.map (· / k), a.lc.map fun kv => (kv.1, kv.2 / k)⟩

/-- src/circuit/num.rs:120-124 -/
def alloc (v : Option F) : M F (CNum F) := do
  let i ← CS.alloc v
  pure (fromVar v i)

/-- src/circuit/num.rs:471-493, 520-528, 540: `a * b`. -/
def mul (a b : CNum F) : M F (CNum F) :=
  match a.asConst, b.asConst with
  | some x, _ => pure (mulConst b x)
  | _, some y => pure (mulConst a y)
  | none, none => do
    let c ← alloc (value₂ (· * ·) a.value b.value)
    CS.enforce a b c
    pure c

/-- src/circuit/num.rs:504-507: the value of the quotient; `a / b` panics when `b = 0`. -/
def divValue (a b : Option F) : M F (Option F) :=
  match a, b with
  | some x, some y => if y = 0 then M.panic .divByZero else pure (some (x / y))
  | _, _ => pure none

/-- src/circuit/num.rs:495-515, 530-538, 541: `a / b`. Note the first arm: for a constant numerator
the code divides the *denominator by the numerator*. -/
def div (a b : CNum F) : M F (CNum F) :=
  match a.asConst, b.asConst with
  | some x, _ => divConst b x
  | _, some y => divConst a y
  | none, none => do
    let v ← divValue a.value b.value
    let q ← alloc v
    CS.enforce q b a
    pure q

/-- src/circuit/num.rs:185-188 -/
def square (a : CNum F) : M F (CNum F) := mul a a

/-- src/circuit/num.rs:126-136 -/
def assertConst (a : CNum F) (c : F) : M F Unit :=
  match a.asConst with
  | some v => M.assert (v = c)
  | none => CS.enforce a one (fromConst c)

/-- src/circuit/num.rs:190-192 -/
def assertZero (a : CNum F) : M F Unit := assertConst a 0

/-- src/circuit/num.rs:138-140 -/
def assertEq (a b : CNum F) : M F Unit := assertZero (sub a b)

/-- src/circuit/num.rs:200-209, 236-245: the helper value for inverses (1 for zero). -/
def invValue (v : Option F) : Option F := v.map fun t => if t = 0 then 1 else t⁻¹

/-- src/circuit/num.rs:194-214 -/
def assertNonzero (a : CNum F) : M F Unit :=
  match a.asConst with
  | some v => M.assert (v ≠ 0)
  | none => do
    let inv ← alloc (invValue a.value)
    CS.enforce a inv one

/-- src/circuit/num.rs:220-230 -/
def assertBit (a : CNum F) : M F Unit :=
  match a.asConst with
  | some c => M.assert (c = 1 ∨ c = 0)
  | none => CS.enforce a (subConst a 1) zero

/-- src/circuit/num.rs:67-86 -/
def inputize (a : CNum F) : M F Unit :=
  match a.asConst with
  | some v => do
    let i ← CS.allocInput (some v)
    CS.enforce (fromVar (some v) i) one (fromConst v)
  | none => do
    let i ← CS.allocInput a.value
    CS.enforce (fromVar a.value i) one a

end CNum

/-- src/native/num.rs:319-327: `Num::from(bool)`. -/
def boolToF {F : Type} [Field F] (b : Bool) : F := if b then 1 else 0

/-- src/native/num.rs:141-149: `Num::into_bool`. -/
def intoBool {F : Type} [Field F] [DecidableEq F] (x : F) : Except Panic Bool :=
  if x = 0 then .ok false else if x = 1 then .ok true else .error .notBool

/-- src/circuit/bool.rs:5-6 -/
structure CBool (F : Type) where
  num : CNum F
  deriving DecidableEq

namespace CNum

variable {F : Type} [Field F] [DecidableEq F]

/-- src/circuit/num.rs:232-255 -/
def isZero (a : CNum F) : M F (CBool F) :=
  match a.asConst with
  | some c => pure ⟨fromConst (boolToF (decide (c = 0)))⟩
  | none => do
    let inv ← alloc (invValue a.value)
    assertNonzero inv
    let res ← mul inv a
    assertBit res
    pure ⟨sub one res⟩

/-- src/circuit/num.rs:142-144 -/
def isEq (a b : CNum F) : M F (CBool F) := isZero (sub a b)

end CNum

namespace CBool

variable {F : Type} [Field F] [DecidableEq F]

/-- src/circuit/bool.rs:23-25 -/
def fromConst (b : Bool) : CBool F := ⟨CNum.fromConst (boolToF b)⟩

/-- src/circuit/bool.rs:27-29 -/
def getValue (b : CBool F) : Except Panic (Option Bool) :=
  match b.num.value with
  | none => .ok none
  | some v => (intoBool v).map some

/-- src/circuit/bool.rs:31-33 -/
def asConst (b : CBool F) : Except Panic (Option Bool) :=
  match b.num.asConst with
  | none => .ok none
  | some v => (intoBool v).map some

/-- src/circuit/bool.rs:35-37. No booleanity constraint is added. -/
def alloc (v : Option Bool) : M F (CBool F) := do
  let n ← CNum.alloc (v.map boolToF)
  pure ⟨n⟩

/-- src/circuit/bool.rs:66-69 -/
def assert (b : CBool F) : M F Unit := CNum.assertBit b.num

/-- src/circuit/bool.rs:43-45 -/
def assertConst (b : CBool F) (v : Bool) : M F Unit := CNum.assertConst b.num (boolToF v)

/-- src/circuit/bool.rs:71-74 -/
def assertFalse (b : CBool F) : M F Unit := assertConst b false

/-- src/circuit/bool.rs:76-79 -/
def assertTrue (b : CBool F) : M F Unit := assertConst b true

end CBool

namespace CNum

variable {F : Type} [Field F] [DecidableEq F]

/-- src/circuit/num.rs:48-65: `self.switch(bit, if_else)`. `if_else + (owned product)` and
`self + (owned product)` add the borrowed operand into the product (src/macros.rs:44-56). -/
def switch (self : CNum F) (bit : CBool F) (ifElse : CNum F) : M F (CNum F) := do
  match ← M.lift bit.asConst with
  | some true => pure self
  | some false => pure ifElse
  | none =>
    if ifElse.capacity < self.capacity then do
      let p ← mul bit.num (sub self ifElse)
      pure (addAssign p ifElse)
    else do
      let p ← mul (constSub 1 bit.num) (sub ifElse self)
      pure (addAssign p self)

end CNum

end Fawkes
