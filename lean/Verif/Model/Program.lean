import Verif.Model.CNum

/-!
# Client programs

A user of the library writes straight-line code that calls the signal API.  `Op` lists those calls; the
registers hold the signals produced so far.  `exec` runs a program of any length.
Loops and branches of the client that do not look at witness values unfold to such programs.
-/

namespace Fawkes

/-- One API call.  `Nat` arguments are register numbers. -/
inductive Op (F : Type) where
  /-- `CNum::from_const` -/
  | const (v : F)
  /-- `CNum::alloc(cs, value)` -/
  | alloc (v : Option F)
  /-- `cs.alloc_input(value)` followed by `CNum::from_var` -/
  | allocInput (v : Option F)
  | add (i j : Nat)
  | sub (i j : Nat)
  | neg (i : Nat)
  | mulConst (i : Nat) (k : F)
  | divConst (i : Nat) (k : F)
  | mul (i j : Nat)
  | div (i j : Nat)
  /-- `cs.enforce(a, b, c)` -/
  | enforce (i j k : Nat)
  | assertConst (i : Nat) (v : F)
  | assertEq (i j : Nat)
  | assertNonzero (i : Nat)
  | assertBit (i : Nat)
  | inputize (i : Nat)
  | isZero (i : Nat)
  | isEq (i j : Nat)
  /-- `a.switch(&b.into_bool(), &c)` -/
  | switch (i b j : Nat)

variable {F : Type} [Field F] [DecidableEq F]

/-- Read a register (an unknown register is a client error). -/
def reg (r : List (CNum F)) (i : Nat) : M F (CNum F) :=
  match r[i]? with
  | some x => pure x
  | none => M.panic .outOfBounds

/-- Run one call; a result is appended to the registers. -/
def Op.exec (r : List (CNum F)) : Op F → M F (List (CNum F))
  | .const v => pure (r ++ [CNum.fromConst v])
  | .alloc v => do let x ← CNum.alloc v; pure (r ++ [x])
  | .allocInput v => do let i ← CS.allocInput v; pure (r ++ [CNum.fromVar v i])
  | .add i j => do let a ← reg r i; let b ← reg r j; pure (r ++ [CNum.add a b])
  | .sub i j => do let a ← reg r i; let b ← reg r j; pure (r ++ [CNum.sub a b])
  | .neg i => do let a ← reg r i; pure (r ++ [CNum.neg a])
  | .mulConst i k => do let a ← reg r i; pure (r ++ [CNum.mulConst a k])
  | .divConst i k => do let a ← reg r i; let q ← CNum.divConst a k; pure (r ++ [q])
  | .mul i j => do let a ← reg r i; let b ← reg r j; let c ← CNum.mul a b; pure (r ++ [c])
  | .div i j => do let a ← reg r i; let b ← reg r j; let c ← CNum.div a b; pure (r ++ [c])
  | .enforce i j k => do
    let a ← reg r i; let b ← reg r j; let c ← reg r k; CS.enforce a b c; pure r
  | .assertConst i v => do let a ← reg r i; CNum.assertConst a v; pure r
  | .assertEq i j => do let a ← reg r i; let b ← reg r j; CNum.assertEq a b; pure r
  | .assertNonzero i => do let a ← reg r i; CNum.assertNonzero a; pure r
  | .assertBit i => do let a ← reg r i; CNum.assertBit a; pure r
  | .inputize i => do let a ← reg r i; CNum.inputize a; pure r
  | .isZero i => do let a ← reg r i; let b ← CNum.isZero a; pure (r ++ [b.num])
  | .isEq i j => do let a ← reg r i; let b ← reg r j; let e ← CNum.isEq a b; pure (r ++ [e.num])
  | .switch i b j => do
    let t ← reg r i; let c ← reg r b; let f ← reg r j
    let x ← CNum.switch t ⟨c⟩ f; pure (r ++ [x])

/-- Run a program. -/
def exec (r : List (CNum F)) : List (Op F) → M F (List (CNum F))
  | [] => pure r
  | o :: os => do let r' ← o.exec r; exec r' os

/-- Forget the witness values of a call: what the same client code does during trusted setup,
where allocations get `None`. -/
def Op.erase : Op F → Op F
  | .alloc _ => .alloc none
  | .allocInput _ => .allocInput none
  | o => o

end Fawkes
