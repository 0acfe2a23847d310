import Verif.Model.Signal
import Verif.Spec.Circuit

/-!
# Specification: components of compound signals

`flat v` is the list of field elements a native value consists of; `evals w a` the list of values
of the components of a signal under an assignment; `ok` says that all sized vectors inside have their declared
length.
-/

namespace Fawkes

variable {F : Type} [Field F] [DecidableEq F]

/-- The components of a native value, in declaration order; booleans as 0/1. -/
def Ty.flat (F : Type) [Field F] : (t : Ty) → t.V F → List F
  | .num, v => [v]
  | .bool, v => [if (show Bool from v) then 1 else 0]
  | .pair a b, v => a.flat F v.1 ++ b.flat F v.2
  | .vec _ a, v => v.items.flatMap (a.flat F)

/-- Sized vectors inside the value have their declared length. -/
def Ty.okV (F : Type) : (t : Ty) → t.V F → Prop
  | .num, _ => True
  | .bool, _ => True
  | .pair a b, v => a.okV F v.1 ∧ b.okV F v.2
  | .vec n a, v => v.items.length = n ∧ ∀ x ∈ v.items, a.okV F x

/-- Sized vectors inside the signal have their declared length. -/
def Ty.ok (F : Type) : (t : Ty) → t.S F → Prop
  | .num, _ => True
  | .bool, _ => True
  | .pair a b, v => a.ok F v.1 ∧ b.ok F v.2
  | .vec n a, v => v.items.length = n ∧ ∀ x ∈ v.items, a.ok F x

/-- The number of components. -/
def Ty.width : Ty → Nat
  | .num => 1
  | .bool => 1
  | .pair a b => a.width + b.width
  | .vec n a => n * a.width

/-- The components of a signal: numbers and booleans, in declaration order. -/
def Ty.leaves (F : Type) : (t : Ty) → t.S F → List (CNum F)
  | .num, a => [a]
  | .bool, a => [CBool.num a]
  | .pair a b, x => a.leaves F x.1 ++ b.leaves F x.2
  | .vec _ a, x => x.items.flatMap (a.leaves F)

/-- The components of a signal evaluated under an assignment. -/
def Ty.evals (t : Ty) (w : Index → F) (a : t.S F) : List F := (t.leaves F a).map fun x => x.lc.eval w

/-- Signal `a` carries the native value `v` in state `s`, component by component. -/
def Ty.Carries : (t : Ty) → CS F → t.S F → t.V F → Prop
  | .num, s, a, v => Has s a v
  | .bool, s, a, v => Has s (CBool.num a) (if (show Bool from v) then 1 else 0)
  | .pair a b, s, x, v => a.Carries s x.1 v.1 ∧ b.Carries s x.2 v.2
  | .vec n a, s, x, v => x.items.length = n ∧ List.Forall₂ (a.Carries s) x.items v.items

/-- No vector of length zero occurs in the type. -/
def Ty.NonEmpty : Ty → Prop
  | .num => True
  | .bool => True
  | .pair a b => a.NonEmpty ∧ b.NonEmpty
  | .vec n a => 0 < n ∧ a.NonEmpty

end Fawkes
