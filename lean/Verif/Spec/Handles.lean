import Verif.Model.Handles
import Verif.Spec.Circuit

/-!
# Specification: circuits built on their own
-/

namespace Fawkes

open Handle

/-- All these signals belong to the constraint system `h`. -/
def AllOf {F : Type} (h : Nat) (q : List (HNum F)) : Prop := ∀ x ∈ q, x.cs = h

/-- The signals without their references. -/
def bare {F : Type} (q : List (HNum F)) : List (CNum F) := q.map HNum.num

/-- The first `n` calls of a circuit, made on its own: what is left of its code, and its signals. -/
def alone {r : Nat} [Fact r.Prime] {W : Type} (w : Option W) :
    Nat → Code r W → List (CNum (ZMod r)) → M (ZMod r) (Code r W × List (CNum (ZMod r)))
  | 0, code, q => pure (code, q)
  | _ + 1, .done, q => pure (.done, q)
  | n + 1, .call c next, q => do
    let q' ← c.exec w q
    alone w n (next (q'.map CNum.lc)) q'

end Fawkes
