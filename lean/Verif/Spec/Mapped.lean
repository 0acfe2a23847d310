import Verif.Model.CEcc
import Verif.Model.WordField

/-!
# Specification: the same circuit over two representations of the field
-/

namespace Fawkes

/-- The linear combination with its coefficients mapped. -/
def LC.map {F K : Type} (f : F → K) (l : LC F) : LC K := List.map (fun kv => (kv.1, f kv.2)) l

/-- The signal with its value and coefficients mapped. -/
def CNum.map {F K : Type} (f : F → K) (a : CNum F) : CNum K := ⟨a.value.map f, LC.map f a.lc⟩

/-- The signal with its value and coefficients mapped. -/
def CBool.map {F K : Type} (f : F → K) (a : CBool F) : CBool K := ⟨a.num.map f⟩

/-- The point with its signals mapped. -/
def CEdwardsPoint.map {F K : Type} (f : F → K) (a : CEdwardsPoint F) : CEdwardsPoint K := ⟨a.x.map f, a.y.map f⟩

/-- The point with its signals mapped. -/
def CMontgomeryPoint.map {F K : Type} (f : F → K) (a : CMontgomeryPoint F) : CMontgomeryPoint K := ⟨a.x.map f, a.y.map f⟩

/-- The constraint with its signals mapped. -/
def Constraint.map {F K : Type} (f : F → K) (c : Constraint F) : Constraint K := ⟨c.a.map f, c.b.map f, c.c.map f⟩

/-- The same system with all values and coefficients mapped: same kind, counters, indices and numbers of variables and constraints. -/
def CS.map {F K : Type} (f : F → K) (s : CS F) : CS K :=
  ⟨s.backend, s.ninputs, s.naux, s.vars.map fun v => (v.1, v.2.map f), s.cons.map (Constraint.map f)⟩

/-- The circuit on arrays of words does what the circuit on the integers modulo the prime does: started on any constraint system, of any
kind and with any contents, it panics with the same panic or returns the corresponding result and leaves the corresponding system. -/
def SameCircuit {p : Nat} [Fact p.Prime] {α β : Type} (g : α → β) (m : M (Limbs.Elem p) α) (m' : M (ZMod p) β) : Prop :=
  ∀ s : CS (Limbs.Elem p), (m.run s).map (fun q => (g q.1, q.2.map Limbs.Elem.value)) = m'.run (s.map Limbs.Elem.value)

end Fawkes
