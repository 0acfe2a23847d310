import Verif.Model.CS

/-!
# Specification: satisfaction, honest witnesses

What a statement about a gadget needs to say about the constraint system it produced.
-/

namespace Fawkes

/-- An assignment satisfies a constraint: `a * b = c` on the linear combinations. -/
def Constraint.Sat {F : Type} [Field F] (w : Index → F) (c : Constraint F) : Prop :=
  c.a.lc.eval w * c.b.lc.eval w = c.c.lc.eval w

/-- An assignment satisfies a constraint system. -/
def CS.Sat {F : Type} [Field F] (w : Index → F) (s : CS F) : Prop :=
  ∀ c ∈ s.cons, c.Sat w

/-- The assignment recorded while building the circuit (missing values read as 0). -/
def CS.assign {F : Type} [Field F] (s : CS F) (i : Index) : F :=
  if i = .input 0 then 1
  else match s.vars.lookup i with
    | some (some v) => v
    | _ => 0

/-- The linear combinations of a constraint. -/
def Constraint.shape {F : Type} (c : Constraint F) : LC F × LC F × LC F := (c.a.lc, c.b.lc, c.c.lc)

/-- Two constraint systems have the same variables and the same constraint matrices. -/
structure CS.SameShape {F : Type} (s t : CS F) : Prop where
  backend : s.backend = .test ↔ t.backend = .test
  ninputs : s.ninputs = t.ninputs
  naux : s.naux = t.naux
  vars : s.vars.map Prod.fst = t.vars.map Prod.fst
  cons : s.cons.map Constraint.shape = t.cons.map Constraint.shape

variable {F : Type}

/-- All variables of a linear combination are allocated in `s`. -/
def LC.Alloc (s : CS F) (l : LC F) : Prop :=
  ∀ k ∈ l.keys, k = .input 0 ∨ k ∈ s.vars.map Prod.fst

/-- The variable occurs in some constraint. -/
def CS.Occurs (s : CS F) (i : Index) : Prop := ∃ c ∈ s.cons, i ∈ c.a.lc.keys ++ c.b.lc.keys ++ c.c.lc.keys

variable [Field F]

/-- A state in which the recorded values satisfy all constraints enforced so far. -/
structure CS.Honest (s : CS F) : Prop where
  wf : s.WF
  sat : s.Sat s.assign
  alloc : ∀ c ∈ s.cons, c.a.lc.Alloc s ∧ c.b.lc.Alloc s ∧ c.c.lc.Alloc s

/-- Signal `a` carries value `v`, consistently with the recorded assignment. -/
structure Has (s : CS F) (a : CNum F) (v : F) : Prop where
  alloc : a.lc.Alloc s
  value : a.value = some v
  eval : a.lc.eval s.assign = v

end Fawkes
