import Verif.Spec.R1CS
import Mathlib.Data.List.Nodup

/-!
# Constraint systems (src/core/cs.rs, src/helpers/groth16/mod.rs:268-343)

The constraint system lives behind `&CS` with interior mutability.  The model threads it as an
explicit state.
-/

namespace Fawkes

/-- src/circuit/num.rs:33-38. A circuit number: witness value if known, and linear combination.
Simplification: the handle `cs` to the constraint system is dropped (the state monad plays
its role). -/
structure CNum (F : Type) where
  value : Option F
  lc : LC F
  deriving DecidableEq

/-- The ways Rust code in the modelled functions can panic. -/
inductive Panic where
  /-- `assert!(a * b == c, "Not satisfied constraint")` in TestCS::enforce -/
  | unsatisfied
  /-- other `assert!` -/
  | assertion
  /-- `inverse().expect("attempt to divide by zero")` -/
  | divByZero
  /-- `unwrap()` of `SynthesisError::AssignmentMissing` -/
  | assignmentMissing
  /-- slice index out of bounds -/
  | outOfBounds
  /-- `Num::into_bool` on something else than 0 and 1 -/
  | notBool
  /-- `unwrap()` on `None` / `Err` -/
  | unwrap
  deriving DecidableEq, Repr

/-- Which implementation of the trait `ConstraintSystem` is running: `TestCS`
(src/core/cs.rs:25-88), or `Groth16CS` (src/helpers/groth16/mod.rs:268-343) over bellman's key
generator or over bellman's prover. -/
inductive Backend where
  | test
  | setup
  | prove
  deriving DecidableEq, Repr

/-- One `enforce(a, b, c)` call. -/
structure Constraint (F : Type) where
  a : CNum F
  b : CNum F
  c : CNum F

/-- The constraint system state.  `ninputs`/`naux` are the counters that determine the next
index (for `TestCS` src/core/cs.rs:26; for `Groth16CS` the counters inside bellman's assembly).
`vars` and `cons` are the complete history of allocations and `enforce` calls.  (`TestCS` itself only
keeps a hash map of the `Some` values and a counter `ncons = cons.length`, bellman keeps the linear
combinations.) -/
structure CS (F : Type) where
  backend : Backend
  ninputs : Nat
  naux : Nat
  vars : List (Index × Option F)
  cons : List (Constraint F)

namespace CS

variable {F : Type}

/-- src/core/cs.rs:34-42 (`TestCS::new`), src/helpers/groth16/mod.rs:285-293 (`Groth16CS::new` on
a fresh bellman assembly, which has allocated the constant one as input 0). -/
def new (b : Backend) : CS F := ⟨b, 1, 0, [], []⟩

/-- Allocated indices are pairwise different, differ from the constant variable, and lie below the
counters. -/
structure WF (s : CS F) : Prop where
  pos : 1 ≤ s.ninputs
  nodup : (s.vars.map Prod.fst).Nodup
  input_lt : ∀ n, Index.input n ∈ s.vars.map Prod.fst → 1 ≤ n ∧ n < s.ninputs
  aux_lt : ∀ n, Index.aux n ∈ s.vars.map Prod.fst → n < s.naux

/-- `s'` is a later state than `s`: the histories only grow, and so does the counter of private variables. -/
structure Ext (s s' : CS F) : Prop where
  backend : s'.backend = s.backend
  vars : s.vars <+: s'.vars
  cons : s.cons <+: s'.cons
  wf : s.WF → s'.WF
  naux : s.naux ≤ s'.naux

theorem Ext.refl (s : CS F) : Ext s s :=
  ⟨rfl, List.prefix_rfl, List.prefix_rfl, id, Nat.le_refl _⟩

theorem Ext.trans {s t u : CS F} (h : Ext s t) (h' : Ext t u) : Ext s u :=
  ⟨h'.backend.trans h.backend, h.vars.trans h'.vars, h.cons.trans h'.cons, fun w => h'.wf (h.wf w),
    Nat.le_trans h.naux h'.naux⟩

end CS

/-- A circuit-building computation: it may panic, otherwise returns a result and a later state of
the constraint system.  (That later states extend earlier ones is carried in the type.) -/
def M (F : Type) (α : Type) : Type :=
  (s : CS F) → Except Panic (α × {s' : CS F // s.Ext s'})

namespace M

variable {F α β : Type}

instance : Monad (M F) where
  pure a := fun s => .ok (a, ⟨s, .refl s⟩)
  bind m f := fun s =>
    match m s with
    | .error e => .error e
    | .ok (a, s1) =>
      match f a s1.1 with
      | .error e => .error e
      | .ok (b, s2) => .ok (b, ⟨s2.1, s1.2.trans s2.2⟩)

/-- Run a computation, forgetting the extension proof. -/
def run (m : M F α) (s : CS F) : Except Panic (α × CS F) :=
  match m s with
  | .error e => .error e
  | .ok (a, s') => .ok (a, s'.1)

/-- `panic!` -/
def panic (e : Panic) : M F α := fun _ => .error e

/-- Lift a computation that only may panic. -/
def lift (x : Except Panic α) : M F α := fun s =>
  match x with
  | .error e => .error e
  | .ok a => .ok (a, ⟨s, .refl s⟩)

/-- `assert!(b)` -/
def assert (b : Bool) (e : Panic := .assertion) : M F Unit :=
  if b then pure () else panic e

end M

namespace CS

variable {F : Type} [Field F] [DecidableEq F]

/-- The index handed out by the next `alloc`: `TestCS` uses inputs for everything
(src/core/cs.rs:58-62), `Groth16CS` gets the next `Aux` from bellman (src/helpers/groth16/mod.rs:301-310). -/
def nextAlloc (s : CS F) : Index :=
  match s.backend with
  | .test => .input s.ninputs
  | _ => .aux s.naux

/-- The state after handing out index `i` with value `v`. -/
def pushVar (s : CS F) (i : Index) (v : Option F) : CS F :=
  match i with
  | .input _ => { s with ninputs := s.ninputs + 1, vars := s.vars ++ [(i, v)] }
  | .aux _ => { s with naux := s.naux + 1, vars := s.vars ++ [(i, v)] }

omit [Field F] [DecidableEq F] in
theorem ext_pushVar_input (s : CS F) (v : Option F) : Ext s (s.pushVar (.input s.ninputs) v) where
  backend := rfl
  naux := Nat.le_refl _
  vars := ⟨_, rfl⟩
  cons := List.prefix_rfl
  wf h := by
    refine ⟨Nat.le_add_left _ _, ?_, ?_, ?_⟩
    · simp only [pushVar, List.map_append, List.map_cons, List.map_nil]
      refine List.nodup_append.2 ⟨h.nodup, by simp, ?_⟩
      intro x hx y hy hxy
      simp only [List.mem_singleton] at hy
      subst hxy hy
      exact absurd (h.input_lt _ hx).2 (Nat.lt_irrefl _)
    · intro n hn
      simp only [pushVar, List.map_append, List.map_cons, List.map_nil, List.mem_append,
        List.mem_singleton] at hn ⊢
      rcases hn with hn | hn
      · have := h.input_lt _ hn; omega
      · injection hn with hn; subst hn; exact ⟨h.pos, Nat.lt_succ_self _⟩
    · intro n hn
      simp only [pushVar, List.map_append, List.map_cons, List.map_nil, List.mem_append,
        List.mem_singleton] at hn ⊢
      rcases hn with hn | hn
      · exact h.aux_lt _ hn
      · cases hn

omit [Field F] [DecidableEq F] in
theorem ext_pushVar_aux (s : CS F) (v : Option F) : Ext s (s.pushVar (.aux s.naux) v) where
  backend := rfl
  naux := Nat.le_succ _
  vars := ⟨_, rfl⟩
  cons := List.prefix_rfl
  wf h := by
    refine ⟨h.pos, ?_, ?_, ?_⟩
    · simp only [pushVar, List.map_append, List.map_cons, List.map_nil]
      refine List.nodup_append.2 ⟨h.nodup, by simp, ?_⟩
      intro x hx y hy hxy
      simp only [List.mem_singleton] at hy
      subst hxy hy
      exact absurd (h.aux_lt _ hx) (Nat.lt_irrefl _)
    · intro n hn
      simp only [pushVar, List.map_append, List.map_cons, List.map_nil, List.mem_append,
        List.mem_singleton] at hn ⊢
      rcases hn with hn | hn
      · exact h.input_lt _ hn
      · cases hn
    · intro n hn
      simp only [pushVar, List.map_append, List.map_cons, List.map_nil, List.mem_append,
        List.mem_singleton] at hn ⊢
      rcases hn with hn | hn
      · have := h.aux_lt _ hn; omega
      · injection hn with hn; subst hn; exact Nat.lt_succ_self _

omit [Field F] [DecidableEq F] in
theorem ext_pushVar_next (s : CS F) (v : Option F) : Ext s (s.pushVar s.nextAlloc v) := by
  unfold nextAlloc
  split
  · exact ext_pushVar_input s v
  · exact ext_pushVar_aux s v

/-- `ConstraintSystem::alloc`. src/core/cs.rs:58-67 (TestCS: the value may be absent);
src/helpers/groth16/mod.rs:301-310 (Groth16CS: bellman's key generator never calls the value
closure; the prover calls it and `unwrap`s, so a missing value panics). -/
def alloc (v : Option F) : M F Index := fun s =>
  if s.backend = .prove ∧ v = none then .error .assignmentMissing
  else .ok (s.nextAlloc, ⟨s.pushVar s.nextAlloc v, ext_pushVar_next s v⟩)

/-- `ConstraintSystem::alloc_input`. src/core/cs.rs:68-77; src/helpers/groth16/mod.rs:311-320. -/
def allocInput (v : Option F) : M F Index := fun s =>
  if s.backend = .prove ∧ v = none then .error .assignmentMissing
  else .ok (.input s.ninputs, ⟨s.pushVar (.input s.ninputs) v, ext_pushVar_input s v⟩)

/-- The check of src/core/cs.rs:81-86: only when all three values are present. -/
def checkTriple (a b c : CNum F) : Bool :=
  match a.value, b.value, c.value with
  | some x, some y, some z => x * y == z
  | _, _, _ => true

/-- `ConstraintSystem::enforce`. src/core/cs.rs:79-87 (TestCS asserts on the values);
src/helpers/groth16/mod.rs:322-342 (Groth16CS records the linear combinations, checks nothing). -/
def enforce (a b c : CNum F) : M F Unit := fun s =>
  if s.backend = .test ∧ checkTriple a b c = false then .error .unsatisfied
  else .ok ((), ⟨{ s with cons := s.cons ++ [⟨a, b, c⟩] },
    ⟨rfl, List.prefix_rfl, ⟨_, rfl⟩, fun h => ⟨h.pos, h.nodup, h.input_lt, h.aux_lt⟩,
      Nat.le_refl _⟩⟩)

end CS

end Fawkes
