import Verif.Model.Gadgets
import Verif.Spec.Bits
import Verif.Spec.Circuit
import Verif.Spec.Ecc
import Verif.Spec.Varies

/-!
# Specification: which variables of a constraint system are determined by which
-/

namespace Fawkes

section
variable {F : Type}

/-- Two assignments give the same values to all variables of a constraint system. -/
def Agree (w w' : Index → F) (s : CS F) : Prop := ∀ k ∈ s.vars.map Prod.fst, w k = w' k

variable [Field F]

/-- The constraints mention variables of the constraint system only. -/
def Closed (s : CS F) : Prop := ∀ c ∈ s.cons, c.a.lc.Alloc s ∧ c.b.lc.Alloc s ∧ c.c.lc.Alloc s

/-- A satisfying assignment of a constraint system that mentions its own variables only. -/
structure Solves (s : CS F) (w : Index → F) : Prop where
  wf : s.WF
  closed : Closed s
  one : IsAssignment w
  sat : s.Sat w

end

variable {r : Nat} [Fact r.Prime] {W : Type}

/-- The registers in `is`, if there are such registers. -/
def lookups (q : List (CNum (ZMod r))) : List Nat → Option (List (CNum (ZMod r)))
  | [] => some []
  | i :: is => (q[i]?).bind fun x => (lookups q is).map (x :: ·)

/-- The calls by which a client adds variables of its own. -/
def Call.Own : Call r W → Prop
  | .prim (.alloc _) | .prim (.allocInput _) | .alloc _ _ | .allocInput _ _ => True
  | _ => False

/-- The registers `x`, `y` hold a point of the curve with parameter `d` of `J`. -/
def OnCurveAt (w : Index → ZMod r) (q : List (CNum (ZMod r))) (x y : Nat) (J : JubJubParams (ZMod r)) : Prop :=
  ∀ a b, q[x]? = some a → q[y]? = some b → ∃ C : EdCurve (ZMod r), J.d = C.d ∧ ∃ P : EdPoint C, a.lc.eval w = P.x ∧ b.lc.eval w = P.y

/-- The calls whose helper values leave no choice, by the values that an assignment gives to their arguments.
Number API: divisions by zero and zero tests of zero are excluded.  Bits: limits that leave room for two decompositions are excluded.
Points: arguments that are not on the curve, exceptional cases of the Montgomery formulas, and products equal to zero are excluded.
Membership in the subgroup, decompression, `from_scalar` and the verification of signatures are excluded altogether. -/
def Call.Sharp (w : Index → ZMod r) (q : List (CNum (ZMod r))) : Call r W → Prop
  | .prim (.alloc _) | .prim (.allocInput _) | .alloc _ _ | .allocInput _ _ => False
  | .prim (.div i j) => ∀ a b, q[i]? = some a → q[j]? = some b → a.asConst = none → b.asConst = none → b.lc.eval w ≠ 0
  | .prim (.isZero i) => ∀ a, q[i]? = some a → a.asConst = none → a.lc.eval w ≠ 0
  | .prim (.isEq i j) => ∀ a b, q[i]? = some a → q[j]? = some b → (CNum.sub a b).asConst = none → a.lc.eval w ≠ b.lc.eval w
  | .prim _ => True
  | .intoBits i n => ∀ a, q[i]? = some a → a.asConst = none → 2 ^ n ≤ r
  | .intoBitsStrict _ => 8 ≤ r
  | .compConstant is _ => 2 ^ ((is.length + 1) / 2 + 1) ≤ r
  | .fromBits _ | .mux3 _ _ | .poseidon _ _ | .poseidonWithSalt _ _ _ | .merkleProofRoot _ _ _ _ | .merkleTreeRoot _ _ => True
  | .edDouble x y J => OnCurveAt w q x y J
  | .edAdd x1 y1 x2 y2 J => ∀ a b c d, q[x1]? = some a → q[y1]? = some b → q[x2]? = some c → q[y2]? = some d →
      ∃ C : EdCurve (ZMod r), J.d = C.d ∧ ∃ P Q : EdPoint C, (a.lc.eval w = P.x ∧ b.lc.eval w = P.y) ∧ c.lc.eval w = Q.x ∧ d.lc.eval w = Q.y
  | .edMulByCofactor x y J => OnCurveAt w q x y J ∧ (∀ a, q[x]? = some a → a.asConst = none) ∧ (∀ a, q[y]? = some a → a.asConst = none)
  | .assertInCurve _ _ _ => True
  | .intoMontgomery x y => ∀ a b, q[x]? = some a → q[y]? = some b → b.lc.eval w ≠ 1 ∧ a.lc.eval w ≠ 0
  | .montAdd x1 _ x2 _ _ => ∀ a b, q[x1]? = some a → q[x2]? = some b → a.lc.eval w ≠ b.lc.eval w
  | .montDouble _ y J => (∀ b, q[y]? = some b → b.lc.eval w ≠ 0) ∧ (2 : ZMod r) ≠ 0 ∧ J.b ≠ 0
  | .intoEdwards x y => ∀ a b, q[x]? = some a → q[y]? = some b → b.lc.eval w ≠ 0 ∧ a.lc.eval w ≠ -1
  | .edMul x y is J => ∀ a b bits, q[x]? = some a → q[y]? = some b → lookups q is = some bits →
      ∃ C : EdCurve (ZMod r), J.Valid C ∧ ∃ (Q : EdPoint C) (bs : List Bool), InSubgroup J.l Q ∧ a.lc.eval w = Q.x ∧ b.lc.eval w = Q.y ∧
        SpellsBits w (bits.map CBool.mk) bs ∧
        ((a.asConst = none ∧ b.asConst = none ∧ bitsNat bs • Q ≠ 0) ∨
          (a.asConst ≠ none ∧ b.asConst ≠ none ∧ (Q = 0 ∨ 2 ≤ bits.length ∧ Independent (bits.take 3) ∧ bitsNat bs • Q ≠ 0)))
  | .assertInSubgroup _ _ _ _ | .subgroupDecompress _ _ _ _ | .fromScalar _ _ _ | .eddsaVerify _ _ _ _ _ _ _ _ => False

/-- The variables that a client adds by itself. -/
inductive ClientVar (v : Option W) : List (CNum (ZMod r)) → Code r W → CS (ZMod r) → Index → Prop
  | here {q q' : List (CNum (ZMod r))} {c : Call r W} {next : List (LC (ZMod r)) → Code r W} {s s' : CS (ZMod r)} {i : Index}
      (hc : c.Own) (h : (c.exec v q).run s = .ok (q', s')) (hi : i ∈ s'.vars.map Prod.fst) (hn : i ∉ s.vars.map Prod.fst) :
      ClientVar v q (.call c next) s i
  | later {q q' : List (CNum (ZMod r))} {c : Call r W} {next : List (LC (ZMod r)) → Code r W} {s s' : CS (ZMod r)} {i : Index}
      (h : (c.exec v q).run s = .ok (q', s')) (hi : ClientVar v q' (next (q'.map CNum.lc)) s' i) : ClientVar v q (.call c next) s i

/-- All calls of a client, other than its own allocations, leave no choice. -/
def Code.Sharp (v : Option W) (w : Index → ZMod r) : List (CNum (ZMod r)) → CS (ZMod r) → Code r W → Prop
  | _, _, .done => True
  | q, s, .call c next => (c.Own ∨ c.Sharp w q) ∧
      ∀ q' s', (c.exec v q).run s = .ok (q', s') → (next (q'.map CNum.lc)).Sharp v w q' s'

end Fawkes
