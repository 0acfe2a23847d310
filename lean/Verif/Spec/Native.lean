import Verif.Lemmas.NumConv
import Verif.Model.Gadgets
import Verif.Spec.Bits
import Verif.Spec.Circuit
import Verif.Spec.Ecc
import Verif.Spec.Eddsa
import Verif.Spec.Poseidon
import Verif.Spec.Varies

/-!
# Specification: what a client computes, without any constraint system

The same sequence of calls, executed on field elements by the native functions of the library.
-/

namespace Fawkes

variable {r : Nat} [Fact r.Prime] {W : Type}

/-- Several entries of a list. -/
def pick {α : Type} (l : List α) : List Nat → Option (List α)
  | [] => some []
  | i :: is => do
    let x ← l[i]?
    let xs ← pick l is
    pure (x :: xs)

/-- A field element as a truth value. -/
def bit? (x : ZMod r) : Option Bool := if x = 0 then some false else if x = 1 then some true else none

/-- Field elements as truth values. -/
def bits? : List (ZMod r) → Option (List Bool)
  | [] => some []
  | x :: xs => do
    let b ← bit? x
    let bs ← bits? xs
    pure (b :: bs)

/-- A truth value as a field element. -/
def ofBit (b : Bool) : ZMod r := if b then 1 else 0

/-- The result of a native function that did not panic. -/
def done? {α : Type} : Except Panic α → Option α
  | .ok a => some a
  | .error _ => none

/-- The entry of each column that three bits select. -/
def selectAll (k : Nat) : List (List (ZMod r)) → Option (List (ZMod r))
  | [] => some []
  | col :: cols => do
    let x ← col[k]?
    let xs ← selectAll k cols
    pure (x :: xs)

/-- The sum of two points of a Montgomery curve `b y² = x³ + a x² + x` with different abscissas, by the chord. -/
def chord (J : JubJubParams (ZMod r)) (x1 y1 x2 y2 : ZMod r) : List (ZMod r) :=
  let l := (y2 - y1) / (x2 - x1)
  let x3 := J.b * l ^ 2 - J.a - x1 - x2
  [x3, l * (x1 - x3) - y1]

/-- The double of a point of a Montgomery curve `b y² = x³ + a x² + x`, by the tangent. -/
def tangent (J : JubJubParams (ZMod r)) (x y : ZMod r) : List (ZMod r) :=
  let l := (3 * x ^ 2 + 2 * J.a * x + 1) / (2 * J.b * y)
  let x3 := J.b * l ^ 2 - J.a - 2 * x
  [x3, l * (x - x3) - y]

/-- What a call of the number API computes from the values of the registers: the new values, or `none` if it stops. -/
def Op.native (vals : List (ZMod r)) : Op (ZMod r) → Option (List (ZMod r))
  | .const v => some [v]
  | .alloc _ | .allocInput _ => none
  | .add i j => do let a ← vals[i]?; let b ← vals[j]?; pure [a + b]
  | .sub i j => do let a ← vals[i]?; let b ← vals[j]?; pure [a - b]
  | .neg i => do let a ← vals[i]?; pure [-a]
  | .mulConst i k => do let a ← vals[i]?; pure [a * k]
  | .divConst i k => do let a ← vals[i]?; if k = 0 then none else pure [a / k]
  | .mul i j => do let a ← vals[i]?; let b ← vals[j]?; pure [a * b]
  | .div i j => do let a ← vals[i]?; let b ← vals[j]?; if b = 0 then none else pure [a / b]
  | .enforce i j k => do
    let a ← vals[i]?; let b ← vals[j]?; let c ← vals[k]?; if a * b = c then pure [] else none
  | .assertConst i v => do let a ← vals[i]?; if a = v then pure [] else none
  | .assertEq i j => do let a ← vals[i]?; let b ← vals[j]?; if a = b then pure [] else none
  | .assertNonzero i => do let a ← vals[i]?; if a = 0 then none else pure []
  | .assertBit i => do let a ← vals[i]?; if a = 0 ∨ a = 1 then pure [] else none
  | .inputize i => do let _ ← vals[i]?; pure []
  | .isZero i => do let a ← vals[i]?; pure [ofBit (decide (a = 0))]
  | .isEq i j => do let a ← vals[i]?; let b ← vals[j]?; pure [ofBit (decide (a = b))]
  | .switch i b j => do
    let t ← vals[i]?; let c ← vals[b]?; let f ← vals[j]?
    let c ← bit? c
    pure [if c then t else f]

/-- What a call computes from the values of the registers, by the native functions: the new values, or `none` if it stops.
A boolean register that is neither zero nor one stops the client.  Allocations are not computed. -/
def Call.native (vals : List (ZMod r)) : Call r W → Option (List (ZMod r))
  | .prim o => o.native vals
  | .alloc _ _ | .allocInput _ _ => none
  | .intoBits i n => do
    let a ← vals[i]?
    if a.val < 2 ^ n then pure ((lowBits n a.val).map ofBit) else none
  | .intoBitsStrict i => do
    let a ← vals[i]?
    pure ((lowBits (numBits r) a.val).map ofBit)
  | .compConstant is c => do
    let bs ← bits? (← pick vals is)
    pure [ofBit (decide (c.val < bitsNat bs))]
  | .fromBits is => do
    let bs ← bits? (← pick vals is)
    pure [(bitsNat bs : ZMod r)]
  | .mux3 is table => do
    let bs ← bits? (← pick vals is)
    if bs.length = 3 then selectAll (bitsNat bs) table else none
  | .poseidon is P => do
    let xs ← pick vals is
    let x ← done? (Poseidon.poseidon xs P)
    pure [x]
  | .poseidonWithSalt is seed P => do
    let xs ← pick vals is
    let x ← done? (Poseidon.poseidonWithSalt xs seed P)
    pure [x]
  | .merkleProofRoot leaf sibling path P => do
    let l ← vals[leaf]?
    let ss ← pick vals sibling
    let ps ← bits? (← pick vals path)
    let x ← done? (Poseidon.merkleProofRoot l ss ps P)
    pure [x]
  | .merkleTreeRoot leaf P => do
    let xs ← pick vals leaf
    let x ← done? (Poseidon.merkleTreeRoot xs P)
    pure [x]
  | .edDouble x y _ => do
    let a ← vals[x]?; let b ← vals[y]?
    let z ← done? (EdwardsPoint.double ⟨a, b⟩)
    pure [z.x, z.y]
  | .edMulByCofactor x y _ => do
    let a ← vals[x]?; let b ← vals[y]?
    let z ← done? (EdwardsPoint.mulByCofactor ⟨a, b⟩)
    pure [z.x, z.y]
  | .edAdd x1 y1 x2 y2 J => do
    let a ← vals[x1]?; let b ← vals[y1]?; let c ← vals[x2]?; let d ← vals[y2]?
    let z ← done? (EdwardsPoint.add ⟨a, b⟩ ⟨c, d⟩ J)
    pure [z.x, z.y]
  | .assertInCurve x y J => do
    let a ← vals[x]?; let b ← vals[y]?
    if EdwardsPoint.isInCurve ⟨a, b⟩ J = true then pure [] else none
  | .assertInSubgroup x y J _ => do
    let a ← vals[x]?; let b ← vals[y]?
    if EdwardsPoint.isInCurve ⟨a, b⟩ J = true ∧ (EdwardsPoint.intoExtended ⟨a, b⟩).isInSubgroup J = true then pure [] else none
  | .subgroupDecompress sqrt x J _ => do
    let a ← vals[x]?
    let z ← done? (EdwardsPoint.subgroupDecompress sqrt a J)
    let z ← z
    pure [z.x, z.y]
  | .intoMontgomery x y => do
    let a ← vals[x]?; let b ← vals[y]?
    let z ← done? (EdwardsPoint.intoMontgomery ⟨a, b⟩)
    let z ← z
    pure [z.x, z.y]
  | .edMul x y is J => do
    let a ← vals[x]?; let b ← vals[y]?
    let bs ← bits? (← pick vals is)
    if h : J.l.Prime then do
      let z ← done? (@EdwardsPoint.mul _ _ _ ⟨a, b⟩ J.l ⟨h⟩ (bitsNat bs) J)
      pure [z.x, z.y]
    else none
  | .fromScalar sqrt t J => do
    let a ← vals[t]?
    let z ← done? (EdwardsPoint.fromScalar sqrt a J)
    pure [z.x, z.y]
  | .montDouble x y J => do
    let a ← vals[x]?; let b ← vals[y]?
    pure (tangent J a b)
  | .montAdd x1 y1 x2 y2 J => do
    let a ← vals[x1]?; let b ← vals[y1]?; let c ← vals[x2]?; let d ← vals[y2]?
    pure (chord J a b c d)
  | .intoEdwards x y => do
    let a ← vals[x]?; let b ← vals[y]?
    let z ← done? (MontgomeryPoint.intoAffine ⟨a, b⟩)
    pure [z.x, z.y]
  | .eddsaVerify sqrt s rx a m P J _ => do
    let s ← vals[s]?; let rx ← vals[rx]?; let a ← vals[a]?; let m ← vals[m]?
    let _ ← (← done? (EdwardsPoint.subgroupDecompress sqrt a J))
    let _ ← (← done? (EdwardsPoint.subgroupDecompress sqrt rx J))
    if s.val < 2 ^ numBits J.l then do
      let b ← done? (Eddsa.verify sqrt J (s.val : ZMod J.l) rx a m P)
      pure [ofBit b]
    else none

/-- One call on values: an allocation takes the next value of the client's input `ins`, a public allocation and `inputize` publish a value.
The result is the rest of the input, the new values and the published values. -/
def Call.step (ins vals : List (ZMod r)) : Call r W → Option (List (ZMod r) × List (ZMod r) × List (ZMod r))
  | .prim (.alloc _) | .alloc _ _ => match ins with
    | x :: ins => some (ins, [x], [])
    | [] => none
  | .prim (.allocInput _) | .allocInput _ _ => match ins with
    | x :: ins => some (ins, [x], [x])
    | [] => none
  | .prim (.inputize i) => do let a ← vals[i]?; pure (ins, [], [a])
  | c => do let xs ← c.native vals; pure (ins, xs, [])

/-- A sequence of calls on values: the values of all registers at the end, and all published values in order. -/
def nativeRun : List (Call r W) → (ins vals : List (ZMod r)) → Option (List (ZMod r) × List (ZMod r))
  | [], ins, vals => if ins = [] then some (vals, []) else none
  | c :: cs, ins, vals => do
    let (ins', new, pub) ← c.step ins vals
    let (out, pubs) ← nativeRun cs ins' (vals ++ new)
    pure (out, pub ++ pubs)

/-- A client that does not look at its registers: the calls are fixed. -/
def straight : List (Call r W) → Code r W
  | [] => .done
  | c :: cs => .call c fun _ => straight cs

/-- The calls that a client performs in a run. -/
def Code.calls (v : Option W) : List (CNum (ZMod r)) → CS (ZMod r) → Code r W → List (Call r W)
  | _, _, .done => []
  | q, s, .call c next => c :: (match (c.exec v q).run s with
    | .ok (q', s') => (next (q'.map CNum.lc)).calls v q' s'
    | .error _ => [])

/-- The variable that a client allocates by a call. -/
def Call.ownVar (s : CS (ZMod r)) : Call r W → List Index
  | .prim (.alloc _) | .alloc _ _ => [s.nextAlloc]
  | .prim (.allocInput _) | .allocInput _ _ => [.input s.ninputs]
  | _ => []

/-- The variables that a client allocates in a run, in order. -/
def Code.ownVars (v : Option W) : List (CNum (ZMod r)) → CS (ZMod r) → Code r W → List Index
  | _, _, .done => []
  | q, s, .call c next => c.ownVar s ++ (match (c.exec v q).run s with
    | .ok (q', s') => (next (q'.map CNum.lc)).ownVars v q' s'
    | .error _ => [])

/-- These registers hold zeros and ones. -/
def AreBits (vals : List (ZMod r)) (is : List Nat) : Prop := ∀ i ∈ is, ∀ x, vals[i]? = some x → x = 0 ∨ x = 1

/-- These registers are not constants of the circuit. -/
def AreSignals (q : List (CNum (ZMod r))) (is : List Nat) : Prop := ∀ i ∈ is, ∀ a, q[i]? = some a → a.asConst = none

/-- These registers hold a point of the curve. -/
def IsPointAt (vals : List (ZMod r)) (x y : Nat) (J : JubJubParams (ZMod r)) : Prop :=
  ∀ a b, vals[x]? = some a → vals[y]? = some b → EdwardsPoint.isInCurve ⟨a, b⟩ J = true

/-- The parameter `d` is the one of a complete Edwards curve. -/
def JubJubParams.Complete (J : JubJubParams (ZMod r)) : Prop := ∃ C : EdCurve (ZMod r), J.d = C.d

/-- The uses of a call for which circuit and native code are meant to agree, given the registers of the circuit and their values.
Excluded are: divisions by zero and divisions of a constant; selectors that are not boolean; limits that leave room for two
decompositions into bits; constants too long for a comparison; points off the curve; constant points (but for multiples of a
constant point and sums of a constant point and a signal); the exceptional cases of the Montgomery formulas. -/
def Call.Proper (q : List (CNum (ZMod r))) (vals : List (ZMod r)) : Call r W → Prop
  | .prim (.div i j) => AreSignals q [i] ∧ vals[j]? ≠ some 0
  | .prim (.divConst _ k) => k ≠ 0
  | .prim (.switch _ b _) => AreBits vals [b]
  | .prim _ | .alloc _ _ | .allocInput _ _ => True
  | .intoBits i n => 1 ≤ n ∧ n ≤ 64 * nLimbs r ∧ (∀ a, q[i]? = some a → a.asConst = none → 2 ^ n ≤ r)
  | .intoBitsStrict _ => 8 ≤ r
  | .compConstant is c => AreBits vals is ∧ 0 < is.length ∧ is.length ≤ 64 * nLimbs r ∧
      2 ^ ((is.length + 1) / 2 + 1) ≤ r ∧ c.val < 2 ^ (2 * ((is.length + 1) / 2))
  | .fromBits is => AreBits vals is ∧ is ≠ []
  | .mux3 is table => AreBits vals is ∧ ∀ col ∈ table, col.length = 8
  | .poseidon _ _ | .poseidonWithSalt _ _ _ | .merkleTreeRoot _ _ => True
  | .merkleProofRoot _ _ path _ => AreBits vals path
  | .edDouble x y J | .edMulByCofactor x y J => J.Complete ∧ IsPointAt vals x y J ∧ AreSignals q [x, y]
  | .edAdd x1 y1 x2 y2 J => J.Complete ∧ IsPointAt vals x1 y1 J ∧ IsPointAt vals x2 y2 J ∧ AreSignals q [x1, y1, x2, y2]
  | .assertInCurve _ _ _ => True
  | .assertInSubgroup _ _ J _ => ∃ C, J.Valid C
  | .subgroupDecompress sqrt _ J _ => IsSqrt sqrt ∧ ∃ C, J.Valid C
  | .intoMontgomery x y => vals[x]? ≠ some 0 ∧ vals[y]? ≠ some 1 ∧ AreSignals q [y]
  | .edMul x y is J => (∃ C, J.Valid C) ∧ IsPointAt vals x y J ∧
      (∀ a b, vals[x]? = some a → vals[y]? = some b → (EdwardsPoint.intoExtended ⟨a, b⟩).isInSubgroup J = true) ∧
      AreBits vals is ∧
      (AreSignals q [x, y] ∨
        (∃ a b, q[x]? = some a ∧ q[y]? = some b ∧ a.asConst ≠ none ∧ b.asConst ≠ none) ∧ 2 ≤ is.length ∧
          ∀ xs, pick q is = some xs → Independent (xs.take 3))
  | .fromScalar sqrt t J => IsSqrt sqrt ∧ (∃ C, J.Valid C) ∧ 8 ≤ r ∧ AreSignals q [t] ∧ vals[t]? ≠ some (-1)
  | .montDouble x y J => vals[y]? ≠ some 0 ∧ (2 : ZMod r) ≠ 0 ∧ J.a ≠ 0 ∧ J.b ≠ 0 ∧ AreSignals q [x]
  | .montAdd x1 y1 x2 y2 _ => (∀ a c, vals[x1]? = some a → vals[x2]? = some c → a ≠ c) ∧
      (∀ b d, q[y1]? = some b → q[y2]? = some d → Varies (CNum.sub d b))
  | .intoEdwards x y => vals[x]? ≠ some (-1) ∧ (vals[y]? ≠ some 0 ∨ vals[x]? = some 0) ∧ AreSignals q [x]
  | .eddsaVerify sqrt s rx a m P J _ => IsSqrt sqrt ∧ (∃ C, J.Valid C) ∧ Aligned r ∧ Aligned J.l ∧ numBytes r ≤ 32 ∧
      numBits J.l < numBits r ∧ PoseidonSpec.Shaped P ∧ 4 ≤ P.t ∧ AreSignals q [s] ∧
      ∀ rv av mv, vals[rx]? = some rv → vals[a]? = some av → vals[m]? = some mv → EddsaSpec.challenge P rv av mv ≠ 0

/-- All calls of a run are proper, when the client's own variables have the values `ins`. -/
def Code.Proper (v : Option W) : List (CNum (ZMod r)) → CS (ZMod r) → (ins vals : List (ZMod r)) → Code r W → Prop
  | _, _, _, _, .done => True
  | q, s, ins, vals, .call c next => c.Proper q vals ∧
      ∀ q' s' ins' new pub, (c.exec v q).run s = .ok (q', s') → c.step ins vals = some (ins', new, pub) →
        (next (q'.map CNum.lc)).Proper v q' s' ins' (vals ++ new)

/-- The values of the public inputs that were added between two states, in order. -/
def publicsBetween {F : Type} (w : Index → F) (s s' : CS F) : List F :=
  (List.range' s.ninputs (s'.ninputs - s.ninputs)).map fun k => w (.input k)

end Fawkes
