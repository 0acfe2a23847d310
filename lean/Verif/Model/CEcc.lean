import Verif.Model.Bitify
import Verif.Model.Ecc

/-!
# Elliptic curve gadgets (src/circuit/ecc.rs)

The operations that look at native values are given the same `sqrt` parameter as the native ones.
-/

namespace Fawkes

/-- src/circuit/ecc.rs:15-20 -/
@[ext] structure CEdwardsPoint (F : Type) where
  x : CNum F
  y : CNum F

/-- src/circuit/ecc.rs:22-27 -/
@[ext] structure CMontgomeryPoint (F : Type) where
  x : CNum F
  y : CNum F

section basic

variable {F : Type} [Field F] [DecidableEq F]

namespace CEdwardsPoint

/-- fawkes-crypto_derive/src/signal.rs:192-194: `from_const` -/
def fromConst (p : EdwardsPoint F) : CEdwardsPoint F := ⟨CNum.fromConst p.x, CNum.fromConst p.y⟩

/-- fawkes-crypto_derive/src/signal.rs:176-178: `get_value` -/
def getValue (p : CEdwardsPoint F) : Option (EdwardsPoint F) := do
  let x ← p.x.value
  let y ← p.y.value
  pure ⟨x, y⟩

/-- fawkes-crypto_derive/src/signal.rs:180-182: `as_const` -/
def asConst (p : CEdwardsPoint F) : Option (EdwardsPoint F) := do
  let x ← p.x.asConst
  let y ← p.y.asConst
  pure ⟨x, y⟩

/-- fawkes-crypto_derive/src/signal.rs:184-186: `switch` -/
def switch (t : CEdwardsPoint F) (b : CBool F) (f : CEdwardsPoint F) : M F (CEdwardsPoint F) := do
  let x ← CNum.switch t.x b f.x
  let y ← CNum.switch t.y b f.y
  pure ⟨x, y⟩

/-- fawkes-crypto_derive/src/signal.rs:218-220: `alloc` -/
def alloc (v : Option (EdwardsPoint F)) : M F (CEdwardsPoint F) := do
  let x ← CNum.alloc (v.map EdwardsPoint.x)
  let y ← CNum.alloc (v.map EdwardsPoint.y)
  pure ⟨x, y⟩

/-- src/circuit/ecc.rs:30-38 -/
def double (p : CEdwardsPoint F) (J : JubJubParams F) : M F (CEdwardsPoint F) := do
  let v ← CNum.mul p.x p.y
  let v2 ← CNum.square v
  let u ← CNum.square (CNum.add p.x p.y)
  let x ← CNum.div (CNum.mulConst v 2) (CNum.addConst (CNum.mulConst v2 J.d) 1)
  let y ← CNum.div (CNum.sub u (CNum.mulConst v 2)) (CNum.constSub 1 (CNum.mulConst v2 J.d))
  pure ⟨x, y⟩

/-- src/circuit/ecc.rs:40-42 -/
def mulByCofactor (p : CEdwardsPoint F) (J : JubJubParams F) : M F (CEdwardsPoint F) := do
  let p2 ← p.double J
  let p4 ← p2.double J
  p4.double J

/-- src/circuit/ecc.rs:44-53 -/
def add (p q : CEdwardsPoint F) (J : JubJubParams F) : M F (CEdwardsPoint F) := do
  let v1 ← CNum.mul p.x q.y
  let v2 ← CNum.mul q.x p.y
  let v12 ← CNum.mul v1 v2
  let u ← CNum.mul (CNum.add p.x p.y) (CNum.add q.x q.y)
  let x ← CNum.div (CNum.add v1 v2) (CNum.addConst (CNum.mulConst v12 J.d) 1)
  let y ← CNum.div (CNum.sub (CNum.sub u v1) v2) (CNum.constSub 1 (CNum.mulConst v12 J.d))
  pure ⟨x, y⟩

/-- src/circuit/ecc.rs:55-60 -/
def assertInCurve (p : CEdwardsPoint F) (J : JubJubParams F) : M F Unit := do
  let x2 ← CNum.square p.x
  let y2 ← CNum.square p.y
  CS.enforce (CNum.mulConst x2 J.d) y2 (CNum.subConst (CNum.sub y2 x2) 1)

/-- src/circuit/ecc.rs:63, 77: `p.mul(num!(8).inverse(), params)` -/
def eighth (p : EdwardsPoint F) (J : JubJubParams F) [Fact J.l.Prime] : Except Panic (EdwardsPoint F) := do
  let k ← Num.inverse (8 : ZMod J.l)
  p.mul k J

/-- Apply a native computation that may panic to an optional value. -/
def mapValue {A B : Type} (f : A → Except Panic B) : Option A → Except Panic (Option B)
  | none => .ok none
  | some a => (f a).map some

/-- src/circuit/ecc.rs:62-70 -/
def assertInSubgroup (p : CEdwardsPoint F) (J : JubJubParams F) [Fact J.l.Prime] : M F Unit := do
  let v ← M.lift (mapValue (fun q => eighth q J) p.getValue)
  let preimage ← alloc v
  preimage.assertInCurve J
  let preimage8 ← preimage.mulByCofactor J
  CNum.assertZero (CNum.sub p.x preimage8.x)
  CNum.assertZero (CNum.sub p.y preimage8.y)

/-- src/circuit/ecc.rs:73-77: the witness of `subgroup_decompress` -/
def decompressValue (sqrt : F → Option F) (J : JubJubParams F) [Fact J.l.Prime] (x : F) :
    Except Panic (EdwardsPoint F) := do
  let q ← EdwardsPoint.subgroupDecompress sqrt x J
  eighth (q.getD J.g) J

/-- src/circuit/ecc.rs:72-83 -/
def subgroupDecompress (sqrt : F → Option F) (x : CNum F) (J : JubJubParams F) [Fact J.l.Prime] :
    M F (CEdwardsPoint F) := do
  let v ← M.lift (mapValue (decompressValue sqrt J) x.value)
  let preimage ← alloc v
  preimage.assertInCurve J
  let preimage8 ← preimage.mulByCofactor J
  CNum.assertZero (CNum.sub x preimage8.x)
  pure preimage8

/-- src/circuit/ecc.rs:85-90 -/
def intoMontgomery (p : CEdwardsPoint F) : M F (CMontgomeryPoint F) := do
  let x ← CNum.div (CNum.addConst p.y 1) (CNum.constSub 1 p.y)
  let y ← CNum.div x p.x
  pure ⟨x, y⟩

end CEdwardsPoint

namespace CMontgomeryPoint

/-- fawkes-crypto_derive/src/signal.rs:192-194: `from_const` -/
def fromConst (p : MontgomeryPoint F) : CMontgomeryPoint F := ⟨CNum.fromConst p.x, CNum.fromConst p.y⟩

/-- fawkes-crypto_derive/src/signal.rs:184-186: `switch` -/
def switch (t : CMontgomeryPoint F) (b : CBool F) (f : CMontgomeryPoint F) : M F (CMontgomeryPoint F) := do
  let x ← CNum.switch t.x b f.x
  let y ← CNum.switch t.y b f.y
  pure ⟨x, y⟩

/-- src/circuit/ecc.rs:250-262 -/
def double (p : CMontgomeryPoint F) (J : JubJubParams F) : M F (CMontgomeryPoint F) := do
  let x2 ← CNum.square p.x
  let l ← CNum.div
    (CNum.addConst (CNum.add (CNum.mulConst x2 3) (CNum.mulConst p.x (2 * J.a))) 1)
    (CNum.mulConst p.y (2 * J.b))
  let l2 ← CNum.square l
  let bl2 := CNum.mulConst l2 J.b
  let t ← CNum.mul l (CNum.sub (CNum.addConst (CNum.mulConst p.x 3) J.a) bl2)
  pure ⟨CNum.sub (CNum.subConst bl2 J.a) (CNum.mulConst p.x 2), CNum.sub t p.y⟩

/-- src/circuit/ecc.rs:264-274 -/
def add (p q : CMontgomeryPoint F) (J : JubJubParams F) : M F (CMontgomeryPoint F) := do
  let l ← CNum.div (CNum.sub q.y p.y) (CNum.sub q.x p.x)
  let l2 ← CNum.square l
  let bl2 := CNum.mulConst l2 J.b
  let t ← CNum.mul l (CNum.sub (CNum.addConst (CNum.addAssign (CNum.mulConst p.x 2) q.x) J.a) bl2)
  pure ⟨CNum.sub (CNum.sub (CNum.subConst bl2 J.a) p.x) q.x, CNum.sub t p.y⟩

/-- src/circuit/ecc.rs:276-283 -/
def intoEdwards (p : CMontgomeryPoint F) : M F (CEdwardsPoint F) := do
  let z ← CNum.isZero p.y
  let x ← CNum.div p.x (CNum.addAssign z.num p.y)
  let y ← CNum.div (CNum.subConst p.x 1) (CNum.addConst p.x 1)
  pure ⟨x, y⟩

end CMontgomeryPoint

namespace CEdwardsPoint

/-- src/circuit/ecc.rs:92-109, the loop of `gen_table`: `n` entries left. -/
def genTableLoop (p : EdwardsPointEx F) (J : JubJubParams F) :
    (n : Nat) → (q : EdwardsPointEx F) → Except Panic (List F × List F)
  | 0, _ => .ok ([], [])
  | n + 1, q => do
    match ← q.intoMontgomery with
    | none => .error .unwrap
    | some m => do
      let (xs, ys) ← genTableLoop p J n (q.add p J)
      pure (m.x :: xs, m.y :: ys)

/-- src/circuit/ecc.rs:93-109: `gen_table` -/
def genTable (p : EdwardsPointEx F) (J : JubJubParams F) : Except Panic (List (List F)) := do
  let (xs, ys) ← genTableLoop p J 8 p
  pure [xs, ys]

/-- src/circuit/ecc.rs:134-137: the loop that precomputes the starting point. -/
def startLoop (J : JubJubParams F) : (n : Nat) → (acc base : EdwardsPointEx F) → EdwardsPointEx F
  | 0, acc, _ => acc
  | n + 1, acc, base => startLoop J n (acc.add base J) base.double.double.double

/-- src/circuit/ecc.rs:128-139: the Montgomery form of the starting point. -/
def startPoint (n : Nat) (base : EdwardsPointEx F) (J : JubJubParams F) : Except Panic (MontgomeryPoint F) := do
  let acc := startLoop J n (EdwardsPoint.intoExtended ⟨0, -1⟩) base
  match ← acc.negate.intoMontgomery with
  | none => .error .unwrap
  | some m => pure m

/-- src/circuit/ecc.rs:144-153: the loop over the windows of three bits. -/
def windowLoop (J : JubJubParams F) : (bits : List (CBool F)) → (acc : CMontgomeryPoint F) → (base : EdwardsPointEx F) →
    M F (CMontgomeryPoint F)
  | b0 :: b1 :: b2 :: bits, acc, base => do
    let table ← M.lift (genTable base J)
    let res ← Mux.mux3 [b0, b1, b2] table
    match res with
    | [x, y] => do
      let acc ← acc.add ⟨x, y⟩ J
      windowLoop J bits acc base.double.double.double
    | _ => M.panic .outOfBounds
  | _, acc, _ => pure acc

/-- src/circuit/ecc.rs:119-122: padding to a multiple of three bits. -/
def padBits3 (bits : List (CBool F)) : List (CBool F) :=
  bits ++ List.replicate ((3 - bits.length % 3) % 3) (CBool.fromConst false)

/-- src/circuit/ecc.rs:155-159 and 187-191: leave the Montgomery form and negate both coordinates. -/
def finish (acc : CMontgomeryPoint F) : M F (CEdwardsPoint F) := do
  let res ← acc.intoEdwards
  pure ⟨CNum.neg res.x, CNum.neg res.y⟩

/-- src/circuit/ecc.rs:113-160: `mul` for a constant base. -/
def mulConstBase (c : EdwardsPoint F) (bits : List (CBool F)) (J : JubJubParams F) : M F (CEdwardsPoint F) :=
  let base := c.intoExtended
  if base.isZero then pure (fromConst EdwardsPoint.zero)
  else do
    let all := padBits3 bits
    let m ← M.lift (startPoint (all.length / 3) base J)
    let acc ← windowLoop J all (CMontgomeryPoint.fromConst m) base
    finish acc

/-- src/circuit/ecc.rs:170-173: the loop computing the doublings. -/
def doublings (J : JubJubParams F) : (n : Nat) → (p : CMontgomeryPoint F) → M F (List (CMontgomeryPoint F))
  | 0, _ => pure []
  | n + 1, p => do
    let q ← p.double J
    let rest ← doublings J n q
    pure (q :: rest)

/-- src/circuit/ecc.rs:181-184: the loop over the bits. -/
def addLoop (J : JubJubParams F) : (bits : List (CBool F)) → (exps : List (CMontgomeryPoint F)) →
    (acc : CMontgomeryPoint F) → M F (CMontgomeryPoint F)
  | b :: bits, e :: exps, acc => do
    let inc ← acc.add e J
    let acc ← inc.switch b acc
    addLoop J bits exps acc
  | [], _, acc => pure acc
  | _ :: _, [], _ => M.panic .outOfBounds

/-- src/circuit/ecc.rs:161-192: `mul` for a variable base. -/
def mulVarBase (p : CEdwardsPoint F) (bits : List (CBool F)) (J : JubJubParams F) : M F (CEdwardsPoint F) := do
  let z ← CNum.isZero p.x
  let base ← (fromConst J.g).switch z p
  let base ← base.intoMontgomery
  let exps ← doublings J (bits.length - 1) base
  let acc ← addLoop J bits (base :: exps) ⟨CNum.zero, CNum.zero⟩
  let acc ← CMontgomeryPoint.switch ⟨CNum.zero, CNum.zero⟩ z acc
  finish acc

/-- src/circuit/ecc.rs:92-194: `mul` -/
def mul (p : CEdwardsPoint F) (bits : List (CBool F)) (J : JubJubParams F) : M F (CEdwardsPoint F) :=
  match p.asConst with
  | some c => mulConstBase c bits J
  | none => mulVarBase p bits J

end CEdwardsPoint

end basic

namespace CEdwardsPoint

variable {r : Nat} [Fact r.Prime]

/-- src/circuit/ecc.rs:211-214: the witness for the square root. -/
def rootValue (sqrt : ZMod r → Option (ZMod r)) (J : JubJubParams (ZMod r)) (g : ZMod r) : Except Panic (ZMod r) :=
  match sqrt g with
  | some y => .ok (EdwardsPoint.filterEven y)
  | none =>
    match sqrt (g * J.u) with
    | some y => .ok (EdwardsPoint.filterEven y)
    | none => .error .unwrap

/-- src/circuit/ecc.rs:205-227: `check_and_get_y` -/
def checkAndGetY (sqrt : ZMod r → Option (ZMod r)) (x : CNum (ZMod r)) (J : JubJubParams (ZMod r)) :
    M (ZMod r) (CBool (ZMod r) × CNum (ZMod r)) := do
  let x2 ← CNum.square x
  let x3 ← CNum.mul x2 (CNum.addConst x J.a)
  let g ← CNum.divConst (CNum.addAssign x3 x) J.b
  let v ← M.lift (mapValue (rootValue sqrt J) g.value)
  let preimage ← CNum.alloc v
  let bits ← Bitify.intoBitsLEStrict preimage
  match bits with
  | [] => M.panic .outOfBounds
  | b :: _ => do
    b.assertFalse
    let sq ← CNum.square preimage
    let isSquare ← CNum.isZero (CNum.sub g sq)
    let isNotSquare ← CNum.isZero (CNum.sub (CNum.mulConst g J.u) sq)
    CNum.assertZero (CNum.subConst (CNum.addAssign isNotSquare.num isSquare.num) 1)
    pure (isSquare, preimage)

/-- src/circuit/ecc.rs:196-246: `from_scalar` -/
def fromScalar (sqrt : ZMod r → Option (ZMod r)) (t : CNum (ZMod r)) (J : JubJubParams (ZMod r)) :
    M (ZMod r) (CEdwardsPoint (ZMod r)) := do
  let t := CNum.addConst t 1
  let t2 ← CNum.square t
  let t2g1 := CNum.mulConst t2 J.u
  let i ← M.lift (Num.div (-1) J.a)
  let x3 := CNum.mulConst (CNum.addConst t2g1 1) i
  let x2 ← CNum.div x3 t2g1
  let (isValid, y2) ← checkAndGetY sqrt x2 J
  let (_, y3) ← checkAndGetY sqrt x3 J
  let x ← CNum.switch x2 isValid x3
  let y ← CNum.switch y2 isValid y3
  let m : CMontgomeryPoint (ZMod r) := ⟨x, y⟩
  let q ← m.intoEdwards
  q.mulByCofactor J

end CEdwardsPoint

end Fawkes
