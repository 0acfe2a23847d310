import Verif.Model.Num

/-!
# Native elliptic curve arithmetic (src/native/ecc.rs)

Generic in the field `F`; functions that look at the parity of a field element are for `F = ZMod r`.
`sqrt` (src/native/num.rs:78-80, implemented by the `ff` crate) is a parameter.
-/

namespace Fawkes

/-- src/native/num.rs:164-166: `inverse` -/
def Num.inverse {F : Type} [Field F] [DecidableEq F] (a : F) : Except Panic F :=
  if a = 0 then .error .divByZero else .ok a⁻¹

/-- src/native/num.rs:363-368, 405-412: `a / b` -/
def Num.div {F : Type} [Field F] [DecidableEq F] (a b : F) : Except Panic F := do
  let i ← Num.inverse b
  pure (a * i)

/-- src/native/ecc.rs:10-16 -/
structure EdwardsPointEx (F : Type) where
  x : F
  y : F
  t : F
  z : F
deriving DecidableEq

/-- src/native/ecc.rs:18-23 -/
@[ext] structure EdwardsPoint (F : Type) where
  x : F
  y : F
deriving DecidableEq

/-- src/native/ecc.rs:25-30 -/
@[ext] structure MontgomeryPoint (F : Type) where
  x : F
  y : F
deriving DecidableEq

/-- src/native/ecc.rs:32-45: the values of an implementation of `JubJubParams`; `l` is the modulus of its scalar
field `Fs`. -/
structure JubJubParams (F : Type) where
  l : Nat
  g : EdwardsPoint F
  d : F
  a : F
  b : F
  u : F

/-- `BitIterator` over a limb vector (most significant bit first), as used in src/native/ecc.rs:347. -/
def reprBitsBE (r : List UInt64) : List Bool := ((List.range (r.length * 64)).map (Num.bitAt r)).reverse

namespace EdwardsPointEx

variable {F : Type} [Field F] [DecidableEq F]

/-- src/native/ecc.rs:46-50: `==` -/
def eq (p q : EdwardsPointEx F) : Bool := p.x * q.z == q.x * p.z && p.y * q.z == q.y * p.z

/-- src/native/ecc.rs:235-245 -/
def isInCurve (p : EdwardsPointEx F) (J : JubJubParams F) : Bool :=
  !(p.z == 0) && p.z * p.t == p.x * p.y &&
    p.y * p.y - p.x * p.x == p.z * p.z + J.d * (p.t * p.t)

/-- src/native/ecc.rs:265-267 -/
def isZero (p : EdwardsPointEx F) : Bool := p.x == 0 && p.y == p.z

/-- src/native/ecc.rs:269-276 -/
def zero : EdwardsPointEx F := ⟨0, 1, 0, 1⟩

/-- src/native/ecc.rs:278-283 -/
def negate (p : EdwardsPointEx F) : EdwardsPointEx F := { p with x := -p.x, t := -p.t }

/-- src/native/ecc.rs:285-310 -/
def double (p : EdwardsPointEx F) : EdwardsPointEx F :=
  let a := p.x * p.x
  let b := p.y * p.y
  let c := p.z * p.z + p.z * p.z
  let d := -a
  let e := (p.x + p.y) * (p.x + p.y) - a - b
  let g := d + b
  let f := g - c
  let h := d - b
  ⟨e * f, g * h, e * h, f * g⟩

/-- src/native/ecc.rs:312-336 -/
def add (p q : EdwardsPointEx F) (J : JubJubParams F) : EdwardsPointEx F :=
  let a := p.x * q.x
  let b := p.y * q.y
  let c := J.d * p.t * q.t
  let d := p.z * q.z
  let h := b + a
  let e := (p.x + p.y) * (q.x + q.y) - h
  let f := d - c
  let g := d + c
  ⟨e * f, g * h, e * h, f * g⟩

/-- src/native/ecc.rs:248-250 -/
def mulByCofactor (p : EdwardsPointEx F) : EdwardsPointEx F := p.double.double.double

/-- src/native/ecc.rs:252-258 -/
def intoAffine (p : EdwardsPointEx F) : Except Panic (EdwardsPoint F) := do
  let zinv ← Num.inverse p.z
  pure ⟨p.x * zinv, p.y * zinv⟩

/-- src/native/ecc.rs:342-355: `mul_raw` on the bits of the scalar, most significant first. -/
def mulBits (J : JubJubParams F) (p : EdwardsPointEx F) : (bits : List Bool) → (res : EdwardsPointEx F) →
    EdwardsPointEx F
  | [], res => res
  | b :: bits, res =>
    let res := res.double
    mulBits J p bits (if b then res.add p J else res)

/-- src/native/ecc.rs:342-355 -/
def mulRaw (p : EdwardsPointEx F) (scalar : List UInt64) (J : JubJubParams F) : EdwardsPointEx F :=
  mulBits J p (reprBitsBE scalar) zero

/-- src/native/ecc.rs:338-340; `J::Fs::char()` is the modulus as a limb vector. -/
def isInSubgroup (p : EdwardsPointEx F) (J : JubJubParams F) : Bool :=
  (p.mulRaw (limbsOf (nLimbs J.l) J.l) J).isZero

/-- src/native/ecc.rs:357-359 -/
def mul (p : EdwardsPointEx F) {l : Nat} [Fact l.Prime] (scalar : ZMod l) (J : JubJubParams F) : EdwardsPointEx F :=
  p.mulRaw (Num.intoRepr scalar) J

end EdwardsPointEx

namespace EdwardsPoint

variable {F : Type} [Field F] [DecidableEq F]

/-- src/native/ecc.rs:202-213 -/
def intoExtended (p : EdwardsPoint F) : EdwardsPointEx F := ⟨p.x, p.y, p.x * p.y, 1⟩

/-- src/native/ecc.rs:147-152 -/
def zero : EdwardsPoint F := ⟨0, 1⟩

/-- src/native/ecc.rs:154-156 -/
def isZero (p : EdwardsPoint F) : Bool := p.x == 0 && p.y == 1

/-- src/native/ecc.rs:158-160 -/
def mul (p : EdwardsPoint F) {l : Nat} [Fact l.Prime] (scalar : ZMod l) (J : JubJubParams F) :
    Except Panic (EdwardsPoint F) := (p.intoExtended.mul scalar J).intoAffine

/-- src/native/ecc.rs:162-166 -/
def add (p q : EdwardsPoint F) (J : JubJubParams F) : Except Panic (EdwardsPoint F) :=
  (p.intoExtended.add q.intoExtended J).intoAffine

/-- src/native/ecc.rs:168-170 -/
def double (p : EdwardsPoint F) : Except Panic (EdwardsPoint F) := p.intoExtended.double.intoAffine

/-- src/native/ecc.rs:172-174 -/
def mulByCofactor (p : EdwardsPoint F) : Except Panic (EdwardsPoint F) := p.intoExtended.mulByCofactor.intoAffine

/-- src/native/ecc.rs:176-183 -/
def isInCurve (p : EdwardsPoint F) (J : JubJubParams F) : Bool :=
  let x2 := p.x * p.x
  let y2 := p.y * p.y
  y2 - x2 == 1 + J.d * x2 * y2

/-- src/native/ecc.rs:185-200 -/
def intoMontgomery (p : EdwardsPoint F) : Except Panic (Option (MontgomeryPoint F)) :=
  if p.x = 0 then
    if p.y = 1 then .ok none else .ok (some ⟨0, 0⟩)
  else do
    let mx ← Num.div (1 + p.y) (1 - p.y)
    let my ← Num.div mx p.x
    pure (some ⟨mx, my⟩)

/-- src/native/ecc.rs:68-89: `subgroup_decompress` -/
def subgroupDecompress (sqrt : F → Option F) (x : F) (J : JubJubParams F) :
    Except Panic (Option (EdwardsPoint F)) := do
  let x2 := x * x
  let t ← Num.div (x2 + 1) (1 - J.d * x2)
  match sqrt t with
  | some y => do
    let q ← ((EdwardsPoint.intoExtended ⟨x, y⟩).mulRaw (limbsOf (nLimbs J.l) J.l) J).intoAffine
    if q.x = 0 then
      if q.y = 1 then pure (some ⟨x, y⟩) else pure (some ⟨x, -y⟩)
    else pure none
  | none => pure none

end EdwardsPoint

namespace EdwardsPointEx

variable {F : Type} [Field F] [DecidableEq F]

/-- src/native/ecc.rs:260-262 -/
def intoMontgomery (p : EdwardsPointEx F) : Except Panic (Option (MontgomeryPoint F)) := do
  let q ← p.intoAffine
  q.intoMontgomery

end EdwardsPointEx

namespace MontgomeryPoint

variable {F : Type} [Field F] [DecidableEq F]

/-- src/native/ecc.rs:216-227 -/
def intoAffine (p : MontgomeryPoint F) : Except Panic (EdwardsPoint F) :=
  if p.x = 0 then .ok ⟨0, -1⟩
  else do
    let ex ← Num.div p.x p.y
    let ey ← Num.div (p.x - 1) (p.x + 1)
    pure ⟨ex, ey⟩

/-- src/native/ecc.rs:229-231 -/
def intoExtended (p : MontgomeryPoint F) : Except Panic (EdwardsPointEx F) := do
  let q ← p.intoAffine
  pure q.intoExtended

end MontgomeryPoint

namespace EdwardsPoint

variable {r : Nat} [Fact r.Prime]

/-- src/native/ecc.rs:54-66: `get_for_y` -/
def getForY (sqrt : ZMod r → Option (ZMod r)) (y : ZMod r) (sign : Bool) (J : JubJubParams (ZMod r)) :
    Except Panic (Option (EdwardsPoint (ZMod r))) := do
  let y2 := y * y
  let t ← Num.div (y2 - 1) (J.d * y2 + 1)
  pure ((sqrt t).map fun x => if Num.isOdd x ≠ sign then ⟨-x, y⟩ else ⟨x, y⟩)

/-- src/native/ecc.rs:91-97: `rand`, where the random generator is the list of pairs it is going to produce; `none`
when the loop is still running at the end of the list. -/
def rand (sqrt : ZMod r → Option (ZMod r)) (J : JubJubParams (ZMod r)) :
    List (ZMod r × Bool) → Except Panic (Option (EdwardsPoint (ZMod r)))
  | [] => .ok none
  | (y, sign) :: rest => do
    match ← getForY sqrt y sign J with
    | some p => pure (some p)
    | none => rand sqrt J rest

/-- src/native/ecc.rs:105-107: the right-hand side of the Montgomery equation, divided by `B`. -/
def montG (x a b : ZMod r) : Except Panic (ZMod r) := Num.div (x * x * (x + a) + x) b

/-- src/native/ecc.rs:109-115 -/
def filterEven (x : ZMod r) : ZMod r := if Num.isEven x then x else -x

/-- src/native/ecc.rs:99-135: `from_scalar_raw` -/
def fromScalarRaw (sqrt : ZMod r → Option (ZMod r)) (t a b u : ZMod r) : Except Panic (EdwardsPoint (ZMod r)) := do
  let t := t + 1
  let t2g1 := t * t * u
  let i ← Num.div (-1) a
  let j ← Num.inverse t2g1
  let x2 := i * (1 + j)
  let g2 ← montG x2 a b
  let m ← match sqrt g2 with
    | some y2 => pure (⟨x2, filterEven y2⟩ : MontgomeryPoint (ZMod r))
    | none => do
      let x3 := x2 * t2g1
      let g3 ← montG x3 a b
      match sqrt g3 with
      | some y3 => pure ⟨x3, filterEven y3⟩
      | none => .error .unwrap
  let q ← m.intoExtended
  q.mulByCofactor.intoAffine

/-- src/native/ecc.rs:138-145: `from_scalar` -/
def fromScalar (sqrt : ZMod r → Option (ZMod r)) (t : ZMod r) (J : JubJubParams (ZMod r)) :
    Except Panic (EdwardsPoint (ZMod r)) := fromScalarRaw sqrt t J.a J.b J.u

end EdwardsPoint

end Fawkes
