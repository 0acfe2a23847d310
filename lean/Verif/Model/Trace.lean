import Verif.Model.Eddsa

/-!
# The sequence of point operations of scalar multiplication and signing (src/native/ecc.rs, src/native/eddsaposeidon.rs)

The same code as in `Verif.Model.Ecc` and `Verif.Model.Eddsa`, which also records which point operations it executes: what somebody sees
who measures time or power.  Simplification: `add` and `double` have no branches, so that each counts as one operation; the inversion at the
end and the hash functions are not recorded.
-/

namespace Fawkes

/-- The operations that are recorded. -/
inductive PointOp where
  /-- src/native/ecc.rs:285-310: `double` -/
  | double
  /-- src/native/ecc.rs:312-336: `add` -/
  | add
deriving DecidableEq

namespace EdwardsPointEx

variable {F : Type} [Field F] [DecidableEq F]

/-- src/native/ecc.rs:347-353: the loop of `mul_raw`, with the operations so far. -/
def mulBitsTrace (J : JubJubParams F) (p : EdwardsPointEx F) : (bits : List Bool) → (res : EdwardsPointEx F) → (trace : List PointOp) →
    EdwardsPointEx F × List PointOp
  | [], res, trace => (res, trace)
  | b :: bits, res, trace =>
    let res := res.double
    let trace := trace ++ [.double]
    if b then mulBitsTrace J p bits (res.add p J) (trace ++ [.add]) else mulBitsTrace J p bits res trace

/-- src/native/ecc.rs:342-359: `mul` -/
def mulTrace (p : EdwardsPointEx F) {l : Nat} [Fact l.Prime] (scalar : ZMod l) (J : JubJubParams F) : EdwardsPointEx F × List PointOp :=
  mulBitsTrace J p (reprBitsBE (Num.intoRepr scalar)) zero []

end EdwardsPointEx

/-- src/native/ecc.rs:158-160: `EdwardsPoint::mul` -/
def EdwardsPoint.mulTrace {F : Type} [Field F] [DecidableEq F] (p : EdwardsPoint F) {l : Nat} [Fact l.Prime] (scalar : ZMod l)
    (J : JubJubParams F) : Except Panic (EdwardsPoint F × List PointOp) := do
  let q := p.intoExtended.mulTrace scalar J
  let a ← q.1.intoAffine
  pure (a, q.2)

/-- src/native/eddsaposeidon.rs:27-38: `eddsaposeidon_sign` -/
def Eddsa.signTrace {r : Nat} [Fact r.Prime] (J : JubJubParams (ZMod r)) [Fact J.l.Prime] (sk : ZMod J.l) (m : ZMod r)
    (P : PoseidonParams (ZMod r)) : Except Panic ((ZMod J.l × ZMod r) × List PointOp) := do
  let rho ← Eddsa.hashR sk m
  let rp ← J.g.mulTrace rho J
  let ap ← J.g.mulTrace sk J
  let h ← Eddsa.hashRam rp.1.x ap.1.x m P
  let h' ← Num.intoOther J.l h
  pure ((rho + h' * sk, rp.1.x), rp.2 ++ ap.2)

end Fawkes
