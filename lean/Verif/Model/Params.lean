import Verif.Model.Ecc
import Verif.Model.Seedbox
import Verif.Lemmas.Primes

/-!
# The shipped curve parameters (src/native/bn256.rs, src/native/bls12_381.rs)
-/

namespace Fawkes

/-- The common body of `JubJubBN256::new` (src/native/bn256.rs:27-50) and `JubJubBLS12_381::new`
(src/native/bls12_381.rs:27-50): they differ in the literals only. -/
def JubJubParams.build {r : Nat} [Fact r.Prime] (sqrt : ZMod r → Option (ZMod r)) (l : Nat) (dNum dDen u : ZMod r) :
    Except Panic (JubJubParams (ZMod r)) := do
  let d ← Num.div (-dNum) dDen
  let a ← Num.div (2 * (1 - d)) (1 + d)
  let b ← Num.div (-4) (1 + d)
  let t ← Num.fromSeed r seedEdwardsG
  let g ← EdwardsPoint.fromScalarRaw sqrt t a b u
  pure ⟨l, g, d, a, b, u⟩

/-- src/native/bn256.rs:13-50 -/
def jubjubBN256 (sqrt : ZMod bnR → Option (ZMod bnR)) : Except Panic (JubJubParams (ZMod bnR)) :=
  JubJubParams.build sqrt bnL 168696 168700 337401

/-- src/native/bls12_381.rs:13-50 -/
def jubjubBLS12_381 (sqrt : ZMod blsR → Option (ZMod blsR)) : Except Panic (JubJubParams (ZMod blsR)) :=
  JubJubParams.build sqrt blsL 10240 10241 81929

end Fawkes
