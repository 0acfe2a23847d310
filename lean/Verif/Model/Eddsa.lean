import Verif.Model.Ecc
import Verif.Model.CEcc
import Verif.Model.Poseidon
import Verif.Model.Seedbox

/-!
# EdDSA with Poseidon (src/native/eddsaposeidon.rs, src/circuit/eddsaposeidon.rs)

`r` is the modulus of `Fr`, `J.l` the modulus of `J::Fs`.  Square roots are a parameter, as in `Verif.Model.Ecc`.
-/

namespace Fawkes.Eddsa

variable {r : Nat} [Fact r.Prime]

/-- src/native/eddsaposeidon.rs:11-16: `hash_r` -/
def hashR {l : Nat} [Fact l.Prime] (sk : ZMod l) (m : ZMod r) : Except Panic (ZMod l) := do
  let b1 ← Num.intoBinaryBE sk
  let b2 ← Num.intoBinaryBE m
  Num.fromBinaryBE l (Blake2s.hash 32 personalization (b1 ++ b2))

/-- src/native/eddsaposeidon.rs:18-25: `hash_ram`.  The seed element is computed after the arity checks of
`poseidon_with_salt` (src/native/poseidon.rs:82-89); both can only panic, so the order is not observable. -/
def hashRam (rx a m : ZMod r) (P : PoseidonParams (ZMod r)) : Except Panic (ZMod r) := do
  let seed ← Num.fromSeed r seedEddsaPoseidon
  Poseidon.poseidonWithSalt [rx, a, m] seed P

/-- src/native/eddsaposeidon.rs:27-38: `eddsaposeidon_sign` -/
def sign (J : JubJubParams (ZMod r)) [Fact J.l.Prime] (sk : ZMod J.l) (m : ZMod r) (P : PoseidonParams (ZMod r)) :
    Except Panic (ZMod J.l × ZMod r) := do
  let rho ← hashR sk m
  let rp ← J.g.mul rho J
  let ap ← J.g.mul sk J
  let h ← hashRam rp.x ap.x m P
  let h' ← Num.intoOther J.l h
  pure (rho + h' * sk, rp.x)

/-- src/native/eddsaposeidon.rs:40-66: `eddsaposeidon_verify` -/
def verify (sqrt : ZMod r → Option (ZMod r)) (J : JubJubParams (ZMod r)) [Fact J.l.Prime] (s : ZMod J.l) (rx a m : ZMod r)
    (P : PoseidonParams (ZMod r)) : Except Panic Bool := do
  match ← EdwardsPoint.subgroupDecompress sqrt a J with
  | none => pure false
  | some pa =>
    match ← EdwardsPoint.subgroupDecompress sqrt rx J with
    | none => pure false
    | some pr => do
      let h ← hashRam rx a m P
      let h' ← Num.intoOther J.l h
      let ha ← pa.mul h' J
      let sb ← J.g.mul s J
      let haR ← ha.add pr J
      pure (sb.x == haR.x && sb.y == haR.y)

/-- src/circuit/eddsaposeidon.rs:15-45: `c_eddsaposeidon_verify` -/
def cVerify (sqrt : ZMod r → Option (ZMod r)) (J : JubJubParams (ZMod r)) [Fact J.l.Prime] (s rx a m : CNum (ZMod r))
    (P : PoseidonParams (ZMod r)) : M (ZMod r) (CBool (ZMod r)) := do
  M.assert (decide (numBits r > numBits J.l)) .assertion
  let pa ← CEdwardsPoint.subgroupDecompress sqrt a J
  let pr ← CEdwardsPoint.subgroupDecompress sqrt rx J
  let seed ← M.lift (Num.fromSeed r seedEddsaPoseidon)
  let h ← CPoseidon.poseidonWithSalt [rx, a, m] seed P
  let hBits ← Bitify.intoBitsLEStrict h
  let ha ← pa.mul hBits J
  let sBits ← Bitify.intoBitsLE s (numBits J.l)
  let sb ← (CEdwardsPoint.fromConst J.g).mul sBits J
  let haR ← ha.add pr J
  CNum.isZero (CNum.sub haR.x sb.x)

end Fawkes.Eddsa
