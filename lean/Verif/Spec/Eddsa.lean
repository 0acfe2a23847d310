import Verif.Spec.Ecc
import Verif.Spec.Poseidon
import Verif.Spec.Bytes
import Verif.Model.Seedbox

/-!
# Specification of the signature scheme

The signature equation in the group of the curve, with the Poseidon permutation of `Verif.Spec.Poseidon` as hash.
-/

namespace Fawkes.EddsaSpec

/-- The domain separator: the Blake2s hash of `eddsaposeidon`, personalised with `__fawkes`, of the byte length of the
modulus, read as a big-endian number. -/
def domain (r : Nat) : ZMod r := (beNat (Blake2s.hash (numBytes r) personalization seedEddsaPoseidon) : ZMod r)

variable {r : Nat} [Fact r.Prime]

/-- The challenge `H(r, a, m)`. -/
def challenge (P : PoseidonParams (ZMod r)) (rx a m : ZMod r) : ZMod r := PoseidonSpec.hash P [rx, a, m, domain r]

/-- `(s, rx)` is a signature of `m` under the public key `a`: `rx` and `a` are abscissas of points `R` and `A` of the
subgroup of order `l`, and `s G = R + H(rx, a, m) A`. -/
def IsSignature {C : EdCurve (ZMod r)} (l : Nat) (G : EdPoint C) (P : PoseidonParams (ZMod r)) (s : Nat)
    (rx a m : ZMod r) : Prop :=
  ∃ R A : EdPoint C, InSubgroup l R ∧ InSubgroup l A ∧ R.x = rx ∧ A.x = a ∧
    s • G = R + (challenge P rx a m).val • A

end Fawkes.EddsaSpec
