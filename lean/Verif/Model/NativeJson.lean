import Verif.Model.Serde
import Verif.Model.Ecc
import Verif.Model.Poseidon

/-!
# Points and Merkle proofs as JSON

The derived `Serialize` and `Deserialize` of the native types that are not made of field elements alone.
-/

namespace Fawkes.Serde

variable {p : Nat}

/-- The fields of `EdwardsPoint` and `MontgomeryPoint`, src/native/ecc.rs:20-23, 27-30 -/
def pointLayout : Layout := .more (.one (chars! "x") .num) (chars! "y") .num

/-- The fields of `MerkleProof`, src/native/poseidon.rs:95-98; `n` is the length given by the type -/
def merkleProofLayout (n : Nat) : Layout := .more (.one (chars! "sibling") (.vec n .num)) (chars! "path") (.vec n .bool)

/-- src/native/ecc.rs:18: the derived `Serialize` of `EdwardsPoint` -/
def edwardsTo (P : EdwardsPoint (ZMod p)) : Except Panic Json := pointLayout.to (p := p) (P.x, P.y)

/-- src/native/ecc.rs:18: the derived `Deserialize` of `EdwardsPoint` -/
def edwardsOf (p : Nat) (j : Json) : Option (EdwardsPoint (ZMod p)) := (pointLayout.of p j).map fun v => ⟨v.1, v.2⟩

/-- src/native/ecc.rs:25: the derived `Serialize` of `MontgomeryPoint` -/
def montgomeryTo (P : MontgomeryPoint (ZMod p)) : Except Panic Json := pointLayout.to (p := p) (P.x, P.y)

/-- src/native/ecc.rs:25: the derived `Deserialize` of `MontgomeryPoint` -/
def montgomeryOf (p : Nat) (j : Json) : Option (MontgomeryPoint (ZMod p)) := (pointLayout.of p j).map fun v => ⟨v.1, v.2⟩

/-- src/native/poseidon.rs:93: the derived `Serialize` of `MerkleProof`; a proof is its two vectors. -/
def merkleProofTo (n : Nat) (m : SizedVec (ZMod p) n × SizedVec Bool n) : Except Panic Json := (merkleProofLayout n).to (p := p) m

/-- src/native/poseidon.rs:93: the derived `Deserialize` of `MerkleProof` -/
def merkleProofOf (p n : Nat) (j : Json) : Option (SizedVec (ZMod p) n × SizedVec Bool n) := (merkleProofLayout n).of p j

end Fawkes.Serde
