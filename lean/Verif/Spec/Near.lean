import Verif.Model.Groth16

/-!
# Specification: the bytes of the NEAR binding

Points, proofs and keys as sequences of numbers, without the writers and readers of Model/Groth16.lean.
-/

namespace Fawkes.Groth16.Near

/-- A number in `n` bytes, the least significant first. -/
def number (n v : Nat) : List UInt8 := (List.range n).map fun i => UInt8.ofNat (v / 256 ^ i)

variable {p : Nat}

/-- The numbers of a point of the first group: abscissa and ordinate, or zeros for infinity. -/
def numbers1 (P : Affine (ZMod p)) : List Nat := if P.infinity then [0, 0] else [P.x.val, P.y.val]

/-- The numbers of a point of the second group: of each coordinate first the real part. -/
def numbers2 (P : Affine (Fq2 (ZMod p))) : List Nat :=
  if P.infinity then [0, 0, 0, 0] else [P.x.re.val, P.x.im.val, P.y.re.val, P.y.im.val]

end Fawkes.Groth16.Near
