import Mathlib.Data.ZMod.Basic
import Verif.Spec.Bytes
import Verif.Spec.Groth16

/-!
# Specification: the numbers that stand for points

A point is written as one number of `n` bits, most significant byte first.  The top bits are flags.
-/

namespace Fawkes.Groth16

variable {K : Type} [CommRing K]

/-- An element of the base field: its representative. -/
def fqNumber {q : Nat} (x : ZMod q) : Nat := x.val

/-- An element `c0 + c1·u` of the extension field of a field with elements of `n` bits: `c1·2^n + c0`. -/
def fq2Number {q : Nat} (n : Nat) (x : QuadraticAlgebra (ZMod q) (-1) 0) : Nat := x.im.val * 2 ^ n + x.re.val

/-- BN256, compressed: bit `n - 1` tells which of the two ordinates is meant, bit `n - 2` stands for infinity. -/
def bnCode (number : K → Nat) (n : Nat) : Coords K → Nat
  | none => 2 ^ (n - 2)
  | some (x, y) => number x + if number (-y) < number y then 2 ^ (n - 1) else 0

/-- BLS12-381, compressed: bit `n - 1` is set, bit `n - 2` stands for infinity, bit `n - 3` tells which of the two ordinates is
meant. -/
def blsCode (number : K → Nat) (n : Nat) : Coords K → Nat
  | none => 2 ^ (n - 1) + 2 ^ (n - 2)
  | some (x, y) => 2 ^ (n - 1) + number x + if number (-y) < number y then 2 ^ (n - 3) else 0

/-- Both curves, uncompressed, with coordinates of `n` bits: the two coordinates one after the other; the second highest bit stands
for infinity. -/
def rawCode (number : K → Nat) (n : Nat) : Coords K → Nat
  | none => 2 ^ (2 * n - 2)
  | some (x, y) => number x * 2 ^ n + number y

end Fawkes.Groth16
