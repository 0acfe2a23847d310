import Mathlib.Data.Nat.Digits.Defs

/-!
# Specification: integers spelled by bytes and bits
-/

namespace Fawkes

/-- The integer spelled by a little-endian byte string. -/
def leNat : List UInt8 → Nat
  | [] => 0
  | b :: bs => b.toNat + 256 * leNat bs

/-- The integer spelled by a big-endian byte string. -/
def beNat (bs : List UInt8) : Nat := leNat bs.reverse

/-- The integer spelled by little-endian bits. -/
def bitsNat : List Bool → Nat
  | [] => 0
  | b :: bs => b.toNat + 2 * bitsNat bs

end Fawkes
