/-!
# Specification: the number of constraints of a Merkle tree
-/

namespace Fawkes

/-- The number of constraints of a tree of `d` levels above `n` leaves that are not constants, all further leaves being the constant zero:
three constraints for every such node that is hashed, and `3 k` for every hash in which there is one; the hashes of constants are
free.  `k` is the number of the fifth powers in a hash after the first round. -/
def treeCount (k : Nat) : (d n : Nat) → Nat
  | 0, _ => 0
  | d + 1, n => 3 * n + 3 * k * ((n + 1) / 2) + treeCount k d ((n + 1) / 2)

end Fawkes
