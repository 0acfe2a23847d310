import Verif.Model.Poseidon

/-!
# Specification: the Poseidon permutation and Merkle trees

Written from the definition of the HADES construction, not from the code.
-/

namespace Fawkes.PoseidonSpec

variable {F : Type} [Field F]

/-- Parameters have the declared shape: `f + p` round constants, a `t × t` matrix. -/
structure Shaped (P : PoseidonParams F) : Prop where
  c : P.c.length = P.f + P.p
  rows : P.m.length = P.t
  cols : ∀ row ∈ P.m, row.length = P.t

/-- Matrix times vector. -/
def mulVec (m : List (List F)) (v : List F) : List F := m.map fun row => (List.zipWith (· * ·) row v).sum

/-- One round: add the constant to every element, raise to the fifth power (all elements in a full round,
the first one in a partial round), multiply by the matrix. -/
def round (m : List (List F)) (full : Bool) (c : F) (v : List F) : List F :=
  let v := v.map (· + c)
  mulVec m (if full then v.map (· ^ 5) else match v with
    | [] => []
    | x :: xs => x ^ 5 :: xs)

/-- `f` full rounds, the first `f/2` before and the rest after `p` partial rounds. -/
def schedule (f p : Nat) : List Bool :=
  List.replicate (f / 2) true ++ List.replicate p false ++ List.replicate (f - f / 2) true

/-- The permutation. -/
def permute (P : PoseidonParams F) (v : List F) : List F :=
  ((schedule P.f P.p).zip P.c).foldl (fun v fc => round P.m fc.1 fc.2 v) v

/-- The hash: first element of the permutation of the inputs padded with zeros. -/
def hash (P : PoseidonParams F) (inputs : List F) : F :=
  (permute P (inputs ++ List.replicate (P.t - inputs.length) 0)).headD 0

/-- The next level of a Merkle tree with compression function `h`. -/
def up (h : F → F → F) : List F → List F
  | a :: b :: rest => h a b :: up h rest
  | _ => []

/-- The level at height `j`. -/
def level (h : F → F → F) (leaves : List F) : Nat → List F
  | 0 => leaves
  | j + 1 => up h (level h leaves j)

/-- The leaves padded with zeros to `2^d`. -/
def padded (d : Nat) (leaves : List F) : List F := leaves ++ List.replicate (2 ^ d - leaves.length) 0

/-- The root of the perfect binary tree of height `d`. -/
def root (h : F → F → F) (d : Nat) (leaves : List F) : F := (level h (padded d leaves) d).headD 0

/-- The siblings on the path from leaf `i`, bottom up. -/
def siblings (h : F → F → F) (d : Nat) (leaves : List F) (i : Nat) : List F :=
  (List.range d).map fun j => (level h (padded d leaves) j).getD ((i / 2 ^ j) ^^^ 1) 0

/-- Direction bits: the binary digits of `i`. -/
def directions (d i : Nat) : List Bool := (List.range d).map fun j => i.testBit j

end Fawkes.PoseidonSpec
