import Verif.Spec.Files
import Verif.Spec.JsonData

/-!
# Specification: points and Merkle proofs as JSON
-/

namespace Fawkes.Json.Data

open Fawkes.Files

variable {p : Nat}

/-- A value that stands for a point: an object with the members x and y, in any order and any others besides, or an array of the two. -/
def IsPoint (j : Json) (x y : ZMod p) : Prop :=
  ∃ a b, ((∃ l, j = .obj l ∧ Member (chars! "x") l a ∧ Member (chars! "y") l b) ∨ j = .arr [a, b]) ∧ IsNum a x ∧ IsNum b y

/-- A value that stands for a Merkle proof: two lists, of whatever lengths. -/
def IsMerkleProof (j : Json) (sibling : List (ZMod p)) (path : List Bool) : Prop :=
  ∃ a b, ((∃ l, j = .obj l ∧ Member (chars! "sibling") l a ∧ Member (chars! "path") l b) ∨ j = .arr [a, b]) ∧
    IsVec IsNum a sibling ∧ b = .arr (path.map .bool)

/-- How a point is written. -/
def jsonPoint (x y : ZMod p) : Json := .obj [(chars! "x", jsonNumber x.val), (chars! "y", jsonNumber y.val)]

/-- How a Merkle proof is written. -/
def jsonMerkleProof (sibling : List (ZMod p)) (path : List Bool) : Json :=
  .obj [(chars! "sibling", .arr (sibling.map fun x => jsonNumber x.val)), (chars! "path", .arr (path.map .bool))]

end Fawkes.Json.Data
