import Verif.Spec.Near
import Verif.Spec.JsonGrammar
import Verif.Spec.Base64
import Verif.Model.Serde

/-!
# Specification: what the files of keys, proofs and public inputs contain

The readers are other programs: contracts on the chains.  Written without the writers of Model/Serde.lean, Model/Groth16.lean and
Model/Cli.lean.
-/

namespace Fawkes.Files

open Fawkes.Groth16 Fawkes.Groth16.Near

variable {p r : Nat}

/-! ### Ethereum: JSON -/

/-- A number: a string of decimal digits. -/
def jsonNumber (n : Nat) : Json := .str (Nat.toDigits 10 n)

/-- A point of the first group: abscissa and ordinate, or zeros for infinity. -/
def jsonPoint1 (P : Affine (ZMod p)) : Json :=
  if P.infinity then .arr [jsonNumber 0, jsonNumber 0] else .arr [jsonNumber P.x.val, jsonNumber P.y.val]

/-- A point of the second group: of each coordinate first the imaginary part. -/
def jsonPoint2 (P : Affine (Fq2 (ZMod p))) : Json :=
  if P.infinity then .arr [.arr [jsonNumber 0, jsonNumber 0], .arr [jsonNumber 0, jsonNumber 0]]
  else .arr [.arr [jsonNumber P.x.im.val, jsonNumber P.x.re.val], .arr [jsonNumber P.y.im.val, jsonNumber P.y.re.val]]

def jsonKey (v : VK (Affine (ZMod p)) (Affine (Fq2 (ZMod p)))) : Json :=
  .obj [(chars! "alpha_g1", jsonPoint1 v.alphaG1), (chars! "beta_g2", jsonPoint2 v.betaG2), (chars! "gamma_g2", jsonPoint2 v.gammaG2),
    (chars! "delta_g2", jsonPoint2 v.deltaG2), (chars! "ic", .arr (v.ic.map jsonPoint1))]

def jsonProof (P : Proof (Affine (ZMod p)) (Affine (Fq2 (ZMod p)))) : Json :=
  .obj [(chars! "a", jsonPoint1 P.a), (chars! "b", jsonPoint2 P.b), (chars! "c", jsonPoint1 P.c)]

def jsonInputs (l : List (ZMod r)) : Json := .arr (l.map fun x => jsonNumber x.val)

/-- The members of an object. -/
def members : Json → List (List Char × Json)
  | .obj l => l
  | _ => []

/-- The data of a circuit: numbers are strings, vectors and pairs are arrays, structs are objects with their fields in order. -/
def jsonData : (l : Serde.Layout) → l.ty.V (ZMod r) → Json
  | .num => fun v => jsonNumber (ZMod.val (n := r) v)
  | .bool => fun v => .bool v
  | .vec _ a => fun v => .arr (v.items.map (jsonData a))
  | .pair a b => fun v => .arr [jsonData a v.1, jsonData b v.2]
  | .one name a => fun v => .obj [(name, jsonData a v)]
  | .more f name a => fun v => .obj (members (jsonData f v.1) ++ [(name, jsonData a v.2)])

/-! ### Waves: bytes in base64

`e1` and `e2` are the compressed points. -/

def wavesKey {G1 G2 : Type} (e1 : G1 → List UInt8) (e2 : G2 → List UInt8) (v : VK G1 G2) : List UInt8 :=
  e1 v.alphaG1 ++ e2 v.betaG2 ++ e2 v.gammaG2 ++ e2 v.deltaG2 ++ (v.ic.map e1).flatten

def wavesProof {G1 G2 : Type} (e1 : G1 → List UInt8) (e2 : G2 → List UInt8) (P : Proof G1 G2) : List UInt8 := e1 P.a ++ e2 P.b ++ e1 P.c

/-- The public inputs, of each the most significant byte first; no length. -/
def wavesInputs (l : List (ZMod r)) : List UInt8 := l.flatMap fun x => (number (8 * nLimbs r) x.val).reverse

/-! ### Near: bytes in base64 -/

def nearKey (v : VK (Affine (ZMod p)) (Affine (Fq2 (ZMod p)))) : List UInt8 :=
  (numbers1 v.alphaG1 ++ numbers2 v.betaG2 ++ numbers2 v.gammaG2 ++ numbers2 v.deltaG2).flatMap (number (8 * nLimbs p)) ++
    number 4 v.ic.length ++ (v.ic.flatMap numbers1).flatMap (number (8 * nLimbs p))

def nearProof (P : Proof (Affine (ZMod p)) (Affine (Fq2 (ZMod p)))) : List UInt8 :=
  (numbers1 P.a ++ numbers2 P.b ++ numbers1 P.c).flatMap (number (8 * nLimbs p))

/-- The public inputs: their number in four bytes, then each the least significant byte first. -/
def nearInputs (l : List (ZMod r)) : List UInt8 := number 4 l.length ++ l.flatMap fun x => number (8 * nLimbs r) x.val

end Fawkes.Files
