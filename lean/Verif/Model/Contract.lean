import Verif.Model.Groth16
import Verif.Lemmas.PrimesQ
import Verif.Lemmas.NatCurve

/-!
# What the generated Solidity contract does (src/helpers/groth16/ethereum.rs:7-196)

`Model/Solidity.lean` models the text `generate_sol_data` returns.  Here the functions of that text are modelled: each
definition cites the lines of the template it models.  The semantics of Solidity 0.6 used are: `uint256` arithmetic wraps,
a failing `require` reverts, an index out of bounds and the opcode `invalid` abort.  The gas passed to the precompiled
contracts is assumed to suffice.  The precompiled contracts 6, 7 and 8 are modelled from EIP-196 and EIP-197.
-/

namespace Fawkes.Groth16

/-- `-1` has no square root modulo the base field modulus, so `Fq2` is a field. -/
instance bnQ_fq2 : Fact (∀ r : ZMod bnQ, r ^ 2 ≠ -1 + 0 * r) := ⟨fun r h => by
  have := not_isSquare_of_powMod (r := bnQ) (by decide) 254 (bnQ - 1) (by decide) (by decide +kernel)
  apply this
  refine ⟨r, ?_⟩
  have h1 : ((bnQ - 1 : Nat) : ZMod bnQ) = -1 := by decide +kernel
  rw [h1, ← pow_two, h]; ring⟩

namespace Contract

/-- `uint256` -/
abbrev Word : Type := BitVec 256

/-- The group of points of `y² = x³ + b` over a field. -/
abbrev PointsOf {L : Type} [Field L] (b : L) : Type := (curve b).Point

/-- The group of BN256's `G1`. -/
abbrev E1 : Type := PointsOf bnB

/-- The group of the twist; `G2` is its subgroup of points killed by the group order. -/
abbrev E2 : Type := PointsOf bnB2

/-- How a call ends if it does not return: a `require` with its message, or the opcode `invalid`. -/
inductive Abort where
  | proofElement
  | inputElement
  | invalid
deriving DecidableEq

/-! ### The environment: precompiled contracts (EIP-196, EIP-197) -/

section evm

open Classical

/-- EIP-196: two words are the coordinates of a point of `G1`, both less than the modulus; two zeros are infinity. -/
noncomputable def decodeG1 (x y : Word) : Option E1 :=
  if bnQ ≤ x.toNat ∨ bnQ ≤ y.toNat then none
  else if x = 0 ∧ y = 0 then some 0
  else if h : (curve bnB).Nonsingular (x.toNat : ZMod bnQ) (y.toNat : ZMod bnQ) then some (.some _ _ h)
  else none

/-- EIP-196: the words of a point. -/
noncomputable def encodeG1 : E1 → List Word
  | .zero => [0, 0]
  | .some x y _ => [BitVec.ofNat 256 x.val, BitVec.ofNat 256 y.val]

/-- EIP-197: four words are the coordinates of a point of the twist, imaginary parts first; it has to lie in the subgroup. -/
noncomputable def decodeG2 (x0 x1 y0 y1 : Word) : Option E2 :=
  if bnQ ≤ x0.toNat ∨ bnQ ≤ x1.toNat ∨ bnQ ≤ y0.toNat ∨ bnQ ≤ y1.toNat then none
  else if x0 = 0 ∧ x1 = 0 ∧ y0 = 0 ∧ y1 = 0 then some 0
  else if h : (curve bnB2).Nonsingular (⟨x1.toNat, x0.toNat⟩ : Fq2 (ZMod bnQ)) ⟨y1.toNat, y0.toNat⟩ then
    let P : E2 := .some _ _ h
    if bnR • P = 0 then some P else none
  else none

/-- Contract 6, `ECADD`: the sum of two points.  Missing input reads as zeros, further input is ignored; `none` is failure. -/
noncomputable def ecAdd (input : List Word) : Option (List Word) := do
  let P ← decodeG1 (input.getD 0 0) (input.getD 1 0)
  let Q ← decodeG1 (input.getD 2 0) (input.getD 3 0)
  pure (encodeG1 (P + Q))

/-- Contract 7, `ECMUL`: the multiple of a point by any 256 bit number. -/
noncomputable def ecMul (input : List Word) : Option (List Word) := do
  let P ← decodeG1 (input.getD 0 0) (input.getD 1 0)
  pure (encodeG1 ((input.getD 2 0).toNat • P))

/-- The points of the pairs contract 8 gets, six words each; `none` if the length does not fit or a point is not valid. -/
noncomputable def decodePairs : List Word → Option (List (E1 × E2))
  | [] => some []
  | x :: y :: x0 :: x1 :: y0 :: y1 :: rest => do
    let P ← decodeG1 x y
    let Q ← decodeG2 x0 x1 y0 y1
    let l ← decodePairs rest
    pure ((P, Q) :: l)
  | _ => none

/-- Contract 8, `ECPAIRING`: one word, `1` if the product of the pairings is one and `0` otherwise. -/
noncomputable def ecPairing {T : Type} [CommGroup T] (e : E1 → E2 → T) (input : List Word) : Option (List Word) := do
  let l ← decodePairs input
  pure [if (l.map fun q => e q.1 q.2).prod = 1 then 1 else 0]

end evm

/-! ### The library `Pairing` -/

/-- src/helpers/groth16/ethereum.rs:10, 128: `PRIME_Q` -/
def PRIME_Q : Word := 21888242871839275222246405745257275088696311157297823662689037894645226208583

/-- src/helpers/groth16/ethereum.rs:127: `SNARK_SCALAR_FIELD` -/
def SNARK_SCALAR_FIELD : Word := 21888242871839275222246405745257275088548364400416034343698204186575808495617

/-- src/helpers/groth16/ethereum.rs:12-15: `G1Point` -/
structure G1Point where
  X : Word
  Y : Word
deriving DecidableEq

/-- src/helpers/groth16/ethereum.rs:17-21: `G2Point` -/
structure G2Point where
  X : Word × Word
  Y : Word × Word
deriving DecidableEq

/-- src/helpers/groth16/ethereum.rs:26-33: `negate` -/
def negate (p : G1Point) : G1Point :=
  if p.X = 0 ∧ p.Y = 0 then ⟨0, 0⟩ else ⟨p.X, PRIME_Q - p.Y % PRIME_Q⟩

/-- What a `staticcall` that returns `out` leaves in the point `r`: the memory written is as long as what was returned, at
most `n` words. -/
def G1Point.write (r : G1Point) (n : Nat) (out : List Word) : G1Point :=
  ⟨(out.take n).getD 0 r.X, (out.take n).getD 1 r.Y⟩

/-- src/helpers/groth16/ethereum.rs:38-57: `plus`.  The array has four words but `0xc0` bytes are passed; `mem` is what the
memory holds behind the array. -/
noncomputable def plus (mem : List Word) (p1 p2 : G1Point) : Except Abort G1Point :=
  let input := [p1.X, p1.Y, p2.X, p2.Y]
  match ecAdd ((input ++ mem).take 6) with
  | none => .error .invalid
  | some out => .ok (G1Point.write ⟨0, 0⟩ 3 out)

/-- src/helpers/groth16/ethereum.rs:64-78: `scalar_mul`.  The array has three words but `0x80` bytes are passed. -/
noncomputable def scalarMul (mem : List Word) (p : G1Point) (s : Word) : Except Abort G1Point :=
  let input := [p.X, p.Y, s]
  match ecMul ((input ++ mem).take 4) with
  | none => .error .invalid
  | some out => .ok (G1Point.write ⟨0, 0⟩ 3 out)

/-- src/helpers/groth16/ethereum.rs:100-108: the loop that fills `input` -/
def pairingInput : List (G1Point × G2Point) → List Word
  | [] => []
  | (p1, p2) :: rest => p1.X :: p1.Y :: p2.X.1 :: p2.X.2 :: p2.Y.1 :: p2.Y.2 :: pairingInput rest

/-- src/helpers/groth16/ethereum.rs:84-123: `pairing` -/
noncomputable def pairing {T : Type} [CommGroup T] (e : E1 → E2 → T) (a1 : G1Point) (a2 : G2Point) (b1 : G1Point)
    (b2 : G2Point) (c1 : G1Point) (c2 : G2Point) (d1 : G1Point) (d2 : G2Point) : Except Abort Bool :=
  let input := pairingInput [(a1, a2), (b1, b2), (c1, c2), (d1, d2)]
  match ecPairing e input with
  | none => .error .invalid
  | some out => .ok ((out.take 1).getD 0 0 != 0)

/-! ### The contract `Verifier` -/

/-- src/helpers/groth16/ethereum.rs:131-137: `VerifyingKey` -/
structure VerifyingKey where
  alfa1 : G1Point
  beta2 : G2Point
  gamma2 : G2Point
  delta2 : G2Point
  IC : List G1Point

/-- src/helpers/groth16/ethereum.rs:139-143: `Proof` -/
structure SolProof where
  A : G1Point
  B : G2Point
  C : G1Point

/-- The numeral of a field element (src/helpers/groth16/ethereum.rs:198-211) as a constant of the contract. -/
def constant (x : ZMod bnQ) : Word := BitVec.ofNat 256 x.val

/-- `Pairing.G1Point(<numerals>)`, src/helpers/groth16/ethereum.rs:146, 198-200, 221-231 -/
def constantG1 (d : G1PointData (ZMod bnQ)) : G1Point := ⟨constant d.p0, constant d.p1⟩

/-- `Pairing.G2Point(<numerals>)`, src/helpers/groth16/ethereum.rs:147-149, 202-211 -/
def constantG2 (d : G2PointData (ZMod bnQ)) : G2Point := ⟨(constant d.p0.1, constant d.p0.2), (constant d.p1.1, constant d.p1.2)⟩

/-- src/helpers/groth16/ethereum.rs:145-151: `verifyingKey()` of the contract generated for `vk` -/
def verifyingKey (vk : VKData (ZMod bnQ)) : VerifyingKey :=
  ⟨constantG1 vk.alphaG1, constantG2 vk.betaG2, constantG2 vk.gammaG2, constantG2 vk.deltaG2, vk.ic.map constantG1⟩

/-- src/helpers/groth16/ethereum.rs:179-182: the loop over the public inputs, from index `i` on.  `mem` gives what lies
behind the arrays in memory at each call. -/
noncomputable def inputLoop (IC : List G1Point) (mem : Nat → List Word) : (i : Nat) → List Word → G1Point → Except Abort G1Point
  | _, [], vkX => .ok vkX
  | i, x :: xs, vkX =>
    if SNARK_SCALAR_FIELD ≤ x then .error .inputElement
    else match IC[i + 1]? with
      | none => .error .invalid
      | some ic => do
        let t ← scalarMul (mem (2 * i + 1)) ic x
        let vkX ← plus (mem (2 * i + 2)) vkX t
        inputLoop IC mem (i + 1) xs vkX

/-- src/helpers/groth16/ethereum.rs:157-195: `verifyProof` of the contract generated for `vk` -/
noncomputable def verifyProof {T : Type} [CommGroup T] (e : E1 → E2 → T) (vkData : VKData (ZMod bnQ)) (mem : Nat → List Word)
    (p : Fin 8 → Word) (input : List Word) : Except Abort Bool :=
  if ∃ i, PRIME_Q ≤ p i then .error .proofElement
  else do
    let proof : SolProof := ⟨⟨p 0, p 1⟩, ⟨(p 2, p 3), (p 4, p 5)⟩, ⟨p 6, p 7⟩⟩
    let vk := verifyingKey vkData
    match vk.IC[0]? with
    | none => .error .invalid
    | some ic0 => do
      let vkX ← plus (mem 0) ⟨0, 0⟩ ic0
      let vkX ← inputLoop vk.IC mem 0 input vkX
      pairing e (negate proof.A) proof.B vk.alfa1 vk.beta2 vkX vk.gamma2 proof.C vk.delta2

end Contract

end Fawkes.Groth16
