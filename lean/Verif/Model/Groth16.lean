import Verif.Model.Num
import Verif.Spec.Groth16

/-!
# Point data, proofs and verifying keys (src/helpers/groth16/mod.rs, prover.rs, verifier.rs, near.rs)

The curve points themselves come from the external crate `pairing_ce`.  An affine point is there a triple of two
coordinates and an infinity flag; the library reaches it by `transmute`, so the triple is what is modelled.  The quadratic
extension `Fq2 = Fq[u]/(u² + 1)` is Mathlib's `QuadraticAlgebra`; `c0` is `re` and `c1` is `im`.
-/

namespace Fawkes.Groth16

/-- The triple behind `bn256::G1Affine`, `bn256::G2Affine`, `bls12_381::G1Affine` and `bls12_381::G2Affine`
(src/helpers/groth16/mod.rs:111, 137, 143, 161, 167, 193, 204, 222: the type on the other side of the `transmute`s). -/
@[ext] structure Affine (K : Type) where
  x : K
  y : K
  infinity : Bool
deriving DecidableEq

/-- The extension field of both curves. -/
abbrev Fq2 (K : Type) [CommRing K] : Type := QuadraticAlgebra K (-1) 0

/-- src/helpers/groth16/mod.rs:85-87 -/
@[ext] structure G1PointData (K : Type) where
  p0 : K
  p1 : K
deriving DecidableEq

/-- src/helpers/groth16/mod.rs:89-91 -/
@[ext] structure G2PointData (K : Type) where
  p0 : K × K
  p1 : K × K
deriving DecidableEq

/-- src/helpers/groth16/mod.rs:93-107: `is_on_curve` -/
def isOnCurve {K : Type} [CommRing K] [DecidableEq K] (x y : K) (isZero : Bool) (b : K) : Bool :=
  if isZero then true
  else
    let y2 := y * y
    let x3b := x * x
    let x3b := x3b * x
    let x3b := x3b + b
    y2 == x3b

section conversions

variable {K : Type} [Field K] [DecidableEq K]

/-- src/helpers/groth16/mod.rs:141-150 (BN256), 202-211 (BLS12-381): `G1PointData::from` -/
def g1From (p : Affine K) : G1PointData K := if p.infinity then ⟨0, 0⟩ else ⟨p.x, p.y⟩

/-- src/helpers/groth16/mod.rs:109-119 (BN256), 165-175 (BLS12-381): `G2PointData::from` -/
def g2From (p : Affine (Fq2 K)) : G2PointData K :=
  if p.infinity then ⟨(0, 0), (0, 0)⟩ else ⟨(p.x.im, p.x.re), (p.y.im, p.y.re)⟩

/-- src/helpers/groth16/mod.rs:152-163: `Into<bn256::G1Affine>` -/
def g1Into (b : K) (d : G1PointData K) : Except Panic (Affine K) :=
  let x := d.p0
  let y := d.p1
  let isZero := x == 0 && y == 0
  if isOnCurve x y isZero b then .ok ⟨x, y, isZero⟩ else .error .assertion

/-- src/helpers/groth16/mod.rs:121-139: `Into<bn256::G2Affine>` -/
def g2Into (b : Fq2 K) (d : G2PointData K) : Except Panic (Affine (Fq2 K)) :=
  let x : Fq2 K := ⟨d.p0.2, d.p0.1⟩
  let y : Fq2 K := ⟨d.p1.2, d.p1.1⟩
  let isZero := x == 0 && y == 0
  if isOnCurve x y isZero b then .ok ⟨x, y, isZero⟩ else .error .assertion

open Classical in
/-- `res.mul(Fr::char()).is_zero()` (src/helpers/groth16/mod.rs:194-197, 223-226).  The scalar multiplication is that of
`pairing_ce`; it is modelled by the group law of the curve in Mathlib. -/
noncomputable def mulIsZero {L : Type} [Field L] [DecidableEq L] (b : L) (n : Nat) (p : Affine L) : Bool :=
  if p.infinity then true
  else if h : (curve b).Nonsingular p.x p.y then decide (n • WeierstrassCurve.Affine.Point.some p.x p.y h = 0)
  else false

/-- src/helpers/groth16/mod.rs:213-229: `Into<bls12_381::G1Affine>`; `n` is the modulus of `Fr`. -/
noncomputable def g1IntoSubgroup (b : K) (n : Nat) (d : G1PointData K) : Except Panic (Affine K) := do
  let res ← g1Into b d
  if mulIsZero b n res then pure res else .error .assertion

/-- src/helpers/groth16/mod.rs:177-200: `Into<bls12_381::G2Affine>` -/
noncomputable def g2IntoSubgroup [Fact (∀ r : K, r ^ 2 ≠ -1 + 0 * r)] (b : Fq2 K) (n : Nat) (d : G2PointData K) :
    Except Panic (Affine (Fq2 K)) := do
  let res ← g2Into b d
  if mulIsZero b n res then pure res else .error .assertion

/-- `Fq::from_raw_repr` of `ff`: the limbs hold the element in Montgomery form, that is multiplied by `2^(64·k)`. -/
def fromRaw (q : Nat) (r : List UInt64) : ZMod q := (reprNat r : ZMod q) * ((2 ^ (64 * r.length) : Nat) : ZMod q)⁻¹

/-- The base field modulus of BN256 (`bn256::Fq`, external; also `PRIME_Q` in src/helpers/groth16/ethereum.rs:10). -/
def bnQ : Nat := 21888242871839275222246405745257275088696311157297823662689037894645226208583

/-- The base field modulus of BLS12-381 (`bls12_381::Fq`, external). -/
def blsQ : Nat :=
  0x1a0111ea397fe69a4b1ba7b6434bacd764774b84f38512bf6730d2a0f6b0f6241eabfffeb153ffffb9feffffffffaaab

/-- src/helpers/groth16/mod.rs:20-28: `BN256_B_COEFF` -/
def bnB : ZMod bnQ := fromRaw bnQ [0x7a17caa950ad28d7, 0x1f6ac17ae15521b9, 0x334bea4e696bd284, 0x2a1f6744ce179d8e]

/-- src/helpers/groth16/mod.rs:30-47: `BN256_B_COEFF_FQ2` -/
def bnB2 : Fq2 (ZMod bnQ) :=
  ⟨fromRaw bnQ [0x3bf938e377b802a8, 0x020b1b273633535d, 0x26b7edf049755260, 0x2514c6324384a86d],
   fromRaw bnQ [0x38e7ecccd1dcff67, 0x65f0b37d93ce0d3e, 0xd749d0dd22ac00aa, 0x0141b9ce4a688d4d]⟩

/-- The limbs of src/helpers/groth16/mod.rs:51-58, 64-71 and 73-80. -/
def blsRaw : List UInt64 :=
  [0xaa270000000cfff3, 0x53cc0032fc34000a, 0x478fe97a6b0a807f, 0xb1d37ebee6ba24d7, 0x8ec9733bbf78ab2f, 0x9d645513d83de7e]

/-- src/helpers/groth16/mod.rs:49-60: `BLS12_381_B_COEFF` -/
def blsB : ZMod blsQ := fromRaw blsQ blsRaw

/-- src/helpers/groth16/mod.rs:62-83: `BLS12_381_B_COEFF_FQ2` -/
def blsB2 : Fq2 (ZMod blsQ) := ⟨fromRaw blsQ blsRaw, fromRaw blsQ blsRaw⟩

end conversions

/-- src/helpers/groth16/prover.rs:19-25: `ProofData` -/
@[ext] structure ProofData (K : Type) where
  a : G1PointData K
  b : G2PointData K
  c : G1PointData K
deriving DecidableEq

/-- bellman's `Proof` (src/helpers/groth16/prover.rs:17), over the point types of an engine. -/
@[ext] structure Proof (G1 G2 : Type) where
  a : G1
  b : G2
  c : G1
deriving DecidableEq

/-- src/helpers/groth16/verifier.rs:15-23: `TruncatedVerifyingKeyData` -/
@[ext] structure VKData (K : Type) where
  alphaG1 : G1PointData K
  betaG2 : G2PointData K
  gammaG2 : G2PointData K
  deltaG2 : G2PointData K
  ic : List (G1PointData K)
deriving DecidableEq

/-- src/helpers/groth16/verifier.rs:25-32: `TruncatedVerifyingKey` -/
@[ext] structure VK (G1 G2 : Type) where
  alphaG1 : G1
  betaG2 : G2
  gammaG2 : G2
  deltaG2 : G2
  ic : List G1
deriving DecidableEq

section data

variable {K : Type} [Field K] [DecidableEq K]

/-- src/helpers/groth16/prover.rs:28-34, 46-52: `Proof::into_data` -/
def proofIntoData (p : Proof (Affine K) (Affine (Fq2 K))) : ProofData K := ⟨g1From p.a, g2From p.b, g1From p.c⟩

/-- src/helpers/groth16/prover.rs:36-42, 54-60: `Proof::from_data`; `f1` and `f2` are the conversions of the curve
(`g1Into`, `g2Into` or the versions with subgroup check). -/
def proofFromData {G1 G2 : Type} (f1 : G1PointData K → Except Panic G1) (f2 : G2PointData K → Except Panic G2)
    (d : ProofData K) : Except Panic (Proof G1 G2) := do
  let a ← f1 d.a
  let b ← f2 d.b
  let c ← f1 d.c
  pure ⟨a, b, c⟩

/-- src/helpers/groth16/verifier.rs:35-43, 61-69: `TruncatedVerifyingKey::into_data` -/
def vkIntoData (v : VK (Affine K) (Affine (Fq2 K))) : VKData K :=
  ⟨g1From v.alphaG1, g2From v.betaG2, g2From v.gammaG2, g2From v.deltaG2, v.ic.map g1From⟩

/-- `iter().map(f).collect()` for an `f` that may panic. -/
def mapE {A B : Type} (f : A → Except Panic B) : List A → Except Panic (List B)
  | [] => .ok []
  | a :: as => do
    let b ← f a
    let bs ← mapE f as
    pure (b :: bs)

/-- src/helpers/groth16/verifier.rs:45-57, 71-83: `TruncatedVerifyingKey::from_data` -/
def vkFromData {G1 G2 : Type} (f1 : G1PointData K → Except Panic G1) (f2 : G2PointData K → Except Panic G2)
    (d : VKData K) : Except Panic (VK G1 G2) := do
  let alpha ← f1 d.alphaG1
  let beta ← f2 d.betaG2
  let gamma ← f2 d.gammaG2
  let delta ← f2 d.deltaG2
  let ic ← mapE f1 d.ic
  pure ⟨alpha, beta, gamma, delta, ic⟩

end data

/-! ### Borsh encodings (src/helpers/groth16/near.rs) -/

section borsh

variable {p : Nat}

/-- `T::deserialize(buf)`: the value and what is left of the buffer, or an error. -/
abbrev Decoder (α : Type) : Type := List UInt8 → Option (α × List UInt8)

/-- src/helpers/groth16/near.rs:13-18 -/
def g1Serialize (d : G1PointData (ZMod p)) : List UInt8 := Num.borshSerialize d.p0 ++ Num.borshSerialize d.p1

/-- src/helpers/groth16/near.rs:20-24 -/
def g1Deserialize (p : Nat) : Decoder (G1PointData (ZMod p)) := fun buf => do
  let (a, buf) ← Num.borshDeserialize p buf
  let (b, buf) ← Num.borshDeserialize p buf
  pure (⟨a, b⟩, buf)

/-- src/helpers/groth16/near.rs:26-33 -/
def g2Serialize (d : G2PointData (ZMod p)) : List UInt8 :=
  Num.borshSerialize d.p0.2 ++ Num.borshSerialize d.p0.1 ++ Num.borshSerialize d.p1.2 ++ Num.borshSerialize d.p1.1

/-- src/helpers/groth16/near.rs:35-43 -/
def g2Deserialize (p : Nat) : Decoder (G2PointData (ZMod p)) := fun buf => do
  let (xRe, buf) ← Num.borshDeserialize p buf
  let (xIm, buf) ← Num.borshDeserialize p buf
  let (yRe, buf) ← Num.borshDeserialize p buf
  let (yIm, buf) ← Num.borshDeserialize p buf
  pure (⟨(xIm, xRe), (yIm, yRe)⟩, buf)

/-- src/helpers/groth16/near.rs:45-51 -/
def proofSerialize (d : ProofData (ZMod p)) : List UInt8 := g1Serialize d.a ++ g2Serialize d.b ++ g1Serialize d.c

/-- src/helpers/groth16/near.rs:53-61 -/
def proofDeserialize (p : Nat) : Decoder (ProofData (ZMod p)) := fun buf => do
  let (a, buf) ← g1Deserialize p buf
  let (b, buf) ← g2Deserialize p buf
  let (c, buf) ← g1Deserialize p buf
  pure (⟨a, b, c⟩, buf)

/-- The four little-endian bytes of a `u32` (Borsh). -/
def le32 (n : Nat) : List UInt8 := (List.range 4).map fun i => UInt8.ofNat (n / 256 ^ i)

/-- Borsh `Vec<T>`: the length as `u32`, then the elements. -/
def vecSerialize {α : Type} (f : α → List UInt8) (l : List α) : List UInt8 := le32 (l.length % 2 ^ 32) ++ l.flatMap f

/-- `n` elements in a row. -/
def decodeN {α : Type} (f : Decoder α) : Nat → Decoder (List α)
  | 0, buf => some ([], buf)
  | n + 1, buf => do
    let (a, buf) ← f buf
    let (as, buf) ← decodeN f n buf
    pure (a :: as, buf)

/-- Borsh `u32` -/
def u32Deserialize : Decoder Nat := fun buf =>
  match buf with
  | b0 :: b1 :: b2 :: b3 :: rest => some (b0.toNat + 256 * (b1.toNat + 256 * (b2.toNat + 256 * b3.toNat)), rest)
  | _ => none

/-- Borsh `Vec<T>` -/
def vecDeserialize {α : Type} (f : Decoder α) : Decoder (List α) := fun buf => do
  let (n, buf) ← u32Deserialize buf
  decodeN f n buf

/-- src/helpers/groth16/near.rs:63-71 -/
def vkSerialize (d : VKData (ZMod p)) : List UInt8 :=
  g1Serialize d.alphaG1 ++ g2Serialize d.betaG2 ++ g2Serialize d.gammaG2 ++ g2Serialize d.deltaG2 ++
    vecSerialize g1Serialize d.ic

/-- src/helpers/groth16/near.rs:73-83 -/
def vkDeserialize (p : Nat) : Decoder (VKData (ZMod p)) := fun buf => do
  let (alpha, buf) ← g1Deserialize p buf
  let (beta, buf) ← g2Deserialize p buf
  let (gamma, buf) ← g2Deserialize p buf
  let (delta, buf) ← g2Deserialize p buf
  let (ic, buf) ← vecDeserialize (g1Deserialize p) buf
  pure (⟨alpha, beta, gamma, delta, ic⟩, buf)

end borsh

/-! ### The compressed key format (src/helpers/groth16/verifier.rs:86-189) -/

section compressed

/-- The compressed encoding of one kind of points (`into_compressed`, `EncodedPoint::into_affine`,
`EncodedPoint::size`, `CurveAffine::is_zero` of the external crate). -/
structure Codec (G : Type) where
  size : Nat
  encode : G → List UInt8
  decode : List UInt8 → Option G
  isZero : G → Bool

variable {G1 G2 : Type}

/-- src/helpers/groth16/verifier.rs:87-96: `write` -/
def vkWrite (c1 : Codec G1) (c2 : Codec G2) (v : VK G1 G2) : List UInt8 :=
  c1.encode v.alphaG1 ++ c2.encode v.betaG2 ++ c2.encode v.gammaG2 ++ c2.encode v.deltaG2 ++ v.ic.flatMap c1.encode

/-- `reader.read_exact(repr.as_mut())` followed by `into_affine` and the test for infinity
(src/helpers/groth16/verifier.rs:102-115, 117-130, 132-145, 147-160). -/
def readPoint {G : Type} (c : Codec G) (buf : List UInt8) : Option (G × List UInt8) :=
  if buf.length < c.size then none
  else match c.decode (buf.take c.size) with
    | none => none
    | some g => if c.isZero g then none else some (g, buf.drop c.size)

/-- src/helpers/groth16/verifier.rs:162-179: the loop reads points as long as `read_exact` succeeds; a shorter rest of
the input ends it without an error.  `fuel` bounds the number of iterations (the input gets shorter each time). -/
def readIC (c1 : Codec G1) : (fuel : Nat) → List UInt8 → Option (List G1)
  | 0, _ => some []
  | fuel + 1, buf =>
    if buf.length < c1.size then some []
    else do
      let (g, buf) ← readPoint c1 buf
      let gs ← readIC c1 fuel buf
      pure (g :: gs)

/-- src/helpers/groth16/verifier.rs:98-189: `read` -/
def vkRead (c1 : Codec G1) (c2 : Codec G2) (buf : List UInt8) : Option (VK G1 G2) := do
  let (alpha, buf) ← readPoint c1 buf
  let (beta, buf) ← readPoint c2 buf
  let (gamma, buf) ← readPoint c2 buf
  let (delta, buf) ← readPoint c2 buf
  let ic ← readIC c1 (buf.length + 1) buf
  pure ⟨alpha, beta, gamma, delta, ic⟩

end compressed

/-! ### Verification (src/helpers/groth16/verifier.rs:191-235) -/

section verify

/-- bellman's `VerifyingKey`; the fields the library reads and the two it drops. -/
structure FullVK (G1 G2 : Type) where
  alphaG1 : G1
  betaG1 : G1
  betaG2 : G2
  gammaG2 : G2
  deltaG1 : G1
  deltaG2 : G2
  ic : List G1

/-- src/helpers/groth16/verifier.rs:191-199: `truncate_verifying_key` -/
def truncate {G1 G2 : Type} (v : FullVK G1 G2) : VK G1 G2 := ⟨v.alphaG1, v.betaG2, v.gammaG2, v.deltaG2, v.ic⟩

/-- What `verify` uses of an `Engine` of the external crate: the two groups, the target field, the product of Miller loops
and the final exponentiation (`None` for zero). -/
structure Engine (G1 G2 T : Type) where
  millerLoop : List (G1 × G2) → T
  finalExponentiation : T → Option T

/-- The errors of `verify` that are not panics. -/
inductive VerifyError where
  | malformedVerifyingKey
deriving DecidableEq

/-- src/helpers/groth16/verifier.rs:210-214: the loop that accumulates the public inputs; `i.into_repr()` is the canonical
representative. -/
def accumulate {G1 : Type} [AddCommGroup G1] {r : Nat} : (acc : G1) → List (ZMod r × G1) → G1
  | acc, [] => acc
  | acc, (i, b) :: rest => accumulate (acc + i.val • b) rest

/-- src/helpers/groth16/verifier.rs:201-235: `verify` -/
def verify {G1 G2 T : Type} [AddCommGroup G1] [One T] [DecidableEq T] {r : Nat} (E : Engine G1 G2 T) (tvk : VK G1 G2)
    (proof : Proof G1 G2) (inputs : List (ZMod r)) : Except Panic (Except VerifyError Bool) :=
  if inputs.length + 1 ≠ tvk.ic.length then .ok (.error .malformedVerifyingKey)
  else match tvk.ic with
    | [] => .error .outOfBounds
    | ic0 :: ics =>
      let acc := accumulate ic0 (inputs.zip ics)
      let negA := -proof.a
      match E.finalExponentiation (E.millerLoop
        [(negA, proof.b), (tvk.alphaG1, tvk.betaG2), (acc, tvk.gammaG2), (proof.c, tvk.deltaG2)]) with
      | none => .error .unwrap
      | some t => .ok (.ok (decide (t = 1)))

end verify

end Fawkes.Groth16
