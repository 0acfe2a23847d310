import Verif.Model.Bellman

/-!
# Binary files of keys and proofs

`Parameters::write`, `Parameters::read`, `Proof::write` and `Proof::read` belong to the external crate (bellman_ce 0.3.1,
`groth16/mod.rs`); the bindings of src/macros.rs call them, `Proof` through src/helpers/groth16/prover.rs:63-81.  They are
written out here.
-/

namespace Fawkes.Groth16

/-- The uncompressed encoding of one kind of points (`into_uncompressed`, `EncodedPoint::into_affine`,
`EncodedPoint::into_affine_unchecked`, `EncodedPoint::size`, `CurveAffine::is_zero` of the external crate). -/
structure RawCodec (G : Type) where
  size : Nat
  encode : G → List UInt8
  decode : List UInt8 → Option G
  decodeUnchecked : List UInt8 → Option G
  isZero : G → Bool

/-- `write_u32::<BigEndian>(n as u32)` -/
def be32 (n : Nat) : List UInt8 := [n / 256 ^ 3, n / 256 ^ 2, n / 256, n].map UInt8.ofNat

/-- `read_u32::<BigEndian>()` -/
def be32Read : Decoder Nat := fun buf =>
  match buf with
  | b3 :: b2 :: b1 :: b0 :: rest => some (b0.toNat + 256 * (b1.toNat + 256 * (b2.toNat + 256 * b3.toNat)), rest)
  | _ => none

section raw

variable {G G1 G2 : Type}

/-- `reader.read_exact(repr.as_mut())`, then `into_affine` or `into_affine_unchecked`, then the test for infinity if there is
one. -/
def readRaw (u : RawCodec G) (checked rejectZero : Bool) : Decoder G := fun buf =>
  if buf.length < u.size then none
  else match (if checked then u.decode else u.decodeUnchecked) (buf.take u.size) with
    | none => none
    | some g => if rejectZero && u.isZero g then none else some (g, buf.drop u.size)

/-- The length, then that many points, none of them infinity. -/
def readRaws (u : RawCodec G) (checked : Bool) : Decoder (List G) := fun buf => do
  let (n, buf) ← be32Read buf
  decodeN (readRaw u checked true) n buf

/-- The length, then the points; every entry is the buffer of one `write_all` (or `write_u32`). -/
def rawChunks (u : RawCodec G) (l : List G) : List (List UInt8) := be32 l.length :: l.map u.encode

/-- `VerifyingKey::write` -/
def fullVKChunks (u1 : RawCodec G1) (u2 : RawCodec G2) (v : FullVK G1 G2) : List (List UInt8) :=
  [u1.encode v.alphaG1, u1.encode v.betaG1, u2.encode v.betaG2, u2.encode v.gammaG2, u1.encode v.deltaG1, u2.encode v.deltaG2] ++
    rawChunks u1 v.ic

/-- `VerifyingKey::read`: points are checked; infinity is refused among the IC points only. -/
def fullVKRead (u1 : RawCodec G1) (u2 : RawCodec G2) : Decoder (FullVK G1 G2) := fun buf => do
  let (alphaG1, buf) ← readRaw u1 true false buf
  let (betaG1, buf) ← readRaw u1 true false buf
  let (betaG2, buf) ← readRaw u2 true false buf
  let (gammaG2, buf) ← readRaw u2 true false buf
  let (deltaG1, buf) ← readRaw u1 true false buf
  let (deltaG2, buf) ← readRaw u2 true false buf
  let (ic, buf) ← readRaws u1 true buf
  pure (⟨alphaG1, betaG1, betaG2, gammaG2, deltaG1, deltaG2, ic⟩, buf)

/-- `Parameters::write` -/
def paramsChunks (u1 : RawCodec G1) (u2 : RawCodec G2) (p : Parameters G1 G2) : List (List UInt8) :=
  fullVKChunks u1 u2 p.vk ++ rawChunks u1 p.h ++ rawChunks u1 p.l ++ rawChunks u1 p.a ++ rawChunks u1 p.bG1 ++ rawChunks u2 p.bG2

/-- `Parameters::read(reader, checked)`.  What follows in the file is not looked at. -/
def paramsRead (u1 : RawCodec G1) (u2 : RawCodec G2) (checked : Bool) : Decoder (Parameters G1 G2) := fun buf => do
  let (vk, buf) ← fullVKRead u1 u2 buf
  let (h, buf) ← readRaws u1 checked buf
  let (l, buf) ← readRaws u1 checked buf
  let (a, buf) ← readRaws u1 checked buf
  let (bG1, buf) ← readRaws u1 checked buf
  let (bG2, buf) ← readRaws u2 checked buf
  pure (⟨vk, h, l, a, bG1, bG2⟩, buf)

/-- src/helpers/groth16/prover.rs:64-66, 74-76: `Proof::write`: compressed points. -/
def proofWrite (c1 : Codec G1) (c2 : Codec G2) (p : Proof G1 G2) : List UInt8 :=
  c1.encode p.a ++ c2.encode p.b ++ c1.encode p.c

/-- src/helpers/groth16/prover.rs:68-70, 78-80: `Proof::read`; infinity is refused, what follows is not looked at. -/
def proofRead (c1 : Codec G1) (c2 : Codec G2) (buf : List UInt8) : Option (Proof G1 G2) := do
  let (a, buf) ← readPoint c1 buf
  let (b, buf) ← readPoint c2 buf
  let (c, _) ← readPoint c1 buf
  pure ⟨a, b, c⟩

end raw

end Fawkes.Groth16
