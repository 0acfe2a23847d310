import Verif.Model.KeyFiles

/-!
# The bytes of points

`into_compressed`, `into_uncompressed`, `EncodedPoint::into_affine` and `EncodedPoint::into_affine_unchecked` of the points of
BN256 and BLS12-381 belong to the external crate `pairing_ce` (0.18, `bn256/ec.rs` and `bls12_381/ec.rs`).  The keys and the
proofs of the library are written with them (src/helpers/groth16/verifier.rs:86-189, src/helpers/groth16/prover.rs:63-81 and
the calls of `Parameters::write` and `Parameters::read` in src/macros.rs).  They are written out here as far as the library
uses them; the test for the subgroup at the end of `into_affine` is added where the groups are known.
-/

namespace Fawkes.Groth16

/-- How the coordinates of one kind of points are written, read and compared. -/
structure CoordBytes (K : Type) where
  size : Nat
  write : K → List UInt8
  read : List UInt8 → Option K
  lt : K → K → Bool

/-- `Fq`: `into_repr().write_be`, `read_be` with `from_repr`, and the order of the representatives. -/
def fqBytes (q : Nat) : CoordBytes (ZMod q) where
  size := 8 * nLimbs q
  write x := Num.writeBE (Num.intoRepr x)
  read bs := Num.readNum q bs
  lt a b := decide (a.val < b.val)

/-- `Fq2`: first `c1`, then `c0`, also in comparisons. -/
def fq2Bytes (q : Nat) [Fact q.Prime] : CoordBytes (Fq2 (ZMod q)) where
  size := 2 * (8 * nLimbs q)
  write x := Num.writeBE (Num.intoRepr x.im) ++ Num.writeBE (Num.intoRepr x.re)
  read bs := do
    let c1 ← Num.readNum q bs
    let c0 ← Num.readNum q (bs.drop (8 * nLimbs q))
    pure ⟨c0, c1⟩
  lt a b :=
    if a.im.val < b.im.val then true
    else if b.im.val < a.im.val then false
    else decide (a.re.val < b.re.val)

/-- `res.0[0] |= m` -/
def orHead (m : UInt8) : List UInt8 → List UInt8
  | [] => []
  | b :: bs => (b ||| m) :: bs

/-- `copy[0] &= m` -/
def andHead (m : UInt8) : List UInt8 → List UInt8
  | [] => []
  | b :: bs => (b &&& m) :: bs

/-- `copy[0] & m != 0` -/
def testHead (m : UInt8) : List UInt8 → Bool
  | [] => false
  | b :: _ => (b &&& m) != 0

section

variable {K : Type} [Field K] [DecidableEq K]

/-- `G1Affine::zero()`, `G2Affine::zero()` -/
def zeroAffine : Affine K := ⟨0, 1, true⟩

/-- `get_point_from_x` -/
def pointFromX (c : CoordBytes K) (sqrt : K → Option K) (b x : K) (greatest : Bool) : Option (Affine K) :=
  let x3b := x * x * x + b
  match sqrt x3b with
  | none => none
  | some y =>
    let negy := -y
    some ⟨x, if c.lt y negy ^^ greatest then y else negy, false⟩

/-- `if copy.iter().all(|b| *b == 0) { Ok(zero) } else { Err(..) }` -/
def zeroIfClear (bs : List UInt8) : Option (Affine K) := if bs.all (· == 0) then some zeroAffine else none

/-- The two coordinates of an uncompressed point. -/
def readBoth (c : CoordBytes K) (bs : List UInt8) : Option (Affine K) := do
  let x ← c.read bs
  let y ← c.read (bs.drop c.size)
  pure ⟨x, y, false⟩

/-- bn256: `into_compressed` -/
def compressBn (c : CoordBytes K) (p : Affine K) : List UInt8 :=
  if p.infinity then orHead 0x40 (List.replicate c.size 0)
  else
    let bs := c.write p.x
    let negy := -p.y
    if c.lt negy p.y then orHead 0x80 bs else bs

/-- bn256: `into_affine` of a compressed point, without the test for the subgroup -/
def decompressBn (c : CoordBytes K) (sqrt : K → Option K) (b : K) (bs : List UInt8) : Option (Affine K) :=
  if testHead 0x40 bs then zeroIfClear (andHead 0x3f bs)
  else
    let greatest := testHead 0x80 bs
    match c.read (andHead 0x3f bs) with
    | none => none
    | some x => pointFromX c sqrt b x greatest

/-- bn256: `into_uncompressed` -/
def uncompressedBn (c : CoordBytes K) (p : Affine K) : List UInt8 :=
  if p.infinity then orHead 0x40 (List.replicate (2 * c.size) 0) else c.write p.x ++ c.write p.y

/-- bn256: `into_affine_unchecked` of an uncompressed point -/
def readUncheckedBn (c : CoordBytes K) (bs : List UInt8) : Option (Affine K) :=
  if testHead 0x40 bs then zeroIfClear (andHead 0x3f bs)
  else if testHead 0x80 bs then none
  else readBoth c (andHead 0x3f bs)

/-- bls12_381: `into_compressed` -/
def compressBls (c : CoordBytes K) (p : Affine K) : List UInt8 :=
  let res :=
    if p.infinity then orHead 0x40 (List.replicate c.size 0)
    else
      let bs := c.write p.x
      let negy := -p.y
      if c.lt negy p.y then orHead 0x20 bs else bs
  orHead 0x80 res

/-- bls12_381: `into_affine` of a compressed point, without the test for the subgroup -/
def decompressBls (c : CoordBytes K) (sqrt : K → Option K) (b : K) (bs : List UInt8) : Option (Affine K) :=
  if !testHead 0x80 bs then none
  else if testHead 0x40 bs then zeroIfClear (andHead 0x3f bs)
  else
    let greatest := testHead 0x20 bs
    match c.read (andHead 0x1f bs) with
    | none => none
    | some x => pointFromX c sqrt b x greatest

/-- bls12_381: `into_uncompressed` -/
def uncompressedBls (c : CoordBytes K) (p : Affine K) : List UInt8 :=
  if p.infinity then orHead 0x40 (List.replicate (2 * c.size) 0) else c.write p.x ++ c.write p.y

/-- bls12_381: `into_affine_unchecked` of an uncompressed point -/
def readUncheckedBls (c : CoordBytes K) (bs : List UInt8) : Option (Affine K) :=
  if testHead 0x80 bs then none
  else if testHead 0x40 bs then zeroIfClear (andHead 0x3f bs)
  else if testHead 0x20 bs then none
  else readBoth c (andHead 0x1f bs)

/-- `into_affine` of an uncompressed point, without the test for the subgroup: `is_on_curve` -/
def checkCurve (b : K) (o : Option (Affine K)) : Option (Affine K) :=
  match o with
  | none => none
  | some p => if isOnCurve p.x p.y p.infinity b then some p else none

end

end Fawkes.Groth16
