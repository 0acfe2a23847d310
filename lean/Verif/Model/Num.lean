import Verif.Model.CS
import Mathlib.Data.ZMod.Basic
import Mathlib.Algebra.Field.ZMod
import Mathlib.Data.Nat.Size
import Mathlib.Data.Nat.Digits.Defs

/-!
# Field elements: integers, bits, bytes, strings (src/native/num.rs)

`Num<T>` over a prime field is modelled as `ZMod p`.  The representation functions of the external crate
`ff_ce` (`into_repr`, `from_repr`, `read_le`, …) are modelled by what they compute on 64-bit limbs.
-/

namespace Fawkes

/-- `PrimeField::NUM_BITS` (ff_derive): the bit length of the modulus. -/
def numBits (p : Nat) : Nat := Nat.size p

/-- The number of 64-bit limbs of `Repr` (ff_derive: the least `k` with `2p ≤ 2^(64k)`). -/
def nLimbs (p : Nat) : Nat := numBits p / 64 + 1

/-- src/native/num.rs:82-84 -/
def numBytes (p : Nat) : Nat := numBits p / 8 + if numBits p % 8 = 0 then 0 else 1

/-- ff `PrimeField::into_repr`: the limbs of the canonical representative, least significant first. -/
def limbsOf (k n : Nat) : List UInt64 := (List.range k).map fun i => UInt64.ofNat (n / 2 ^ (64 * i))

/-- The integer a limb vector stands for. -/
def reprNat : List UInt64 → Nat
  | [] => 0
  | l :: ls => l.toNat + 2 ^ 64 * reprNat ls

namespace Num

variable {p : Nat}

/-- ff `into_repr` -/
def intoRepr (x : ZMod p) : List UInt64 := limbsOf (nLimbs p) x.val

/-- ff `PrimeField::from_repr`: rejects integers that are not below the modulus. -/
def fromRepr (r : List UInt64) : Option (ZMod p) :=
  if reprNat r < p then some (reprNat r : ZMod p) else none

/-- The 8 bytes of a limb, least significant first. -/
def wordLE (l : UInt64) : List UInt8 := (List.range 8).map fun i => UInt8.ofNat (l.toNat / 256 ^ i)

/-- ff `PrimeFieldRepr::write_le`: the limbs in order, each little endian. -/
def writeLE (r : List UInt64) : List UInt8 := r.flatMap wordLE

/-- ff `PrimeFieldRepr::write_be`: the limbs in reverse order, each big endian. -/
def writeBE (r : List UInt64) : List UInt8 := r.reverse.flatMap fun l => (wordLE l).reverse

/-- `write_be(&mut buff[..]).unwrap()` into a zeroed buffer of `len` bytes: fails when the buffer is too
short; leaves the rest of the buffer untouched when it is longer. -/
def writeBEInto (len : Nat) (r : List UInt64) : Except Panic (List UInt8) :=
  if len < 8 * r.length then .error .unwrap
  else .ok (writeBE r ++ List.replicate (len - 8 * r.length) 0)

/-- One limb from 8 little-endian bytes. -/
def readWordLE (bs : List UInt8) : UInt64 :=
  UInt64.ofNat (bs.foldr (fun b acc => b.toNat + 256 * acc) 0)

/-- ff `PrimeFieldRepr::read_le` of `k` limbs: the limbs and the unread rest; `none` when the
input ends early. -/
def readLE : (k : Nat) → List UInt8 → Option (List UInt64 × List UInt8)
  | 0, bs => some ([], bs)
  | k + 1, bs =>
    if bs.length < 8 then none
    else match readLE k (bs.drop 8) with
      | none => none
      | some (r, rest) => some (readWordLE (bs.take 8) :: r, rest)

/-- ff `PrimeFieldRepr::read_be`: reads the limbs most significant first and stores them in
reverse order. -/
def readBE : (k : Nat) → List UInt8 → Option (List UInt64 × List UInt8)
  | 0, bs => some ([], bs)
  | k + 1, bs =>
    if bs.length < 8 then none
    else match readBE k (bs.drop 8) with
      | none => none
      | some (r, rest) => some (r ++ [readWordLE (bs.take 8).reverse], rest)

/-- num-bigint `BigUint::from_bytes_be` -/
def biguintFromBE (bs : List UInt8) : Nat := bs.foldl (fun acc b => acc * 256 + b.toNat) 0

/-- num-bigint `BigUint::to_bytes_be`: minimal number of digits, `[0]` for zero. -/
def biguintToBE (n : Nat) : List UInt8 :=
  if n = 0 then [0] else ((Nat.digits 256 n).map UInt8.ofNat).reverse

/-- src/native/num.rs:29-33: Borsh serialisation. -/
def borshSerialize (x : ZMod p) : List UInt8 := writeLE (intoRepr x)

/-- src/native/num.rs:35-43: Borsh deserialisation: the value and the unread rest, or an error. -/
def borshDeserialize (p : Nat) (buf : List UInt8) : Option (ZMod p × List UInt8) :=
  match readLE (nLimbs p) buf with
  | none => none
  | some (r, rest) =>
    match fromRepr r with
    | none => none
    | some x => some (x, rest)

/-- src/native/num.rs:87-94: `is_odd` looks at the lowest limb. -/
def isOdd (x : ZMod p) : Bool :=
  match intoRepr x with
  | [] => false
  | l :: _ => l.toNat % 2 == 1

/-- src/native/num.rs:91-94 (`Repr::is_even` is `!is_odd`). -/
def isEven (x : ZMod p) : Bool := !isOdd x

/-- src/native/num.rs:96-101 -/
def intoBinaryBE (x : ZMod p) : Except Panic (List UInt8) := writeBEInto (numBytes p) (intoRepr x)

/-- src/native/num.rs:251-265: `Num::from(BigUint)`, for the integer `x`. -/
def fromBigUint (p : Nat) (x : Nat) : Except Panic (ZMod p) := do
  let order ← writeBEInto (numBytes p) (limbsOf (nLimbs p) p)
  let remainder := biguintToBE (x % biguintFromBE order)
  if numBytes p < remainder.length then .error .outOfBounds
  else
    let buff := List.replicate (numBytes p - remainder.length) 0 ++ remainder
    match readBE (nLimbs p) buff with
    | none => .error .unwrap
    | some (r, _) =>
      match fromRepr r with
      | none => .error .unwrap
      | some y => .ok y

/-- src/native/num.rs:267-285: `Num::from(BigInt)`. `%` on `BigInt` truncates towards zero. -/
def fromBigInt (p : Nat) (x : Int) : Except Panic (ZMod p) := do
  let order ← writeBEInto (numBytes p) (limbsOf (nLimbs p) p)
  let order : Int := biguintFromBE order
  let rem := x.tmod order
  let rem := if rem < 0 then rem + order else rem
  if rem < 0 then .error .unwrap
  else
    let remainder := biguintToBE rem.toNat
    if numBytes p < remainder.length then .error .outOfBounds
    else
      let buff := List.replicate (numBytes p - remainder.length) 0 ++ remainder
      match readBE (nLimbs p) buff with
      | none => .error .unwrap
      | some (r, _) =>
        match fromRepr r with
        | none => .error .unwrap
        | some y => .ok y

/-- src/native/num.rs:103-106 -/
def fromBinaryBE (p : Nat) (blob : List UInt8) : Except Panic (ZMod p) :=
  fromBigUint p (biguintFromBE blob)

/-- src/native/num.rs:108-113 -/
def fromOther {q : Nat} (p : Nat) (n : ZMod q) : Except Panic (ZMod p) := do
  let buff ← writeBEInto (numBytes q) (intoRepr n)
  fromBinaryBE p buff

/-- src/native/num.rs:115-120 -/
def intoOther (q : Nat) (x : ZMod p) : Except Panic (ZMod q) := do
  let buff ← writeBEInto (numBytes p) (intoRepr x)
  fromBinaryBE q buff

/-- src/native/num.rs:213-225: `BitIteratorLE::next` at position `n`. -/
def bitAt (r : List UInt64) (n : Nat) : Bool :=
  let part := n / 64
  let bit := n - 64 * part
  decide (0 < ((r.getD part 0).toNat &&& (1 <<< bit)))

/-- src/native/num.rs:132-134, 196-225: all items of `iterbit_le()`. -/
def iterbitLE (x : ZMod p) : List Bool :=
  let r := intoRepr x
  (List.range (r.length * 64)).map (bitAt r)

/-- src/native/num.rs:128-130: `iterbit_be`, the bits from the most significant limb bit down
(ff `BitIterator`). -/
def iterbitBE (x : ZMod p) : List Bool :=
  let r := intoRepr x
  ((List.range (r.length * 64)).map (bitAt r)).reverse

/-- src/native/num.rs:227-232: `Into<BigUint>` -/
def intoBigUint (x : ZMod p) : Except Panic Nat := do
  let bytes ← intoBinaryBE x
  pure (biguintFromBE bytes)

/-- src/native/num.rs:234-241: `Into<u64>` -/
def intoU64 (x : ZMod p) : Except Panic Nat :=
  match intoRepr x with
  | [] => .error .outOfBounds
  | l :: ls => if ls.all (· == 0) then .ok l.toNat else .error .assertion

/-- A limb vector with the given lowest limb: `zero().into_raw_repr()` with `as_mut()[0] = n`. -/
def lowRepr (p : Nat) (n : Nat) : List UInt64 := UInt64.ofNat n :: List.replicate (nLimbs p - 1) 0

/-- `Num::new(T::from_repr(repr).unwrap())` -/
def fromLow (p : Nat) (n : Nat) : Except Panic (ZMod p) :=
  match fromRepr (lowRepr p n) with
  | none => .error .unwrap
  | some y => .ok y

/-- src/native/num.rs:243-249: `From<u64>` -/
def fromU64 (p : Nat) (n : UInt64) : Except Panic (ZMod p) := fromLow p n.toNat

/-- src/native/num.rs:299-305: `From<u32>` -/
def fromU32 (p : Nat) (n : UInt32) : Except Panic (ZMod p) := fromLow p n.toNat

/-- `n.abs()` of a `bits`-bit signed integer: overflow on the least value panics when overflow checks are
on and wraps to itself when they are off. -/
def absSigned (checks : Bool) (bits : Nat) (n : Int) : Except Panic Int :=
  if n = -(2 ^ (bits - 1) : Int) then (if checks then .error .assertion else .ok n) else .ok |n|

/-- `x as u64` of a signed integer: sign extension to 64 bits. -/
def asU64 (x : Int) : Nat := (x % 2 ^ 64).toNat

/-- src/native/num.rs:287-297 (`bits = 64`, `From<i64>`) and 307-317 (`bits = 32`, `From<i32>`). -/
def fromSigned (p : Nat) (checks : Bool) (bits : Nat) (n : Int) : Except Panic (ZMod p) := do
  let a ← absSigned checks bits n
  let y ← fromLow p (asU64 a)
  pure (if 0 ≤ n then y else -y)

/-- src/native/num.rs:319-327: `From<bool>` -/
def fromBool (p : Nat) (b : Bool) : ZMod p := if b then 1 else 0

/-- ff `PrimeField::from_str`, the loop over the characters: accumulates in the field, rejects a leading
zero and anything that is not a decimal digit. -/
def fromStrLoop : Bool → ZMod p → List Char → Option (ZMod p)
  | _, res, [] => some res
  | first, res, c :: cs =>
    if '0' ≤ c ∧ c ≤ '9' then
      if first ∧ c = '0' then none
      else fromStrLoop false (res * 10 + ((c.toNat - '0'.toNat : Nat) : ZMod p)) cs
    else none

/-- src/native/num.rs:329-333: `From<&str>`, that is ff `from_str(s).unwrap()`. -/
def fromStr (p : Nat) (s : List Char) : Except Panic (ZMod p) :=
  if s = [] then .error .unwrap
  else if s = ['0'] then .ok 0
  else match fromStrLoop true 0 s with
    | none => .error .unwrap
    | some x => .ok x

/-- num-bigint `BigUint::to_string`: decimal digits without leading zeros. -/
def decimal (n : Nat) : List Char :=
  if n = 0 then ['0'] else ((Nat.digits 10 n).map Nat.digitChar).reverse

/-- One character of num-bigint's `from_str_radix(_, 10)`: digits are accumulated, underscores skipped,
anything else is an error. -/
def parseDigits : Nat → List Char → Option Nat
  | acc, [] => some acc
  | acc, c :: cs =>
    if c = '_' then parseDigits acc cs
    else if '0' ≤ c ∧ c ≤ '9' then parseDigits (acc * 10 + (c.toNat - '0'.toNat)) cs
    else none

/-- num-bigint 0.2 `BigUint::from_str`: an optional `+` (not followed by another one), then a non-empty
string not starting with an underscore. -/
def parseBigUint (s : List Char) : Option Nat :=
  let s' := match s with
    | '+' :: t => (match t with
      | '+' :: _ => s
      | _ => t)
    | _ => s
  match s' with
  | [] => none
  | '_' :: _ => none
  | _ => parseDigits 0 s'

/-- src/native/num.rs:45-55: serialisation as a decimal string. -/
def serdeSerialize (x : ZMod p) : Except Panic (List Char) := do
  let n ← intoBigUint x
  pure (decimal n)

/-- src/native/num.rs:57-68: deserialisation. `.ok none` is a deserialisation error. -/
def serdeDeserialize (p : Nat) (s : List Char) : Except Panic (Option (ZMod p)) :=
  match parseBigUint s with
  | none => .ok none
  | some n => do
    let m1 ← fromSigned p true 32 (-1)
    let top ← intoBigUint m1
    if top < n then pure none
    else do
      let y ← fromBigUint p n
      pure (some y)

/-- src/macros.rs:469-479 (and copies): `read_num` -/
def readNum (p : Nat) (data : List UInt8) : Option (ZMod p) :=
  match readBE (nLimbs p) data with
  | none => none
  | some (r, _) => fromRepr r

/-- src/macros.rs:489-491: the loop of `read_num_vec` over the offsets `i·sz`. -/
def readNumLoop (p : Nat) (data : List UInt8) : List Nat → Option (List (ZMod p))
  | [] => some []
  | off :: offs =>
    match readNum p (data.drop off) with
    | none => none
    | some x =>
      match readNumLoop p data offs with
      | none => none
      | some xs => some (x :: xs)

/-- src/macros.rs:481-494: `read_num_vec` -/
def readNumVec (p : Nat) (data : List UInt8) : Option (List (ZMod p)) :=
  let sz := 8 * nLimbs p
  if data.length % sz ≠ 0 then none
  else readNumLoop p data ((List.range (data.length / sz)).map (· * sz))

/-- src/macros.rs:499-503: the loop of `num_vec_to_buf`: overwrite the buffer at offset `i·sz`. -/
def numVecLoop (sz : Nat) : Nat → List (ZMod p) → List UInt8 → List UInt8
  | _, [], data => data
  | i, x :: xs, data =>
    numVecLoop sz (i + 1) xs
      (data.take (sz * i) ++ writeBE (intoRepr x) ++ data.drop (sz * i + (writeBE (intoRepr x)).length))

/-- src/macros.rs:495-505: `num_vec_to_buf` -/
def numVecToBuf (xs : List (ZMod p)) : List UInt8 :=
  let sz := 8 * nLimbs p
  numVecLoop sz 0 xs (List.replicate (sz * xs.length) 0)

end Num

end Fawkes
