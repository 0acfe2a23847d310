/-!
# base64 (external crate `base64` 0.12.1, as used in src/macros.rs:454, 612, 624, 626, 627, 661, 665 and the copies)

`base64::encode` and `base64::decode` with the standard configuration.  The crate decodes blocks of eight characters at a
time and the last block separately; written here is what that comes to, group by group.  Which error a bad text gives is not
kept.
-/

namespace Fawkes.Base64

/-- The standard alphabet (`tables::STANDARD_ENCODE`). -/
def alphabet : List Char :=
  ['A', 'B', 'C', 'D', 'E', 'F', 'G', 'H', 'I', 'J', 'K', 'L', 'M', 'N', 'O', 'P',
   'Q', 'R', 'S', 'T', 'U', 'V', 'W', 'X', 'Y', 'Z', 'a', 'b', 'c', 'd', 'e', 'f',
   'g', 'h', 'i', 'j', 'k', 'l', 'm', 'n', 'o', 'p', 'q', 'r', 's', 't', 'u', 'v',
   'w', 'x', 'y', 'z', '0', '1', '2', '3', '4', '5', '6', '7', '8', '9', '+', '/']

/-- The character of six bits. -/
def symbol (n : Nat) : Char := alphabet.getD n '='

/-- The six bits of a character (`tables::STANDARD_DECODE`); none for characters outside the alphabet. -/
def value (c : Char) : Option Nat := alphabet.idxOf? c

/-- `base64::encode`: three bytes become four characters; the last group is filled up with `=`. -/
def encode : List UInt8 → List Char
  | [] => []
  | [a] => [symbol (a.toNat / 4), symbol (a.toNat % 4 * 16), '=', '=']
  | [a, b] =>
    [symbol (a.toNat / 4), symbol (a.toNat % 4 * 16 + b.toNat / 16), symbol (b.toNat % 16 * 4), '=']
  | a :: b :: c :: rest =>
    symbol (a.toNat / 4) :: symbol (a.toNat % 4 * 16 + b.toNat / 16) :: symbol (b.toNat % 16 * 4 + c.toNat / 64) ::
      symbol (c.toNat % 64) :: encode rest

/-- The last group with two characters: one byte; the four unused bits must be zero (`InvalidLastSymbol`). -/
def last2 (a b : Char) : Option (List UInt8) := do
  let x ← value a
  let y ← value b
  if y % 16 = 0 then some [UInt8.ofNat (x * 4 + y / 16)] else none

/-- The last group with three characters: two bytes; the two unused bits must be zero (`InvalidLastSymbol`). -/
def last3 (a b c : Char) : Option (List UInt8) := do
  let x ← value a
  let y ← value b
  let z ← value c
  if z % 4 = 0 then some [UInt8.ofNat (x * 4 + y / 16), UInt8.ofNat (y % 16 * 16 + z / 4)] else none

/-- A complete group: three bytes. -/
def group (a b c d : Char) : Option (List UInt8) := do
  let x ← value a
  let y ← value b
  let z ← value c
  let u ← value d
  some [UInt8.ofNat (x * 4 + y / 16), UInt8.ofNat (y % 16 * 16 + z / 4), UInt8.ofNat (z % 4 * 64 + u)]

/-- `base64::decode`: padding may stand only in the last group, after at least two characters, and may be missing in part or
altogether. -/
def decode : List Char → Option (List UInt8)
  | [] => some []
  | [_] => none
  | [a, b] => last2 a b
  | [a, b, c] => if c = '=' then last2 a b else last3 a b c
  | [a, b, c, d] =>
    if d = '=' then (if c = '=' then last2 a b else last3 a b c) else group a b c d
  | a :: b :: c :: d :: rest => do
    let g ← group a b c d
    let gs ← decode rest
    some (g ++ gs)

end Fawkes.Base64
