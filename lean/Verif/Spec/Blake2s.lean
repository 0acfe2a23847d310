import Mathlib.Data.Nat.Digits.Defs
import Mathlib.Data.Nat.Sqrt
import Mathlib.Logic.Function.Basic
import Mathlib.Data.Fin.VecNotation

/-!
# BLAKE2s as RFC 7693 writes it

The pseudo-code of sections 2.6, 2.7 and 3.1-3.3 of the RFC for `w = 32`, on 32-bit words and arrays that are assigned
one entry at a time, with the personalisation field of the parameter block.  No key and no salt: the library never uses
them.
-/

namespace Fawkes.Rfc7693

/-- Words of `w = 32` bits. -/
abbrev Word := BitVec 32

/-- 2.6: the first 32 bits of the fractional parts of the square roots of the first eight primes. -/
def IV (i : Fin 8) : Word := BitVec.ofNat 32 (Nat.sqrt ((![2, 3, 5, 7, 11, 13, 17, 19] : Fin 8 → Nat) i * 2 ^ 64))

/-- 2.7: the message word schedule, one row a hexadecimal number of sixteen digits. -/
def SIGMA (i : Fin 10) (j : Fin 16) : Fin 16 :=
  Fin.ofNat 16 ((![0x0123456789ABCDEF, 0xEA489FD61C02B753, 0xB8C052FDAE367194, 0x7931DCBE265A40F8, 0x905724AFE1BC683D,
    0x2C6A0B834D75FE19, 0xC51FED4A0763928B, 0xDB7EC13950F4862A, 0x6FE9B308C2D714A5, 0xA2847615FB9E3CD0] :
      Fin 10 → Nat) i / 16 ^ (15 - j.val))

/-- 3.1: the mixing function `G`. -/
def G (v : Fin 16 → Word) (a b c d : Fin 16) (x y : Word) : Fin 16 → Word :=
  let v := Function.update v a (v a + v b + x)
  let v := Function.update v d ((v d ^^^ v a).rotateRight 16)
  let v := Function.update v c (v c + v d)
  let v := Function.update v b ((v b ^^^ v c).rotateRight 12)
  let v := Function.update v a (v a + v b + y)
  let v := Function.update v d ((v d ^^^ v a).rotateRight 8)
  let v := Function.update v c (v c + v d)
  let v := Function.update v b ((v b ^^^ v c).rotateRight 7)
  v

/-- 3.2: the body of the loop over the rounds. -/
def mixRound (m : Fin 16 → Word) (s : Fin 16 → Fin 16) (v : Fin 16 → Word) : Fin 16 → Word :=
  let v := G v 0 4 8 12 (m (s 0)) (m (s 1))
  let v := G v 1 5 9 13 (m (s 2)) (m (s 3))
  let v := G v 2 6 10 14 (m (s 4)) (m (s 5))
  let v := G v 3 7 11 15 (m (s 6)) (m (s 7))
  let v := G v 0 5 10 15 (m (s 8)) (m (s 9))
  let v := G v 1 6 11 12 (m (s 10)) (m (s 11))
  let v := G v 2 7 8 13 (m (s 12)) (m (s 13))
  let v := G v 3 4 9 14 (m (s 14)) (m (s 15))
  v

/-- 3.2: the working vector before the rounds. -/
def start (h : Fin 8 → Word) (t : Nat) (f : Bool) : Fin 16 → Word :=
  let v : Fin 16 → Word := Fin.append h IV
  let v := Function.update v 12 (v 12 ^^^ BitVec.ofNat 32 (t % 2 ^ 32))
  let v := Function.update v 13 (v 13 ^^^ BitVec.ofNat 32 (t / 2 ^ 32))
  if f then Function.update v 14 (v 14 ^^^ 0xFFFFFFFF#32) else v

/-- 3.2: the compression function `F`. -/
def F (h : Fin 8 → Word) (m : Fin 16 → Word) (t : Nat) (f : Bool) : Fin 8 → Word :=
  let v := (List.finRange 10).foldl (fun v i => mixRound m (SIGMA i) v) (start h t f)
  fun i => h i ^^^ v (Fin.castAdd 8 i) ^^^ v (Fin.natAdd 8 i)

/-- The little-endian word at position `k` of a byte string padded with zeros. -/
def wordAt (b : List UInt8) (k : Nat) : Word :=
  BitVec.ofNat 32 (Nat.ofDigits 256 ((List.range 4).map fun j => (b.getD (k + j) 0).toNat))

/-- 3.3: block `d[i]` of the padded message. -/
def block (msg : List UInt8) (i : Nat) : Fin 16 → Word := fun j => wordAt msg (64 * i + 4 * j)

/-- 3.3: the number `dd` of blocks; an empty message is one block of zeros. -/
def dd (msg : List UInt8) : Nat := max 1 ((msg.length + 63) / 64)

/-- 2.5 and 3.3: the initial state; without key and salt the parameter block has the digest length, the key length `0`,
fan-out and depth `1`, and the personalisation in its last eight bytes. -/
def init (nn : Nat) (personal : List UInt8) : Fin 8 → Word :=
  fun i => IV i ^^^ (![0x01010000 ^^^ BitVec.ofNat 32 nn, 0, 0, 0, 0, 0, wordAt personal 0, wordAt personal 4] :
    Fin 8 → Word) i

/-- 3.3: the state after the first `k` blocks, none of them the last. -/
def state (nn : Nat) (personal msg : List UInt8) (k : Nat) : Fin 8 → Word :=
  (List.range k).foldl (fun h i => F h (block msg i) ((i + 1) * 64) false) (init nn personal)

/-- 3.3: the final state. -/
def final (nn : Nat) (personal msg : List UInt8) : Fin 8 → Word :=
  F (state nn personal msg (dd msg - 1)) (block msg (dd msg - 1)) msg.length true

/-- 3.3: the digest, the first `nn` bytes of the little-endian words of the final state. -/
def digest (nn : Nat) (personal msg : List UInt8) : List UInt8 :=
  (List.range nn).map fun i => UInt8.ofNat ((final nn personal msg (Fin.ofNat 8 (i / 4))).toNat / 256 ^ (i % 4))

end Fawkes.Rfc7693
