import Verif.Model.Num

/-!
# Blake2s (RFC 7693) and the functions built on it

The library calls the `blake2_rfc` crate (src/native/num.rs:122-126, src/core/seedbox.rs); the hash is written here
from RFC 7693 and the parameter block of the Blake2 paper, on natural numbers below `2^32`, so that the constants the
library derives from seeds are computed and not assumed.
-/

namespace Fawkes.Blake2s

/-- 32-bit addition. -/
def add32 (a b : Nat) : Nat := (a + b) % 4294967296

/-- 32-bit rotation to the right. -/
def rotr32 (x n : Nat) : Nat := (x >>> n ||| x <<< (32 - n)) % 4294967296

/-- RFC 7693, 2.6: initialisation vector. -/
def iv : List Nat :=
  [0x6A09E667, 0xBB67AE85, 0x3C6EF372, 0xA54FF53A, 0x510E527F, 0x9B05688C, 0x1F83D9AB, 0x5BE0CD19]

/-- RFC 7693, 2.7: message schedule. -/
def sigma : List (List Nat) :=
  [[0, 1, 2, 3, 4, 5, 6, 7, 8, 9, 10, 11, 12, 13, 14, 15],
   [14, 10, 4, 8, 9, 15, 13, 6, 1, 12, 0, 2, 11, 7, 5, 3],
   [11, 8, 12, 0, 5, 2, 15, 13, 10, 14, 3, 6, 7, 1, 9, 4],
   [7, 9, 3, 1, 13, 12, 11, 14, 2, 6, 5, 10, 4, 0, 15, 8],
   [9, 0, 5, 7, 2, 4, 10, 15, 14, 1, 11, 12, 6, 8, 3, 13],
   [2, 12, 6, 10, 0, 11, 8, 3, 4, 13, 7, 5, 15, 14, 1, 9],
   [12, 5, 1, 15, 14, 13, 4, 10, 0, 7, 6, 3, 9, 2, 8, 11],
   [13, 11, 7, 14, 12, 1, 3, 9, 5, 0, 15, 4, 8, 6, 2, 10],
   [6, 15, 14, 9, 11, 3, 0, 8, 12, 2, 13, 7, 1, 4, 10, 5],
   [10, 2, 8, 4, 7, 6, 1, 5, 15, 11, 9, 14, 3, 12, 13, 0]]

/-- The sixteen words of the working vector. -/
structure Words where
  (v0 v1 v2 v3 v4 v5 v6 v7 v8 v9 v10 v11 v12 v13 v14 v15 : Nat)

/-- RFC 7693, 3.1: the mixing function on four words. -/
def mix (a b c d x y : Nat) : Nat × Nat × Nat × Nat :=
  let a := add32 (add32 a b) x
  let d := rotr32 (d ^^^ a) 16
  let c := add32 c d
  let b := rotr32 (b ^^^ c) 12
  let a := add32 (add32 a b) y
  let d := rotr32 (d ^^^ a) 8
  let c := add32 c d
  let b := rotr32 (b ^^^ c) 7
  (a, b, c, d)

/-- RFC 7693, 3.2: one round. -/
def round (m : List Nat) (v : Words) (s : List Nat) : Words :=
  let w := fun i => m.getD (s.getD i 0) 0
  match mix v.v0 v.v4 v.v8 v.v12 (w 0) (w 1) with
  | (a0, b0, c0, d0) =>
  match mix v.v1 v.v5 v.v9 v.v13 (w 2) (w 3) with
  | (a1, b1, c1, d1) =>
  match mix v.v2 v.v6 v.v10 v.v14 (w 4) (w 5) with
  | (a2, b2, c2, d2) =>
  match mix v.v3 v.v7 v.v11 v.v15 (w 6) (w 7) with
  | (a3, b3, c3, d3) =>
  match mix a0 b1 c2 d3 (w 8) (w 9) with
  | (a0, b1, c2, d3) =>
  match mix a1 b2 c3 d0 (w 10) (w 11) with
  | (a1, b2, c3, d0) =>
  match mix a2 b3 c0 d1 (w 12) (w 13) with
  | (a2, b3, c0, d1) =>
  match mix a3 b0 c1 d2 (w 14) (w 15) with
  | (a3, b0, c1, d2) => ⟨a0, a1, a2, a3, b0, b1, b2, b3, c0, c1, c2, c3, d0, d1, d2, d3⟩

/-- RFC 7693, 3.2: the compression function; `t` is the number of bytes compressed so far, including this block. -/
def compress (h m : List Nat) (t : Nat) (last : Bool) : List Nat :=
  let g := fun i => h.getD i 0
  let k := fun i => iv.getD i 0
  let v : Words := ⟨g 0, g 1, g 2, g 3, g 4, g 5, g 6, g 7, k 0, k 1, k 2, k 3, k 4 ^^^ (t % 4294967296),
    k 5 ^^^ (t / 4294967296 % 4294967296), if last then k 6 ^^^ 4294967295 else k 6, k 7⟩
  let v := sigma.foldl (round m) v
  [g 0 ^^^ v.v0 ^^^ v.v8, g 1 ^^^ v.v1 ^^^ v.v9, g 2 ^^^ v.v2 ^^^ v.v10, g 3 ^^^ v.v3 ^^^ v.v11,
   g 4 ^^^ v.v4 ^^^ v.v12, g 5 ^^^ v.v5 ^^^ v.v13, g 6 ^^^ v.v6 ^^^ v.v14, g 7 ^^^ v.v7 ^^^ v.v15]

/-- Little-endian 32-bit words of a byte string, padded with zeros. -/
def words (n : Nat) (b : List UInt8) : List Nat :=
  (List.range n).map fun i =>
    let g := fun j => (b.getD (4 * i + j) 0).toNat
    g 0 + 256 * (g 1 + 256 * (g 2 + 256 * g 3))

/-- All blocks of a message; an empty message is one zero block. -/
def blocks (h : List Nat) (t : Nat) : (fuel : Nat) → List UInt8 → List Nat
  | 0, _ => h
  | fuel + 1, b =>
    if b.length ≤ 64 then compress h (words 16 b) (t + b.length) true
    else blocks (compress h (words 16 b) (t + 64) false) (t + 64) fuel (b.drop 64)

/-- `Blake2s::with_params(nn, &[], &[], personal)`, `update(msg)`, `finalize()`. -/
def hash (nn : Nat) (personal msg : List UInt8) : List UInt8 :=
  let param := words 8 ([UInt8.ofNat nn, 0, 1, 1] ++ List.replicate 20 0 ++ personal)
  let h := blocks (List.zipWith (· ^^^ ·) iv param) 0 (msg.length / 64 + 1) msg
  (h.flatMap fun w => [UInt8.ofNat w, UInt8.ofNat (w / 256), UInt8.ofNat (w / 65536), UInt8.ofNat (w / 16777216)]).take nn

/-- RFC 7693, Appendix B: BLAKE2s-256 of "abc". -/
theorem hash_abc : hash 32 [] [0x61, 0x62, 0x63] =
    [0x50, 0x8C, 0x5E, 0x8C, 0x32, 0x7C, 0x14, 0xE2, 0xE1, 0xA7, 0x2B, 0xA3, 0x4E, 0xEB, 0x45, 0x2F,
     0x37, 0x45, 0x8B, 0x20, 0x9E, 0xD6, 0x3A, 0x29, 0x4D, 0x99, 0x9B, 0x4C, 0x86, 0x67, 0x59, 0x82] := by
  decide +kernel

end Fawkes.Blake2s
