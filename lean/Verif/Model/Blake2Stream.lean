import Verif.Model.Seedbox
import Verif.Model.Eddsa

/-!
# Blake2s fed piece by piece

The library never hashes a whole message at once: it makes a context with `Blake2s::with_params` or `Blake2s::new`, calls
`update` once or several times and then `finalize` (src/native/num.rs:122-126, src/native/eddsaposeidon.rs:11-16,
src/core/seedbox.rs:24-28, 41-55).  The context of the `blake2_rfc` crate is not in /repo; the buffering below is written
after the published source of that crate (`blake2-rfc` 0.2, macro `blake2_impl!`), without key and salt.
-/

namespace Fawkes.Blake2s

/-- The context of the crate: the block buffer (64 bytes), the chained words, the number of bytes fed, the digest length. -/
structure Ctx where
  m : List UInt8
  h : List Nat
  t : Nat
  nn : Nat

namespace Ctx

/-- `Blake2s::with_params(nn, &[], &[], personal)`; the crate asserts the bounds of the lengths.
`Blake2s::new(nn)` is the case of an empty personalisation. -/
def withParams (nn : Nat) (personal : List UInt8) : Except Panic Ctx :=
  if 1 ≤ nn ∧ nn ≤ 32 ∧ personal.length ≤ 8 then
    .ok ⟨List.replicate 64 0,
      List.zipWith (· ^^^ ·) iv (words 8 ([UInt8.ofNat nn, 0, 1, 1] ++ List.replicate 20 0 ++ personal)), 0, nn⟩
  else .error .assertion

/-- `compress(0, 0)` and `compress(!0, 0)` of the crate, on the buffer. -/
def squeeze (c : Ctx) (last : Bool) : Ctx := { c with h := compress c.h (words 16 c.m) c.t last }

/-- `copy_memory(part, &mut m[off..])` and `t.checked_add(part.len())`. -/
def fill (c : Ctx) (off : Nat) (part : List UInt8) : Except Panic Ctx :=
  if c.t + part.length < 2 ^ 64 then
    .ok { c with m := c.m.take off ++ part ++ c.m.drop (off + part.length), t := c.t + part.length }
  else .error .assertion

/-- The loop of `update` over whole blocks, and the piece left over. -/
def absorb (c : Ctx) (rest : List UInt8) : Except Panic Ctx :=
  if 64 ≤ rest.length then do
    let c ← (c.squeeze false).fill 0 (rest.take 64)
    absorb c (rest.drop 64)
  else if 0 < rest.length then (c.squeeze false).fill 0 rest
  else .ok c
termination_by rest.length
decreasing_by simp only [List.length_drop]; omega

/-- `update(data)`: first complete the block begun before, then take whole blocks; the last block is kept back, so that
`finalize` can mark it. -/
def update (c : Ctx) (data : List UInt8) : Except Panic Ctx :=
  if c.t % 64 ≠ 0 ∨ c.t = 0 then do
    let len := min (64 - c.t % 64) data.length
    let c ← c.fill (c.t % 64) (data.take len)
    c.absorb (data.drop len)
  else c.absorb data

/-- `finalize()`: clear what is left of the buffer, compress it as the last block, return the first `nn` bytes. -/
def finalize (c : Ctx) : List UInt8 :=
  let off := c.t % 64
  let c := if off ≠ 0 then { c with m := c.m.take off ++ List.replicate (64 - off) 0 } else c
  let c := c.squeeze true
  (c.h.flatMap fun w =>
    [UInt8.ofNat w, UInt8.ofNat (w / 256), UInt8.ofNat (w / 65536), UInt8.ofNat (w / 16777216)]).take c.nn

end Ctx

/-- A context fed the pieces one after the other, and its digest. -/
def hashPieces (nn : Nat) (personal : List UInt8) (pieces : List (List UInt8)) : Except Panic (List UInt8) := do
  let c ← Ctx.withParams nn personal
  let c ← pieces.foldlM Ctx.update c
  pure c.finalize

/-- src/native/num.rs:122-126: `from_seed` with the calls of the hash as they are written. -/
def fromSeedFed (p : Nat) (blob : List UInt8) : Except Panic (ZMod p) := do
  let d ← hashPieces (numBytes p) personalization [blob]
  Num.fromBinaryBE p d

/-- src/native/eddsaposeidon.rs:11-16: `hash_r` with the calls of the hash as they are written. -/
def hashRFed {r l : Nat} [Fact r.Prime] [Fact l.Prime] (sk : ZMod l) (m : ZMod r) : Except Panic (ZMod l) := do
  let b1 ← Num.intoBinaryBE sk
  let b2 ← Num.intoBinaryBE m
  let d ← hashPieces 32 personalization [b1, b2]
  Num.fromBinaryBE l d

/-- src/core/seedbox.rs:24-28: the hash of the salt. -/
def saltFed (salt : List UInt8) : Except Panic (List UInt8) := hashPieces 32 [] [salt]

/-- src/core/seedbox.rs:41-55: the block of the stream for one value of the counter: the counter, then the hashed salt if
there is one. -/
def blockFed (salt : Option (List UInt8)) (nIter : UInt64) : Except Panic (List UInt8) :=
  hashPieces 32 personalization (le64 nIter :: match salt with | some s => [s] | none => [])

end Fawkes.Blake2s
