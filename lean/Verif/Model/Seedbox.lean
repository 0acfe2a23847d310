import Verif.Model.Blake2

/-!
# Seeds and the seedbox (src/native/num.rs:122-126, src/core/seedbox.rs)
-/

namespace Fawkes

/-- src/constants.rs:1: `b"__fawkes"` -/
def personalization : List UInt8 := [0x5f, 0x5f, 0x66, 0x61, 0x77, 0x6b, 0x65, 0x73]

/-- src/constants.rs:2: `b"edwards_g"` -/
def seedEdwardsG : List UInt8 := [0x65, 0x64, 0x77, 0x61, 0x72, 0x64, 0x73, 0x5f, 0x67]

/-- src/constants.rs:3: `b"eddsaposeidon"` -/
def seedEddsaPoseidon : List UInt8 :=
  [0x65, 0x64, 0x64, 0x73, 0x61, 0x70, 0x6f, 0x73, 0x65, 0x69, 0x64, 0x6f, 0x6e]

/-- src/native/num.rs:122-126: `from_seed`; Blake2s rejects digests longer than 32 bytes. -/
def Num.fromSeed (p : Nat) (blob : List UInt8) : Except Panic (ZMod p) :=
  if numBytes p ≤ 32 then Num.fromBinaryBE p (Blake2s.hash (numBytes p) personalization blob)
  else .error .assertion

/-- Little-endian bytes of a 64-bit counter (`write_u64::<LittleEndian>`, src/core/seedbox.rs:43-47). -/
def le64 (n : UInt64) : List UInt8 := (List.range 8).map fun i => UInt8.ofNat (n.toNat / 256 ^ i)

/-- src/core/seedbox.rs:7-12 -/
structure SeedboxBlake2 where
  salt : Option (List UInt8)
  nIter : UInt64
  nLimb : Nat
  buff : List UInt8

namespace SeedboxBlake2

/-- src/core/seedbox.rs:15-22 -/
def new : SeedboxBlake2 := ⟨none, 0, 8, List.replicate 32 0⟩

/-- src/core/seedbox.rs:24-36 -/
def newWithSalt (salt : List UInt8) : SeedboxBlake2 := ⟨some (Blake2s.hash 32 [] salt), 0, 8, List.replicate 32 0⟩

/-- src/core/seedbox.rs:50-52: what the optional second `update` adds to the hashed message. -/
def saltBytes : Option (List UInt8) → List UInt8
  | some h => h
  | none => []

/-- src/core/seedbox.rs:40-65: `next_u32`; with overflow checks the increment of the last counter value panics, without
them it wraps.  Reading past the buffer (the slice expression) panics. -/
def nextU32 (checks : Bool) (s : SeedboxBlake2) : Except Panic (Nat × SeedboxBlake2) := do
  let s ← if s.nLimb = 8 then
      if checks && s.nIter.toNat + 1 == 2 ^ 64 then .error .assertion
      else pure { s with
        nLimb := 0
        nIter := s.nIter + 1
        buff := Blake2s.hash 32 personalization
          (le64 s.nIter ++ saltBytes s.salt) }
    else pure s
  if (s.nLimb + 1) * 4 ≤ s.buff.length then
    let g := fun j => (s.buff.getD (s.nLimb * 4 + j) 0).toNat
    pure (g 0 + 256 * (g 1 + 256 * (g 2 + 256 * g 3)), { s with nLimb := s.nLimb + 1 })
  else .error .outOfBounds

/-- `n` successive calls of `next_u32`. -/
def take (checks : Bool) : Nat → SeedboxBlake2 → Except Panic (List Nat × SeedboxBlake2)
  | 0, s => .ok ([], s)
  | n + 1, s => do
    let (x, s) ← s.nextU32 checks
    let (xs, s) ← take checks n s
    pure (x :: xs, s)

end SeedboxBlake2

end Fawkes
