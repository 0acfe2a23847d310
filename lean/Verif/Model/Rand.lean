import Verif.Model.Seedbox
import Verif.Model.Poseidon

/-!
# Random field elements and generated Poseidon parameters

src/native/num.rs:70-74 calls `rng.gen()` for the field type.  What this does with the numbers of the generator is
fixed by the crates `rand` 0.4.6 (default `next_u64`, arrays element by element) and `ff_derive_ce` 0.5.1
(rejection sampling); both are modelled from their definition.
-/

namespace Fawkes

/-- Why a sampling run has no result: a panic, or the given number of tries was not enough (the code has no such
bound). -/
inductive Stop where
  | panic (e : Panic)
  | running
  deriving DecidableEq

/-- rand 0.4.6 `Rng::next_u64`: two 32-bit numbers, high word first. -/
def SeedboxBlake2.nextU64 (checks : Bool) (s : SeedboxBlake2) : Except Panic (Nat × SeedboxBlake2) := do
  let (hi, s) ← s.nextU32 checks
  let (lo, s) ← s.nextU32 checks
  pure (hi * 2 ^ 32 + lo, s)

/-- rand 0.4.6 `Rand for [u64; n]`: the limbs in order, as one number. -/
def SeedboxBlake2.nextLimbs (checks : Bool) : Nat → SeedboxBlake2 → Except Panic (Nat × SeedboxBlake2)
  | 0, s => .ok (0, s)
  | n + 1, s => do
    let (x, s) ← s.nextU64 checks
    let (y, s) ← nextLimbs checks n s
    pure (x + 2 ^ 64 * y, s)

/-- ff_derive_ce 0.5.1 `Rand`, called by src/native/num.rs:70-74: draw all limbs, cut the number to `NUM_BITS` bits
(the unused bits are the high ones of the last limb), accept it if it is below the modulus; it is then taken as
Montgomery form, that is it stands for the number divided by `2^(64 · limbs)`.  At most `tries` draws. -/
def Num.rand (p : Nat) [Fact p.Prime] (checks : Bool) :
    (tries : Nat) → SeedboxBlake2 → Except Stop (ZMod p × SeedboxBlake2)
  | 0, _ => .error .running
  | tries + 1, s =>
    match s.nextLimbs checks (nLimbs p) with
    | .error e => .error (.panic e)
    | .ok (v, s) =>
      if v % 2 ^ numBits p < p then .ok (((v % 2 ^ numBits p : Nat) : ZMod p) / 2 ^ (64 * nLimbs p), s)
      else rand p checks tries s

/-- src/native/poseidon.rs:19-29: `PoseidonParams::new` with the seedbox as generator. -/
def PoseidonParams.new (r : Nat) [Fact r.Prime] (checks : Bool) (tries t f p : Nat) :
    Except Stop (PoseidonParams (ZMod r)) :=
  Poseidon.newParams (fun salt => SeedboxBlake2.newWithSalt (salt.map fun c => UInt8.ofNat c.toNat))
    (Num.rand r checks tries) t f p

end Fawkes
