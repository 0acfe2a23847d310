import Verif.Model.Bellman
import Verif.Model.Num

/-!
# Randomness of the operating system (src/core/osrng.rs) in `generate_keys` and `prove`

The operating system is a byte string: `getrandom` hands it out piece by piece and fails when it is used up.  So a theorem about all
byte strings covers every run, with a failing `getrandom` or without.
-/

namespace Fawkes

/-- The bytes that `getrandom` is still going to deliver before it fails. -/
abbrev Entropy := List UInt8

namespace OsRng

/-- src/core/osrng.rs:13-17: `next_u32`: four bytes, big-endian; a failure of `getrandom` panics. -/
def nextU32 : Entropy → Except Panic (Nat × Entropy)
  | a :: b :: c :: d :: rest => .ok (((a.toNat * 256 + b.toNat) * 256 + c.toNat) * 256 + d.toNat, rest)
  | _ => .error .unwrap

/-- rand 0.4.6 `Rng::next_u64`: two 32-bit numbers, high word first. -/
def nextU64 (s : Entropy) : Except Panic (Nat × Entropy) := do
  let (hi, s) ← nextU32 s
  let (lo, s) ← nextU32 s
  pure (hi * 2 ^ 32 + lo, s)

/-- rand 0.4.6 `Rand for [u64; n]`: the limbs in order, as one number. -/
def nextLimbs : Nat → Entropy → Except Panic (Nat × Entropy)
  | 0, s => .ok (0, s)
  | n + 1, s => do
    let (x, s) ← nextU64 s
    let (y, s) ← nextLimbs n s
    pure (x + 2 ^ 64 * y, s)

/-- The loop of `rand`; the first argument bounds the number of rounds. -/
def randLoop (p : Nat) [Fact p.Prime] : Nat → Entropy → Except Panic (ZMod p × Entropy)
  | 0, _ => .error .unwrap
  | fuel + 1, s => do
    let (v, s) ← nextLimbs (nLimbs p) s
    if v % 2 ^ numBits p < p then .ok (((v % 2 ^ numBits p : Nat) : ZMod p) / 2 ^ (64 * nLimbs p), s)
    else randLoop p fuel s

/-- ff_derive_ce 0.5.1 `Rand` (as in Model/Rand): draw all limbs, cut the number to `NUM_BITS` bits, try again unless it is below
the modulus.  Every round takes bytes, so a bound on the rounds that exceeds the number of bytes is no bound. -/
def rand (p : Nat) [Fact p.Prime] (s : Entropy) : Except Panic (ZMod p × Entropy) := randLoop p (s.length + 1) s

end OsRng

namespace Groth16

/-- Why `generate_keys` or `prove` panics: `getrandom` failed, or the external crate returned an error or panicked. -/
inductive OsError where
  | os (p : Panic)
  | key (e : KeyError)

variable {G1 G2 : Type} [AddCommGroup G1] [AddCommGroup G2] [DecidableEq G1] [DecidableEq G2] {r : Nat} [Fact r.Prime]

/-- bellman's `create_random_proof`: the two random choices of the prover, in the order in which they are drawn. -/
def proofCoins (r : Nat) [Fact r.Prime] (b : Entropy) : Except Panic ((ZMod r × ZMod r) × Entropy) := do
  let (x, b) ← OsRng.rand r b
  let (y, b) ← OsRng.rand r b
  pure ((x, y), b)

/-- src/helpers/groth16/prover.rs:105-111: `prove`, with `OsRng`. -/
def proveOs {α : Type} (K : TwoAdic (ZMod r)) (params : Parameters G1 G2) (circuit : M (ZMod r) α) (b : Entropy) :
    Except OsError (Proof G1 G2) :=
  match proofCoins r b with
  | .error e => .error (.os e)
  | .ok ((x, y), _) =>
    match prove K params x y circuit with
    | .error e => .error (.key e)
    | .ok proof => .ok proof

/-- bellman's `generate_random_parameters`: two random points and five field elements, in the order in which they are drawn.  How a
random point is made from the numbers of the generator belongs to the pairing crate and is a parameter (for BN256 see Model/RandomPoint). -/
def setupCoins (r : Nat) [Fact r.Prime] (point1 : Entropy → Except Panic (G1 × Entropy)) (point2 : Entropy → Except Panic (G2 × Entropy))
    (b : Entropy) : Except Panic (Toxic G1 G2 r × Entropy) := do
  let (g1, b) ← point1 b
  let (g2, b) ← point2 b
  let (alpha, b) ← OsRng.rand r b
  let (beta, b) ← OsRng.rand r b
  let (gamma, b) ← OsRng.rand r b
  let (delta, b) ← OsRng.rand r b
  let (tau, b) ← OsRng.rand r b
  pure (⟨g1, g2, alpha, beta, gamma, delta, tau⟩, b)

/-- src/helpers/groth16/prover.rs:98-103: `generate_keys`, with `OsRng`. -/
def generateKeysOs {α : Type} (K : TwoAdic (ZMod r)) (point1 : Entropy → Except Panic (G1 × Entropy))
    (point2 : Entropy → Except Panic (G2 × Entropy)) (circuit : M (ZMod r) α) (b : Entropy) : Except OsError (Parameters G1 G2) :=
  match setupCoins r point1 point2 b with
  | .error e => .error (.os e)
  | .ok (t, _) =>
    match generateKeys K t circuit with
    | .error e => .error (.key e)
    | .ok params => .ok params

end Groth16

end Fawkes
