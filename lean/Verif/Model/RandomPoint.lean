import Verif.Model.OsRng
import Verif.Model.PointBytes

/-!
# The random points of the key generator

`generate_keys` (src/helpers/groth16/prover.rs:98-103) calls bellman's `generate_random_parameters`, which draws the two bases with
`rng.gen()`.  The implementations of `Rand` for the points belong to the external crate `pairing_ce` (0.18, `ec.rs` of each curve), that for
`bool` to `rand` 0.4.6.  They are written out here; the cofactor is a parameter of `scaled`.
-/

namespace Fawkes.Groth16

/-- rand 0.4.6 `Rand for bool`: the lowest bit of `next_u32() as u8`. -/
def randBool (s : Entropy) : Except Panic (Bool × Entropy) := do
  let (v, s) ← OsRng.nextU32 s
  pure (v % 256 % 2 == 1, s)

/-- `Rand for Fq2`: first `c0`, then `c1`. -/
def randFq2 (q : Nat) [Fact q.Prime] (s : Entropy) : Except Panic (Fq2 (ZMod q) × Entropy) := do
  let (c0, s) ← OsRng.rand q s
  let (c1, s) ← OsRng.rand q s
  pure (⟨c0, c1⟩, s)

section

variable {K G : Type} [Field K] [DecidableEq K] [Zero G] [DecidableEq G]

/-- The loop of `Rand for G1` and `Rand for G2`; the first argument bounds the number of rounds.  An abscissa and a bit are drawn until they
belong to a point of which the multiple by the cofactor is not zero. -/
def randPointLoop (c : CoordBytes K) (sqrt : K → Option K) (b : K) (coord : Entropy → Except Panic (K × Entropy)) (scaled : Affine K → G) :
    Nat → Entropy → Except Panic (G × Entropy)
  | 0, _ => .error .unwrap
  | fuel + 1, s => do
    let (x, s) ← coord s
    let (greatest, s) ← randBool s
    match pointFromX c sqrt b x greatest with
    | none => randPointLoop c sqrt b coord scaled fuel s
    | some p =>
      let p := scaled p
      if p = 0 then randPointLoop c sqrt b coord scaled fuel s else .ok (p, s)

/-- `Rand for G1`, `Rand for G2`.  Every round takes bytes, so a bound on the rounds that exceeds the number of bytes is no bound. -/
def randPoint (c : CoordBytes K) (sqrt : K → Option K) (b : K) (coord : Entropy → Except Panic (K × Entropy)) (scaled : Affine K → G)
    (s : Entropy) : Except Panic (G × Entropy) :=
  randPointLoop c sqrt b coord scaled (s.length + 1) s

end

end Fawkes.Groth16
