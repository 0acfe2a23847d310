import Verif.Model.Limbs
import Verif.Model.OsRng
import Verif.Model.Rand

/-!
# Random field elements as machine words

`Rand` of the field types, called by src/native/num.rs:70-74 and by the key generator and the prover, as `ff_derive_ce` 0.5.1
generates it (its source is not in /repo).  Model/Rand and Model/OsRng have the same function on numbers.
-/

namespace Fawkes.Limbs

/-- rand 0.4.6 `Rand for [u64; n]`: the words in order, drawn by `next_u64`. -/
def nextWords {σ : Type} (next : σ → Except Panic (Nat × σ)) : Nat → σ → Except Panic (Words × σ)
  | 0, s => .ok ([], s)
  | n + 1, s => do
    let (x, s) ← next s
    let (w, s) ← nextWords next n s
    pure (UInt64.ofNat x :: w, s)

/-- `REPR_SHAVE_BITS` -/
def shaveBits (p : Nat) : Nat := 64 * nLimbs p - numBits p

/-- `tmp.0.as_mut()[limbs - 1] &= 0xffffffffffffffff >> REPR_SHAVE_BITS` -/
def shaved (p : Nat) (w : Words) : Words :=
  w.dropLast ++ [w.getLastD 0 &&& (0xffffffffffffffff >>> UInt64.ofNat (shaveBits p))]

/-- `Rand::rand` of a field: draw, cut, return what `is_valid` accepts.  At most `tries` draws. -/
def rand {σ : Type} (next : σ → Except Panic (Nat × σ)) (p : Nat) : (tries : Nat) → σ → Except Stop (Words × σ)
  | 0, _ => .error .running
  | tries + 1, s =>
    match nextWords next (nLimbs p) s with
    | .error e => .error (.panic e)
    | .ok (w, s) => if isValid p (shaved p w) then .ok (shaved p w, s) else rand next p tries s

end Fawkes.Limbs
