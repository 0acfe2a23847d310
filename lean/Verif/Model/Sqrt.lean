import Verif.Model.Ecc
import Verif.Model.Groth16
import Verif.Lemmas.Primes

/-!
# Square roots

`Num::sqrt` (src/native/num.rs:78-80) calls `sqrt` of the field, which `ff_derive` generates; the random points and the
decompression of `pairing` call the roots of the base fields.  The algorithms below are those that `ff_derive` (for moduli
that are 3 modulo 4 and 1 modulo 16) and `pairing` (for the quadratic extension) take from
<https://eprint.iacr.org/2012/685.pdf> (algorithms 2, 5 and 9); their source is not in /repo.
-/

namespace Fawkes.FieldSqrt

open Groth16 (Fq2)

section

variable {F : Type} [CommRing F] [DecidableEq F]

/-- One bit of `Field::pow`: squarings begin after the first one bit. -/
def powStep (x : F) : F × Bool → Bool → F × Bool
  | (res, found), i =>
    let (res, found) := if found then (res * res, found) else (res, i)
    (if i then res * x else res, found)

/-- `Field::pow(exp)` of `ff`: the bits of the limbs from the most significant down. -/
def pow (x : F) (exp : List UInt64) : F := ((reprBitsBE exp).foldl (powStep x) (1, false)).1

/-- The constant exponents of the generated code, as limbs. -/
def exponent (p e : Nat) : List UInt64 := limbsOf (nLimbs p) e

end

/-- `LegendreSymbol` of `ff`. -/
inductive Legendre where
  | zero
  | residue
  | nonResidue
  deriving DecidableEq

/-- `SqrtField::legendre`, generated by `ff_derive`. -/
def legendre {p : Nat} (x : ZMod p) : Legendre :=
  let s := pow x (exponent p ((p - 1) / 2))
  if s = 0 then .zero else if s = 1 then .residue else .nonResidue

/-- `sqrt` generated by `ff_derive` for a modulus that is 3 modulo 4 (algorithm 2). -/
def sqrt34 {p : Nat} (a : ZMod p) : Option (ZMod p) :=
  let a1 := pow a (exponent p ((p - 3) / 4))
  let a0 := a1 * a1 * a
  if a0 = -1 then none else some (a1 * a)

/-- The inner loop of algorithm 5: square until one, counting.  `none`: the loop does not end within the fuel. -/
def order {p : Nat} : (fuel : Nat) → (t2i : ZMod p) → (i : Nat) → Option Nat
  | 0, _, _ => none
  | fuel + 1, t2i, i => if t2i = 1 then some i else order fuel (t2i * t2i) (i + 1)

/-- `for _ in 0..n { c.square() }` -/
def squares {p : Nat} : Nat → ZMod p → ZMod p
  | 0, c => c
  | n + 1, c => squares n (c * c)

/-- The outer loop of algorithm 5.  `none`: a loop does not end within the fuel, or `m - i - 1` is negative. -/
def shanks {p : Nat} : (fuel : Nat) → (c r t : ZMod p) → (m : Nat) → Option (ZMod p)
  | 0, _, _, _, _ => none
  | fuel + 1, c, r, t, m =>
    if t = 1 then some r
    else
      match order (m + 1) (t * t) 1 with
      | none => none
      | some i =>
        if m < i + 1 then none
        else
          let c := squares (m - i - 1) c
          let r := r * c
          let c := c * c
          let t := t * c
          shanks fuel c r t i

/-- `sqrt` generated by `ff_derive` for a modulus that is 1 modulo 16 (algorithm 5, Tonelli and Shanks), with the
multiplicative generator `g` of the field's declaration and `2^s` the power of two in `p - 1`.  The outer option is `none`
if the computation does not end. -/
def sqrt16 {p : Nat} (g s : Nat) (a : ZMod p) : Option (Option (ZMod p)) :=
  let t := (p - 1) / 2 ^ s
  let root := pow (g : ZMod p) (exponent p t)
  match legendre a with
  | .zero => some (some a)
  | .nonResidue => some none
  | .residue =>
    match shanks (s + 1) root (pow a (exponent p ((t + 1) / 2))) (pow a (exponent p t)) s with
    | some r => some (some r)
    | none => none

/-- `Fr::sqrt` of BN256: generator 7, `2^28` divides the order of the group. -/
def bnRun (a : ZMod bnR) : Option (Option (ZMod bnR)) := sqrt16 7 28 a

/-- `Fr::sqrt` of BLS12-381: generator 7, `2^32` divides the order of the group. -/
def blsRun (a : ZMod blsR) : Option (Option (ZMod blsR)) := sqrt16 7 32 a

/-- The result of `Num::sqrt` over BN256, src/native/num.rs:78-80. -/
def bnSqrt (a : ZMod bnR) : Option (ZMod bnR) := (bnRun a).getD none

/-- The result of `Num::sqrt` over BLS12-381, src/native/num.rs:78-80. -/
def blsSqrt (a : ZMod blsR) : Option (ZMod blsR) := (blsRun a).getD none

/-- `Fq2::frobenius_map(1)` of `pairing`. -/
def frobenius {q : Nat} (a : Fq2 (ZMod q)) : Fq2 (ZMod q) := ⟨a.re, a.im * -1⟩

/-- `Fq2::sqrt` of `pairing` (algorithm 9), for both curves. -/
def sqrt2 {q : Nat} (a : Fq2 (ZMod q)) : Option (Fq2 (ZMod q)) :=
  if a = 0 then some 0
  else
    let a1 := pow a (exponent q ((q - 3) / 4))
    let alpha := a1 * a1 * a
    let a0 := frobenius alpha * alpha
    if a0 = -1 then none
    else
      let a1 := a1 * a
      if alpha = -1 then some (a1 * ⟨0, 1⟩)
      else
        let alpha := pow (alpha + 1) (exponent q ((q - 1) / 2))
        some (a1 * alpha)

end Fawkes.FieldSqrt
