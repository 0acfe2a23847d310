import Verif.Model.WordField
import Verif.Model.Eddsa
import Verif.Model.LimbsRand
import Verif.Model.Sqrt

/-!
# Conversions, square roots, parameters and signatures on machine words

The functions of src/native that look at the integer of an element or that are written in the model for `ZMod` only, run on the arrays
of Model/WordField.  The bytes and integers in between are handled by the functions of Model/Num.
-/

namespace Fawkes.Limbs

namespace Elem

section

variable {p : Nat} [Fact p.Prime]

/-- Words as an element, if they are one. -/
def check (w : Words) : Option (Elem p) := if h : w.length = nLimbs p ∧ reprNat w < p then some ⟨w, h.1, h.2⟩ else none

/-- ff `from_repr` -/
def fromRepr (r : Words) : Option (Elem p) := (Limbs.fromRepr p r).bind check

/-- src/native/num.rs:96-101: `into_binary_be` -/
def intoBinaryBE (a : Elem p) : Except Panic (List UInt8) := Num.writeBEInto (numBytes p) (Limbs.intoRepr p a.words)

/-- src/native/num.rs:251-265: `Num::from(BigUint)` -/
def fromBigUint (p : Nat) [Fact p.Prime] (x : Nat) : Except Panic (Elem p) := do
  let order ← Num.writeBEInto (numBytes p) (limbsOf (nLimbs p) p)
  let remainder := Num.biguintToBE (x % Num.biguintFromBE order)
  if numBytes p < remainder.length then .error .outOfBounds
  else
    let buff := List.replicate (numBytes p - remainder.length) 0 ++ remainder
    match Num.readBE (nLimbs p) buff with
    | none => .error .unwrap
    | some (r, _) =>
      match fromRepr r with
      | none => .error .unwrap
      | some y => .ok y

/-- src/native/num.rs:103-106: `from_binary_be` -/
def fromBinaryBE (p : Nat) [Fact p.Prime] (blob : List UInt8) : Except Panic (Elem p) := fromBigUint p (Num.biguintFromBE blob)

/-- src/native/num.rs:115-120: `into_other` -/
def intoOther (q : Nat) [Fact q.Prime] (a : Elem p) : Except Panic (Elem q) := do
  let buff ← intoBinaryBE a
  fromBinaryBE q buff

/-- src/native/num.rs:122-126: `from_seed` -/
def fromSeed (p : Nat) [Fact p.Prime] (blob : List UInt8) : Except Panic (Elem p) :=
  if numBytes p ≤ 32 then fromBinaryBE p (Blake2s.hash (numBytes p) personalization blob) else .error .assertion

/-- src/native/num.rs:70-74 with the seedbox as generator. -/
def rand (p : Nat) [Fact p.Prime] (checks : Bool) (tries : Nat) (s : SeedboxBlake2) : Except Stop (Elem p × SeedboxBlake2) :=
  match Limbs.rand (SeedboxBlake2.nextU64 checks) p tries s with
  | .error e => .error e
  | .ok (w, s) =>
    match check w with
    | some a => .ok (a, s)
    | none => .error (.panic .unwrap)

end

section

variable {p : Nat} [Fact p.Prime] [Fact (p % 2 = 1)]

/-- src/native/poseidon.rs:19-29: `PoseidonParams::new` -/
def newParams (r : Nat) [Fact r.Prime] [Fact (r % 2 = 1)] (checks : Bool) (tries t f p : Nat) : Except Stop (PoseidonParams (Elem r)) :=
  Poseidon.newParams (fun salt => SeedboxBlake2.newWithSalt (salt.map fun c => UInt8.ofNat c.toNat)) (rand r checks tries) t f p

/-- `legendre` as in Model/Sqrt. -/
def legendre (x : Elem p) : FieldSqrt.Legendre :=
  let s := FieldSqrt.pow x (FieldSqrt.exponent p ((p - 1) / 2))
  if s = 0 then .zero else if s = 1 then .residue else .nonResidue

/-- The inner loop of `sqrt`, as in Model/Sqrt. -/
def order : (fuel : Nat) → (t2i : Elem p) → (i : Nat) → Option Nat
  | 0, _, _ => none
  | fuel + 1, t2i, i => if t2i = 1 then some i else order fuel (t2i * t2i) (i + 1)

/-- `for _ in 0..n { c.square() }` -/
def squares : Nat → Elem p → Elem p
  | 0, c => c
  | n + 1, c => squares n (c * c)

/-- The outer loop of `sqrt`, as in Model/Sqrt. -/
def shanks : (fuel : Nat) → (c r t : Elem p) → (m : Nat) → Option (Elem p)
  | 0, _, _, _, _ => none
  | fuel + 1, c, r, t, m =>
    if t = 1 then some r
    else
      match order (m + 1) (t * t) 1 with
      | none => none
      | some i =>
        if m < i + 1 then none
        else
          let c := squares (m - i - 1) c
          let r := r * c
          let c := c * c
          let t := t * c
          shanks fuel c r t i

/-- `sqrt` for a modulus that is 1 modulo 16, as in Model/Sqrt; the constant `ROOT_OF_UNITY` is computed from the words of the
generator. -/
def sqrt16 (g s : Nat) (a : Elem p) : Option (Option (Elem p)) :=
  let t := (p - 1) / 2 ^ s
  let root := FieldSqrt.pow (ofValue (g : ZMod p)) (FieldSqrt.exponent p t)
  match legendre a with
  | .zero => some (some a)
  | .nonResidue => some none
  | .residue =>
    match shanks (s + 1) root (FieldSqrt.pow a (FieldSqrt.exponent p ((t + 1) / 2))) (FieldSqrt.pow a (FieldSqrt.exponent p t)) s with
    | some r => some (some r)
    | none => none

end

end Elem

/-- src/native/ecc.rs:158-160: `mul` with a scalar that is an array of words. -/
def mulPoint {r l : Nat} [Fact r.Prime] [Fact (r % 2 = 1)] (g : EdwardsPoint (Elem r)) (s : Elem l) (J : JubJubParams (Elem r)) :
    Except Panic (EdwardsPoint (Elem r)) := (g.intoExtended.mulRaw (Limbs.intoRepr l s.words) J).intoAffine

section

variable {r : Nat} [Fact r.Prime] [Fact (r % 2 = 1)]

/-- src/native/eddsaposeidon.rs:11-16: `hash_r` -/
def hashR {l : Nat} [Fact l.Prime] (sk : Elem l) (m : Elem r) : Except Panic (Elem l) := do
  let b1 ← sk.intoBinaryBE
  let b2 ← m.intoBinaryBE
  Elem.fromBinaryBE l (Blake2s.hash 32 personalization (b1 ++ b2))

/-- src/native/eddsaposeidon.rs:18-25: `hash_ram` -/
def hashRam (rx a m : Elem r) (P : PoseidonParams (Elem r)) : Except Panic (Elem r) := do
  let seed ← Elem.fromSeed r seedEddsaPoseidon
  Poseidon.poseidonWithSalt [rx, a, m] seed P

/-- src/native/eddsaposeidon.rs:27-38: `eddsaposeidon_sign` -/
def sign (J : JubJubParams (Elem r)) [Fact J.l.Prime] [Fact (J.l % 2 = 1)] (sk : Elem J.l) (m : Elem r) (P : PoseidonParams (Elem r)) :
    Except Panic (Elem J.l × Elem r) := do
  let rho ← hashR sk m
  let rp ← mulPoint J.g rho J
  let ap ← mulPoint J.g sk J
  let h ← hashRam rp.x ap.x m P
  let h' ← h.intoOther J.l
  pure (rho + h' * sk, rp.x)

/-- src/native/eddsaposeidon.rs:40-66: `eddsaposeidon_verify` -/
def verify (sqrt : Elem r → Option (Elem r)) (J : JubJubParams (Elem r)) [Fact J.l.Prime] (s : Elem J.l)
    (rx a m : Elem r) (P : PoseidonParams (Elem r)) : Except Panic Bool := do
  match ← EdwardsPoint.subgroupDecompress sqrt a J with
  | none => pure false
  | some pa =>
    match ← EdwardsPoint.subgroupDecompress sqrt rx J with
    | none => pure false
    | some pr => do
      let h ← hashRam rx a m P
      let h' ← h.intoOther J.l
      let ha ← mulPoint pa h' J
      let sb ← mulPoint J.g s J
      let haR ← ha.add pr J
      pure (sb.x == haR.x && sb.y == haR.y)

end

end Fawkes.Limbs
