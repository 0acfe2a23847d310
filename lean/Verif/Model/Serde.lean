import Verif.Model.Json
import Verif.Model.Groth16
import Verif.Model.Signal

/-!
# Typed JSON: the `Serialize` and `Deserialize` implementations of the library

`none` on the reading side is an error of the deserialiser or a panic; the commands unwrap the result.
-/

namespace Fawkes.Serde

open Fawkes Fawkes.Groth16

/-- serde's `Deserialize` for tuples and vectors: all elements or an error. -/
def mapOption {A B : Type} (f : A → Option B) : List A → Option (List B)
  | [] => some []
  | a :: as => do
    let b ← f a
    let bs ← mapOption f as
    some (b :: bs)

section num

variable {p : Nat}

/-- src/native/num.rs:45-49 -/
def numTo (x : ZMod p) : Except Panic Json := do
  let s ← Num.serdeSerialize x
  pure (.str s)

/-- src/native/num.rs:57-68: only a string is accepted. -/
def numOf (p : Nat) : Json → Option (ZMod p)
  | .str s =>
    match Num.serdeDeserialize p s with
    | .ok o => o
    | .error _ => none
  | _ => none

/-- `Vec<T>` -/
def vecTo {A : Type} (f : A → Except Panic Json) (l : List A) : Except Panic Json := do
  let l ← mapE f l
  pure (.arr l)

/-- `Vec<T>` -/
def vecOf {A : Type} (f : Json → Option A) : Json → Option (List A)
  | .arr l => mapOption f l
  | _ => none

/-- Pairs `(A, B)`: an array of exactly two elements. -/
def pairTo {A B : Type} (f : A → Except Panic Json) (g : B → Except Panic Json) (x : A × B) : Except Panic Json := do
  let a ← f x.1
  let b ← g x.2
  pure (.arr [a, b])

/-- Pairs `(A, B)` -/
def pairOf {A B : Type} (f : Json → Option A) (g : Json → Option B) : Json → Option (A × B)
  | .arr [a, b] => do
    let a ← f a
    let b ← g b
    some (a, b)
  | _ => none

/-- src/helpers/groth16/mod.rs:85-87: the derived `Serialize` of a tuple struct -/
def g1To (d : G1PointData (ZMod p)) : Except Panic Json := pairTo numTo numTo (d.p0, d.p1)

/-- src/helpers/groth16/mod.rs:85-87: the derived `Deserialize` -/
def g1Of (p : Nat) (j : Json) : Option (G1PointData (ZMod p)) := do
  let (a, b) ← pairOf (numOf p) (numOf p) j
  some ⟨a, b⟩

/-- src/helpers/groth16/mod.rs:89-91 -/
def g2To (d : G2PointData (ZMod p)) : Except Panic Json := pairTo (pairTo numTo numTo) (pairTo numTo numTo) (d.p0, d.p1)

/-- src/helpers/groth16/mod.rs:89-91 -/
def g2Of (p : Nat) (j : Json) : Option (G2PointData (ZMod p)) := do
  let (a, b) ← pairOf (pairOf (numOf p) (numOf p)) (pairOf (numOf p) (numOf p)) j
  some ⟨a, b⟩

/-- serde's derived `Deserialize` of structs: a known field must occur exactly once; unknown fields are ignored. -/
def field (name : List Char) (l : List (List Char × Json)) : Option Json :=
  match l.filter fun x => x.1 = name with
  | [(_, j)] => some j
  | _ => none

/-- src/helpers/groth16/prover.rs:19-25: the derived `Serialize` -/
def proofTo (d : ProofData (ZMod p)) : Except Panic Json := do
  let a ← g1To d.a
  let b ← g2To d.b
  let c ← g1To d.c
  pure (.obj [(chars! "a", a), (chars! "b", b), (chars! "c", c)])

/-- src/helpers/groth16/prover.rs:19-25: the derived `Deserialize`; it accepts arrays as well. -/
def proofOf (p : Nat) : Json → Option (ProofData (ZMod p))
  | .obj l => do
    let a ← field (chars! "a") l
    let b ← field (chars! "b") l
    let c ← field (chars! "c") l
    let a ← g1Of p a
    let b ← g2Of p b
    let c ← g1Of p c
    some ⟨a, b, c⟩
  | .arr [a, b, c] => do
    let a ← g1Of p a
    let b ← g2Of p b
    let c ← g1Of p c
    some ⟨a, b, c⟩
  | _ => none

/-- src/helpers/groth16/verifier.rs:15-23: the derived `Serialize` -/
def vkTo (d : VKData (ZMod p)) : Except Panic Json := do
  let alpha ← g1To d.alphaG1
  let beta ← g2To d.betaG2
  let gamma ← g2To d.gammaG2
  let delta ← g2To d.deltaG2
  let ic ← vecTo g1To d.ic
  pure (.obj [(chars! "alpha_g1", alpha), (chars! "beta_g2", beta), (chars! "gamma_g2", gamma), (chars! "delta_g2", delta),
    (chars! "ic", ic)])

/-- src/helpers/groth16/verifier.rs:15-23: the derived `Deserialize` -/
def vkOf (p : Nat) : Json → Option (VKData (ZMod p))
  | .obj l => do
    let alpha ← field (chars! "alpha_g1") l
    let beta ← field (chars! "beta_g2") l
    let gamma ← field (chars! "gamma_g2") l
    let delta ← field (chars! "delta_g2") l
    let ic ← field (chars! "ic") l
    let alpha ← g1Of p alpha
    let beta ← g2Of p beta
    let gamma ← g2Of p gamma
    let delta ← g2Of p delta
    let ic ← vecOf (g1Of p) ic
    some ⟨alpha, beta, gamma, delta, ic⟩
  | .arr [alpha, beta, gamma, delta, ic] => do
    let alpha ← g1Of p alpha
    let beta ← g2Of p beta
    let gamma ← g2Of p gamma
    let delta ← g2Of p delta
    let ic ← vecOf (g1Of p) ic
    some ⟨alpha, beta, gamma, delta, ic⟩
  | _ => none

end num

/-! ### The data of circuits -/

/-- How the native type of a circuit's data is built: numbers, booleans, sized vectors, pairs, and structs with derived
`Serialize` and `Deserialize`.  A struct is given by its first field (`one`) and further fields (`more`; there `f` must itself
be a struct). -/
inductive Layout where
  | num
  | bool
  | vec (n : Nat) (a : Layout)
  | pair (a b : Layout)
  | one (name : List Char) (a : Layout)
  | more (f : Layout) (name : List Char) (a : Layout)

/-- The signal type (Model/Signal.lean) with these native data. -/
def Layout.ty : Layout → Ty
  | .num => .num
  | .bool => .bool
  | .vec n a => .vec n a.ty
  | .pair a b => .pair a.ty b.ty
  | .one _ a => a.ty
  | .more f _ a => .pair f.ty a.ty

section layout

variable {p : Nat}

/-- `Serialize`: src/native/num.rs:45-49, src/core/sizedvec.rs:28-32, serde for booleans and pairs, derived for structs. -/
def Layout.to : (l : Layout) → l.ty.V (ZMod p) → Except Panic Json
  | .num => numTo (p := p)
  | .bool => fun v => .ok (.bool v)
  | .vec _ a => fun v => vecTo a.to v.items
  | .pair a b => pairTo a.to b.to
  | .one name a => fun v => do
    let j ← a.to v
    pure (.obj [(name, j)])
  | .more f name a => fun v => do
    let u ← f.to v.1
    let j ← a.to v.2
    match u with
    | .obj l => pure (.obj (l ++ [(name, j)]))
    | _ => .error .unwrap

/-- `Deserialize`: src/native/num.rs:57-68, src/core/sizedvec.rs:34-38 (which does not check the length), serde for booleans
and pairs, derived for structs: from objects, where other fields are ignored, or from arrays with the fields in order. -/
def Layout.of (p : Nat) : (l : Layout) → Json → Option (l.ty.V (ZMod p))
  | .num => numOf p
  | .bool => fun j => match j with
    | .bool b => some b
    | _ => none
  | .vec _ a => fun j => (vecOf (a.of p) j).map fun l => ⟨l⟩
  | .pair a b => pairOf (a.of p) (b.of p)
  | .one name a => fun j => match j with
    | .obj l => (field name l).bind (a.of p)
    | .arr [j] => a.of p j
    | _ => none
  | .more f name a => fun j => match j with
    | .obj l => (f.of p (.obj l)).bind fun u => ((field name l).bind (a.of p)).map fun v => (u, v)
    | .arr l => (f.of p (.arr l.dropLast)).bind fun u => (l.getLast?.bind (a.of p)).map fun v => (u, v)
    | _ => none

end layout

/-- `serde_json::to_string_pretty(..).unwrap()` -/
def toText {A : Type} (f : A → Except Panic Json) (a : A) : Except Panic (List Char) := do
  let j ← f a
  pure (j.pretty 0)

/-- `serde_json::from_str` -/
def ofText {A : Type} (f : Json → Option A) (t : List Char) : Option A :=
  match Json.parse t with
  | none => none
  | some j => f j

end Fawkes.Serde
