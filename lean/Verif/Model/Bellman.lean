import Verif.Model.Groth16
import Verif.Model.Signal
import Verif.Spec.Circuit
import Mathlib.Data.Nat.Log
import Mathlib.Algebra.BigOperators.Intervals

/-!
# Key generation and proving (src/helpers/groth16/prover.rs:83-111)

`generate_keys` and `prove` run the circuit on a fresh constraint system and hand over to the external crate `bellman`
(bellman_ce 0.3.1, `groth16/generator.rs`, `groth16/prover.rs`, `domain.rs`).  What that crate computes from the
recorded constraints is written out here, at the level of sums: its fast Fourier transforms are discrete Fourier
transforms, its windowed multiplications and multi-exponentiations are multiples and sums of multiples (with their errors).
The random choices are arguments.
-/

namespace Fawkes.Groth16

/-! ### Evaluation domains -/

section domain

variable {F : Type} [Field F]

/-- The constants of the field that the external crate uses: `S`, `root_of_unity()`, `multiplicative_generator()`. -/
structure TwoAdic (F : Type) where
  S : Nat
  rootOfUnity : F
  generator : F

/-- bellman's `EvaluationDomain`: the size, the root of unity and the generator of the coset. -/
structure Domain (F : Type) where
  m : Nat
  omega : F
  generator : F

/-- `EvaluationDomain::from_coeffs`: the least power of two that is not below the length; an error if the field has no
root of unity of that order. -/
def Domain.ofLength (K : TwoAdic F) (len : Nat) : Option (Domain F) :=
  let exp := Nat.clog 2 len
  if 0 < exp ∧ K.S ≤ exp then none
  else some ⟨2 ^ exp, K.rootOfUnity ^ 2 ^ (K.S - exp), K.generator⟩

/-- The discrete Fourier transform. -/
def dft (m : Nat) (omega : F) (v : Nat → F) (k : Nat) : F := ∑ j ∈ Finset.range m, v j * omega ^ (j * k)

namespace Domain

/-- `EvaluationDomain::fft` -/
def fft (D : Domain F) (v : Nat → F) : Nat → F := dft D.m D.omega v

/-- `EvaluationDomain::ifft` -/
def ifft (D : Domain F) (v : Nat → F) (k : Nat) : F := (D.m : F)⁻¹ * dft D.m D.omega⁻¹ v k

/-- `EvaluationDomain::coset_fft` -/
def cosetFft (D : Domain F) (v : Nat → F) : Nat → F := D.fft fun i => D.generator ^ i * v i

/-- `EvaluationDomain::icoset_fft` -/
def icosetFft (D : Domain F) (v : Nat → F) (k : Nat) : F := D.generator⁻¹ ^ k * D.ifft v k

/-- `EvaluationDomain::z`: the vanishing polynomial at a point. -/
def z (D : Domain F) (t : F) : F := t ^ D.m - 1

/-- The coefficients of the quotient in the prover: interpolate the three vectors, evaluate on the coset, divide by the
vanishing polynomial there, interpolate; the last coefficient is dropped. -/
def quotient (D : Domain F) (a b c : Nat → F) : List F :=
  let a := D.cosetFft (D.ifft a)
  let b := D.cosetFft (D.ifft b)
  let c := D.cosetFft (D.ifft c)
  let h := D.icosetFft fun k => (a k * b k - c k) * (D.z D.generator)⁻¹
  (List.range (D.m - 1)).map h

end Domain

end domain

/-! ### The constraints as matrices -/

section rows

variable {F : Type} [Field F]

/-- The constraints the external crate works with: those of the circuit, then for every public input `x` (the constant
one included) the constraint `x · 0 = 0`. -/
def rows (s : CS F) : List (LC F × LC F × LC F) :=
  s.cons.map Constraint.shape ++ (List.range s.ninputs).map fun i => ([(.input i, 1)], [], [])

/-- The public inputs and the other variables in the order of their numbers. -/
def inputVars (s : CS F) : List Index := (List.range s.ninputs).map .input

def auxVars (s : CS F) : List Index := (List.range s.naux).map .aux

/-- The index lies in the vectors of variables. -/
def inRange (s : CS F) : Index → Bool
  | .input n => n < s.ninputs
  | .aux n => n < s.naux

/-- Every variable of every constraint has been allocated (the crate's vector accesses panic otherwise). -/
def rowsInRange (s : CS F) : Bool :=
  s.cons.all fun c => (c.a.lc ++ c.b.lc ++ c.c.lc).all fun t => inRange s t.1

/-- The coefficient of a variable in a linear combination (all its terms added). -/
def coeff (k : Index) : LC F → F
  | [] => 0
  | (k', v) :: l => if k' = k then v + coeff k l else coeff k l

/-- The interpolation polynomial of one column of a constraint matrix, at the point whose powers are transformed to
`lagrange`. -/
def column (lagrange : Nat → F) (k : Index) : (j : Nat) → List (LC F) → F
  | _, [] => 0
  | j, l :: ls => lagrange j * coeff k l + column lagrange k (j + 1) ls

end rows

/-! ### Keys -/

section keys

variable {G1 G2 : Type} [AddCommGroup G1] [AddCommGroup G2] [DecidableEq G1] [DecidableEq G2] {r : Nat} [Fact r.Prime]

/-- bellman's `Parameters`: the verifying key and the queries. -/
structure Parameters (G1 G2 : Type) where
  vk : FullVK G1 G2
  h : List G1
  l : List G1
  a : List G1
  bG1 : List G1
  bG2 : List G2

/-- The random choices of the key generator. -/
structure Toxic (G1 G2 : Type) (r : Nat) where
  g1 : G1
  g2 : G2
  alpha : ZMod r
  beta : ZMod r
  gamma : ZMod r
  delta : ZMod r
  tau : ZMod r

/-- bellman's `SynthesisError`, as far as it can occur here; and panics of the circuit itself. -/
inductive KeyError where
  | circuit (p : Panic)
  | outOfBounds
  | polynomialDegreeTooLarge
  | unexpectedIdentity
  | unconstrainedVariable
  | unexpectedEof
deriving DecidableEq

/-- The interpolation polynomial of the coefficients of variable `k` on one side of the constraints (`f` selects the side),
at `tau`. -/
def columnAt (D : Domain (ZMod r)) (tau : ZMod r) (s : CS (ZMod r))
    (f : LC (ZMod r) × LC (ZMod r) × LC (ZMod r) → LC (ZMod r)) (k : Index) : ZMod r :=
  column (D.ifft fun i => tau ^ i) k 0 ((rows s).map f)

/-- The combination of the three columns of a variable that goes into the keys, divided by `gamma` for public inputs and by
`delta` for the others. -/
def ext (D : Domain (ZMod r)) (t : Toxic G1 G2 r) (s : CS (ZMod r)) (inv : ZMod r) (k : Index) : ZMod r :=
  (columnAt D t.tau s (fun q => q.1) k * t.beta + columnAt D t.tau s (fun q => q.2.1) k * t.alpha +
    columnAt D t.tau s (fun q => q.2.2) k) * inv

/-- The keys bellman's `generate_parameters` computes.  Points at infinity are left out of the queries `a`, `b_g1` and
`b_g2`. -/
def keysOf (D : Domain (ZMod r)) (t : Toxic G1 G2 r) (s : CS (ZMod r)) : Parameters G1 G2 where
  vk := {
    alphaG1 := t.alpha.val • t.g1
    betaG1 := t.beta.val • t.g1
    betaG2 := t.beta.val • t.g2
    gammaG2 := t.gamma.val • t.g2
    deltaG1 := t.delta.val • t.g1
    deltaG2 := t.delta.val • t.g2
    ic := (inputVars s).map fun k => (ext D t s t.gamma⁻¹ k).val • t.g1 }
  h := (List.range (D.m - 1)).map fun i => (t.tau ^ i * (D.z t.tau * t.delta⁻¹)).val • t.g1
  l := (auxVars s).map fun k => (ext D t s t.delta⁻¹ k).val • t.g1
  a := ((inputVars s ++ auxVars s).map fun k => (columnAt D t.tau s (fun q => q.1) k).val • t.g1).filter (· ≠ 0)
  bG1 := ((inputVars s ++ auxVars s).map fun k => (columnAt D t.tau s (fun q => q.2.1) k).val • t.g1).filter (· ≠ 0)
  bG2 := ((inputVars s ++ auxVars s).map fun k => (columnAt D t.tau s (fun q => q.2.1) k).val • t.g2).filter (· ≠ 0)

/-- bellman's `generate_parameters` on the recorded constraints. -/
def generateParameters (K : TwoAdic (ZMod r)) (t : Toxic G1 G2 r) (s : CS (ZMod r)) :
    Except KeyError (Parameters G1 G2) :=
  if rowsInRange s = false then .error .outOfBounds
  else match Domain.ofLength K (rows s).length with
  | none => .error .polynomialDegreeTooLarge
  | some D =>
    if t.gamma = 0 ∨ t.delta = 0 then .error .unexpectedIdentity
    else if (keysOf D t s).l.any (· = 0) then .error .unconstrainedVariable
    else .ok (keysOf D t s)

/-- src/helpers/groth16/prover.rs:98-103: `generate_keys`: run the circuit without values, on the key generator.
(`unwrap` turns every error into a panic.) -/
def generateKeys {α : Type} (K : TwoAdic (ZMod r)) (t : Toxic G1 G2 r) (circuit : M (ZMod r) α) :
    Except KeyError (Parameters G1 G2) :=
  match circuit.run (CS.new .setup) with
  | .error p => .error (.circuit p)
  | .ok (_, s) => generateParameters K t s

/-! ### Proofs -/

/-- bellman's `multiexp`: every exponent comes with the answer of the density map whether it has a base; the bases are
taken in order.  It is an error if they run out, or if one that has to be added is the point at infinity (it is not added
for the exponent zero). -/
def multiexp {G : Type} [AddCommGroup G] [DecidableEq G] : List (Bool × ZMod r) → List G → Except KeyError G
  | [], _ => .ok 0
  | (false, _) :: exps, bases => multiexp exps bases
  | (true, _) :: _, [] => .error .unexpectedEof
  | (true, x) :: exps, b :: bases =>
    if x ≠ 0 ∧ b = 0 then .error .unexpectedIdentity
    else do
      let rest ← multiexp exps bases
      pure (x.val • b + rest)

/-- `FullDensity` -/
def full (xs : List (ZMod r)) : List (Bool × ZMod r) := xs.map fun x => (true, x)

/-- `DensityTracker`: the variable occurs on this side of some constraint, with whatever coefficient (`eval` in the
prover). -/
def occurs (s : CS (ZMod r)) (f : LC (ZMod r) × LC (ZMod r) × LC (ZMod r) → LC (ZMod r)) (k : Index) : Bool :=
  (rows s).any fun q => (f q).any fun t => t.1 = k

/-- The values of variables, with what the density tracker says of them. -/
def tracked (s : CS (ZMod r)) (f : LC (ZMod r) × LC (ZMod r) × LC (ZMod r) → LC (ZMod r)) (vars : List Index) :
    List (Bool × ZMod r) := vars.map fun k => (occurs s f k, s.assign k)

/-- `get_total_density` -/
def totalDensity (s : CS (ZMod r)) (f : LC (ZMod r) × LC (ZMod r) × LC (ZMod r) → LC (ZMod r)) (vars : List Index) : Nat :=
  vars.countP (occurs s f)

/-- The values of one side of the constraints: number `j`, zero after the last one. -/
def side (s : CS (ZMod r)) (f : LC (ZMod r) × LC (ZMod r) × LC (ZMod r) → LC (ZMod r)) (j : Nat) : ZMod r :=
  match (rows s)[j]? with
  | none => 0
  | some q => (f q).eval s.assign

/-- The proof bellman's `create_proof` computes; `x` and `y` are the random choices (`r` and `s` in the crate).  The
public inputs have full density in the query `a`. -/
def proofOf (D : Domain (ZMod r)) (params : Parameters G1 G2) (x y : ZMod r) (s : CS (ZMod r)) :
    Except KeyError (Proof G1 G2) := do
  let aInputs ← multiexp (full ((inputVars s).map s.assign)) params.a
  let aAux ← multiexp (tracked s (fun q => q.1) (auxVars s)) (params.a.drop s.ninputs)
  let n := totalDensity s (fun q => q.2.1) (inputVars s)
  let b1Inputs ← multiexp (tracked s (fun q => q.2.1) (inputVars s)) params.bG1
  let b1Aux ← multiexp (tracked s (fun q => q.2.1) (auxVars s)) (params.bG1.drop n)
  let b2Inputs ← multiexp (tracked s (fun q => q.2.1) (inputVars s)) params.bG2
  let b2Aux ← multiexp (tracked s (fun q => q.2.1) (auxVars s)) (params.bG2.drop n)
  let h ← multiexp (full (D.quotient (side s fun q => q.1) (side s fun q => q.2.1) (side s fun q => q.2.2))) params.h
  let l ← multiexp (full ((auxVars s).map s.assign)) params.l
  pure {
    a := x.val • params.vk.deltaG1 + params.vk.alphaG1 + (aInputs + aAux)
    b := y.val • params.vk.deltaG2 + params.vk.betaG2 + (b2Inputs + b2Aux)
    c := (x * y).val • params.vk.deltaG1 + y.val • params.vk.alphaG1 + x.val • params.vk.betaG1 +
      y.val • (aInputs + aAux) + x.val • (b1Inputs + b1Aux) + h + l }

/-- bellman's `create_proof` on the recorded constraints and values. -/
def createProof (K : TwoAdic (ZMod r)) (params : Parameters G1 G2) (x y : ZMod r) (s : CS (ZMod r)) :
    Except KeyError (Proof G1 G2) :=
  if rowsInRange s = false then .error .outOfBounds
  else match Domain.ofLength K (rows s).length with
  | none => .error .polynomialDegreeTooLarge
  | some D =>
    if params.vk.deltaG1 = 0 ∨ params.vk.deltaG2 = 0 then .error .unexpectedIdentity
    else proofOf D params x y s

/-- src/helpers/groth16/prover.rs:105-111: `prove`: run the circuit with values, on the prover. -/
def prove {α : Type} (K : TwoAdic (ZMod r)) (params : Parameters G1 G2) (x y : ZMod r) (circuit : M (ZMod r) α) :
    Except KeyError (Proof G1 G2) :=
  match circuit.run (CS.new .prove) with
  | .error p => .error (.circuit p)
  | .ok (_, s) => createProof K params x y s

end keys

end Fawkes.Groth16
