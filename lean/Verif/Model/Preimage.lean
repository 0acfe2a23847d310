import Verif.Model.Poseidon
import Verif.Model.Gadgets

/-!
# The example circuit of the crate (src/helpers/groth16/prover.rs:130-152)

The crate's own test of proving: a circuit written without the macros, with the image of the hash function as public input.
-/

namespace Fawkes

/-- src/helpers/groth16/prover.rs:130-134: `CheckPreimageKnowledge`; `CheckPreimageKnowledge::default()` has no data. -/
structure CheckPreimage (F : Type) where
  image : Option F
  preimage : Option F

namespace CheckPreimage

variable {F : Type} [Field F] [DecidableEq F]

/-- src/helpers/groth16/prover.rs:130 (`derive(Default)`) -/
def default : CheckPreimage F := ⟨none, none⟩

/-- src/helpers/groth16/prover.rs:138-145: `synthesize`.  Simplification: the parameters of the hash function (t = 2, f = 8, p = 53 there)
are an argument. -/
def synthesize (c : CheckPreimage F) (P : PoseidonParams F) : M F Unit := do
  let image ← CNum.alloc c.image
  CNum.inputize image
  let preimage ← CNum.alloc c.preimage
  let computed ← CPoseidon.poseidon [preimage] P
  CNum.assertZero (CNum.sub image computed)

/-- src/helpers/groth16/prover.rs:147-151: `get_inputs`. -/
def getInputs (c : CheckPreimage F) : Except Panic (Option (List F)) :=
  match (CNum.alloc c.image).run (CS.new .test) with
  | .error e => .error e
  | .ok (a, _) => .ok ([a].mapM fun x => x.value)

/-- The same as a client of the library (`Model/Gadgets`). -/
def code {r : Nat} [Fact r.Prime] (P : PoseidonParams (ZMod r)) : Code r (ZMod r × ZMod r) :=
  .call (.alloc [] fun w _ => .ok w.1) fun _ =>
  .call (.prim (.inputize 0)) fun _ =>
  .call (.alloc [] fun w _ => .ok w.2) fun _ =>
  .call (.poseidon [1] P) fun _ =>
  .call (.prim (.sub 0 2)) fun _ =>
  .call (.prim (.assertConst 3 0)) fun _ => .done

end CheckPreimage

end Fawkes
