import Verif.Model.Program
import Verif.Model.Eddsa
import Verif.Model.Signal

/-!
# Client programs over the whole circuit API

`Call` lists the public circuit functions of src/circuit: the number API (`Op`), src/circuit/bitify.rs,
src/circuit/mux.rs, src/circuit/poseidon.rs, src/circuit/ecc.rs and src/circuit/eddsaposeidon.rs.  A client
(`Code`) performs calls one after the other; which call comes next may depend on everything the client can see
without looking at witness values, that is on the linear combinations of the signals obtained so far (for
example through `as_const`).  Witness values enter through `alloc` only: the client computes them from its
private data and from the values of earlier signals.
Simplification: signals live in numbered registers; a boolean is one register, a point two.
-/

namespace Fawkes

variable {r : Nat}

/-- One call of the circuit API.  `Nat` arguments are register numbers; `W` is the type of the client's private
data. -/
inductive Call (r : Nat) [Fact r.Prime] (W : Type) where
  /-- the number API -/
  | prim (o : Op (ZMod r))
  /-- `CNum::alloc(cs, value)`, where the value is computed from the private data and from the values of some
  registers (`None` as soon as one of these is missing) -/
  | alloc (is : List Nat) (hint : W → List (ZMod r) → Except Panic (ZMod r))
  /-- `cs.alloc_input(value)` followed by `CNum::from_var`, with a value computed in the same way -/
  | allocInput (is : List Nat) (hint : W → List (ZMod r) → Except Panic (ZMod r))
  /-- `c_into_bits_le` -/
  | intoBits (i limit : Nat)
  /-- `c_into_bits_le_strict` -/
  | intoBitsStrict (i : Nat)
  /-- `c_comp_constant` -/
  | compConstant (is : List Nat) (c : ZMod r)
  /-- `c_from_bits_le` -/
  | fromBits (is : List Nat)
  /-- `c_mux3` -/
  | mux3 (is : List Nat) (table : List (List (ZMod r)))
  /-- `c_poseidon` -/
  | poseidon (is : List Nat) (P : PoseidonParams (ZMod r))
  /-- `c_poseidon_with_salt` -/
  | poseidonWithSalt (is : List Nat) (seed : ZMod r) (P : PoseidonParams (ZMod r))
  /-- `c_poseidon_merkle_proof_root` -/
  | merkleProofRoot (leaf : Nat) (sibling path : List Nat) (P : PoseidonParams (ZMod r))
  /-- `c_poseidon_merkle_tree_root` -/
  | merkleTreeRoot (leaf : List Nat) (P : PoseidonParams (ZMod r))
  /-- `CEdwardsPoint::double` -/
  | edDouble (x y : Nat) (J : JubJubParams (ZMod r))
  /-- `CEdwardsPoint::mul_by_cofactor` -/
  | edMulByCofactor (x y : Nat) (J : JubJubParams (ZMod r))
  /-- `CEdwardsPoint::add` -/
  | edAdd (x1 y1 x2 y2 : Nat) (J : JubJubParams (ZMod r))
  /-- `CEdwardsPoint::assert_in_curve` -/
  | assertInCurve (x y : Nat) (J : JubJubParams (ZMod r))
  /-- `CEdwardsPoint::assert_in_subgroup` -/
  | assertInSubgroup (x y : Nat) (J : JubJubParams (ZMod r)) (hl : Fact J.l.Prime)
  /-- `CEdwardsPoint::subgroup_decompress` -/
  | subgroupDecompress (sqrt : ZMod r → Option (ZMod r)) (x : Nat) (J : JubJubParams (ZMod r)) (hl : Fact J.l.Prime)
  /-- `CEdwardsPoint::into_montgomery` -/
  | intoMontgomery (x y : Nat)
  /-- `CEdwardsPoint::mul` -/
  | edMul (x y : Nat) (bits : List Nat) (J : JubJubParams (ZMod r))
  /-- `CEdwardsPoint::from_scalar` -/
  | fromScalar (sqrt : ZMod r → Option (ZMod r)) (t : Nat) (J : JubJubParams (ZMod r))
  /-- `CMontgomeryPoint::double` -/
  | montDouble (x y : Nat) (J : JubJubParams (ZMod r))
  /-- `CMontgomeryPoint::add` -/
  | montAdd (x1 y1 x2 y2 : Nat) (J : JubJubParams (ZMod r))
  /-- `CMontgomeryPoint::into_edwards` -/
  | intoEdwards (x y : Nat)
  /-- `c_eddsaposeidon_verify` -/
  | eddsaVerify (sqrt : ZMod r → Option (ZMod r)) (s rx a m : Nat) (P : PoseidonParams (ZMod r))
      (J : JubJubParams (ZMod r)) (hl : Fact J.l.Prime)

variable [Fact r.Prime] {W : Type}

/-- Read several registers. -/
def regs (q : List (CNum (ZMod r))) : List Nat → M (ZMod r) (List (CNum (ZMod r)))
  | [] => pure []
  | i :: is => do
    let x ← reg q i
    let xs ← regs q is
    pure (x :: xs)

/-- Read several registers as booleans. -/
def regBits (q : List (CNum (ZMod r))) (is : List Nat) : M (ZMod r) (List (CBool (ZMod r))) := do
  let xs ← regs q is
  pure (xs.map CBool.mk)

/-- Read a point. -/
def regPoint (q : List (CNum (ZMod r))) (x y : Nat) : M (ZMod r) (CEdwardsPoint (ZMod r)) := do
  let a ← reg q x
  let b ← reg q y
  pure ⟨a, b⟩

/-- Read a point in Montgomery form. -/
def regMont (q : List (CNum (ZMod r))) (x y : Nat) : M (ZMod r) (CMontgomeryPoint (ZMod r)) := do
  let a ← reg q x
  let b ← reg q y
  pure ⟨a, b⟩

/-- The witness value of an allocation: `None` without private data, or if a value it is computed from is
missing. -/
def hintValue (hint : W → List (ZMod r) → Except Panic (ZMod r)) (w : Option W) (vs : List (Option (ZMod r))) :
    Except Panic (Option (ZMod r)) :=
  match w, vs.mapM id with
  | some w, some vs => (hint w vs).map some
  | _, _ => .ok none

/-- Run one call; results are appended to the registers. -/
def Call.exec (w : Option W) (q : List (CNum (ZMod r))) : Call r W → M (ZMod r) (List (CNum (ZMod r)))
  | .prim o => o.exec q
  | .alloc is hint => do
    let xs ← regs q is
    let v ← M.lift (hintValue hint w (xs.map CNum.value))
    let x ← CNum.alloc v
    pure (q ++ [x])
  | .allocInput is hint => do
    let xs ← regs q is
    let v ← M.lift (hintValue hint w (xs.map CNum.value))
    let i ← CS.allocInput v
    pure (q ++ [CNum.fromVar v i])
  | .intoBits i limit => do
    let a ← reg q i
    let bs ← Bitify.intoBitsLE a limit
    pure (q ++ bs.map CBool.num)
  | .intoBitsStrict i => do
    let a ← reg q i
    let bs ← Bitify.intoBitsLEStrict a
    pure (q ++ bs.map CBool.num)
  | .compConstant is c => do
    let bs ← regBits q is
    let b ← Bitify.compConstant bs c
    pure (q ++ [b.num])
  | .fromBits is => do
    let bs ← regBits q is
    let x ← Bitify.fromBitsLE bs
    pure (q ++ [x])
  | .mux3 is table => do
    let bs ← regBits q is
    let xs ← Mux.mux3 bs table
    pure (q ++ xs)
  | .poseidon is P => do
    let xs ← regs q is
    let x ← CPoseidon.poseidon xs P
    pure (q ++ [x])
  | .poseidonWithSalt is seed P => do
    let xs ← regs q is
    let x ← CPoseidon.poseidonWithSalt xs seed P
    pure (q ++ [x])
  | .merkleProofRoot leaf sibling path P => do
    let l ← reg q leaf
    let ss ← regs q sibling
    let ps ← regBits q path
    let x ← CPoseidon.merkleProofRoot l ss ps P
    pure (q ++ [x])
  | .merkleTreeRoot leaf P => do
    let xs ← regs q leaf
    let x ← CPoseidon.merkleTreeRoot xs P
    pure (q ++ [x])
  | .edDouble x y J => do
    let p ← regPoint q x y
    let z ← p.double J
    pure (q ++ [z.x, z.y])
  | .edMulByCofactor x y J => do
    let p ← regPoint q x y
    let z ← p.mulByCofactor J
    pure (q ++ [z.x, z.y])
  | .edAdd x1 y1 x2 y2 J => do
    let p ← regPoint q x1 y1
    let p' ← regPoint q x2 y2
    let z ← p.add p' J
    pure (q ++ [z.x, z.y])
  | .assertInCurve x y J => do
    let p ← regPoint q x y
    p.assertInCurve J
    pure q
  | .assertInSubgroup x y J _ => do
    let p ← regPoint q x y
    p.assertInSubgroup J
    pure q
  | .subgroupDecompress sqrt x J _ => do
    let a ← reg q x
    let z ← CEdwardsPoint.subgroupDecompress sqrt a J
    pure (q ++ [z.x, z.y])
  | .intoMontgomery x y => do
    let p ← regPoint q x y
    let z ← p.intoMontgomery
    pure (q ++ [z.x, z.y])
  | .edMul x y bits J => do
    let p ← regPoint q x y
    let bs ← regBits q bits
    let z ← p.mul bs J
    pure (q ++ [z.x, z.y])
  | .fromScalar sqrt t J => do
    let a ← reg q t
    let z ← CEdwardsPoint.fromScalar sqrt a J
    pure (q ++ [z.x, z.y])
  | .montDouble x y J => do
    let p ← regMont q x y
    let z ← p.double J
    pure (q ++ [z.x, z.y])
  | .montAdd x1 y1 x2 y2 J => do
    let p ← regMont q x1 y1
    let p' ← regMont q x2 y2
    let z ← p.add p' J
    pure (q ++ [z.x, z.y])
  | .intoEdwards x y => do
    let p ← regMont q x y
    let z ← p.intoEdwards
    pure (q ++ [z.x, z.y])
  | .eddsaVerify sqrt s rx a m P J _ => do
    let s ← reg q s
    let rx ← reg q rx
    let a ← reg q a
    let m ← reg q m
    let b ← Eddsa.cVerify sqrt J s rx a m P
    pure (q ++ [b.num])

/-- A client: the next call is chosen by looking at the linear combinations of all registers. -/
inductive Code (r : Nat) [Fact r.Prime] (W : Type) where
  | done
  | call (c : Call r W) (next : List (LC (ZMod r)) → Code r W)

/-- Run a client on its private data (absent during trusted setup). -/
def Code.exec (w : Option W) : (q : List (CNum (ZMod r))) → Code r W → M (ZMod r) (List (CNum (ZMod r)))
  | q, .done => pure q
  | q, .call c next => do
    let q' ← c.exec w q
    exec w q' (next (q'.map CNum.lc))

end Fawkes
