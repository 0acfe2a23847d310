import Verif.Model.Gadgets

/-!
# Clients whose bit decompositions fit the field

During trusted setup `c_into_bits_le` knows `NUM_BITS` absent witness bits and indexes them, so that a width above
`NUM_BITS` panics there (src/circuit/bitify.rs:32-38).  `c_comp_constant` decomposes a number of half the length of
its argument plus one (src/circuit/bitify.rs:93).
-/

namespace Fawkes

variable {r : Nat} [Fact r.Prime] {W : Type}

/-- The call asks for no decomposition wider than the field. -/
def Call.WidthsFit : Call r W → Prop
  | .intoBits _ limit => limit ≤ numBits r
  | .compConstant is _ => (is.length + 1) / 2 + 1 ≤ numBits r
  | _ => True

/-- No call of the client asks for a decomposition wider than the field. -/
def Code.WidthsFit : Code r W → Prop
  | .done => True
  | .call c next => c.WidthsFit ∧ ∀ l, (next l).WidthsFit

/-! ## Constraint counts -/

/-- Number API. -/
def Op.maxConstraints {F : Type} : Op F → Nat
  | .mul .. | .div .. | .enforce .. | .assertConst .. | .assertEq .. | .assertNonzero .. | .assertBit .. => 1
  | .inputize .. | .switch .. => 1
  | .isZero .. | .isEq .. => 3
  | _ => 0

/-- Comparison of an `n`-bit string with a constant: one product for every two bits and a decomposition. -/
def compCount (n : Nat) : Nat := 2 * ((n + 1) / 2) + 1

/-- Strict decomposition of an element of a field of `n`-bit numbers. -/
def strictCount (n : Nat) : Nat := n + compCount n + 1

/-- One Poseidon hash: three products for each application of `x^5`. -/
def hashCount {F : Type} (P : PoseidonParams F) : Nat := 3 * (P.t * P.f + P.p)

/-- Multiplication of a constant point by `n` bits: six constraints for every three bits. -/
def mulConstCount (n : Nat) : Nat := 6 * ((n + 2) / 3) + 5

/-- Multiplication of a variable point by `n` bits: an addition and a selection (5) for every bit and a doubling (4)
for every bit but the first. -/
def mulVarCount (n : Nat) : Nat := 5 * n + 4 * (n - 1) + 14

/-- How many constraints a call may add.  `q` are the registers: multiplication of a point distinguishes constant
points. -/
def Call.maxConstraints (q : List (CNum (ZMod r))) : Call r W → Nat
  | .prim o => o.maxConstraints
  | .alloc .. | .allocInput .. | .fromBits .. => 0
  | .intoBits _ limit => limit
  | .intoBitsStrict _ => strictCount (numBits r)
  | .compConstant is _ => compCount is.length
  | .mux3 _ table => 1 + table.length
  | .poseidon _ P | .poseidonWithSalt _ _ P => hashCount P
  | .merkleProofRoot _ sibling _ P => sibling.length * (hashCount P + 1)
  | .merkleTreeRoot leaf P => (2 ^ Nat.size (leaf.length - 1) - 1) * hashCount P
  | .edDouble .. => 5
  | .edMulByCofactor .. => 15
  | .edAdd .. => 6
  | .assertInCurve .. => 3
  | .assertInSubgroup .. => 20
  | .subgroupDecompress .. => 19
  | .intoMontgomery .. => 2
  | .edMul x y bits _ =>
    match (q[x]?).bind CNum.asConst, (q[y]?).bind CNum.asConst with
    | some _, some _ => mulConstCount bits.length
    | _, _ => mulVarCount bits.length
  | .fromScalar .. => 2 * (strictCount (numBits r) + 11) + 24
  | .montDouble .. => 4
  | .montAdd .. => 3
  | .intoEdwards .. => 5
  | .eddsaVerify _ _ _ _ _ P J _ =>
    38 + hashCount P + strictCount (numBits r) + mulVarCount (numBits r) + numBits J.l + mulConstCount (numBits J.l) + 9

/-! ## Public inputs -/

/-- The number operations that make a value public. -/
def Op.publishes {F : Type} : Op F → Bool
  | .inputize .. | .allocInput .. => true
  | _ => false

/-- The calls that make a value public: `inputize` and the allocation of a public input. -/
def Call.publishes : Call r W → Bool
  | .prim o => o.publishes
  | .allocInput .. => true
  | _ => false

/-- Client code that makes nothing public, whatever it computes on the way. -/
def Code.Quiet : Code r W → Prop
  | .done => True
  | .call c k => c.publishes = false ∧ ∀ q, (k q).Quiet

/-! ## Values -/

/-- A number operation that allocates a variable gets a value for it. -/
def Op.Known {F : Type} : Op F → Prop
  | .alloc v | .allocInput v => v ≠ none
  | _ => True

/-- A call that allocates a variable with a given value gets one. -/
def Call.Known : Call r W → Prop
  | .prim o => o.Known
  | _ => True

/-- All variables that the client allocates with a given value get one.  (The other ones get a value computed from the
client's private data.) -/
def Code.Known : Code r W → Prop
  | .done => True
  | .call c next => c.Known ∧ ∀ l, (next l).Known

/-! ## Variable numbers -/

/-- What a client sees of a linear combination without looking at variable numbers: how long it is, and whether it is a
constant and which (`as_const`, src/circuit/num.rs:97-110). -/
def LC.LooksLike {F : Type} [Field F] [DecidableEq F] (a b : LC F) : Prop :=
  a.length = b.length ∧ (⟨none, a⟩ : CNum F).asConst = (⟨none, b⟩ : CNum F).asConst

/-- The client does not look at variable numbers, which differ between the back ends. -/
def Code.Blind : Code r W → Prop
  | .done => True
  | .call _ next => (∀ l l', List.Forall₂ LC.LooksLike l l' → next l = next l') ∧ ∀ l, (next l).Blind

end Fawkes
