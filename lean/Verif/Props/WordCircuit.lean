import Verif.Lemmas.WordCircuit
import Verif.Props.WordField
import Verif.Spec.Circuit

/-!
# Circuits on machine words: C117
-/

namespace Fawkes.Props

open Fawkes.Limbs Fawkes.Limbs.Elem Natural

variable {p : Nat} [Fact p.Prime] [odd : Fact (p % 2 = 1)]

/-- C117 (linear operations): these record nothing, and their results correspond. -/
theorem C117_linear (a b : CNum (Elem p)) (k : Elem p) :
    (a.add b).map value = (a.map value).add (b.map value) ∧ (a.sub b).map value = (a.map value).sub (b.map value) ∧
    a.neg.map value = (a.map value).neg ∧ (a.addConst k).map value = (a.map value).addConst k.value ∧
    (a.subConst k).map value = (a.map value).subConst k.value ∧ (CNum.constSub k a).map value = CNum.constSub k.value (a.map value) ∧
    (a.mulConst k).map value = (a.map value).mulConst k.value ∧ (CNum.fromConst k).map value = CNum.fromConst k.value ∧
    a.asConst.map value = (a.map value).asConst :=
  ⟨cadd_map (hom p) a b, csub_map (hom p) a b, neg_map (hom p) a, addConst_map (hom p) a k, subConst_map (hom p) a k,
    constSub_map (hom p) a k, mulConst_map (hom p) a k, rfl, (asConst_map (hom p) a).symm⟩

/-- C117 (signals): the operations that record variables and constraints. -/
theorem C117_signals (v : Option (Elem p)) (a b : CNum (Elem p)) (c : CBool (Elem p)) (k : Elem p) (t : Bool) :
    SameCircuit (CNum.map value) (CNum.alloc v) (CNum.alloc (v.map value)) ∧
    SameCircuit id a.inputize (a.map value).inputize ∧
    SameCircuit (CNum.map value) (a.mul b) ((a.map value).mul (b.map value)) ∧
    SameCircuit (CNum.map value) (a.div b) ((a.map value).div (b.map value)) ∧
    SameCircuit (CNum.map value) (a.divConst k) ((a.map value).divConst k.value) ∧
    SameCircuit id (a.assertConst k) ((a.map value).assertConst k.value) ∧
    SameCircuit id (a.assertEq b) ((a.map value).assertEq (b.map value)) ∧
    SameCircuit id a.assertNonzero (a.map value).assertNonzero ∧ SameCircuit id a.assertBit (a.map value).assertBit ∧
    SameCircuit (CBool.map value) a.isZero (a.map value).isZero ∧
    SameCircuit (CBool.map value) (a.isEq b) ((a.map value).isEq (b.map value)) ∧
    SameCircuit (CNum.map value) (a.switch c b) ((a.map value).switch (c.map value) (b.map value)) ∧
    SameCircuit id (c.assertConst t) ((c.map value).assertConst t) :=
  ⟨maps_alloc (hom p) v, maps_inputize (hom p) a, maps_mul (hom p) a b, maps_div (hom p) a b, maps_divConst (hom p) a k,
    maps_assertConst (hom p) a k, maps_assertEq (hom p) a b, maps_assertNonzero (hom p) a, maps_assertBit (hom p) a,
    maps_isZero (hom p) a, maps_isEq (hom p) a b, maps_switch (hom p) a c b, maps_bool_assertConst (hom p) c t⟩

/-- C117 (bits): decomposition, comparison, recomposition and choice among eight. -/
theorem C117_bits (a : CNum (Elem p)) (n : Nat) (l : List (CBool (Elem p))) (k : Elem p) (table : List (List (Elem p))) :
    SameCircuit (List.map (CBool.map value)) (Limbs.Bitify.intoBitsLE a n) (Bitify.intoBitsLE (a.map value) n) ∧
    SameCircuit (List.map (CBool.map value)) (Limbs.Bitify.intoBitsLEStrict a) (Bitify.intoBitsLEStrict (a.map value)) ∧
    SameCircuit (CBool.map value) (Limbs.Bitify.compConstant l k) (Bitify.compConstant (l.map (CBool.map value)) k.value) ∧
    SameCircuit (CNum.map value) (Limbs.Bitify.fromBitsLE l) (Bitify.fromBitsLE (l.map (CBool.map value))) ∧
    SameCircuit (List.map (CNum.map value)) (Mux.mux3 l table) (Mux.mux3 (l.map (CBool.map value)) (table.map (List.map value))) :=
  ⟨Limbs.Bitify.maps_intoBitsLE a n, Limbs.Bitify.maps_intoBitsLEStrict a, Limbs.Bitify.maps_compConstant l k,
    Limbs.Bitify.maps_fromBitsLE l, maps_mux3 (hom p) l table⟩

/-- C117 (Poseidon): hashes and Merkle roots in circuits. -/
theorem C117_poseidon (P : PoseidonParams (Elem p)) (l : List (CNum (Elem p))) (seed : Elem p) (leaf : CNum (Elem p))
    (path : List (CBool (Elem p))) :
    SameCircuit (CNum.map value) (CPoseidon.poseidon l P) (CPoseidon.poseidon (l.map (CNum.map value)) (P.map value)) ∧
    SameCircuit (CNum.map value) (CPoseidon.poseidonWithSalt l seed P)
      (CPoseidon.poseidonWithSalt (l.map (CNum.map value)) seed.value (P.map value)) ∧
    SameCircuit (CNum.map value) (CPoseidon.merkleProofRoot leaf l path P)
      (CPoseidon.merkleProofRoot (leaf.map value) (l.map (CNum.map value)) (path.map (CBool.map value)) (P.map value)) ∧
    SameCircuit (CNum.map value) (CPoseidon.merkleTreeRoot l P) (CPoseidon.merkleTreeRoot (l.map (CNum.map value)) (P.map value)) :=
  ⟨maps_poseidon (hom p) l P, maps_poseidonWithSalt (hom p) l seed P, maps_merkleProofRoot (hom p) leaf l path P,
    maps_merkleTreeRoot (hom p) l P⟩

/-- C117 (points): the gadgets of the curve. -/
theorem C117_points (J : JubJubParams (Elem p)) (A B : CEdwardsPoint (Elem p)) (C D : CMontgomeryPoint (Elem p))
    (bits : List (CBool (Elem p))) :
    SameCircuit (CEdwardsPoint.map value) (A.add B J) ((A.map value).add (B.map value) (J.map value)) ∧
    SameCircuit (CEdwardsPoint.map value) (A.double J) ((A.map value).double (J.map value)) ∧
    SameCircuit (CEdwardsPoint.map value) (A.mulByCofactor J) ((A.map value).mulByCofactor (J.map value)) ∧
    SameCircuit id (A.assertInCurve J) ((A.map value).assertInCurve (J.map value)) ∧
    SameCircuit (CMontgomeryPoint.map value) A.intoMontgomery (A.map value).intoMontgomery ∧
    SameCircuit (CEdwardsPoint.map value) C.intoEdwards (C.map value).intoEdwards ∧
    SameCircuit (CMontgomeryPoint.map value) (C.add D J) ((C.map value).add (D.map value) (J.map value)) ∧
    SameCircuit (CMontgomeryPoint.map value) (C.double J) ((C.map value).double (J.map value)) ∧
    SameCircuit (CEdwardsPoint.map value) (A.mul bits J) ((A.map value).mul (bits.map (CBool.map value)) (J.map value)) :=
  ⟨maps_edAdd (hom p) A B J, maps_edDouble (hom p) A J, maps_edMulByCofactor (hom p) A J, maps_assertInCurve (hom p) A J,
    maps_edIntoMontgomery (hom p) A, maps_intoEdwards (hom p) C, maps_moAdd (hom p) C D J, maps_moDouble (hom p) C J,
    maps_edMul (hom p) A bits J⟩

/-- C117 (witnesses with roots): the gadgets that take square roots and invert in the scalar field, for any root function on arrays that
corresponds to one on the field. -/
theorem C117_roots (J : JubJubParams (Elem p)) [h1 : Fact J.l.Prime] [Fact (J.l % 2 = 1)] (sqrt : Elem p → Option (Elem p))
    (sqrt' : ZMod p → Option (ZMod p)) (hs : ∀ a, (sqrt a).map value = sqrt' a.value) (A : CEdwardsPoint (Elem p)) (x : CNum (Elem p)) :
    SameCircuit id (CPoint.assertInSubgroup A J) (@CEdwardsPoint.assertInSubgroup (ZMod p) _ _ (A.map value) (J.map value) h1) ∧
    SameCircuit (CEdwardsPoint.map value) (CPoint.subgroupDecompress sqrt x J)
      (@CEdwardsPoint.subgroupDecompress (ZMod p) _ _ sqrt' (x.map value) (J.map value) h1) ∧
    SameCircuit (CEdwardsPoint.map value) (CPoint.fromScalar sqrt x J)
      (CEdwardsPoint.fromScalar sqrt' (x.map value) (J.map value)) :=
  ⟨CPoint.maps_assertInSubgroup A J, CPoint.maps_subgroupDecompress sqrt sqrt' hs x J, CPoint.maps_fromScalar sqrt sqrt' hs x J⟩

/-- C117 (signatures over BN256): the verification circuit built on arrays, with the square roots of C116_sqrt. -/
theorem C117_eddsa (P : PoseidonParams (Elem bnR)) (s rx a m : CNum (Elem bnR)) :
    SameCircuit (CBool.map value) (Limbs.cVerify bnSqrtWords bnWords s rx a m P)
      (@Eddsa.cVerify bnR _ FieldSqrt.bnSqrt (bnWords.map value) instPrimeBnWords (s.map value) (rx.map value) (a.map value)
        (m.map value) (P.map value)) :=
  maps_cVerify bnSqrtWords FieldSqrt.bnSqrt bnSqrtWords_map bnWords s rx a m P

/-- C117 (satisfaction): corresponding systems are satisfied by corresponding assignments, and every assignment of field elements
corresponds to one of arrays. -/
theorem C117_satisfied (s : CS (Elem p)) :
    (∀ w : Index → Elem p, s.Sat w ↔ (s.map value).Sat fun i => (w i).value) ∧
    ∀ w' : Index → ZMod p, ∃ w : Index → Elem p, ∀ i, (w i).value = w' i := by
  have he : ∀ (w : Index → Elem p) (l : LC (Elem p)), (LC.map value l).eval (fun i => (w i).value) = (l.eval w).value := by
    intro w l
    induction l with
    | nil => exact (map_zero (hom p)).symm
    | cons kv l ih =>
      simp only [LC.eval, LC.map, List.map_cons, List.sum_cons] at ih ⊢
      rw [ih, ← value_mul, ← value_add]
  refine ⟨fun w => ?_, fun w' => ⟨fun i => ofValue (w' i), fun i => value_ofValue _⟩⟩
  have hc : ∀ c : Constraint (Elem p), c.Sat w ↔ (c.map value).Sat fun i => (w i).value := by
    intro c
    show _ ↔ (LC.map value c.a.lc).eval _ * (LC.map value c.b.lc).eval _ = (LC.map value c.c.lc).eval _
    rw [he, he, he, ← value_mul, value_injective.eq_iff]
    exact Iff.rfl
  constructor
  · intro h c hm
    obtain ⟨c', h1, rfl⟩ := List.mem_map.1 hm
    exact (hc c').1 (h c' h1)
  · intro h c hm
    exact (hc c).2 (h _ (List.mem_map.2 ⟨c, hm, rfl⟩))

/-- A product of two allocated signals over BN256 in a test system on machine words: `2 * 3` is recorded as the words of `6`. -/
example : (match (do
      let a ← CNum.alloc (some (1 + 1 : Elem bnR))
      let b ← CNum.alloc (some (1 + 1 + 1))
      a.mul b : M (Elem bnR) (CNum (Elem bnR))).run ⟨.test, 1, 0, [], []⟩ with
    | .ok (c, s) => (c.value.map words == some ((Limbs.fromRepr bnR [6, 0, 0, 0]).getD [])) && (s.cons.length == 1) && s.ninputs == 4
    | .error _ => false) = true := by decide +kernel

end Fawkes.Props
