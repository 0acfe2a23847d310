import Verif.Lemmas.Cost
import Verif.Lemmas.Poseidon
import Verif.Lemmas.LinkGadgets
import Verif.Spec.Gadgets

/-!
# Constraint counts of all gadgets
-/

set_option linter.unusedSectionVars false

namespace Fawkes

section num

variable {F : Type} [Field F] [DecidableEq F]

theorem cost_divConst (a : CNum F) (k : F) : Cost (CNum.divConst a k) 0 := by
  unfold CNum.divConst
  split
  · exact Cost.panic
  · exact Cost.pure

theorem cost_divValue (a b : Option F) : Cost (CNum.divValue a b) 0 := by
  unfold CNum.divValue
  split
  · split
    · exact Cost.panic
    · exact Cost.pure
  · exact Cost.pure

theorem cost_div (a b : CNum F) : Cost (CNum.div a b) 1 := by
  unfold CNum.div
  split
  · exact (cost_divConst _ _).mono (by omega)
  · exact (cost_divConst _ _).mono (by omega)
  · exact (Cost.bind (cost_divValue _ _) fun _ => Cost.bind (cost_alloc _) fun _ => Cost.bind (cost_enforce _ _ _) fun _ =>
      Cost.pure (n := 0)).mono (by omega)

theorem cost_square (a : CNum F) : Cost (CNum.square a) 1 := cost_mul a a

theorem cost_assertConst (a : CNum F) (c : F) : Cost (CNum.assertConst a c) 1 := by
  unfold CNum.assertConst
  split
  · exact Cost.assert
  · exact cost_enforce _ _ _

theorem cost_assertZero (a : CNum F) : Cost (CNum.assertZero a) 1 := cost_assertConst a 0

theorem cost_allocInput (v : Option F) : Cost (CS.allocInput v : M F Index) 0 true := by
  intro s a s' h
  rw [run_csallocInput] at h
  split at h
  · cases h
  · injection h with h; injection h with _ h; subst h
    exact ⟨by simp [pushVar_cons], fun hp => by cases hp⟩

theorem cost_inputize (a : CNum F) : Cost (CNum.inputize a) 1 true := by
  unfold CNum.inputize
  split
  · exact (Cost.bind (cost_allocInput _) fun _ => (cost_enforce _ _ _).weak).mono (by omega)
  · exact (Cost.bind (cost_allocInput _) fun _ => (cost_enforce _ _ _).weak).mono (by omega)

theorem cost_reg (q : List (CNum F)) (i : Nat) : Cost (reg q i) 0 := by
  unfold reg
  split
  · exact Cost.pure
  · exact Cost.panic

theorem cost_op (q : List (CNum F)) (o : Op F) : Cost (o.exec q) o.maxConstraints o.publishes := by
  cases o <;> simp only [Op.exec, Op.maxConstraints, Op.publishes]
  case const => exact Cost.pure
  case alloc => exact Cost.bind (cost_alloc _) fun _ => Cost.pure (n := 0)
  case allocInput => exact Cost.bind (cost_allocInput _) fun _ => Cost.pure (n := 0)
  case add => exact Cost.bind (cost_reg _ _) fun _ => Cost.bind (n := 0) (cost_reg _ _) fun _ => Cost.pure
  case sub => exact Cost.bind (cost_reg _ _) fun _ => Cost.bind (n := 0) (cost_reg _ _) fun _ => Cost.pure
  case neg => exact Cost.bind (n := 0) (cost_reg _ _) fun _ => Cost.pure
  case mulConst => exact Cost.bind (n := 0) (cost_reg _ _) fun _ => Cost.pure
  case divConst => exact Cost.bind (cost_reg _ _) fun _ => Cost.bind (n := 0) (cost_divConst _ _) fun _ => Cost.pure
  case mul => exact (Cost.bind (cost_reg _ _) fun _ => Cost.bind (cost_reg _ _) fun _ => Cost.bind (n := 0) (cost_mul _ _) fun _ => Cost.pure).mono (by omega)
  case div => exact (Cost.bind (cost_reg _ _) fun _ => Cost.bind (cost_reg _ _) fun _ => Cost.bind (n := 0) (cost_div _ _) fun _ => Cost.pure).mono (by omega)
  case enforce => exact (Cost.bind (cost_reg _ _) fun _ => Cost.bind (cost_reg _ _) fun _ => Cost.bind (cost_reg _ _) fun _ => Cost.bind (n := 0) (cost_enforce _ _ _) fun _ => Cost.pure).mono (by omega)
  case assertConst => exact (Cost.bind (cost_reg _ _) fun _ => Cost.bind (n := 0) (cost_assertConst _ _) fun _ => Cost.pure).mono (by omega)
  case assertEq => exact (Cost.bind (cost_reg _ _) fun _ => Cost.bind (cost_reg _ _) fun _ => Cost.bind (n := 0) (cost_assertZero _) fun _ => Cost.pure).mono (by omega)
  case assertNonzero => exact (Cost.bind (cost_reg _ _) fun _ => Cost.bind (n := 0) (cost_assertNonzero _) fun _ => Cost.pure).mono (by omega)
  case assertBit => exact (Cost.bind (cost_reg _ _) fun _ => Cost.bind (n := 0) (cost_assertBit _) fun _ => Cost.pure).mono (by omega)
  case inputize => exact (Cost.bind (cost_reg _ _).weak fun _ => Cost.bind (n := 0) (cost_inputize _) fun _ => Cost.pure).mono (by omega)
  case isZero => exact (Cost.bind (cost_reg _ _) fun _ => Cost.bind (n := 0) (cost_isZero _) fun _ => Cost.pure).mono (by omega)
  case isEq => exact (Cost.bind (cost_reg _ _) fun _ => Cost.bind (cost_reg _ _) fun _ => Cost.bind (n := 0) (cost_isZero _) fun _ => Cost.pure).mono (by omega)
  case switch => exact (Cost.bind (cost_reg _ _) fun _ => Cost.bind (cost_reg _ _) fun _ => Cost.bind (cost_reg _ _) fun _ => Cost.bind (n := 0) (cost_switch _ _ _) fun _ => Cost.pure).mono (by omega)

theorem cost_columns (s0 s1 s2 : CBool F) (s10 : CNum F) (c : List (List F)) :
    Cost (Mux.columns s0 s1 s2 s10 c) c.length := by
  induction c with
  | nil => exact Cost.pure
  | cons col c ih =>
    unfold Mux.columns
    split
    · exact Cost.pure
    · next h =>
      injection h with h h'; subst h'
      refine (Cost.bind (Cost.bind (n := 0) (cost_mul _ _) fun _ => Cost.pure) fun _ =>
        Cost.bind (n := 0) ih fun _ => Cost.pure).mono ?_
      simp; omega
    · exact Cost.panic

theorem cost_mux3 (s : List (CBool F)) (c : List (List F)) : Cost (Mux.mux3 s c) (1 + c.length) := by
  unfold Mux.mux3
  refine (Cost.bind (k := 0) Cost.assert fun _ => Cost.bind (k := 0) (n := 1 + c.length) Cost.assert fun _ => ?_).mono
    (by omega)
  split
  · exact Cost.bind (cost_mul _ _) fun _ => cost_columns _ _ _ _ _
  · exact Cost.panic

end num

namespace CPoseidon

variable {F : Type} [Field F] [DecidableEq F]

theorem cost_poseidonWithSalt (inputs : List (CNum F)) (seed : F) (P : PoseidonParams F) :
    Cost (poseidonWithSalt inputs seed P) (hashCount P) := by
  unfold poseidonWithSalt
  split
  · exact Cost.panic
  · split
    · exact Cost.panic
    · exact cost_poseidon _ _

theorem cost_treeInner (P : PoseidonParams F) (n i : Nat) (st : List (CNum F)) :
    Cost (treeInner P n i st) (n * hashCount P) := by
  induction n generalizing i st with
  | zero => exact Cost.pure
  | succ n ih =>
    refine (Cost.bind (k := 0) Cost.lift fun _ => Cost.bind (k := 0) Cost.lift fun _ =>
      Cost.bind (cost_poseidon _ P) fun _ => ih _ _).mono ?_
    unfold hashCount; ring_nf; omega

theorem cost_treeLevels (P : PoseidonParams F) (d n j : Nat) (hd : n + j = d) (st : List (CNum F)) :
    Cost (treeLevels P (2 ^ d) n j st) ((2 ^ n - 1) * hashCount P) := by
  induction n generalizing j st with
  | zero => exact Cost.pure
  | succ n ih =>
    have h1 : 2 ^ d / 2 ^ (j + 1) = 2 ^ n := by
      rw [← hd, show n + 1 + j = n + (j + 1) by omega, pow_add]; exact Nat.mul_div_cancel _ (by positivity)
    unfold treeLevels
    rw [h1]
    refine (Cost.bind (cost_treeInner P _ _ _) fun _ => ih (j + 1) (by omega) _).mono (le_of_eq ?_)
    have h2 : 1 ≤ 2 ^ n := Nat.one_le_two_pow
    rw [← Nat.add_mul]; congr 1; rw [pow_succ]; omega

theorem cost_merkleTreeRoot (leaf : List (CNum F)) (P : PoseidonParams F) :
    Cost (merkleTreeRoot leaf P) ((2 ^ Nat.size (leaf.length - 1) - 1) * hashCount P) := by
  unfold merkleTreeRoot
  split
  · exact Cost.panic
  · exact Cost.bind (n := 0) (cost_treeLevels P _ _ 0 rfl _) fun _ => Cost.lift

end CPoseidon

section bits

variable {p : Nat} [Fact p.Prime]

open Bitify

theorem cost_allocLoop (vb : List (Option Bool)) (n i : Nat) (k : ZMod p) (rem : CNum (ZMod p)) :
    Cost (allocLoop vb n i k rem) n := by
  induction n generalizing i k rem with
  | zero => exact Cost.pure
  | succ n ih =>
    unfold allocLoop
    split
    · exact Cost.panic
    · refine (Cost.bind (k := 0) (Cost.bind (n := 0) (cost_alloc _) fun _ => Cost.pure) fun _ =>
        Cost.bind (k := 1) (cost_assertBit _) fun _ => Cost.bind (n := 0) (ih _ _ _) fun _ => Cost.pure).mono (by omega)

theorem cost_intoBits (x : CNum (ZMod p)) (limit : Nat) : Cost (intoBitsLE x limit) limit := by
  unfold intoBitsLE
  split
  · exact (Cost.bind (k := 0) Cost.lift fun _ => Cost.bind (k := 0) (n := 0) Cost.assert fun _ => Cost.pure).mono (by omega)
  · by_cases hl : limit = 0
    · intro s a s' h
      obtain ⟨_, s1, -, h⟩ := M.bind_ok h
      obtain ⟨_, s2, -, h⟩ := M.bind_ok h
      rw [if_pos hl, M.run_panic] at h; cases h
    · refine (Cost.bind (cost_allocLoop _ _ _ _ _) fun _ => Cost.bind (n := 0) (cost_assertBit _) fun _ => ?_).mono
        (show limit - 1 + (1 + 0) ≤ limit by omega)
      rw [if_neg hl]; exact Cost.pure

theorem cost_compLoop (n : Nat) (ct : List Bool) (sig : List (CBool (ZMod p))) (k : ZMod p) (acc : CNum (ZMod p)) :
    Cost (compLoop n ct sig k acc) n := by
  induction n generalizing ct sig k acc with
  | zero => unfold compLoop; exact Cost.pure
  | succ n ih =>
    match ct, sig with
    | ctl :: ctu :: ct, l :: u :: sig =>
      unfold compLoop
      exact (Cost.bind (cost_mul _ _) fun _ => ih _ _ _ _).mono (by omega)
    | [], _ => unfold compLoop; exact Cost.panic
    | [_], _ => unfold compLoop; exact Cost.panic
    | _ :: _ :: _, [] => unfold compLoop; exact Cost.panic
    | _ :: _ :: _, [_] => unfold compLoop; exact Cost.panic

theorem cost_compConstant (sig : List (CBool (ZMod p))) (c : ZMod p) :
    Cost (compConstant sig c) (compCount sig.length) := by
  unfold compConstant
  refine (Cost.bind (k := 0) Cost.assert fun _ => Cost.bind (cost_compLoop _ _ _ _ _) fun _ =>
    Cost.bind (n := 0) (cost_intoBits _ _) fun _ => ?_).mono ?_
  · split
    · exact Cost.panic
    · exact Cost.pure
  · unfold compCount; omega

theorem cost_strict (x : CNum (ZMod p)) : Cost (intoBitsLEStrict x) (strictCount (numBits p)) := by
  unfold intoBitsLEStrict strictCount
  refine (Cost.bind' (Q := fun b => b.length = numBits p) (n := compCount (numBits p) + 1) (cost_intoBits _ _) ?_
    fun b hb => ?_).mono (by omega)
  · intro s a s' h; exact post_intoBits_length _ _ _ _ _ h
  · rw [← hb]
    exact (Cost.bind (cost_compConstant _ _) fun _ => Cost.bind (n := 0) (cost_assertConst _ _) fun _ => Cost.pure).mono
      (by omega)

end bits

section ecc

variable {F : Type} [Field F] [DecidableEq F]

namespace CMontgomeryPoint

theorem cost_switch (t f : CMontgomeryPoint F) (b : CBool F) : Cost (CMontgomeryPoint.switch t b f) 2 :=
  (Cost.bind (Fawkes.cost_switch _ _ _) fun _ => Cost.bind (n := 0) (Fawkes.cost_switch _ _ _) fun _ => Cost.pure).mono (by omega)

theorem cost_double (a : CMontgomeryPoint F) (J : JubJubParams F) : Cost (a.double J) 4 :=
  (Cost.bind (cost_square _) fun _ => Cost.bind (cost_div _ _) fun _ => Cost.bind (cost_square _) fun _ =>
    Cost.bind (n := 0) (cost_mul _ _) fun _ => Cost.pure).mono (by omega)

theorem cost_add (a b : CMontgomeryPoint F) (J : JubJubParams F) : Cost (a.add b J) 3 :=
  (Cost.bind (cost_div _ _) fun _ => Cost.bind (cost_square _) fun _ =>
    Cost.bind (n := 0) (cost_mul _ _) fun _ => Cost.pure).mono (by omega)

theorem cost_intoEdwards (a : CMontgomeryPoint F) : Cost a.intoEdwards 5 :=
  (Cost.bind (cost_isZero _) fun _ => Cost.bind (cost_div _ _) fun _ =>
    Cost.bind (n := 0) (cost_div _ _) fun _ => Cost.pure).mono (by omega)

end CMontgomeryPoint

namespace CEdwardsPoint

theorem cost_switch (t f : CEdwardsPoint F) (b : CBool F) : Cost (CEdwardsPoint.switch t b f) 2 :=
  (Cost.bind (Fawkes.cost_switch _ _ _) fun _ => Cost.bind (n := 0) (Fawkes.cost_switch _ _ _) fun _ => Cost.pure).mono (by omega)

theorem cost_alloc (v : Option (EdwardsPoint F)) : Cost (CEdwardsPoint.alloc v) 0 :=
  Cost.bind (Fawkes.cost_alloc _) fun _ => Cost.bind (n := 0) (Fawkes.cost_alloc _) fun _ => Cost.pure

theorem cost_double (a : CEdwardsPoint F) (J : JubJubParams F) : Cost (a.double J) 5 :=
  (Cost.bind (cost_mul _ _) fun _ => Cost.bind (cost_square _) fun _ => Cost.bind (cost_square _) fun _ =>
    Cost.bind (cost_div _ _) fun _ => Cost.bind (n := 0) (cost_div _ _) fun _ => Cost.pure).mono (by omega)

theorem cost_mulByCofactor (a : CEdwardsPoint F) (J : JubJubParams F) : Cost (a.mulByCofactor J) 15 :=
  (Cost.bind (cost_double _ _) fun _ => Cost.bind (cost_double _ _) fun _ => cost_double _ _).mono (by omega)

theorem cost_add (a b : CEdwardsPoint F) (J : JubJubParams F) : Cost (a.add b J) 6 :=
  (Cost.bind (cost_mul _ _) fun _ => Cost.bind (cost_mul _ _) fun _ => Cost.bind (cost_mul _ _) fun _ =>
    Cost.bind (cost_mul _ _) fun _ => Cost.bind (cost_div _ _) fun _ => Cost.bind (n := 0) (cost_div _ _) fun _ =>
    Cost.pure).mono (by omega)

theorem cost_assertInCurve (a : CEdwardsPoint F) (J : JubJubParams F) : Cost (a.assertInCurve J) 3 :=
  (Cost.bind (cost_square _) fun _ => Cost.bind (cost_square _) fun _ => cost_enforce _ _ _).mono (by omega)

theorem cost_assertInSubgroup (a : CEdwardsPoint F) (J : JubJubParams F) [Fact J.l.Prime] :
    Cost (a.assertInSubgroup J) 20 :=
  (Cost.bind (k := 0) Cost.lift fun _ => Cost.bind (cost_alloc _) fun _ => Cost.bind (cost_assertInCurve _ _) fun _ =>
    Cost.bind (cost_mulByCofactor _ _) fun _ => Cost.bind (cost_assertZero _) fun _ => cost_assertZero _).mono (by omega)

theorem cost_subgroupDecompress (sqrt : F → Option F) (x : CNum F) (J : JubJubParams F) [Fact J.l.Prime] :
    Cost (subgroupDecompress sqrt x J) 19 :=
  (Cost.bind (k := 0) Cost.lift fun _ => Cost.bind (cost_alloc _) fun _ => Cost.bind (cost_assertInCurve _ _) fun _ =>
    Cost.bind (cost_mulByCofactor _ _) fun _ => Cost.bind (n := 0) (cost_assertZero _) fun _ => Cost.pure).mono (by omega)

theorem cost_intoMontgomery (a : CEdwardsPoint F) : Cost a.intoMontgomery 2 :=
  (Cost.bind (cost_div _ _) fun _ => Cost.bind (n := 0) (cost_div _ _) fun _ => Cost.pure).mono (by omega)

theorem cost_finish (a : CMontgomeryPoint F) : Cost (finish a) 5 :=
  Cost.bind (n := 0) (CMontgomeryPoint.cost_intoEdwards _) fun _ => Cost.pure

theorem genTable_length (b : EdwardsPointEx F) (J : JubJubParams F) (t : List (List F)) (h : genTable b J = .ok t) :
    t.length = 2 := by
  unfold genTable at h
  cases h1 : genTableLoop b J 8 b with
  | error e => rw [h1] at h; cases h
  | ok xy => rw [h1] at h; injection h with h; subst h; rfl

theorem cost_windowLoop (J : JubJubParams F) (n : Nat) : ∀ (bits : List (CBool F)) (_ : bits.length = 3 * n)
    (acc : CMontgomeryPoint F) (base : EdwardsPointEx F), Cost (windowLoop J bits acc base) (6 * n) := by
  induction n with
  | zero =>
    intro bits h acc base
    rw [List.length_eq_zero_iff.1 h]; unfold windowLoop; exact Cost.pure
  | succ n ih =>
    intro bits h acc base
    match bits, h with
    | b0 :: b1 :: b2 :: bits, h =>
      unfold windowLoop
      refine (Cost.bind' (k := 0) (Q := fun t => t.length = 2) (n := 6 * (n + 1)) Cost.lift ?_ fun t ht => ?_).mono (by omega)
      · intro s a s' h
        cases h1 : genTable base J with
        | error e => rw [h1] at h; cases h
        | ok t =>
          rw [h1, M.run_lift] at h; injection h with h; injection h with h _; subst h
          exact genTable_length _ _ _ h1
      · refine (Cost.bind (n := 3 + 6 * n) (cost_mux3 _ _) fun res => ?_).mono (by rw [ht]; omega)
        split
        · exact Cost.bind (CMontgomeryPoint.cost_add _ _ _) fun _ => ih _ (by simp at h; omega) _ _
        · exact Cost.panic

theorem cost_mulConstBase (c : EdwardsPoint F) (bits : List (CBool F)) (J : JubJubParams F) :
    Cost (mulConstBase c bits J) (mulConstCount bits.length) := by
  unfold mulConstBase
  dsimp only
  split
  · exact Cost.pure
  · refine (Cost.bind (k := 0) Cost.lift fun _ => Cost.bind (cost_windowLoop J ((bits.length + 2) / 3) _ ?_ _ _) fun _ =>
      cost_finish _).mono ?_
    · simp [padBits3]; omega
    · unfold mulConstCount; omega

theorem cost_doublings (J : JubJubParams F) (n : Nat) (a : CMontgomeryPoint F) : Cost (doublings J n a) (4 * n) := by
  induction n generalizing a with
  | zero => exact Cost.pure
  | succ n ih =>
    exact (Cost.bind (CMontgomeryPoint.cost_double _ _) fun _ => Cost.bind (n := 0) (ih _) fun _ => Cost.pure).mono (by omega)

theorem cost_addLoop (J : JubJubParams F) (bits : List (CBool F)) (exps : List (CMontgomeryPoint F))
    (acc : CMontgomeryPoint F) : Cost (addLoop J bits exps acc) (5 * bits.length) := by
  induction bits generalizing exps acc with
  | nil => unfold addLoop; exact Cost.pure
  | cons b bits ih =>
    cases exps with
    | nil => unfold addLoop; exact Cost.panic
    | cons e exps =>
      unfold addLoop
      refine (Cost.bind (CMontgomeryPoint.cost_add _ _ _) fun _ => Cost.bind (CMontgomeryPoint.cost_switch _ _ _) fun _ =>
        ih _ _).mono ?_
      simp; omega

theorem cost_mulVarBase (a : CEdwardsPoint F) (bits : List (CBool F)) (J : JubJubParams F) :
    Cost (mulVarBase a bits J) (mulVarCount bits.length) :=
  (Cost.bind (cost_isZero _) fun _ => Cost.bind (cost_switch _ _ _) fun _ => Cost.bind (cost_intoMontgomery _) fun _ =>
    Cost.bind (cost_doublings _ _ _) fun _ => Cost.bind (cost_addLoop _ _ _ _) fun _ =>
    Cost.bind (CMontgomeryPoint.cost_switch _ _ _) fun _ => cost_finish _).mono (by unfold mulVarCount; omega)

theorem cost_mul_le (a : CEdwardsPoint F) (bits : List (CBool F)) (J : JubJubParams F) :
    Cost (a.mul bits J) (mulVarCount bits.length) := by
  unfold mul
  split
  · exact (cost_mulConstBase _ _ _).mono (by unfold mulConstCount mulVarCount; omega)
  · exact cost_mulVarBase _ _ _

end CEdwardsPoint

end ecc

section field

variable {r : Nat} [Fact r.Prime] {W : Type}

namespace CEdwardsPoint

theorem cost_checkAndGetY (sqrt : ZMod r → Option (ZMod r)) (x : CNum (ZMod r)) (J : JubJubParams (ZMod r)) :
    Cost (checkAndGetY sqrt x J) (strictCount (numBits r) + 11) := by
  unfold checkAndGetY
  refine (Cost.bind (cost_square _) fun _ => Cost.bind (cost_mul _ _) fun _ => Cost.bind (cost_divConst _ _) fun _ =>
    Cost.bind (k := 0) Cost.lift fun _ => Cost.bind (Fawkes.cost_alloc _) fun _ => Cost.bind (n := 9) (cost_strict _) fun _ => ?_).mono
    (by omega)
  split
  · exact Cost.panic
  · exact Cost.bind (cost_assertConst _ _) fun _ => Cost.bind (cost_square _) fun _ => Cost.bind (cost_isZero _) fun _ =>
      Cost.bind (cost_isZero _) fun _ => Cost.bind (n := 0) (cost_assertZero _) fun _ => Cost.pure

theorem cost_fromScalar (sqrt : ZMod r → Option (ZMod r)) (t : CNum (ZMod r)) (J : JubJubParams (ZMod r)) :
    Cost (fromScalar sqrt t J) (2 * (strictCount (numBits r) + 11) + 24) := by
  unfold fromScalar
  exact (Cost.bind (cost_square _) fun _ => Cost.bind (k := 0) Cost.lift fun _ => Cost.bind (cost_div _ _) fun _ =>
    Cost.bind (cost_checkAndGetY _ _ _) fun _ => Cost.bind (cost_checkAndGetY _ _ _) fun _ =>
    Cost.bind (Fawkes.cost_switch _ _ _) fun _ => Cost.bind (Fawkes.cost_switch _ _ _) fun _ =>
    Cost.bind (CMontgomeryPoint.cost_intoEdwards _) fun _ => cost_mulByCofactor _ _).mono (by omega)

end CEdwardsPoint

theorem Eddsa.cost_cVerify (sqrt : ZMod r → Option (ZMod r)) (J : JubJubParams (ZMod r)) [Fact J.l.Prime]
    (s rx a m : CNum (ZMod r)) (P : PoseidonParams (ZMod r)) : Cost (cVerify sqrt J s rx a m P)
      (38 + hashCount P + strictCount (numBits r) + mulVarCount (numBits r) + numBits J.l +
        mulConstCount (numBits J.l) + 9) := by
  unfold cVerify
  refine (Cost.bind (k := 0) Cost.assert fun _ => Cost.bind (CEdwardsPoint.cost_subgroupDecompress _ _ _) fun _ =>
    Cost.bind (CEdwardsPoint.cost_subgroupDecompress _ _ _) fun _ => Cost.bind (k := 0) Cost.lift fun _ =>
    Cost.bind (CPoseidon.cost_poseidonWithSalt _ _ _) fun _ =>
    Cost.bind' (Q := fun b => b.length = numBits r) (n := mulVarCount (numBits r) + numBits J.l +
        mulConstCount (numBits J.l) + 9) (cost_strict _) ?_ fun b hb => ?_).mono (by omega)
  · intro s a s' h
    obtain ⟨b, s1, h1, h⟩ := M.bind_ok h
    obtain ⟨c, s2, -, h⟩ := M.bind_ok h
    obtain ⟨_, s3, -, h⟩ := M.bind_ok h
    rw [M.run_pure] at h; injection h with h; injection h with h _; subst h
    exact post_intoBits_length _ _ _ _ _ h1
  · refine (Cost.bind (CEdwardsPoint.cost_mul_le _ _ _) fun _ =>
      Cost.bind' (Q := fun b => b.length = numBits J.l) (n := mulConstCount (numBits J.l) + 9) (cost_intoBits _ _) ?_ fun c hc => ?_).mono
      (by rw [hb]; omega)
    · intro s a s' h; exact post_intoBits_length _ _ _ _ _ h
    · refine (Cost.bind (k := mulConstCount (numBits J.l)) ?_ fun _ => Cost.bind (CEdwardsPoint.cost_add _ _ _) fun _ =>
        cost_isZero _).mono (by omega)
      rw [← hc]
      exact CEdwardsPoint.cost_mulConstBase _ _ _

theorem cost_regs (q : List (CNum (ZMod r))) (is : List Nat) : Cost (regs q is) 0 := by
  induction is with
  | nil => exact Cost.pure
  | cons i is ih => exact Cost.bind (n := 0) (cost_reg _ _) fun _ => Cost.bind (n := 0) ih fun _ => Cost.pure

theorem regs_length (q : List (CNum (ZMod r))) (is : List Nat) (s : CS (ZMod r)) (a : List (CNum (ZMod r)))
    (s' : CS (ZMod r)) (h : (regs q is).run s = .ok (a, s')) : a.length = is.length := by
  induction is generalizing a s with
  | nil => rw [regs, M.run_pure] at h; injection h with h; injection h with h _; subst h; rfl
  | cons i is ih =>
    rw [regs] at h
    obtain ⟨x, s1, -, h⟩ := M.bind_ok h
    obtain ⟨xs, s2, h2, h⟩ := M.bind_ok h
    rw [M.run_pure] at h; injection h with h; injection h with h h'; subst h
    simp [ih _ _ (h' ▸ h2)]

theorem cost_regBits (q : List (CNum (ZMod r))) (is : List Nat) : Cost (regBits q is) 0 :=
  Cost.bind (n := 0) (cost_regs _ _) fun _ => Cost.pure

theorem regBits_length (q : List (CNum (ZMod r))) (is : List Nat) (s : CS (ZMod r)) (a : List (CBool (ZMod r)))
    (s' : CS (ZMod r)) (h : (regBits q is).run s = .ok (a, s')) : a.length = is.length := by
  rw [regBits] at h
  obtain ⟨xs, s2, h2, h⟩ := M.bind_ok h
  rw [M.run_pure] at h; injection h with h; injection h with h h'; subst h
  simp [regs_length _ _ _ _ _ h2]

theorem cost_regPoint (q : List (CNum (ZMod r))) (x y : Nat) : Cost (regPoint q x y) 0 :=
  Cost.bind (n := 0) (cost_reg _ _) fun _ => Cost.bind (n := 0) (cost_reg _ _) fun _ => Cost.pure

theorem reg_spec (q : List (CNum (ZMod r))) (i : Nat) (s : CS (ZMod r)) (a : CNum (ZMod r)) (s' : CS (ZMod r))
    (h : (reg q i).run s = .ok (a, s')) : q[i]? = some a := by
  unfold reg at h
  cases hx : q[i]? with
  | none => rw [hx, M.run_panic] at h; cases h
  | some x => rw [hx, M.run_pure] at h; injection h with h; injection h with h _; rw [h]

theorem regPoint_spec (q : List (CNum (ZMod r))) (x y : Nat) (s : CS (ZMod r)) (a : CEdwardsPoint (ZMod r))
    (s' : CS (ZMod r)) (h : (regPoint q x y).run s = .ok (a, s')) : q[x]? = some a.x ∧ q[y]? = some a.y := by
  unfold regPoint at h
  obtain ⟨u, s1, h1, h⟩ := M.bind_ok h
  obtain ⟨v, s2, h2, h⟩ := M.bind_ok h
  rw [M.run_pure] at h; injection h with h; injection h with h _; subst h
  exact ⟨reg_spec _ _ _ _ _ h1, reg_spec _ _ _ _ _ h2⟩

theorem cost_regMont (q : List (CNum (ZMod r))) (x y : Nat) : Cost (regMont q x y) 0 :=
  Cost.bind (n := 0) (cost_reg _ _) fun _ => Cost.bind (n := 0) (cost_reg _ _) fun _ => Cost.pure

/-- Read registers, call a gadget, store the result. -/
theorem Cost.wrap {F α β γ : Type} {m : M F α} {g : α → M F β} {f : β → γ} {n : Nat} (hm : Cost m 0)
    (hg : ∀ a, Cost (g a) n) : Cost (m >>= fun a => g a >>= fun b => Pure.pure (f b)) n :=
  (Cost.bind hm fun a => Cost.bind (n := 0) (hg a) fun _ => Cost.pure).mono (by omega)

theorem Cost.wrap' {F α β γ : Type} {m : M F α} {g : α → M F β} {f : β → γ} {n : Nat} (Q : α → Prop) (hm : Cost m 0)
    (hq : ∀ s a s', m.run s = .ok (a, s') → Q a)
    (hg : ∀ a, Q a → Cost (g a) n) : Cost (m >>= fun a => g a >>= fun b => Pure.pure (f b)) n :=
  (Cost.bind' hm hq fun a ha => Cost.bind (n := 0) (hg a ha) fun _ => Cost.pure).mono (by omega)

theorem cost_call (w : Option W) (q : List (CNum (ZMod r))) (c : Call r W) : Cost (c.exec w q) (c.maxConstraints q) c.publishes := by
  cases c <;> simp only [Call.exec, Call.maxConstraints, Call.publishes]
  case prim o => exact cost_op q o
  case alloc is hint =>
    exact Cost.bind (cost_regs _ _) fun _ => Cost.bind (k := 0) Cost.lift fun _ => Cost.bind (n := 0) (cost_alloc _) fun _ => Cost.pure
  case allocInput is hint =>
    exact Cost.bind (cost_regs _ _).weak fun _ => Cost.bind (k := 0) Cost.lift fun _ => Cost.bind (n := 0) (cost_allocInput _) fun _ => Cost.pure
  case intoBits => exact Cost.wrap (cost_reg _ _) fun _ => cost_intoBits _ _
  case intoBitsStrict => exact Cost.wrap (cost_reg _ _) fun _ => cost_strict _
  case compConstant is c =>
    exact Cost.wrap' _ (cost_regBits _ _) (regBits_length _ _) fun a ha => ha ▸ cost_compConstant _ _
  case fromBits is =>
    refine Cost.wrap (cost_regBits _ _) fun bs => ?_
    cases bs with
    | nil => exact Cost.panic
    | cons => exact Cost.pure
  case mux3 => exact Cost.wrap (cost_regBits _ _) fun _ => cost_mux3 _ _
  case poseidon => exact Cost.wrap (cost_regs _ _) fun _ => CPoseidon.cost_poseidon _ _
  case poseidonWithSalt => exact Cost.wrap (cost_regs _ _) fun _ => CPoseidon.cost_poseidonWithSalt _ _ _
  case merkleProofRoot leaf sibling path P =>
    refine (Cost.bind (cost_reg _ _) fun _ => Cost.bind' (n := sibling.length * (hashCount P + 1)) (cost_regs _ _) (regs_length _ _) fun a ha =>
      Cost.wrap (cost_regBits _ _) fun b => ?_).mono (by omega)
    refine (CPoseidon.cost_proofLoop P _ _).mono ?_
    unfold hashCount
    gcongr
    simp [← ha]
  case merkleTreeRoot => exact Cost.wrap' _ (cost_regs _ _) (regs_length _ _) fun a ha => ha ▸ CPoseidon.cost_merkleTreeRoot _ _
  case edDouble => exact Cost.wrap (cost_regPoint _ _ _) fun _ => CEdwardsPoint.cost_double _ _
  case edMulByCofactor => exact Cost.wrap (cost_regPoint _ _ _) fun _ => CEdwardsPoint.cost_mulByCofactor _ _
  case edAdd =>
    exact (Cost.bind (cost_regPoint _ _ _) fun _ => Cost.wrap (cost_regPoint _ _ _) fun _ => CEdwardsPoint.cost_add _ _ _).mono (by omega)
  case assertInCurve => exact Cost.wrap (cost_regPoint _ _ _) fun _ => CEdwardsPoint.cost_assertInCurve _ _
  case assertInSubgroup => exact Cost.wrap (cost_regPoint _ _ _) fun _ => CEdwardsPoint.cost_assertInSubgroup _ _
  case subgroupDecompress => exact Cost.wrap (cost_reg _ _) fun _ => CEdwardsPoint.cost_subgroupDecompress _ _ _
  case intoMontgomery => exact Cost.wrap (cost_regPoint _ _ _) fun _ => CEdwardsPoint.cost_intoMontgomery _
  case edMul x y bits J =>
    refine (Cost.bind' (k := 0) (Q := fun z => q[x]? = some z.x ∧ q[y]? = some z.y) (cost_regPoint _ _ _)
      (regPoint_spec q x y) fun z hz => Cost.wrap' _ (cost_regBits _ _) (regBits_length _ _) fun bs hbs => ?_).mono
      (Nat.zero_add _).le
    rw [← hbs, hz.1, hz.2]
    simp only [Option.bind_some]
    cases ha : z.x.asConst with
    | none => exact CEdwardsPoint.cost_mul_le _ _ _
    | some va =>
      cases hb : z.y.asConst with
      | none => exact CEdwardsPoint.cost_mul_le _ _ _
      | some vb =>
        have : z.asConst = some ⟨va, vb⟩ := by simp [CEdwardsPoint.asConst, ha, hb]
        unfold CEdwardsPoint.mul
        rw [this]
        exact CEdwardsPoint.cost_mulConstBase _ _ _
  case fromScalar => exact Cost.wrap (cost_reg _ _) fun _ => CEdwardsPoint.cost_fromScalar _ _ _
  case montDouble => exact Cost.wrap (cost_regMont _ _ _) fun _ => CMontgomeryPoint.cost_double _ _
  case montAdd =>
    exact (Cost.bind (cost_regMont _ _ _) fun _ => Cost.wrap (cost_regMont _ _ _) fun _ => CMontgomeryPoint.cost_add _ _ _).mono (by omega)
  case intoEdwards => exact Cost.wrap (cost_regMont _ _ _) fun _ => CMontgomeryPoint.cost_intoEdwards _
  case eddsaVerify sqrt s rx a m P J hl =>
    exact (Cost.bind (cost_reg _ _) fun _ => Cost.bind (cost_reg _ _) fun _ => Cost.bind (cost_reg _ _) fun _ =>
      Cost.wrap (cost_reg _ _) fun _ => Eddsa.cost_cVerify sqrt J _ _ _ _ P).mono (by omega)

end field

end Fawkes
