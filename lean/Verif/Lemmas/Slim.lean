import Verif.Lemmas.Used

/-!
# No gadget adds more variables than constraints

Up to the few that allocate points: they are listed in `Call.surplus`.
-/

set_option linter.unusedSectionVars false

namespace Fawkes

section basic

variable {F α β : Type}

/-- `m` adds at least `k` constraints more than private variables (`TestCS` does not tell private variables from inputs). -/
def Gains (m : M F α) (k : Int) : Prop :=
  ∀ s a s', m.run s = .ok (a, s') → s.backend ≠ .test → (s'.naux : Int) + s.cons.length + k ≤ s.naux + s'.cons.length

theorem Gains.bind {m : M F α} {f : α → M F β} {j k : Int} (hm : Gains m j) (hf : ∀ a, Gains (f a) k) : Gains (m >>= f) (j + k) := by
  intro s b s' h hb
  obtain ⟨a, s1, r1, r2⟩ := M.bind_ok h
  have h1 := hm _ _ _ r1 hb
  have h2 := hf a _ _ _ r2 (by rw [(M.run_ext r1).backend]; exact hb)
  omega

theorem Gains.mono {m : M F α} {j k : Int} (h : Gains m j) (hk : k ≤ j) : Gains m k := fun s a s' hr hb => by
  have := h s a s' hr hb; omega

/-- `m` adds no more private variables than constraints. -/
abbrev Slim (m : M F α) : Prop := Gains m 0

namespace Slim

theorem pure {a : α} : Slim (Pure.pure a : M F α) := by
  intro s a' s' h
  rw [M.run_pure] at h; injection h with h; injection h with h h'; subst h'
  intro _; omega

theorem panic {e : Panic} : Slim (M.panic e : M F α) := by
  intro s a s' h; rw [M.run_panic] at h; cases h

theorem lift {x : Except Panic α} : Slim (M.lift x : M F α) := by
  cases x with
  | error e => exact panic
  | ok a => exact pure

theorem assert {b : Bool} {e : Panic} : Slim (M.assert b e : M F Unit) := by
  cases b with
  | false => exact panic
  | true => exact pure

theorem bind {m : M F α} {f : α → M F β} (hm : Slim m) (hf : ∀ a, Slim (f a)) : Slim (m >>= f) := Gains.bind hm hf

end Slim

end basic

section num

variable {F α β : Type} [Field F] [DecidableEq F]

/-- A variable has to be paid for with a constraint. -/
theorem Slim.alloc_bind {v : Option F} {f : CNum F → M F β} {k : Int} (hf : ∀ x, Bare x → Gains (f x) k) :
    Gains (CNum.alloc v >>= f) (k - 1) := by
  intro s b s' h hb
  obtain ⟨x, s1, r1, r2⟩ := M.bind_ok h
  obtain ⟨hl, hn⟩ := bare_alloc hb r1
  have hc : s1.cons = s.cons := by rw [(post_alloc s v _ _ r1).2.2, pushVar_cons]
  have := hf x ⟨_, hl⟩ _ _ _ r2 (by rw [(M.run_ext r1).backend]; exact hb)
  rw [hc] at this
  omega

theorem gains_enforce (a b c : CNum F) : Gains (CS.enforce a b c) 1 := by
  intro s x s' h _
  rw [(post_enforce s a b c _ _ h).1]
  simp only [List.length_append, List.length_singleton]
  omega

theorem slim_enforce (a b c : CNum F) : Slim (CS.enforce a b c) := (gains_enforce a b c).mono (by omega)

theorem slim_mul (a b : CNum F) : Slim (CNum.mul a b) := by
  unfold CNum.mul
  split
  · exact Slim.pure
  · exact Slim.pure
  · exact Slim.alloc_bind fun _ _ => Gains.bind (gains_enforce _ _ _) fun _ => Slim.pure

theorem slim_square (a : CNum F) : Slim (CNum.square a) := slim_mul a a

theorem slim_divConst (a : CNum F) (k : F) : Slim (CNum.divConst a k) := by
  unfold CNum.divConst
  split
  · exact Slim.panic
  · exact Slim.pure

theorem slim_divValue (a b : Option F) : Slim (CNum.divValue a b) := by
  unfold CNum.divValue
  split
  · split
    · exact Slim.panic
    · exact Slim.pure
  · exact Slim.pure

theorem slim_div (a b : CNum F) : Slim (CNum.div a b) := by
  unfold CNum.div
  split
  · exact slim_divConst _ _
  · exact slim_divConst _ _
  · exact Slim.bind (slim_divValue _ _) fun _ => Slim.alloc_bind (k := 1) fun _ _ => Gains.bind (gains_enforce _ _ _) fun _ => Slim.pure

theorem slim_assertConst (a : CNum F) (c : F) : Slim (CNum.assertConst a c) := by
  unfold CNum.assertConst
  split
  · exact Slim.assert
  · exact slim_enforce _ _ _

theorem slim_assertZero (a : CNum F) : Slim (CNum.assertZero a) := slim_assertConst a 0

theorem slim_assertNonzero (a : CNum F) : Slim (CNum.assertNonzero a) := by
  unfold CNum.assertNonzero
  split
  · exact Slim.assert
  · exact Slim.alloc_bind (k := 1) fun _ _ => gains_enforce _ _ _

theorem slim_assertBit (a : CNum F) : Slim (CNum.assertBit a) := by
  unfold CNum.assertBit
  split
  · exact Slim.assert
  · exact slim_enforce _ _ _

theorem gains_assertBit {a : CNum F} (h : a.asConst = none) : Gains (CNum.assertBit a) 1 := by
  unfold CNum.assertBit
  rw [h]
  exact gains_enforce _ _ _

theorem slim_allocInput (v : Option F) : Slim (CS.allocInput v : M F Index) := by
  intro s a s' h _
  rw [run_csallocInput] at h
  split at h
  · cases h
  · injection h with h; injection h with _ h; subst h
    simp only [CS.pushVar]
    omega

theorem slim_inputize (a : CNum F) : Slim (CNum.inputize a) := by
  unfold CNum.inputize
  split
  · exact Slim.bind (slim_allocInput _) fun _ => slim_enforce _ _ _
  · exact Slim.bind (slim_allocInput _) fun _ => slim_enforce _ _ _

theorem slim_isZero (a : CNum F) : Slim (CNum.isZero a) := by
  unfold CNum.isZero
  cases ha : a.asConst with
  | some c => exact Slim.pure
  | none =>
    refine Slim.alloc_bind (k := 1) fun x hx => Gains.bind (j := 0) (k := 1) (slim_assertNonzero _) fun _ => ?_
    unfold CNum.mul
    rw [ha, hx.asConst]
    simp only [bind_assoc, pure_bind]
    exact Slim.alloc_bind (k := 2) fun y hy => Gains.bind (j := 1) (gains_enforce _ _ _) fun _ =>
      Gains.bind (j := 1) (gains_assertBit hy.asConst) fun _ => Slim.pure

theorem slim_switch (t f : CNum F) (b : CBool F) : Slim (CNum.switch t b f) := by
  unfold CNum.switch
  refine Slim.bind Slim.lift fun c => ?_
  split
  · exact Slim.pure
  · exact Slim.pure
  · split
    · exact Slim.bind (slim_mul _ _) fun _ => Slim.pure
    · exact Slim.bind (slim_mul _ _) fun _ => Slim.pure

theorem slim_reg (q : List (CNum F)) (i : Nat) : Slim (reg q i) := by
  unfold reg
  split
  · exact Slim.pure
  · exact Slim.panic

/-- Step through a computation whose parts are known to use their variables. -/
macro "slim" : tactic => `(tactic| repeat' first
  | exact Slim.pure | exact Slim.panic | exact Slim.lift | exact Slim.assert
  | exact slim_enforce _ _ _ | exact slim_mul _ _ | exact slim_square _ | exact slim_divConst _ _ | exact slim_div _ _
  | exact slim_assertConst _ _ | exact slim_assertZero _ | exact slim_assertNonzero _ | exact slim_assertBit _
  | exact slim_inputize _ | exact slim_isZero _ | exact slim_switch _ _ _ | exact slim_reg _ _
  | assumption
  | apply_assumption
  | refine Slim.bind ?_ fun _ => ?_
  | split)

/-- How many variables a call of the number API may add beyond its constraints. -/
def Op.surplus : Op F → Nat
  | .alloc _ => 1
  | _ => 0

theorem gains_op (q : List (CNum F)) (o : Op F) : Gains (o.exec q) (-(o.surplus : Int)) := by
  cases o <;> simp only [Op.exec, CNum.assertEq, CNum.isEq, Op.surplus]
  case alloc => exact Slim.alloc_bind (k := 0) fun _ _ => Slim.pure
  case allocInput => exact Slim.bind (slim_allocInput _) fun _ => Slim.pure
  case const => exact Slim.pure
  case add => exact Slim.bind (slim_reg _ _) fun _ => Slim.bind (slim_reg _ _) fun _ => Slim.pure
  case sub => exact Slim.bind (slim_reg _ _) fun _ => Slim.bind (slim_reg _ _) fun _ => Slim.pure
  case neg => exact Slim.bind (slim_reg _ _) fun _ => Slim.pure
  case mulConst => exact Slim.bind (slim_reg _ _) fun _ => Slim.pure
  case divConst => exact Slim.bind (slim_reg _ _) fun _ => Slim.bind (slim_divConst _ _) fun _ => Slim.pure
  case mul => exact Slim.bind (slim_reg _ _) fun _ => Slim.bind (slim_reg _ _) fun _ => Slim.bind (slim_mul _ _) fun _ => Slim.pure
  case div => exact Slim.bind (slim_reg _ _) fun _ => Slim.bind (slim_reg _ _) fun _ => Slim.bind (slim_div _ _) fun _ => Slim.pure
  case enforce =>
    exact Slim.bind (slim_reg _ _) fun _ => Slim.bind (slim_reg _ _) fun _ => Slim.bind (slim_reg _ _) fun _ =>
      Slim.bind (slim_enforce _ _ _) fun _ => Slim.pure
  case assertConst => exact Slim.bind (slim_reg _ _) fun _ => Slim.bind (slim_assertConst _ _) fun _ => Slim.pure
  case assertEq =>
    exact Slim.bind (slim_reg _ _) fun _ => Slim.bind (slim_reg _ _) fun _ => Slim.bind (slim_assertZero _) fun _ => Slim.pure
  case assertNonzero => exact Slim.bind (slim_reg _ _) fun _ => Slim.bind (slim_assertNonzero _) fun _ => Slim.pure
  case assertBit => exact Slim.bind (slim_reg _ _) fun _ => Slim.bind (slim_assertBit _) fun _ => Slim.pure
  case inputize => exact Slim.bind (slim_reg _ _) fun _ => Slim.bind (slim_inputize _) fun _ => Slim.pure
  case isZero => exact Slim.bind (slim_reg _ _) fun _ => Slim.bind (slim_isZero _) fun _ => Slim.pure
  case isEq =>
    exact Slim.bind (slim_reg _ _) fun _ => Slim.bind (slim_reg _ _) fun _ => Slim.bind (slim_isZero _) fun _ => Slim.pure
  case switch =>
    exact Slim.bind (slim_reg _ _) fun _ => Slim.bind (slim_reg _ _) fun _ => Slim.bind (slim_reg _ _) fun _ =>
      Slim.bind (slim_switch _ _ _) fun _ => Slim.pure

theorem slim_columns (s0 s1 s2 : CBool F) (s10 : CNum F) (c : List (List F)) : Slim (Mux.columns s0 s1 s2 s10 c) := by
  induction c with
  | nil => exact Slim.pure
  | cons col c ih =>
    unfold Mux.columns Mux.column
    split
    · exact Slim.pure
    · next h => injection h with h h'; subst h'; slim
    · exact Slim.panic

theorem slim_mux3 (s : List (CBool F)) (c : List (List F)) : Slim (Mux.mux3 s c) := by
  unfold Mux.mux3
  refine Slim.bind Slim.assert fun _ => Slim.bind Slim.assert fun _ => ?_
  split
  · exact Slim.bind (slim_mul _ _) fun _ => slim_columns _ _ _ _ _
  · exact Slim.panic

end num

namespace CPoseidon

variable {F : Type} [Field F] [DecidableEq F]

theorem slim_sigma (a : CNum F) : Slim (sigma a) := by unfold sigma; slim

theorem slim_sigmaAll (l : List (CNum F)) : Slim (sigmaAll l) := by
  induction l with
  | nil => exact Slim.pure
  | cons x l ih => exact Slim.bind (slim_sigma _) fun _ => Slim.bind ih fun _ => Slim.pure

theorem slim_rounds (P : PoseidonParams F) (n i : Nat) (st : List (CNum F)) : Slim (rounds P n i st) := by
  induction n generalizing i st with
  | zero => exact Slim.pure
  | succ n ih =>
    refine Slim.bind Slim.lift fun _ => Slim.bind ?_ fun _ => Slim.bind Slim.lift fun _ => ih _ _
    unfold layer
    split
    · exact slim_sigmaAll _
    · split
      · exact Slim.panic
      · exact Slim.bind (slim_sigma _) fun _ => Slim.pure

theorem slim_poseidon (l : List (CNum F)) (P : PoseidonParams F) : Slim (poseidon l P) := by
  unfold poseidon
  split
  · exact Slim.panic
  · split
    · exact Slim.panic
    · exact Slim.bind (slim_rounds _ _ _ _) fun _ => Slim.lift

theorem slim_poseidonWithSalt (l : List (CNum F)) (seed : F) (P : PoseidonParams F) : Slim (poseidonWithSalt l seed P) := by
  unfold poseidonWithSalt
  split
  · exact Slim.panic
  · split
    · exact Slim.panic
    · exact slim_poseidon _ _

theorem slim_proofLoop (P : PoseidonParams F) (l : List (CBool F × CNum F)) (leaf : CNum F) : Slim (proofLoop P leaf l) := by
  induction l generalizing leaf with
  | nil => exact Slim.pure
  | cons x l ih => exact Slim.bind (slim_switch _ _ _) fun _ => Slim.bind (slim_poseidon _ _) fun _ => ih _

theorem slim_treeInner (P : PoseidonParams F) (n i : Nat) (st : List (CNum F)) : Slim (treeInner P n i st) := by
  induction n generalizing i st with
  | zero => exact Slim.pure
  | succ n ih => exact Slim.bind Slim.lift fun _ => Slim.bind Slim.lift fun _ => Slim.bind (slim_poseidon _ _) fun _ => ih _ _

theorem slim_treeLevels (P : PoseidonParams F) (total n j : Nat) (st : List (CNum F)) : Slim (treeLevels P total n j st) := by
  induction n generalizing j st with
  | zero => exact Slim.pure
  | succ n ih => exact Slim.bind (slim_treeInner _ _ _ _) fun _ => ih _ _

theorem slim_merkleTreeRoot (l : List (CNum F)) (P : PoseidonParams F) : Slim (merkleTreeRoot l P) := by
  unfold merkleTreeRoot
  split
  · exact Slim.panic
  · exact Slim.bind (slim_treeLevels _ _ _ _ _) fun _ => Slim.lift

end CPoseidon

section bits

variable {p : Nat} [Fact p.Prime]

open Bitify

theorem slim_allocBit {β : Type} {v : Option Bool} {f : CBool (ZMod p) → M (ZMod p) β} (hf : ∀ x, Bare x.num → Gains (f x) 1) :
    Slim (CBool.alloc v >>= f) := by
  unfold CBool.alloc
  simp only [bind_assoc, pure_bind]
  exact Slim.alloc_bind fun x hx => hf ⟨x⟩ hx

theorem slim_allocLoop (vb : List (Option Bool)) (n i : Nat) (k : ZMod p) (rem : CNum (ZMod p)) : Slim (allocLoop vb n i k rem) := by
  induction n generalizing i k rem with
  | zero => exact Slim.pure
  | succ n ih =>
    unfold allocLoop
    split
    · exact Slim.panic
    · exact slim_allocBit fun _ hx => Gains.bind (j := 1) (k := 0) (gains_assertBit hx.asConst) fun _ =>
        Slim.bind (ih _ _ _) fun _ => Slim.pure

theorem slim_intoBits (x : CNum (ZMod p)) (limit : Nat) : Slim (intoBitsLE x limit) := by
  unfold intoBitsLE
  split
  · slim
  · refine Slim.bind (slim_allocLoop _ _ _ _ _) fun _ => ?_
    slim

theorem slim_compLoop (n : Nat) (ct : List Bool) (sig : List (CBool (ZMod p))) (k : ZMod p) (acc : CNum (ZMod p)) :
    Slim (compLoop n ct sig k acc) := by
  induction n generalizing ct sig k acc with
  | zero => unfold compLoop; exact Slim.pure
  | succ n ih =>
    match ct, sig with
    | ctl :: ctu :: ct, l :: u :: sig =>
      unfold compLoop
      exact Slim.bind (slim_mul _ _) fun _ => ih _ _ _ _
    | [], _ => unfold compLoop; exact Slim.panic
    | [_], _ => unfold compLoop; exact Slim.panic
    | _ :: _ :: _, [] => unfold compLoop; exact Slim.panic
    | _ :: _ :: _, [_] => unfold compLoop; exact Slim.panic

theorem slim_compConstant (sig : List (CBool (ZMod p))) (c : ZMod p) : Slim (compConstant sig c) := by
  unfold compConstant
  refine Slim.bind Slim.assert fun _ => Slim.bind (slim_compLoop _ _ _ _ _) fun _ => Slim.bind (slim_intoBits _ _) fun _ => ?_
  slim

theorem slim_strict (x : CNum (ZMod p)) : Slim (intoBitsLEStrict x) := by
  unfold intoBitsLEStrict CBool.assertFalse CBool.assertConst
  refine Slim.bind (slim_intoBits _ _) fun _ => Slim.bind (slim_compConstant _ _) fun _ => ?_
  slim

end bits

section ecc

variable {F : Type} [Field F] [DecidableEq F]

namespace CMontgomeryPoint

theorem slim_switch (t f : CMontgomeryPoint F) (b : CBool F) : Slim (CMontgomeryPoint.switch t b f) := by
  unfold CMontgomeryPoint.switch; slim

theorem slim_double (a : CMontgomeryPoint F) (J : JubJubParams F) : Slim (a.double J) := by
  unfold CMontgomeryPoint.double; slim

theorem slim_add (a b : CMontgomeryPoint F) (J : JubJubParams F) : Slim (a.add b J) := by
  unfold CMontgomeryPoint.add; slim

theorem slim_intoEdwards (a : CMontgomeryPoint F) : Slim a.intoEdwards := by
  unfold CMontgomeryPoint.intoEdwards; slim

end CMontgomeryPoint

namespace CEdwardsPoint

theorem slim_switch (t f : CEdwardsPoint F) (b : CBool F) : Slim (CEdwardsPoint.switch t b f) := by
  unfold CEdwardsPoint.switch; slim

theorem gains_alloc {β : Type} {v : Option (EdwardsPoint F)} {f : CEdwardsPoint F → M F β} (hf : ∀ x, Gains (f x) 1) :
    Gains (CEdwardsPoint.alloc v >>= f) (-1) := by
  unfold CEdwardsPoint.alloc
  simp only [bind_assoc, pure_bind]
  exact Slim.alloc_bind (k := 0) fun x _ => Slim.alloc_bind (k := 1) fun y _ => hf ⟨x, y⟩

theorem slim_double (a : CEdwardsPoint F) (J : JubJubParams F) : Slim (a.double J) := by
  unfold CEdwardsPoint.double; slim

theorem slim_mulByCofactor (a : CEdwardsPoint F) (J : JubJubParams F) : Slim (a.mulByCofactor J) :=
  Slim.bind (slim_double _ _) fun _ => Slim.bind (slim_double _ _) fun _ => slim_double _ _

theorem slim_add (a b : CEdwardsPoint F) (J : JubJubParams F) : Slim (a.add b J) := by
  unfold CEdwardsPoint.add; slim

theorem gains_assertInCurve (a : CEdwardsPoint F) (J : JubJubParams F) : Gains (a.assertInCurve J) 1 := by
  unfold CEdwardsPoint.assertInCurve
  exact Gains.bind (j := 0) (k := 1) (slim_square _) fun _ => Gains.bind (j := 0) (k := 1) (slim_square _) fun _ => gains_enforce _ _ _

theorem gains_assertInSubgroup (a : CEdwardsPoint F) (J : JubJubParams F) [Fact J.l.Prime] : Gains (a.assertInSubgroup J) (-1) :=
  Gains.bind (j := 0) (k := -1) Slim.lift fun _ => gains_alloc fun _ => Gains.bind (j := 1) (k := 0) (gains_assertInCurve _ _) fun _ =>
    Slim.bind (slim_mulByCofactor _ _) fun _ => Slim.bind (slim_assertZero _) fun _ => slim_assertZero _

theorem gains_subgroupDecompress (sqrt : F → Option F) (x : CNum F) (J : JubJubParams F) [Fact J.l.Prime] :
    Gains (subgroupDecompress sqrt x J) (-1) :=
  Gains.bind (j := 0) (k := -1) Slim.lift fun _ => gains_alloc fun _ => Gains.bind (j := 1) (k := 0) (gains_assertInCurve _ _) fun _ =>
    Slim.bind (slim_mulByCofactor _ _) fun _ => Slim.bind (slim_assertZero _) fun _ => Slim.pure

theorem slim_intoMontgomery (a : CEdwardsPoint F) : Slim a.intoMontgomery := by
  unfold CEdwardsPoint.intoMontgomery; slim

theorem slim_finish (a : CMontgomeryPoint F) : Slim (finish a) :=
  Slim.bind (CMontgomeryPoint.slim_intoEdwards _) fun _ => Slim.pure

theorem slim_windowLoop (J : JubJubParams F) (n : Nat) : ∀ (bits : List (CBool F)) (_ : bits.length ≤ n)
    (acc : CMontgomeryPoint F) (base : EdwardsPointEx F), Slim (windowLoop J bits acc base) := by
  induction n with
  | zero =>
    intro bits h acc base
    rw [List.length_eq_zero_iff.1 (by omega : bits.length = 0)]; unfold windowLoop; exact Slim.pure
  | succ n ih =>
    intro bits h acc base
    match bits, h with
    | [], _ => unfold windowLoop; exact Slim.pure
    | [_], _ => unfold windowLoop; exact Slim.pure
    | [_, _], _ => unfold windowLoop; exact Slim.pure
    | b0 :: b1 :: b2 :: bits, h =>
      unfold windowLoop
      refine Slim.bind Slim.lift fun _ => Slim.bind (slim_mux3 _ _) fun _ => ?_
      split
      · exact Slim.bind (CMontgomeryPoint.slim_add _ _ _) fun _ => ih _ (by simp at h; omega) _ _
      · exact Slim.panic

theorem slim_mulConstBase (c : EdwardsPoint F) (bits : List (CBool F)) (J : JubJubParams F) : Slim (mulConstBase c bits J) := by
  unfold mulConstBase
  dsimp only
  split
  · exact Slim.pure
  · exact Slim.bind Slim.lift fun _ => Slim.bind (slim_windowLoop J _ _ le_rfl _ _) fun _ => slim_finish _

theorem slim_doublings (J : JubJubParams F) (n : Nat) (a : CMontgomeryPoint F) : Slim (doublings J n a) := by
  induction n generalizing a with
  | zero => exact Slim.pure
  | succ n ih => exact Slim.bind (CMontgomeryPoint.slim_double _ _) fun _ => Slim.bind (ih _) fun _ => Slim.pure

theorem slim_addLoop (J : JubJubParams F) (bits : List (CBool F)) (exps : List (CMontgomeryPoint F))
    (acc : CMontgomeryPoint F) : Slim (addLoop J bits exps acc) := by
  induction bits generalizing exps acc with
  | nil => unfold addLoop; exact Slim.pure
  | cons b bits ih =>
    cases exps with
    | nil => unfold addLoop; exact Slim.panic
    | cons e exps =>
      unfold addLoop
      exact Slim.bind (CMontgomeryPoint.slim_add _ _ _) fun _ => Slim.bind (CMontgomeryPoint.slim_switch _ _ _) fun _ => ih _ _

theorem slim_mul (a : CEdwardsPoint F) (bits : List (CBool F)) (J : JubJubParams F) : Slim (a.mul bits J) := by
  unfold mul
  split
  · exact slim_mulConstBase _ _ _
  · exact Slim.bind (slim_isZero _) fun _ => Slim.bind (slim_switch _ _ _) fun _ => Slim.bind (slim_intoMontgomery _) fun _ =>
      Slim.bind (slim_doublings _ _ _) fun _ => Slim.bind (slim_addLoop _ _ _ _) fun _ =>
      Slim.bind (CMontgomeryPoint.slim_switch _ _ _) fun _ => slim_finish _

end CEdwardsPoint

end ecc

section field

variable {r : Nat} [Fact r.Prime] {W : Type}

namespace CEdwardsPoint

theorem gains_checkAndGetY (sqrt : ZMod r → Option (ZMod r)) (x : CNum (ZMod r)) (J : JubJubParams (ZMod r)) :
    Gains (checkAndGetY sqrt x J) (-1) := by
  unfold checkAndGetY CBool.assertFalse CBool.assertConst
  refine Gains.bind (j := 0) (k := -1) (slim_square _) fun _ => Gains.bind (j := 0) (k := -1) (Fawkes.slim_mul _ _) fun _ =>
    Gains.bind (j := 0) (k := -1) (slim_divConst _ _) fun _ => Gains.bind (j := 0) (k := -1) Slim.lift fun _ =>
    Slim.alloc_bind (k := 0) fun _ _ => Slim.bind (slim_strict _) fun _ => ?_
  split
  · exact Slim.panic
  · exact Slim.bind (slim_assertConst _ _) fun _ => Slim.bind (slim_square _) fun _ => Slim.bind (slim_isZero _) fun _ =>
      Slim.bind (slim_isZero _) fun _ => Slim.bind (slim_assertZero _) fun _ => Slim.pure

theorem gains_fromScalar (sqrt : ZMod r → Option (ZMod r)) (t : CNum (ZMod r)) (J : JubJubParams (ZMod r)) :
    Gains (fromScalar sqrt t J) (-2) := by
  unfold fromScalar
  exact Gains.bind (j := 0) (k := -2) (slim_square _) fun _ => Gains.bind (j := 0) (k := -2) Slim.lift fun _ =>
    Gains.bind (j := 0) (k := -2) (slim_div _ _) fun _ =>
    Gains.bind (j := -1) (k := -1) (gains_checkAndGetY _ _ _) fun _ => Gains.bind (j := -1) (k := 0) (gains_checkAndGetY _ _ _) fun _ =>
    Slim.bind (Fawkes.slim_switch _ _ _) fun _ => Slim.bind (Fawkes.slim_switch _ _ _) fun _ =>
    Slim.bind (CMontgomeryPoint.slim_intoEdwards _) fun _ => slim_mulByCofactor _ _

end CEdwardsPoint

theorem Eddsa.gains_cVerify (sqrt : ZMod r → Option (ZMod r)) (J : JubJubParams (ZMod r)) [Fact J.l.Prime]
    (s rx a m : CNum (ZMod r)) (P : PoseidonParams (ZMod r)) : Gains (cVerify sqrt J s rx a m P) (-2) := by
  unfold cVerify
  exact Gains.bind (j := 0) (k := -2) Slim.assert fun _ => Gains.bind (j := -1) (k := -1) (CEdwardsPoint.gains_subgroupDecompress _ _ _) fun _ =>
    Gains.bind (j := -1) (k := 0) (CEdwardsPoint.gains_subgroupDecompress _ _ _) fun _ => Slim.bind Slim.lift fun _ =>
    Slim.bind (CPoseidon.slim_poseidonWithSalt _ _ _) fun _ => Slim.bind (slim_strict _) fun _ =>
    Slim.bind (CEdwardsPoint.slim_mul _ _ _) fun _ => Slim.bind (slim_intoBits _ _) fun _ =>
    Slim.bind (CEdwardsPoint.slim_mul _ _ _) fun _ => Slim.bind (CEdwardsPoint.slim_add _ _ _) fun _ => slim_isZero _

theorem slim_regs (q : List (CNum (ZMod r))) (is : List Nat) : Slim (regs q is) := by
  induction is with
  | nil => exact Slim.pure
  | cons i is ih => exact Slim.bind (slim_reg _ _) fun _ => Slim.bind ih fun _ => Slim.pure

theorem slim_regBits (q : List (CNum (ZMod r))) (is : List Nat) : Slim (regBits q is) :=
  Slim.bind (slim_regs _ _) fun _ => Slim.pure

theorem slim_regPoint (q : List (CNum (ZMod r))) (x y : Nat) : Slim (regPoint q x y) :=
  Slim.bind (slim_reg _ _) fun _ => Slim.bind (slim_reg _ _) fun _ => Slim.pure

theorem slim_regMont (q : List (CNum (ZMod r))) (x y : Nat) : Slim (regMont q x y) :=
  Slim.bind (slim_reg _ _) fun _ => Slim.bind (slim_reg _ _) fun _ => Slim.pure

/-- How many variables a call of the library may add beyond its constraints: one for `alloc`, one for each point it takes a subgroup
preimage or a square root of. -/
def Call.surplus : Call r W → Nat
  | .prim o => o.surplus
  | .alloc _ _ => 1
  | .assertInSubgroup .. => 1
  | .subgroupDecompress .. => 1
  | .fromScalar .. => 2
  | .eddsaVerify .. => 2
  | _ => 0

theorem Gains.wrap {F α β γ : Type} {m : M F α} {g : α → M F β} {f : β → γ} {k : Int} (hm : Slim m)
    (hg : ∀ a, Gains (g a) k) : Gains (m >>= fun a => g a >>= fun b => Pure.pure (f b)) k :=
  (Gains.bind hm fun a => Gains.bind (hg a) fun _ => Slim.pure).mono (by omega)

theorem Slim.wrap {F α β γ : Type} {m : M F α} {g : α → M F β} {f : β → γ} (hm : Slim m)
    (hg : ∀ a, Slim (g a)) : Slim (m >>= fun a => g a >>= fun b => Pure.pure (f b)) :=
  Slim.bind hm fun a => Slim.bind (hg a) fun _ => Slim.pure

theorem gains_call (w : Option W) (q : List (CNum (ZMod r))) (c : Call r W) : Gains (c.exec w q) (-(c.surplus : Int)) := by
  cases c <;> simp only [Call.exec, Call.surplus]
  case prim o => exact gains_op q o
  case alloc is hint =>
    exact Gains.bind (j := 0) (k := -1) (slim_regs _ _) fun _ => Gains.bind (j := 0) (k := -1) Slim.lift fun _ =>
      Slim.alloc_bind (k := 0) fun _ _ => Slim.pure
  case allocInput is hint =>
    exact Slim.bind (slim_regs _ _) fun _ => Slim.bind Slim.lift fun _ => Slim.bind (slim_allocInput _) fun _ => Slim.pure
  case intoBits => exact Slim.wrap (slim_reg _ _) fun _ => slim_intoBits _ _
  case intoBitsStrict => exact Slim.wrap (slim_reg _ _) fun _ => slim_strict _
  case compConstant => exact Slim.wrap (slim_regBits _ _) fun _ => slim_compConstant _ _
  case fromBits is =>
    refine Slim.wrap (slim_regBits _ _) fun bs => ?_
    cases bs with
    | nil => exact Slim.panic
    | cons => exact Slim.pure
  case mux3 => exact Slim.wrap (slim_regBits _ _) fun _ => slim_mux3 _ _
  case poseidon => exact Slim.wrap (slim_regs _ _) fun _ => CPoseidon.slim_poseidon _ _
  case poseidonWithSalt => exact Slim.wrap (slim_regs _ _) fun _ => CPoseidon.slim_poseidonWithSalt _ _ _
  case merkleProofRoot =>
    exact Slim.bind (slim_reg _ _) fun _ => Slim.bind (slim_regs _ _) fun _ => Slim.wrap (slim_regBits _ _) fun _ =>
      CPoseidon.slim_proofLoop _ _ _
  case merkleTreeRoot => exact Slim.wrap (slim_regs _ _) fun _ => CPoseidon.slim_merkleTreeRoot _ _
  case edDouble => exact Slim.wrap (slim_regPoint _ _ _) fun _ => CEdwardsPoint.slim_double _ _
  case edMulByCofactor => exact Slim.wrap (slim_regPoint _ _ _) fun _ => CEdwardsPoint.slim_mulByCofactor _ _
  case edAdd => exact Slim.bind (slim_regPoint _ _ _) fun _ => Slim.wrap (slim_regPoint _ _ _) fun _ => CEdwardsPoint.slim_add _ _ _
  case assertInCurve => exact Slim.wrap (slim_regPoint _ _ _) fun _ => (CEdwardsPoint.gains_assertInCurve _ _).mono (by omega)
  case assertInSubgroup => exact Gains.wrap (slim_regPoint _ _ _) fun _ => CEdwardsPoint.gains_assertInSubgroup _ _
  case subgroupDecompress => exact Gains.wrap (slim_reg _ _) fun _ => CEdwardsPoint.gains_subgroupDecompress _ _ _
  case intoMontgomery => exact Slim.wrap (slim_regPoint _ _ _) fun _ => CEdwardsPoint.slim_intoMontgomery _
  case edMul => exact Slim.bind (slim_regPoint _ _ _) fun _ => Slim.wrap (slim_regBits _ _) fun _ => CEdwardsPoint.slim_mul _ _ _
  case fromScalar => exact Gains.wrap (slim_reg _ _) fun _ => CEdwardsPoint.gains_fromScalar _ _ _
  case montDouble => exact Slim.wrap (slim_regMont _ _ _) fun _ => CMontgomeryPoint.slim_double _ _
  case montAdd => exact Slim.bind (slim_regMont _ _ _) fun _ => Slim.wrap (slim_regMont _ _ _) fun _ => CMontgomeryPoint.slim_add _ _ _
  case intoEdwards => exact Slim.wrap (slim_regMont _ _ _) fun _ => CMontgomeryPoint.slim_intoEdwards _
  case eddsaVerify sqrt s rx a m P J hl =>
    exact Gains.bind (j := 0) (k := -2) (slim_reg _ _) fun _ => Gains.bind (j := 0) (k := -2) (slim_reg _ _) fun _ =>
      Gains.bind (j := 0) (k := -2) (slim_reg _ _) fun _ => Gains.wrap (slim_reg _ _) fun _ => Eddsa.gains_cVerify sqrt J _ _ _ _ P

end field

end Fawkes
