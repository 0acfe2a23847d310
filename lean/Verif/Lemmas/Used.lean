import Verif.Lemmas.CostGadgets

/-!
# Every helper variable of a gadget occurs in a constraint
-/

set_option linter.unusedSectionVars false

namespace Fawkes

section basic

variable {F α β : Type}

/-- The private variables that `m` adds occur in constraints (`TestCS` does not tell private variables from inputs). -/
def Uses (m : M F α) : Prop :=
  ∀ s a s', m.run s = .ok (a, s') → s.backend ≠ .test → ∀ j, s.naux ≤ j → j < s'.naux → s'.Occurs (.aux j)

/-- `m` puts the variables of `x` into constraints. -/
def Touches (m : M F α) (x : CNum F) : Prop :=
  ∀ s a s', m.run s = .ok (a, s') → ∀ i ∈ x.lc.keys, s'.Occurs i

theorem CS.Occurs.mono {s s' : CS F} {i : Index} (h : s.Occurs i) (e : s.Ext s') : s'.Occurs i := by
  obtain ⟨c, hc, hi⟩ := h
  exact ⟨c, e.cons.subset hc, hi⟩

namespace Uses

theorem pure {a : α} : Uses (Pure.pure a : M F α) := by
  intro s a' s' h
  rw [M.run_pure] at h; injection h with h; injection h with h h'; subst h'
  intro _ j h1 h2; omega

theorem panic {e : Panic} : Uses (M.panic e : M F α) := by
  intro s a s' h; rw [M.run_panic] at h; cases h

theorem lift {x : Except Panic α} : Uses (M.lift x : M F α) := by
  cases x with
  | error e => exact panic
  | ok a => exact pure

theorem assert {b : Bool} {e : Panic} : Uses (M.assert b e : M F Unit) := by
  cases b with
  | false => exact panic
  | true => exact pure

theorem bind {m : M F α} {f : α → M F β} (hm : Uses m) (hf : ∀ a, Uses (f a)) : Uses (m >>= f) := by
  intro s b s' h hb j h1 h2
  obtain ⟨a, s1, r1, r2⟩ := M.bind_ok h
  by_cases hj : j < s1.naux
  · exact (hm _ _ _ r1 hb j h1 hj).mono (M.run_ext r2)
  · exact hf a _ _ _ r2 (by rw [(M.run_ext r1).backend]; exact hb) j (by omega) h2

end Uses

namespace Touches

theorem left {m : M F α} {f : α → M F β} {x : CNum F} (hm : Touches m x) : Touches (m >>= f) x := by
  intro s b s' h i hi
  obtain ⟨a, s1, r1, r2⟩ := M.bind_ok h
  exact (hm _ _ _ r1 i hi).mono (M.run_ext r2)

theorem right {m : M F α} {f : α → M F β} {x : CNum F} (hf : ∀ a, Touches (f a) x) : Touches (m >>= f) x := by
  intro s b s' h i hi
  obtain ⟨a, s1, r1, r2⟩ := M.bind_ok h
  exact hf a _ _ _ r2 i hi

theorem panic {e : Panic} {x : CNum F} : Touches (M.panic e : M F α) x := by
  intro s a s' h; rw [M.run_panic] at h; cases h

end Touches

end basic

section num

variable {F α β : Type} [Field F] [DecidableEq F]

/-- A signal that is one private variable. -/
def Bare (x : CNum F) : Prop := ∃ i, x.lc = [(.aux i, 1)]

theorem Bare.asConst {x : CNum F} (h : Bare x) : x.asConst = none := by
  obtain ⟨i, h⟩ := h
  simp [CNum.asConst, h]

theorem bare_alloc {s s' : CS F} (hb : s.backend ≠ .test) {v : Option F} {x : CNum F} (h : (CNum.alloc v).run s = .ok (x, s')) :
    x.lc = [(.aux s.naux, 1)] ∧ s'.naux = s.naux + 1 := by
  obtain ⟨-, hl, e⟩ := post_alloc s v _ _ h
  cases h' : s.backend with
  | test => exact absurd h' hb
  | setup => rw [hl, e]; simp [CS.nextAlloc, CS.pushVar, h']
  | prove => rw [hl, e]; simp [CS.nextAlloc, CS.pushVar, h']

theorem Uses.alloc_bind {v : Option F} {f : CNum F → M F β} (hf : ∀ x, Uses (f x)) (ht : ∀ x, Bare x → Touches (f x) x) :
    Uses (CNum.alloc v >>= f) := by
  intro s b s' h hb j h1 h2
  obtain ⟨x, s1, r1, r2⟩ := M.bind_ok h
  obtain ⟨hl, hn⟩ := bare_alloc hb r1
  by_cases hj : j = s.naux
  · refine ht x ⟨_, hl⟩ _ _ _ r2 _ ?_
    rw [hl, hj]; exact List.mem_singleton.2 rfl
  · exact hf x _ _ _ r2 (by rw [(M.run_ext r1).backend]; exact hb) j (by omega) h2

theorem uses_enforce (a b c : CNum F) : Uses (CS.enforce a b c) := by
  intro s x s' h _ j h1 h2
  rw [(post_enforce s a b c _ _ h).1] at h2
  exact absurd h2 (by simp only; omega)

theorem touches_enforce {a b c x : CNum F} (h : x = a ∨ x = b ∨ x = c) : Touches (CS.enforce a b c) x := by
  intro s u s' hr i hi
  rw [(post_enforce s a b c _ _ hr).1]
  refine ⟨⟨a, b, c⟩, by simp, ?_⟩
  simp only [List.mem_append]
  rcases h with rfl | rfl | rfl
  exacts [.inl (.inl hi), .inl (.inr hi), .inr hi]

theorem uses_mul (a b : CNum F) : Uses (CNum.mul a b) := by
  unfold CNum.mul
  split
  · exact Uses.pure
  · exact Uses.pure
  · exact Uses.alloc_bind (fun _ => Uses.bind (uses_enforce _ _ _) fun _ => Uses.pure)
      (fun x _ => Touches.left (touches_enforce (.inr (.inr rfl))))

theorem touches_mul_left {a b : CNum F} (ha : a.asConst = none) (hb : b.asConst = none) : Touches (CNum.mul a b) a := by
  unfold CNum.mul
  rw [ha, hb]
  exact Touches.right fun _ => Touches.left (touches_enforce (.inl rfl))

theorem uses_square (a : CNum F) : Uses (CNum.square a) := uses_mul a a

theorem touches_square {a : CNum F} (ha : a.asConst = none) : Touches (CNum.square a) a := touches_mul_left ha ha

theorem uses_divConst (a : CNum F) (k : F) : Uses (CNum.divConst a k) := by
  unfold CNum.divConst
  split
  · exact Uses.panic
  · exact Uses.pure

theorem uses_divValue (a b : Option F) : Uses (CNum.divValue a b) := by
  unfold CNum.divValue
  split
  · split
    · exact Uses.panic
    · exact Uses.pure
  · exact Uses.pure

theorem uses_div (a b : CNum F) : Uses (CNum.div a b) := by
  unfold CNum.div
  split
  · exact uses_divConst _ _
  · exact uses_divConst _ _
  · exact Uses.bind (uses_divValue _ _) fun _ => Uses.alloc_bind (fun _ => Uses.bind (uses_enforce _ _ _) fun _ => Uses.pure)
      (fun x _ => Touches.left (touches_enforce (.inl rfl)))

theorem uses_assertConst (a : CNum F) (c : F) : Uses (CNum.assertConst a c) := by
  unfold CNum.assertConst
  split
  · exact Uses.assert
  · exact uses_enforce _ _ _

theorem uses_assertZero (a : CNum F) : Uses (CNum.assertZero a) := uses_assertConst a 0

theorem uses_assertNonzero (a : CNum F) : Uses (CNum.assertNonzero a) := by
  unfold CNum.assertNonzero
  split
  · exact Uses.assert
  · exact Uses.alloc_bind (fun _ => uses_enforce _ _ _) (fun x _ => touches_enforce (.inr (.inl rfl)))

theorem touches_assertNonzero {a : CNum F} (ha : a.asConst = none) : Touches (CNum.assertNonzero a) a := by
  unfold CNum.assertNonzero
  rw [ha]
  exact Touches.right fun _ => touches_enforce (.inl rfl)

theorem uses_assertBit (a : CNum F) : Uses (CNum.assertBit a) := by
  unfold CNum.assertBit
  split
  · exact Uses.assert
  · exact uses_enforce _ _ _

theorem touches_assertBit {a : CNum F} (ha : a.asConst = none) : Touches (CNum.assertBit a) a := by
  unfold CNum.assertBit
  rw [ha]
  exact touches_enforce (.inl rfl)

theorem uses_allocInput (v : Option F) : Uses (CS.allocInput v : M F Index) := by
  intro s a s' h _ j h1 h2
  rw [run_csallocInput] at h
  split at h
  · cases h
  · injection h with h; injection h with _ h; subst h
    simp only [CS.pushVar] at h2
    omega

theorem uses_inputize (a : CNum F) : Uses (CNum.inputize a) := by
  unfold CNum.inputize
  split
  · exact Uses.bind (uses_allocInput _) fun _ => uses_enforce _ _ _
  · exact Uses.bind (uses_allocInput _) fun _ => uses_enforce _ _ _

theorem touches_inputize {a : CNum F} (ha : a.asConst = none) : Touches (CNum.inputize a) a := by
  unfold CNum.inputize
  rw [ha]
  exact Touches.right fun _ => touches_enforce (.inr (.inr rfl))

theorem uses_isZero (a : CNum F) : Uses (CNum.isZero a) := by
  unfold CNum.isZero
  split
  · exact Uses.pure
  · exact Uses.alloc_bind (fun _ => Uses.bind (uses_assertNonzero _) fun _ => Uses.bind (uses_mul _ _) fun _ =>
      Uses.bind (uses_assertBit _) fun _ => Uses.pure) (fun x hx => Touches.left (touches_assertNonzero hx.asConst))

theorem uses_switch (t f : CNum F) (b : CBool F) : Uses (CNum.switch t b f) := by
  unfold CNum.switch
  refine Uses.bind Uses.lift fun c => ?_
  split
  · exact Uses.pure
  · exact Uses.pure
  · split
    · exact Uses.bind (uses_mul _ _) fun _ => Uses.pure
    · exact Uses.bind (uses_mul _ _) fun _ => Uses.pure

theorem uses_reg (q : List (CNum F)) (i : Nat) : Uses (reg q i) := by
  unfold reg
  split
  · exact Uses.pure
  · exact Uses.panic

/-- Step through a computation whose parts are known to use their variables. -/
macro "uses" : tactic => `(tactic| repeat' first
  | exact Uses.pure | exact Uses.panic | exact Uses.lift | exact Uses.assert
  | exact uses_enforce _ _ _ | exact uses_mul _ _ | exact uses_square _ | exact uses_divConst _ _ | exact uses_div _ _
  | exact uses_assertConst _ _ | exact uses_assertZero _ | exact uses_assertNonzero _ | exact uses_assertBit _
  | exact uses_inputize _ | exact uses_isZero _ | exact uses_switch _ _ _ | exact uses_reg _ _
  | assumption
  | apply_assumption
  | refine Uses.bind ?_ fun _ => ?_
  | split)

/-- The calls of the number API that hand out a variable without a constraint. -/
def Op.Allocates : Op F → Prop
  | .alloc _ => True
  | _ => False

theorem uses_op (q : List (CNum F)) (o : Op F) (ho : ¬ o.Allocates) : Uses (o.exec q) := by
  cases o <;> simp only [Op.exec, CNum.assertEq, CNum.isEq]
  case alloc => exact absurd trivial ho
  case allocInput => exact Uses.bind (uses_allocInput _) fun _ => Uses.pure
  case const => exact Uses.pure
  case add => exact Uses.bind (uses_reg _ _) fun _ => Uses.bind (uses_reg _ _) fun _ => Uses.pure
  case sub => exact Uses.bind (uses_reg _ _) fun _ => Uses.bind (uses_reg _ _) fun _ => Uses.pure
  case neg => exact Uses.bind (uses_reg _ _) fun _ => Uses.pure
  case mulConst => exact Uses.bind (uses_reg _ _) fun _ => Uses.pure
  case divConst => exact Uses.bind (uses_reg _ _) fun _ => Uses.bind (uses_divConst _ _) fun _ => Uses.pure
  case mul => exact Uses.bind (uses_reg _ _) fun _ => Uses.bind (uses_reg _ _) fun _ => Uses.bind (uses_mul _ _) fun _ => Uses.pure
  case div => exact Uses.bind (uses_reg _ _) fun _ => Uses.bind (uses_reg _ _) fun _ => Uses.bind (uses_div _ _) fun _ => Uses.pure
  case enforce =>
    exact Uses.bind (uses_reg _ _) fun _ => Uses.bind (uses_reg _ _) fun _ => Uses.bind (uses_reg _ _) fun _ =>
      Uses.bind (uses_enforce _ _ _) fun _ => Uses.pure
  case assertConst => exact Uses.bind (uses_reg _ _) fun _ => Uses.bind (uses_assertConst _ _) fun _ => Uses.pure
  case assertEq =>
    exact Uses.bind (uses_reg _ _) fun _ => Uses.bind (uses_reg _ _) fun _ => Uses.bind (uses_assertZero _) fun _ => Uses.pure
  case assertNonzero => exact Uses.bind (uses_reg _ _) fun _ => Uses.bind (uses_assertNonzero _) fun _ => Uses.pure
  case assertBit => exact Uses.bind (uses_reg _ _) fun _ => Uses.bind (uses_assertBit _) fun _ => Uses.pure
  case inputize => exact Uses.bind (uses_reg _ _) fun _ => Uses.bind (uses_inputize _) fun _ => Uses.pure
  case isZero => exact Uses.bind (uses_reg _ _) fun _ => Uses.bind (uses_isZero _) fun _ => Uses.pure
  case isEq =>
    exact Uses.bind (uses_reg _ _) fun _ => Uses.bind (uses_reg _ _) fun _ => Uses.bind (uses_isZero _) fun _ => Uses.pure
  case switch =>
    exact Uses.bind (uses_reg _ _) fun _ => Uses.bind (uses_reg _ _) fun _ => Uses.bind (uses_reg _ _) fun _ =>
      Uses.bind (uses_switch _ _ _) fun _ => Uses.pure

theorem uses_columns (s0 s1 s2 : CBool F) (s10 : CNum F) (c : List (List F)) : Uses (Mux.columns s0 s1 s2 s10 c) := by
  induction c with
  | nil => exact Uses.pure
  | cons col c ih =>
    unfold Mux.columns Mux.column
    split
    · exact Uses.pure
    · next h => injection h with h h'; subst h'; uses
    · exact Uses.panic

theorem uses_mux3 (s : List (CBool F)) (c : List (List F)) : Uses (Mux.mux3 s c) := by
  unfold Mux.mux3
  refine Uses.bind Uses.assert fun _ => Uses.bind Uses.assert fun _ => ?_
  split
  · exact Uses.bind (uses_mul _ _) fun _ => uses_columns _ _ _ _ _
  · exact Uses.panic

end num

namespace CPoseidon

variable {F : Type} [Field F] [DecidableEq F]

theorem uses_sigma (a : CNum F) : Uses (sigma a) := by unfold sigma; uses

theorem uses_sigmaAll (l : List (CNum F)) : Uses (sigmaAll l) := by
  induction l with
  | nil => exact Uses.pure
  | cons x l ih => exact Uses.bind (uses_sigma _) fun _ => Uses.bind ih fun _ => Uses.pure

theorem uses_rounds (P : PoseidonParams F) (n i : Nat) (st : List (CNum F)) : Uses (rounds P n i st) := by
  induction n generalizing i st with
  | zero => exact Uses.pure
  | succ n ih =>
    refine Uses.bind Uses.lift fun _ => Uses.bind ?_ fun _ => Uses.bind Uses.lift fun _ => ih _ _
    unfold layer
    split
    · exact uses_sigmaAll _
    · split
      · exact Uses.panic
      · exact Uses.bind (uses_sigma _) fun _ => Uses.pure

theorem uses_poseidon (l : List (CNum F)) (P : PoseidonParams F) : Uses (poseidon l P) := by
  unfold poseidon
  split
  · exact Uses.panic
  · split
    · exact Uses.panic
    · exact Uses.bind (uses_rounds _ _ _ _) fun _ => Uses.lift

theorem uses_poseidonWithSalt (l : List (CNum F)) (seed : F) (P : PoseidonParams F) : Uses (poseidonWithSalt l seed P) := by
  unfold poseidonWithSalt
  split
  · exact Uses.panic
  · split
    · exact Uses.panic
    · exact uses_poseidon _ _

theorem uses_proofLoop (P : PoseidonParams F) (l : List (CBool F × CNum F)) (leaf : CNum F) : Uses (proofLoop P leaf l) := by
  induction l generalizing leaf with
  | nil => exact Uses.pure
  | cons x l ih => exact Uses.bind (uses_switch _ _ _) fun _ => Uses.bind (uses_poseidon _ _) fun _ => ih _

theorem uses_treeInner (P : PoseidonParams F) (n i : Nat) (st : List (CNum F)) : Uses (treeInner P n i st) := by
  induction n generalizing i st with
  | zero => exact Uses.pure
  | succ n ih => exact Uses.bind Uses.lift fun _ => Uses.bind Uses.lift fun _ => Uses.bind (uses_poseidon _ _) fun _ => ih _ _

theorem uses_treeLevels (P : PoseidonParams F) (total n j : Nat) (st : List (CNum F)) : Uses (treeLevels P total n j st) := by
  induction n generalizing j st with
  | zero => exact Uses.pure
  | succ n ih => exact Uses.bind (uses_treeInner _ _ _ _) fun _ => ih _ _

theorem uses_merkleTreeRoot (l : List (CNum F)) (P : PoseidonParams F) : Uses (merkleTreeRoot l P) := by
  unfold merkleTreeRoot
  split
  · exact Uses.panic
  · exact Uses.bind (uses_treeLevels _ _ _ _ _) fun _ => Uses.lift

end CPoseidon

section bits

variable {p : Nat} [Fact p.Prime]

open Bitify

theorem uses_allocBit {β : Type} {v : Option Bool} {f : CBool (ZMod p) → M (ZMod p) β} (hf : ∀ x, Uses (f x))
    (ht : ∀ x, Bare x.num → Touches (f x) x.num) : Uses (CBool.alloc v >>= f) := by
  unfold CBool.alloc
  simp only [bind_assoc, pure_bind]
  exact Uses.alloc_bind (fun x => hf ⟨x⟩) (fun x hx => ht ⟨x⟩ hx)

theorem uses_allocLoop (vb : List (Option Bool)) (n i : Nat) (k : ZMod p) (rem : CNum (ZMod p)) : Uses (allocLoop vb n i k rem) := by
  induction n generalizing i k rem with
  | zero => exact Uses.pure
  | succ n ih =>
    unfold allocLoop
    split
    · exact Uses.panic
    · exact uses_allocBit (fun _ => Uses.bind (uses_assertBit _) fun _ => Uses.bind (ih _ _ _) fun _ => Uses.pure)
        (fun x hx => Touches.left (touches_assertBit hx.asConst))

theorem uses_intoBits (x : CNum (ZMod p)) (limit : Nat) : Uses (intoBitsLE x limit) := by
  unfold intoBitsLE
  split
  · uses
  · refine Uses.bind (uses_allocLoop _ _ _ _ _) fun _ => ?_
    uses

theorem uses_compLoop (n : Nat) (ct : List Bool) (sig : List (CBool (ZMod p))) (k : ZMod p) (acc : CNum (ZMod p)) :
    Uses (compLoop n ct sig k acc) := by
  induction n generalizing ct sig k acc with
  | zero => unfold compLoop; exact Uses.pure
  | succ n ih =>
    match ct, sig with
    | ctl :: ctu :: ct, l :: u :: sig =>
      unfold compLoop
      exact Uses.bind (uses_mul _ _) fun _ => ih _ _ _ _
    | [], _ => unfold compLoop; exact Uses.panic
    | [_], _ => unfold compLoop; exact Uses.panic
    | _ :: _ :: _, [] => unfold compLoop; exact Uses.panic
    | _ :: _ :: _, [_] => unfold compLoop; exact Uses.panic

theorem uses_compConstant (sig : List (CBool (ZMod p))) (c : ZMod p) : Uses (compConstant sig c) := by
  unfold compConstant
  refine Uses.bind Uses.assert fun _ => Uses.bind (uses_compLoop _ _ _ _ _) fun _ => Uses.bind (uses_intoBits _ _) fun _ => ?_
  uses

theorem uses_strict (x : CNum (ZMod p)) : Uses (intoBitsLEStrict x) := by
  unfold intoBitsLEStrict CBool.assertFalse CBool.assertConst
  refine Uses.bind (uses_intoBits _ _) fun _ => Uses.bind (uses_compConstant _ _) fun _ => ?_
  uses

end bits

section ecc

variable {F : Type} [Field F] [DecidableEq F]

namespace CMontgomeryPoint

theorem uses_switch (t f : CMontgomeryPoint F) (b : CBool F) : Uses (CMontgomeryPoint.switch t b f) := by
  unfold CMontgomeryPoint.switch; uses

theorem uses_double (a : CMontgomeryPoint F) (J : JubJubParams F) : Uses (a.double J) := by
  unfold CMontgomeryPoint.double; uses

theorem uses_add (a b : CMontgomeryPoint F) (J : JubJubParams F) : Uses (a.add b J) := by
  unfold CMontgomeryPoint.add; uses

theorem uses_intoEdwards (a : CMontgomeryPoint F) : Uses a.intoEdwards := by
  unfold CMontgomeryPoint.intoEdwards; uses

end CMontgomeryPoint

namespace CEdwardsPoint

theorem uses_switch (t f : CEdwardsPoint F) (b : CBool F) : Uses (CEdwardsPoint.switch t b f) := by
  unfold CEdwardsPoint.switch; uses

theorem uses_alloc {β : Type} {v : Option (EdwardsPoint F)} {f : CEdwardsPoint F → M F β} (hf : ∀ x, Uses (f x))
    (htx : ∀ q, Bare q.x → Touches (f q) q.x) (hty : ∀ q, Bare q.y → Touches (f q) q.y) : Uses (CEdwardsPoint.alloc v >>= f) := by
  unfold CEdwardsPoint.alloc
  simp only [bind_assoc, pure_bind]
  refine Uses.alloc_bind (fun x => Uses.alloc_bind (fun y => hf ⟨x, y⟩) (fun y hy => hty ⟨x, y⟩ hy)) (fun x hx => ?_)
  exact Touches.right fun y => htx ⟨x, y⟩ hx

theorem uses_double (a : CEdwardsPoint F) (J : JubJubParams F) : Uses (a.double J) := by
  unfold CEdwardsPoint.double; uses

theorem uses_mulByCofactor (a : CEdwardsPoint F) (J : JubJubParams F) : Uses (a.mulByCofactor J) :=
  Uses.bind (uses_double _ _) fun _ => Uses.bind (uses_double _ _) fun _ => uses_double _ _

theorem uses_add (a b : CEdwardsPoint F) (J : JubJubParams F) : Uses (a.add b J) := by
  unfold CEdwardsPoint.add; uses

theorem uses_assertInCurve (a : CEdwardsPoint F) (J : JubJubParams F) : Uses (a.assertInCurve J) := by
  unfold CEdwardsPoint.assertInCurve; uses

theorem uses_assertInSubgroup (a : CEdwardsPoint F) (J : JubJubParams F) [Fact J.l.Prime] : Uses (a.assertInSubgroup J) :=
  Uses.bind Uses.lift fun _ => uses_alloc
    (fun _ => Uses.bind (uses_assertInCurve _ _) fun _ => Uses.bind (uses_mulByCofactor _ _) fun _ =>
      Uses.bind (uses_assertZero _) fun _ => uses_assertZero _)
    (fun _ hq => Touches.left (Touches.left (touches_square hq.asConst)))
    (fun _ hq => Touches.left (Touches.right fun _ => Touches.left (touches_square hq.asConst)))

theorem uses_subgroupDecompress (sqrt : F → Option F) (x : CNum F) (J : JubJubParams F) [Fact J.l.Prime] :
    Uses (subgroupDecompress sqrt x J) :=
  Uses.bind Uses.lift fun _ => uses_alloc
    (fun _ => Uses.bind (uses_assertInCurve _ _) fun _ => Uses.bind (uses_mulByCofactor _ _) fun _ =>
      Uses.bind (uses_assertZero _) fun _ => Uses.pure)
    (fun _ hq => Touches.left (Touches.left (touches_square hq.asConst)))
    (fun _ hq => Touches.left (Touches.right fun _ => Touches.left (touches_square hq.asConst)))

theorem uses_intoMontgomery (a : CEdwardsPoint F) : Uses a.intoMontgomery := by
  unfold CEdwardsPoint.intoMontgomery; uses

theorem uses_finish (a : CMontgomeryPoint F) : Uses (finish a) :=
  Uses.bind (CMontgomeryPoint.uses_intoEdwards _) fun _ => Uses.pure

theorem uses_windowLoop (J : JubJubParams F) (n : Nat) : ∀ (bits : List (CBool F)) (_ : bits.length ≤ n)
    (acc : CMontgomeryPoint F) (base : EdwardsPointEx F), Uses (windowLoop J bits acc base) := by
  induction n with
  | zero =>
    intro bits h acc base
    rw [List.length_eq_zero_iff.1 (by omega : bits.length = 0)]; unfold windowLoop; exact Uses.pure
  | succ n ih =>
    intro bits h acc base
    match bits, h with
    | [], _ => unfold windowLoop; exact Uses.pure
    | [_], _ => unfold windowLoop; exact Uses.pure
    | [_, _], _ => unfold windowLoop; exact Uses.pure
    | b0 :: b1 :: b2 :: bits, h =>
      unfold windowLoop
      refine Uses.bind Uses.lift fun _ => Uses.bind (uses_mux3 _ _) fun _ => ?_
      split
      · exact Uses.bind (CMontgomeryPoint.uses_add _ _ _) fun _ => ih _ (by simp at h; omega) _ _
      · exact Uses.panic

theorem uses_mulConstBase (c : EdwardsPoint F) (bits : List (CBool F)) (J : JubJubParams F) : Uses (mulConstBase c bits J) := by
  unfold mulConstBase
  dsimp only
  split
  · exact Uses.pure
  · exact Uses.bind Uses.lift fun _ => Uses.bind (uses_windowLoop J _ _ le_rfl _ _) fun _ => uses_finish _

theorem uses_doublings (J : JubJubParams F) (n : Nat) (a : CMontgomeryPoint F) : Uses (doublings J n a) := by
  induction n generalizing a with
  | zero => exact Uses.pure
  | succ n ih => exact Uses.bind (CMontgomeryPoint.uses_double _ _) fun _ => Uses.bind (ih _) fun _ => Uses.pure

theorem uses_addLoop (J : JubJubParams F) (bits : List (CBool F)) (exps : List (CMontgomeryPoint F))
    (acc : CMontgomeryPoint F) : Uses (addLoop J bits exps acc) := by
  induction bits generalizing exps acc with
  | nil => unfold addLoop; exact Uses.pure
  | cons b bits ih =>
    cases exps with
    | nil => unfold addLoop; exact Uses.panic
    | cons e exps =>
      unfold addLoop
      exact Uses.bind (CMontgomeryPoint.uses_add _ _ _) fun _ => Uses.bind (CMontgomeryPoint.uses_switch _ _ _) fun _ => ih _ _

theorem uses_mul (a : CEdwardsPoint F) (bits : List (CBool F)) (J : JubJubParams F) : Uses (a.mul bits J) := by
  unfold mul
  split
  · exact uses_mulConstBase _ _ _
  · exact Uses.bind (uses_isZero _) fun _ => Uses.bind (uses_switch _ _ _) fun _ => Uses.bind (uses_intoMontgomery _) fun _ =>
      Uses.bind (uses_doublings _ _ _) fun _ => Uses.bind (uses_addLoop _ _ _ _) fun _ =>
      Uses.bind (CMontgomeryPoint.uses_switch _ _ _) fun _ => uses_finish _

end CEdwardsPoint

end ecc

section field

variable {r : Nat} [Fact r.Prime] {W : Type}

namespace CEdwardsPoint

theorem uses_checkAndGetY (sqrt : ZMod r → Option (ZMod r)) (x : CNum (ZMod r)) (J : JubJubParams (ZMod r)) :
    Uses (checkAndGetY sqrt x J) := by
  unfold checkAndGetY CBool.assertFalse CBool.assertConst
  refine Uses.bind (uses_square _) fun _ => Uses.bind (Fawkes.uses_mul _ _) fun _ => Uses.bind (uses_divConst _ _) fun _ =>
    Uses.bind Uses.lift fun _ => Uses.alloc_bind (fun _ => Uses.bind (uses_strict _) fun _ => ?_) (fun _ hq => Touches.right fun _ => ?_)
  · split
    · exact Uses.panic
    · exact Uses.bind (uses_assertConst _ _) fun _ => Uses.bind (uses_square _) fun _ => Uses.bind (uses_isZero _) fun _ =>
        Uses.bind (uses_isZero _) fun _ => Uses.bind (uses_assertZero _) fun _ => Uses.pure
  · split
    · exact Touches.panic
    · exact Touches.right fun _ => Touches.left (touches_square hq.asConst)

theorem uses_fromScalar (sqrt : ZMod r → Option (ZMod r)) (t : CNum (ZMod r)) (J : JubJubParams (ZMod r)) :
    Uses (fromScalar sqrt t J) := by
  unfold fromScalar
  exact Uses.bind (uses_square _) fun _ => Uses.bind Uses.lift fun _ => Uses.bind (uses_div _ _) fun _ =>
    Uses.bind (uses_checkAndGetY _ _ _) fun _ => Uses.bind (uses_checkAndGetY _ _ _) fun _ =>
    Uses.bind (Fawkes.uses_switch _ _ _) fun _ => Uses.bind (Fawkes.uses_switch _ _ _) fun _ =>
    Uses.bind (CMontgomeryPoint.uses_intoEdwards _) fun _ => uses_mulByCofactor _ _

end CEdwardsPoint

theorem Eddsa.uses_cVerify (sqrt : ZMod r → Option (ZMod r)) (J : JubJubParams (ZMod r)) [Fact J.l.Prime]
    (s rx a m : CNum (ZMod r)) (P : PoseidonParams (ZMod r)) : Uses (cVerify sqrt J s rx a m P) := by
  unfold cVerify
  exact Uses.bind Uses.assert fun _ => Uses.bind (CEdwardsPoint.uses_subgroupDecompress _ _ _) fun _ =>
    Uses.bind (CEdwardsPoint.uses_subgroupDecompress _ _ _) fun _ => Uses.bind Uses.lift fun _ =>
    Uses.bind (CPoseidon.uses_poseidonWithSalt _ _ _) fun _ => Uses.bind (uses_strict _) fun _ =>
    Uses.bind (CEdwardsPoint.uses_mul _ _ _) fun _ => Uses.bind (uses_intoBits _ _) fun _ =>
    Uses.bind (CEdwardsPoint.uses_mul _ _ _) fun _ => Uses.bind (CEdwardsPoint.uses_add _ _ _) fun _ => uses_isZero _

theorem uses_regs (q : List (CNum (ZMod r))) (is : List Nat) : Uses (regs q is) := by
  induction is with
  | nil => exact Uses.pure
  | cons i is ih => exact Uses.bind (uses_reg _ _) fun _ => Uses.bind ih fun _ => Uses.pure

theorem uses_regBits (q : List (CNum (ZMod r))) (is : List Nat) : Uses (regBits q is) :=
  Uses.bind (uses_regs _ _) fun _ => Uses.pure

theorem uses_regPoint (q : List (CNum (ZMod r))) (x y : Nat) : Uses (regPoint q x y) :=
  Uses.bind (uses_reg _ _) fun _ => Uses.bind (uses_reg _ _) fun _ => Uses.pure

theorem uses_regMont (q : List (CNum (ZMod r))) (x y : Nat) : Uses (regMont q x y) :=
  Uses.bind (uses_reg _ _) fun _ => Uses.bind (uses_reg _ _) fun _ => Uses.pure

/-- The calls that hand out a variable without a constraint. -/
def Call.Allocates : Call r W → Prop
  | .prim o => o.Allocates
  | .alloc _ _ => True
  | _ => False

theorem Uses.wrap {F α β γ : Type} {m : M F α} {g : α → M F β} {f : β → γ} (hm : Uses m)
    (hg : ∀ a, Uses (g a)) : Uses (m >>= fun a => g a >>= fun b => Pure.pure (f b)) :=
  Uses.bind hm fun a => Uses.bind (hg a) fun _ => Uses.pure

theorem uses_call (w : Option W) (q : List (CNum (ZMod r))) (c : Call r W) (hc : ¬ c.Allocates) : Uses (c.exec w q) := by
  cases c <;> simp only [Call.exec]
  case prim o => exact uses_op q o hc
  case alloc is hint => exact absurd trivial hc
  case allocInput is hint =>
    exact Uses.bind (uses_regs _ _) fun _ => Uses.bind Uses.lift fun _ => Uses.bind (uses_allocInput _) fun _ => Uses.pure
  case intoBits => exact Uses.wrap (uses_reg _ _) fun _ => uses_intoBits _ _
  case intoBitsStrict => exact Uses.wrap (uses_reg _ _) fun _ => uses_strict _
  case compConstant => exact Uses.wrap (uses_regBits _ _) fun _ => uses_compConstant _ _
  case fromBits is =>
    refine Uses.wrap (uses_regBits _ _) fun bs => ?_
    cases bs with
    | nil => exact Uses.panic
    | cons => exact Uses.pure
  case mux3 => exact Uses.wrap (uses_regBits _ _) fun _ => uses_mux3 _ _
  case poseidon => exact Uses.wrap (uses_regs _ _) fun _ => CPoseidon.uses_poseidon _ _
  case poseidonWithSalt => exact Uses.wrap (uses_regs _ _) fun _ => CPoseidon.uses_poseidonWithSalt _ _ _
  case merkleProofRoot =>
    exact Uses.bind (uses_reg _ _) fun _ => Uses.bind (uses_regs _ _) fun _ => Uses.wrap (uses_regBits _ _) fun _ =>
      CPoseidon.uses_proofLoop _ _ _
  case merkleTreeRoot => exact Uses.wrap (uses_regs _ _) fun _ => CPoseidon.uses_merkleTreeRoot _ _
  case edDouble => exact Uses.wrap (uses_regPoint _ _ _) fun _ => CEdwardsPoint.uses_double _ _
  case edMulByCofactor => exact Uses.wrap (uses_regPoint _ _ _) fun _ => CEdwardsPoint.uses_mulByCofactor _ _
  case edAdd => exact Uses.bind (uses_regPoint _ _ _) fun _ => Uses.wrap (uses_regPoint _ _ _) fun _ => CEdwardsPoint.uses_add _ _ _
  case assertInCurve => exact Uses.wrap (uses_regPoint _ _ _) fun _ => CEdwardsPoint.uses_assertInCurve _ _
  case assertInSubgroup => exact Uses.wrap (uses_regPoint _ _ _) fun _ => CEdwardsPoint.uses_assertInSubgroup _ _
  case subgroupDecompress => exact Uses.wrap (uses_reg _ _) fun _ => CEdwardsPoint.uses_subgroupDecompress _ _ _
  case intoMontgomery => exact Uses.wrap (uses_regPoint _ _ _) fun _ => CEdwardsPoint.uses_intoMontgomery _
  case edMul => exact Uses.bind (uses_regPoint _ _ _) fun _ => Uses.wrap (uses_regBits _ _) fun _ => CEdwardsPoint.uses_mul _ _ _
  case fromScalar => exact Uses.wrap (uses_reg _ _) fun _ => CEdwardsPoint.uses_fromScalar _ _ _
  case montDouble => exact Uses.wrap (uses_regMont _ _ _) fun _ => CMontgomeryPoint.uses_double _ _
  case montAdd => exact Uses.bind (uses_regMont _ _ _) fun _ => Uses.wrap (uses_regMont _ _ _) fun _ => CMontgomeryPoint.uses_add _ _ _
  case intoEdwards => exact Uses.wrap (uses_regMont _ _ _) fun _ => CMontgomeryPoint.uses_intoEdwards _
  case eddsaVerify sqrt s rx a m P J hl =>
    exact Uses.bind (uses_reg _ _) fun _ => Uses.bind (uses_reg _ _) fun _ => Uses.bind (uses_reg _ _) fun _ =>
      Uses.wrap (uses_reg _ _) fun _ => Eddsa.uses_cVerify sqrt J _ _ _ _ P

end field

end Fawkes
