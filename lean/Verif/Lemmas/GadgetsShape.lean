import Verif.Model.Gadgets
import Verif.Lemmas.Program
import Verif.Lemmas.CEccShape

/-!
# The emitted constraints of client code over the whole API do not depend on witness values
-/

set_option linter.unusedSectionVars false

namespace Fawkes

variable {r : Nat} [Fact r.Prime] {W W' : Type}

local notation "F" => ZMod r

theorem SameLcs.forall₂ {a b : List (CNum F)} : SameLcs a b ↔ List.Forall₂ (fun x y => x.lc = y.lc) a b := by
  unfold SameLcs
  rw [← List.forall₂_eq_eq_eq, List.forall₂_map_left_iff, List.forall₂_map_right_iff]

theorem SameLcs.append {a b c d : List (CNum F)} (h : SameLcs a b) (h' : SameLcs c d) : SameLcs (a ++ c) (b ++ d) := by
  unfold SameLcs at *; simp [h, h']

theorem SameLcs.two {a b : List (CNum F)} (h : SameLcs a b) {x y x' y' : CNum F} (hx : x.lc = x'.lc) (hy : y.lc = y'.lc) :
    SameLcs (a ++ [x, y]) (b ++ [x', y']) := by
  unfold SameLcs at *; simp [h, hx, hy]

theorem rel_regs {q q' : List (CNum F)} (h : SameLcs q q') (is : List Nat) :
    Rel (regs q is) (regs q' is) (List.Forall₂ fun x y => x.lc = y.lc) := by
  induction is with
  | nil => exact Rel.pure .nil
  | cons i is ih => exact Rel.bind (rel_reg h i) fun _ _ h1 => Rel.bind ih fun _ _ h2 => Rel.pure (.cons h1 h2)

theorem rel_regBits {q q' : List (CNum F)} (h : SameLcs q q') (is : List Nat) :
    Rel (regBits q is) (regBits q' is) (List.Forall₂ fun x y => x.num.lc = y.num.lc) := by
  refine Rel.bind (rel_regs h is) fun _ _ h1 => Rel.pure ?_
  rw [List.forall₂_map_left_iff, List.forall₂_map_right_iff]; exact h1

theorem rel_regPoint {q q' : List (CNum F)} (h : SameLcs q q') (x y : Nat) :
    Rel (regPoint q x y) (regPoint q' x y) CEdwardsPoint.Same :=
  Rel.bind (rel_reg h x) fun _ _ h1 => Rel.bind (rel_reg h y) fun _ _ h2 => Rel.pure ⟨h1, h2⟩

theorem rel_regMont {q q' : List (CNum F)} (h : SameLcs q q') (x y : Nat) :
    Rel (regMont q x y) (regMont q' x y) CMontgomeryPoint.Same :=
  Rel.bind (rel_reg h x) fun _ _ h1 => Rel.bind (rel_reg h y) fun _ _ h2 => Rel.pure ⟨h1, h2⟩

theorem forall₂_zip {α α' β β' : Type} {R : α → α' → Prop} {S : β → β' → Prop} {a : List α} {a' : List α'}
    {b : List β} {b' : List β'} (h : List.Forall₂ R a a') (h' : List.Forall₂ S b b') :
    List.Forall₂ (fun x y => R x.1 y.1 ∧ S x.2 y.2) (a.zip b) (a'.zip b') := by
  induction h generalizing b b' with
  | nil => simp
  | cons h1 _ ih =>
    cases h' with
    | nil => simp
    | cons h2 h3 => exact .cons ⟨h1, h2⟩ (ih h3)

theorem rel_call {q q' : List (CNum F)} (h : SameLcs q q') (w w' : Option W) (c : Call r W) :
    Rel (c.exec w q) (c.exec w' q') SameLcs := by
  cases c with
  | prim o => exact rel_op h o o rfl
  | alloc is hint =>
    refine Rel.bind (rel_regs h is) fun _ _ _ => ?_
    refine Rel.bind (Rel.lift (Q := fun _ _ => True) fun _ _ _ _ => trivial) fun _ _ _ => ?_
    exact Rel.bind (rel_alloc _ _) fun _ _ h1 => Rel.pure (h.snoc h1)
  | allocInput is hint =>
    refine Rel.bind (rel_regs h is) fun _ _ _ => ?_
    refine Rel.bind (Rel.lift (Q := fun _ _ => True) fun _ _ _ _ => trivial) fun _ _ _ => ?_
    exact Rel.bind (rel_allocInput _ _) fun _ _ h1 => Rel.pure (h.snoc (by rw [h1]; rfl))
  | intoBits i limit =>
    refine Rel.bind (rel_reg h i) fun _ _ h1 => Rel.bind (rel_intoBits h1 limit) fun _ _ h2 => Rel.pure (h.append ?_)
    rw [SameLcs.forall₂, List.forall₂_map_left_iff, List.forall₂_map_right_iff]; exact h2
  | intoBitsStrict i =>
    refine Rel.bind (rel_reg h i) fun _ _ h1 => Rel.bind (rel_strict h1) fun _ _ h2 => Rel.pure (h.append ?_)
    rw [SameLcs.forall₂, List.forall₂_map_left_iff, List.forall₂_map_right_iff]; exact h2
  | compConstant is c =>
    exact Rel.bind (rel_regBits h is) fun _ _ h1 => Rel.bind (rel_compConstant h1 c) fun _ _ h2 => Rel.pure (h.snoc h2)
  | fromBits is =>
    exact Rel.bind (rel_regBits h is) fun _ _ h1 => Rel.bind (rel_fromBits h1) fun _ _ h2 => Rel.pure (h.snoc h2)
  | mux3 is table =>
    exact Rel.bind (rel_regBits h is) fun _ _ h1 => Rel.bind (rel_mux3 h1 table) fun _ _ h2 =>
      Rel.pure (h.append (SameLcs.forall₂.2 h2))
  | poseidon is P =>
    exact Rel.bind (rel_regs h is) fun _ _ h1 => Rel.bind (CPoseidon.rel_poseidon P h1) fun _ _ h2 => Rel.pure (h.snoc h2)
  | poseidonWithSalt is seed P =>
    exact Rel.bind (rel_regs h is) fun _ _ h1 => Rel.bind (CPoseidon.rel_poseidonWithSalt seed P h1) fun _ _ h2 =>
      Rel.pure (h.snoc h2)
  | merkleProofRoot leaf sibling path P =>
    refine Rel.bind (rel_reg h leaf) fun _ _ h1 => Rel.bind (rel_regs h sibling) fun _ _ h2 =>
      Rel.bind (rel_regBits h path) fun _ _ h3 => Rel.bind (CPoseidon.rel_proofLoop P ?_ h1) fun _ _ h4 => Rel.pure (h.snoc h4)
    exact forall₂_zip h3 h2
  | merkleTreeRoot leaf P =>
    exact Rel.bind (rel_regs h leaf) fun _ _ h1 => Rel.bind (CPoseidon.rel_merkleTreeRoot P h1) fun _ _ h2 =>
      Rel.pure (h.snoc h2)
  | edDouble x y J =>
    exact Rel.bind (rel_regPoint h x y) fun _ _ h1 => Rel.bind (CEdwardsPoint.rel_double J h1) fun _ _ h2 =>
      Rel.pure (h.two h2.1 h2.2)
  | edMulByCofactor x y J =>
    exact Rel.bind (rel_regPoint h x y) fun _ _ h1 => Rel.bind (CEdwardsPoint.rel_mulByCofactor J h1) fun _ _ h2 =>
      Rel.pure (h.two h2.1 h2.2)
  | edAdd x1 y1 x2 y2 J =>
    exact Rel.bind (rel_regPoint h x1 y1) fun _ _ h1 => Rel.bind (rel_regPoint h x2 y2) fun _ _ h2 =>
      Rel.bind (CEdwardsPoint.rel_add J h1 h2) fun _ _ h3 => Rel.pure (h.two h3.1 h3.2)
  | assertInCurve x y J =>
    exact Rel.bind (rel_regPoint h x y) fun _ _ h1 => Rel.bind (CEdwardsPoint.rel_assertInCurve J h1) fun _ _ _ =>
      Rel.pure h
  | assertInSubgroup x y J hl =>
    exact Rel.bind (rel_regPoint h x y) fun _ _ h1 => Rel.bind (CEdwardsPoint.rel_assertInSubgroup J h1) fun _ _ _ =>
      Rel.pure h
  | subgroupDecompress sqrt x J hl =>
    exact Rel.bind (rel_reg h x) fun _ _ h1 => Rel.bind (CEdwardsPoint.rel_subgroupDecompress sqrt J h1) fun _ _ h2 =>
      Rel.pure (h.two h2.1 h2.2)
  | intoMontgomery x y =>
    exact Rel.bind (rel_regPoint h x y) fun _ _ h1 => Rel.bind (CEdwardsPoint.rel_intoMontgomery h1) fun _ _ h2 =>
      Rel.pure (h.two h2.1 h2.2)
  | edMul x y bits J =>
    exact Rel.bind (rel_regPoint h x y) fun _ _ h1 => Rel.bind (rel_regBits h bits) fun _ _ h2 =>
      Rel.bind (CEdwardsPoint.rel_edMul J h1 h2) fun _ _ h3 => Rel.pure (h.two h3.1 h3.2)
  | fromScalar sqrt t J =>
    exact Rel.bind (rel_reg h t) fun _ _ h1 => Rel.bind (CEdwardsPoint.rel_fromScalar sqrt J h1) fun _ _ h2 =>
      Rel.pure (h.two h2.1 h2.2)
  | montDouble x y J =>
    exact Rel.bind (rel_regMont h x y) fun _ _ h1 => Rel.bind (CMontgomeryPoint.rel_double J h1) fun _ _ h2 =>
      Rel.pure (h.two h2.1 h2.2)
  | montAdd x1 y1 x2 y2 J =>
    exact Rel.bind (rel_regMont h x1 y1) fun _ _ h1 => Rel.bind (rel_regMont h x2 y2) fun _ _ h2 =>
      Rel.bind (CMontgomeryPoint.rel_add J h1 h2) fun _ _ h3 => Rel.pure (h.two h3.1 h3.2)
  | intoEdwards x y =>
    exact Rel.bind (rel_regMont h x y) fun _ _ h1 => Rel.bind (CMontgomeryPoint.rel_intoEdwards h1) fun _ _ h2 =>
      Rel.pure (h.two h2.1 h2.2)
  | eddsaVerify sqrt s rx a m P J hl =>
    exact Rel.bind (rel_reg h s) fun _ _ h1 => Rel.bind (rel_reg h rx) fun _ _ h2 => Rel.bind (rel_reg h a) fun _ _ h3 =>
      Rel.bind (rel_reg h m) fun _ _ h4 => Rel.bind (Eddsa.rel_cVerify sqrt J P h1 h2 h3 h4) fun _ _ h5 =>
        Rel.pure (h.snoc h5)

theorem rel_code (w w' : Option W) (c : Code r W) {q q' : List (CNum F)} (h : SameLcs q q') :
    Rel (c.exec w q) (c.exec w' q') SameLcs := by
  induction c generalizing q q' with
  | done => exact Rel.pure h
  | call c next ih =>
    refine Rel.bind (rel_call h w w' c) fun a b hab => ?_
    have : a.map CNum.lc = b.map CNum.lc := hab
    rw [this]
    exact ih _ hab

end Fawkes
