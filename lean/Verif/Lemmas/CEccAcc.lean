import Verif.Lemmas.CEccAssert
import Verif.Lemmas.Program

/-!
# The checking back end accepts only what the constraints allow (curve gadgets)
-/

set_option linter.unusedSectionVars false

namespace Fawkes

variable {F : Type} [Field F] [DecidableEq F] {J : JubJubParams F} {s s' : CS F}

namespace Valued

theorem add {a b : CNum F} (ha : Valued s a) (hb : Valued s b) : Valued s (CNum.add a b) := by
  obtain ⟨x, hx⟩ := ha; obtain ⟨y, hy⟩ := hb; exact ⟨_, has_add hx hy⟩

theorem addAssign {a b : CNum F} (ha : Valued s a) (hb : Valued s b) : Valued s (CNum.addAssign a b) := by
  obtain ⟨x, hx⟩ := ha; obtain ⟨y, hy⟩ := hb; exact ⟨_, has_addAssign hx hy⟩

theorem mulConst {a : CNum F} (ha : Valued s a) (k : F) : Valued s (CNum.mulConst a k) := by
  obtain ⟨x, hx⟩ := ha; exact ⟨_, has_mulConst hx k⟩

theorem addConst {a : CNum F} (ha : Valued s a) (k : F) : Valued s (CNum.addConst a k) := by
  obtain ⟨x, hx⟩ := ha; exact ⟨_, has_addConst hx k⟩

theorem subConst {a : CNum F} (ha : Valued s a) (k : F) : Valued s (CNum.subConst a k) := by
  obtain ⟨x, hx⟩ := ha; exact ⟨_, has_subConst hx k⟩

theorem constSub {a : CNum F} (ha : Valued s a) (k : F) : Valued s (CNum.constSub k a) := by
  obtain ⟨x, hx⟩ := ha; exact ⟨_, has_constSub hx k⟩

end Valued

namespace CEdwardsPoint

/-- Both coordinates have values. -/
def Valued (s : CS F) (p : CEdwardsPoint F) : Prop := Fawkes.Valued s p.x ∧ Fawkes.Valued s p.y

theorem acc_assertInCurve {p : CEdwardsPoint F} (hp : p.Valued s) : Acc s (p.assertInCurve J) (fun _ _ => True) := by
  unfold assertInCurve
  refine Acc.bind (acc_mul hp.1 hp.1) fun x2 s1 e1 h1 => ?_
  refine Acc.bind (acc_mul (hp.2.mono e1) (hp.2.mono e1)) fun y2 s2 e2 h2 => ?_
  exact acc_enforce' ((h1.mono e2).mulConst _) h2 ((h2.sub (h1.mono e2)).subConst _)

theorem acc_double {p : CEdwardsPoint F} (hp : p.Valued s) : Acc s (p.double J) (fun q s' => q.Valued s') := by
  unfold double
  refine Acc.bind (acc_mul hp.1 hp.2) fun v s1 e1 h1 => ?_
  refine Acc.bind (acc_mul h1 h1) fun v2 s2 e2 h2 => ?_
  have hxy := ((hp.1.add hp.2).mono e1).mono e2
  refine Acc.bind (acc_mul hxy hxy) fun u s3 e3 h3 => ?_
  refine Acc.bind (acc_div (((h1.mono e2).mono e3).mulConst _) (((h2.mono e3).mulConst _).addConst _)) fun x s4 e4 h4 => ?_
  refine Acc.bind (acc_div ((h3.mono e4).sub ((((h1.mono e2).mono e3).mono e4).mulConst _))
    ((((h2.mono e3).mono e4).mulConst _).constSub _)) fun y s5 e5 h5 => ?_
  exact Acc.pure fun _ => ⟨h4.mono e5, h5⟩

theorem acc_mulByCofactor {p : CEdwardsPoint F} (hp : p.Valued s) : Acc s (p.mulByCofactor J) (fun q s' => q.Valued s') := by
  unfold mulByCofactor
  refine Acc.bind (acc_double hp) fun p2 s1 e1 h1 => ?_
  exact Acc.bind (acc_double h1) fun p4 s2 e2 h2 => acc_double h2

theorem acc_alloc_point (v : EdwardsPoint F) : Acc s (alloc (some v)) (fun p s' => p.Valued s') :=
  Acc.of_runs fun hs => (runs_alloc_point hs v).mono fun _ _ _ _ h => ⟨⟨_, h.1⟩, ⟨_, h.2⟩⟩

theorem acc_lift {α : Type} {x : Except Panic α} {Q : α → CS F → Prop} (h : ∀ a, x = .ok a → Q a s) :
    Acc s (M.lift x) Q := by
  intro _ hs a s' hr
  rw [M.run_lift] at hr
  cases x with
  | error e => cases hr
  | ok b => cases hr; exact ⟨hs, h _ rfl⟩

theorem acc_lift' {α : Type} {x : Except Panic α} :
    Acc s (M.lift x) (fun a s' => x = .ok a ∧ s' = s) := acc_lift fun _ h => ⟨h, rfl⟩

variable [Fact J.l.Prime]

theorem acc_assertInSubgroup {p : CEdwardsPoint F} (hp : p.Valued s) : Acc s (p.assertInSubgroup J) (fun _ _ => True) := by
  unfold assertInSubgroup
  refine Acc.bind acc_lift' ?_
  rintro v s0 _ ⟨hv, h0⟩
  subst s0
  obtain ⟨v', rfl⟩ : ∃ v', v = some v' := by
    obtain ⟨⟨x, hx⟩, ⟨y, hy⟩⟩ := hp
    unfold getValue at hv
    rw [hx.value, hy.value] at hv
    simp only [bind, Option.bind, pure, mapValue] at hv
    cases he : eighth (⟨x, y⟩ : EdwardsPoint F) J with
    | error e => rw [he] at hv; cases hv
    | ok o => rw [he] at hv; cases hv; exact ⟨_, rfl⟩
  refine Acc.bind (acc_alloc_point v') fun q s1 e1 h1 => ?_
  refine Acc.bind (acc_assertInCurve h1) fun _ s2 e2 _ => ?_
  refine Acc.bind (acc_mulByCofactor ⟨h1.1.mono e2, h1.2.mono e2⟩) fun q8 s3 e3 h3 => ?_
  have e13 := (e1.trans e2).trans e3
  refine Acc.bind (acc_assertConst ((hp.1.mono e13).sub h3.1) _) fun _ s4 e4 _ => ?_
  exact acc_assertConst (((hp.2.mono e13).sub h3.2).mono e4) _

theorem acc_subgroupDecompress {sqrt : F → Option F} {x : CNum F} (hx : Fawkes.Valued s x) :
    Acc s (subgroupDecompress sqrt x J) (fun q s' => q.Valued s') := by
  unfold subgroupDecompress
  refine Acc.bind acc_lift' ?_
  rintro v s0 _ ⟨hv, h0⟩
  subst s0
  obtain ⟨v', rfl⟩ : ∃ v', v = some v' := by
    obtain ⟨x, hx⟩ := hx
    rw [hx.value] at hv
    simp only [mapValue] at hv
    cases he : decompressValue sqrt J x with
    | error e => rw [he] at hv; cases hv
    | ok o => rw [he] at hv; cases hv; exact ⟨_, rfl⟩
  refine Acc.bind (acc_alloc_point v') fun q s1 e1 h1 => ?_
  refine Acc.bind (acc_assertInCurve h1) fun _ s2 e2 _ => ?_
  refine Acc.bind (acc_mulByCofactor ⟨h1.1.mono e2, h1.2.mono e2⟩) fun q8 s3 e3 h3 => ?_
  have e13 := (e1.trans e2).trans e3
  refine Acc.bind (acc_assertConst ((hx.mono e13).sub h3.1) _) fun _ s4 e4 _ => ?_
  exact Acc.pure fun _ => ⟨h3.1.mono e4, h3.2.mono e4⟩

end CEdwardsPoint

/-! ### A variable base times bits that are all constant zero -/

/-- A signal whose linear combination is zero in one of the two forms `as_const` recognises. -/
def IsZeroLC (a : CNum F) : Prop := a.lc = [] ∨ a.lc = [(.input 0, 0)]

theorem IsZeroLC.asConst {a : CNum F} (h : IsZeroLC a) : a.asConst = some 0 := by
  unfold CNum.asConst
  rcases h with h | h <;> rw [h] <;> simp

theorem IsZeroLC.zero : IsZeroLC (CNum.zero : CNum F) := Or.inr rfl

theorem IsZeroLC.addAssign {a b : CNum F} (ha : IsZeroLC a) (hb : IsZeroLC b) : IsZeroLC (CNum.addAssign a b) := by
  unfold IsZeroLC CNum.addAssign
  rcases ha with h | h <;> rcases hb with h' | h' <;> simp [h, h', LC.add, LC.mergeLoop, LC.mergeStep, LC.lookup]

theorem IsZeroLC.sub {a b : CNum F} (ha : IsZeroLC a) (hb : IsZeroLC b) : IsZeroLC (CNum.sub a b) := by
  unfold IsZeroLC CNum.sub
  rcases ha with h | h <;> rcases hb with h' | h' <;> simp [h, h', LC.sub, LC.mergeLoop, LC.mergeStep, LC.lookup]

theorem IsZeroLC.mul (a : CNum F) {b : CNum F} (hb : IsZeroLC b) : Post s (CNum.mul a b) (fun c _ => IsZeroLC c) := by
  unfold CNum.mul
  rw [hb.asConst]
  split
  · refine Post.pure ?_
    unfold CNum.mulConst
    split
    · exact IsZeroLC.zero
    · rcases hb with h | h <;> simp [IsZeroLC, h]
  · next _ _ _ h _ =>
    injection h with h
    subst h
    refine Post.pure ?_
    simp only [CNum.mulConst, if_true]
    exact IsZeroLC.zero
  · next h => cases h

theorem IsZeroLC.switch {t f : CNum F} (b : CBool F) (ht : IsZeroLC t) (hf : IsZeroLC f) :
    Post s (CNum.switch t b f) (fun c _ => IsZeroLC c) := by
  unfold CNum.switch
  refine Post.bind (Q := fun _ s' => s' = s) (Post.lift fun _ _ => rfl) ?_
  rintro r _ _ rfl
  match r with
  | some true => exact Post.pure ht
  | some false => exact Post.pure hf
  | none =>
    dsimp only
    split
    · exact Post.bind (IsZeroLC.mul _ (ht.sub hf)) fun p _ _ h => Post.pure (h.addAssign hf)
    · exact Post.bind (IsZeroLC.mul _ (hf.sub ht)) fun p _ _ h => Post.pure (h.addAssign ht)

theorem IsZeroLC.finish {p : CMontgomeryPoint F} (hx : IsZeroLC p.x) (hy : IsZeroLC p.y) :
    Post s (CEdwardsPoint.finish p) (fun _ _ => False) := by
  unfold CEdwardsPoint.finish CMontgomeryPoint.intoEdwards
  refine Post.bind (Q := fun _ _ => False) ?_ (fun _ _ _ h => h.elim)
  have hz : CNum.isZero p.y = pure (⟨CNum.fromConst 1⟩ : CBool F) := by
    unfold CNum.isZero; rw [hy.asConst]; simp [boolToF]
  rw [hz]
  refine Post.bind (Q := fun z _ => z = (⟨CNum.fromConst 1⟩ : CBool F)) (Post.pure rfl) ?_
  rintro _ s1 _ rfl
  have hd : CNum.div p.x (CNum.addAssign (CNum.fromConst 1) p.y) = M.panic .divByZero := by
    unfold CNum.div
    rw [hx.asConst]
    simp only
    unfold CNum.divConst
    have hne : (CNum.addAssign (CNum.fromConst 1) p.y).lc ≠ [] := by
      unfold CNum.addAssign CNum.fromConst
      rcases hy with h | h <;> simp [h, LC.add, LC.mergeLoop, LC.mergeStep, LC.lookup]
    rw [if_pos ⟨rfl, Or.inr hne⟩]
  rw [hd]
  exact Post.bind (Q := fun _ _ => False) Post.panic (fun _ _ _ h => h.elim)

theorem IsZeroLC.addLoop (bits : List (CBool F)) (h0 : ∀ b ∈ bits, b.num.asConst = some 0) :
    ∀ (s : CS F) (exps : List (CMontgomeryPoint F)) (acc : CMontgomeryPoint F), IsZeroLC acc.x → IsZeroLC acc.y →
      Post s (CEdwardsPoint.addLoop J bits exps acc) (fun r _ => IsZeroLC r.x ∧ IsZeroLC r.y) := by
  induction bits with
  | nil => intro s exps acc hx hy; exact Post.pure ⟨hx, hy⟩
  | cons b bits ih =>
    intro s exps acc hx hy
    cases exps with
    | nil => exact Post.panic
    | cons e exps =>
      unfold CEdwardsPoint.addLoop
      refine Post.bind Post.true fun inc s1 _ _ => ?_
      have hb : b.asConst = .ok (some false) := by
        unfold CBool.asConst; rw [h0 b (by simp)]; simp [intoBool, Except.map]
      have hsw : ∀ (x y : CNum F) (s : CS F), Post s (CNum.switch x b y) (fun r _ => r = y) := by
        intro x y s
        unfold CNum.switch
        refine Post.bind (Q := fun r _ => r = some false) (Post.lift fun a h => ?_) ?_
        · rw [hb] at h; cases h; rfl
        · rintro _ s' _ rfl; exact Post.pure rfl
      refine Post.bind (Q := fun r _ => r = acc) ?_ ?_
      · unfold CMontgomeryPoint.switch
        refine Post.bind (hsw _ _ _) fun x _ _ hx => Post.bind (hsw _ _ _) fun y _ _ hy => Post.pure ?_
        rw [hx, hy]
      · intro r s2 _ hr
        rw [hr]
        exact ih (fun b hb => h0 b (by simp [hb])) s2 exps acc hx hy

theorem IsZeroLC.mulVarBase (p : CEdwardsPoint F) (bits : List (CBool F)) (h0 : ∀ b ∈ bits, b.num.asConst = some 0) :
    Post s (CEdwardsPoint.mulVarBase p bits J) (fun _ _ => False) := by
  unfold CEdwardsPoint.mulVarBase
  refine Post.bind Post.true fun z s1 _ _ => ?_
  refine Post.bind Post.true fun base s2 _ _ => ?_
  refine Post.bind Post.true fun base s3 _ _ => ?_
  refine Post.bind Post.true fun exps s4 _ _ => ?_
  refine Post.bind (IsZeroLC.addLoop bits h0 _ _ _ IsZeroLC.zero IsZeroLC.zero) fun acc s5 _ h => ?_
  refine Post.bind (Q := fun r _ => IsZeroLC r.x ∧ IsZeroLC r.y) ?_ fun r s6 _ h => IsZeroLC.finish h.1 h.2
  unfold CMontgomeryPoint.switch
  exact Post.bind (IsZeroLC.switch z IsZeroLC.zero h.1) fun x _ _ hx =>
    Post.bind (IsZeroLC.switch z IsZeroLC.zero h.2) fun y _ _ hy => Post.pure ⟨hx, hy⟩

end Fawkes
