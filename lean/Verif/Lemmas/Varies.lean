import Verif.Lemmas.CNum
import Verif.Lemmas.Canonical
import Verif.Spec.Varies

/-!
# Coefficients of signals, signals that are not constant
-/

set_option linter.unusedSectionVars false

namespace Fawkes

variable {F : Type} [Field F] [DecidableEq F]

/-- The assignment that is zero except on the constant and on `k`. -/
def bump (k : Index) : Index → F := fun i => if i = .input 0 ∨ i = k then 1 else 0

theorem bump_isAssignment (k : Index) : IsAssignment (bump k : Index → F) := by
  simp [IsAssignment, bump]

/-- The coefficient of variable `k` in a signal. -/
def coef (k : Index) (a : CNum F) : F := a.eval (bump k) - a.eval (bump (.input 0))

variable {k : Index} {s s' : CS F}

theorem coef_addAssign (a b : CNum F) : coef k (CNum.addAssign a b) = coef k a + coef k b := by
  unfold coef; rw [CNum.eval_addAssign, CNum.eval_addAssign]; ring

theorem coef_add (a b : CNum F) : coef k (CNum.add a b) = coef k a + coef k b := by
  unfold coef; rw [CNum.eval_add, CNum.eval_add]; ring

theorem coef_sub (a b : CNum F) : coef k (CNum.sub a b) = coef k a - coef k b := by
  unfold coef; rw [CNum.eval_sub, CNum.eval_sub]; ring

theorem coef_neg (a : CNum F) : coef k (CNum.neg a) = - coef k a := by
  unfold coef; rw [CNum.eval_neg, CNum.eval_neg]; ring

theorem coef_fromConst (c : F) : coef k (CNum.fromConst c) = 0 := by
  unfold coef; rw [CNum.eval_fromConst (bump_isAssignment _), CNum.eval_fromConst (bump_isAssignment _)]; ring

theorem coef_zero : coef k (CNum.zero : CNum F) = 0 := coef_fromConst 0

theorem coef_one : coef k (CNum.one : CNum F) = 0 := coef_fromConst 1

theorem coef_mulConst (a : CNum F) (c : F) : coef k (CNum.mulConst a c) = coef k a * c := by
  unfold coef; rw [CNum.eval_mulConst (bump_isAssignment _), CNum.eval_mulConst (bump_isAssignment _)]; ring

theorem coef_addConst (a : CNum F) (c : F) : coef k (CNum.addConst a c) = coef k a := by
  rw [CNum.addConst, coef_addAssign, coef_fromConst, add_zero]

theorem coef_subConst (a : CNum F) (c : F) : coef k (CNum.subConst a c) = coef k a := by
  rw [CNum.subConst, coef_sub, coef_fromConst, sub_zero]

theorem coef_constSub (a : CNum F) (c : F) : coef k (CNum.constSub c a) = - coef k a := by
  rw [CNum.constSub, coef_sub, coef_fromConst, zero_sub]

theorem coef_of_const {a : CNum F} {c : F} (h : a.asConst = some c) : coef k a = 0 := by
  unfold coef
  rw [CNum.eval_of_asConst (bump_isAssignment _) h, CNum.eval_of_asConst (bump_isAssignment _) h, sub_self]

theorem coef_var {a : CNum F} (h : a.lc = [(k, 1)]) (hk : k ≠ .input 0) : coef k a = 1 := by
  unfold coef CNum.eval; rw [h]; simp [bump, hk]

theorem coef_alloc {a : CNum F} (h : a.lc.Alloc s) (hk : k ≠ .input 0) (hn : k ∉ s.vars.map Prod.fst) :
    coef k a = 0 := by
  unfold coef CNum.eval LC.eval
  rw [sub_eq_zero]
  congr 1
  apply List.map_congr_left
  intro kv hkv
  have hkv' : kv.1 ≠ k := by
    rintro rfl
    rcases h kv.1 (List.mem_map_of_mem hkv) with h | h
    · exact hk h
    · exact hn h
  simp [bump, hkv']

theorem varies_iff {a : CNum F} : Varies a ↔ ∃ w w', IsAssignment w ∧ IsAssignment w' ∧ a.eval w ≠ a.eval w' := Iff.rfl

theorem Varies.of_coef {a : CNum F} (h : coef k a ≠ 0) : Varies a :=
  ⟨_, _, bump_isAssignment k, bump_isAssignment (.input 0), fun e => h (by unfold coef CNum.eval; rw [e, sub_self])⟩

theorem Varies.asConst {a : CNum F} (h : Varies a) : a.asConst = none := by
  obtain ⟨w, w', hw, hw', h⟩ := h
  cases hc : a.asConst with
  | none => rfl
  | some c => exact absurd ((CNum.eval_of_asConst hw hc).trans (CNum.eval_of_asConst hw' hc).symm) h

/-- For signals in the form the library keeps them in, not being syntactically constant is enough. -/
theorem Varies.of_canonical {a : CNum F} (hc : a.lc.Canonical) (h : a.asConst = none) : Varies a := by
  -- an entry at a variable other than the constant
  have hex : ∃ kv ∈ a.lc, kv.1 ≠ .input 0 := by
    by_contra hno
    push Not at hno
    match hl : a.lc with
    | [] => simp [CNum.asConst, hl] at h
    | [(j, v)] =>
      have := hno (j, v) (by rw [hl]; simp)
      simp only at this
      simp [CNum.asConst, hl, this] at h
    | x :: y :: rest =>
      have h1 := hno x (by rw [hl]; simp)
      have h2 := hno y (by rw [hl]; simp)
      have := hc.sorted
      rw [hl] at this
      have := List.rel_of_pairwise_cons this (List.mem_cons_self)
      rw [h1, h2] at this
      exact absurd this (by simp [Index.Before])
  obtain ⟨⟨j, v⟩, hm, hj⟩ := hex
  simp only at hj
  have hirr : ∀ i : Index, ¬ i.Before i := by intro i; cases i <;> simp [Index.Before]
  have key : ∀ l : LC F, l.Pairwise (fun a b => a.1.Before b.1) → (j, v) ∈ l →
      LC.eval (bump j) l - LC.eval (bump (.input 0)) l = v := by
    intro l
    induction l with
    | nil => intro _ h; cases h
    | cons kv l ih =>
      intro hp hmem
      obtain ⟨i, c⟩ := kv
      rw [List.pairwise_cons] at hp
      simp only [LC.eval_cons]
      rcases List.mem_cons.1 hmem with h | h
      · injection h with h1 h2
        subst h1 h2
        have hz : LC.eval (bump j) l = LC.eval (bump (.input 0)) l := by
          unfold LC.eval
          congr 1
          apply List.map_congr_left
          intro kv hkv
          have : kv.1 ≠ j := by
            intro e
            have := hp.1 kv hkv
            rw [e] at this
            exact hirr _ this
          simp [bump, this]
        rw [hz]
        simp [bump, hj]
      · have hi : i ≠ j := by
          rintro rfl
          exact hirr i (hp.1 (i, v) h)
        have := ih hp.2 h
        have hb : (bump j i : F) = bump (.input 0) i := by simp [bump, hi]
        rw [hb]
        linear_combination this
  refine Varies.of_coef (k := j) ?_
  unfold coef CNum.eval
  rw [key _ hc.sorted hm]
  exact hc.nonzero _ hm hj

theorem Plain.of_canonical {a : CNum F} (hc : a.lc.Canonical) : Plain a := fun h => Varies.of_canonical hc h

theorem Plain.of_varies {a : CNum F} (h : Varies a) : Plain a := fun _ => h

theorem FreshVar.key {x : CNum F} (h : FreshVar s x) : ∃ k, k ≠ .input 0 ∧ k ∉ s.vars.map Prod.fst ∧ coef k x = 1 ∧
    ∀ a : CNum F, a.lc.Alloc s → coef k a = 0 := by
  obtain ⟨k, hl, hk, hn⟩ := h
  exact ⟨k, hk, hn, coef_var hl hk, fun a ha => coef_alloc ha hk hn⟩

theorem FreshVar.varies {x : CNum F} (h : FreshVar s x) : Varies x := by
  obtain ⟨k, -, -, h1, -⟩ := h.key
  exact Varies.of_coef (k := k) (by rw [h1]; exact one_ne_zero)

theorem Varies.addConst {a : CNum F} (h : Varies a) (c : F) : Varies (CNum.addConst a c) := by
  obtain ⟨w, w', hw, hw', h⟩ := varies_iff.1 h
  refine varies_iff.2 ?_
  exact ⟨w, w', hw, hw', fun e => h (by rw [CNum.eval_addConst hw, CNum.eval_addConst hw'] at e; exact add_right_cancel e)⟩

theorem Varies.subConst {a : CNum F} (h : Varies a) (c : F) : Varies (CNum.subConst a c) := by
  obtain ⟨w, w', hw, hw', h⟩ := varies_iff.1 h
  refine varies_iff.2 ?_
  exact ⟨w, w', hw, hw', fun e => h (by rw [CNum.eval_subConst hw, CNum.eval_subConst hw'] at e; exact sub_left_inj.1 e)⟩

theorem Varies.constSub {a : CNum F} (h : Varies a) (c : F) : Varies (CNum.constSub c a) := by
  obtain ⟨w, w', hw, hw', h⟩ := varies_iff.1 h
  refine varies_iff.2 ?_
  exact ⟨w, w', hw, hw', fun e => h (by rw [CNum.eval_constSub hw, CNum.eval_constSub hw'] at e; exact sub_right_inj.1 e)⟩

theorem Varies.mulConst {a : CNum F} (h : Varies a) {c : F} (hc : c ≠ 0) : Varies (CNum.mulConst a c) := by
  obtain ⟨w, w', hw, hw', h⟩ := varies_iff.1 h
  refine varies_iff.2 ?_
  exact ⟨w, w', hw, hw', fun e => h (by
    rw [CNum.eval_mulConst hw, CNum.eval_mulConst hw'] at e; exact mul_right_cancel₀ hc e)⟩

theorem Varies.neg {a : CNum F} (h : Varies a) : Varies (CNum.neg a) := by
  obtain ⟨w, w', hw, hw', h⟩ := varies_iff.1 h
  refine varies_iff.2 ?_
  exact ⟨w, w', hw, hw', fun e => h (by rw [CNum.eval_neg, CNum.eval_neg] at e; exact neg_injective e)⟩

/-- Subtracting a constant signal. -/
theorem Varies.sub_const {a b : CNum F} {c : F} (h : Varies a) (hb : b.asConst = some c) : Varies (CNum.sub a b) := by
  obtain ⟨w, w', hw, hw', h⟩ := varies_iff.1 h
  refine varies_iff.2 ?_
  exact ⟨w, w', hw, hw', fun e => h (by
    rw [CNum.eval_sub, CNum.eval_sub, CNum.eval_of_asConst hw hb, CNum.eval_of_asConst hw' hb] at e
    exact sub_left_inj.1 e)⟩

/-! ## Structure of results -/

theorem post_mul_fresh (hs : s.WF) {a b : CNum F} (ha : a.lc.Alloc s) (hb : b.lc.Alloc s) (va : Varies a) (vb : Varies b) :
    Post s (CNum.mul a b) (fun c s' => FreshVar s c ∧ c.lc.Alloc s') :=
  (post_mul hs a b).mono fun _ _ _ h => ⟨h.2 va.asConst vb.asConst, h.1 ha hb⟩

theorem post_div_fresh (hs : s.WF) {a b : CNum F} (ha : a.lc.Alloc s) (hb : b.lc.Alloc s) (va : Varies a) (vb : Varies b) :
    Post s (CNum.div a b) (fun c s' => FreshVar s c ∧ c.lc.Alloc s') :=
  (post_div hs a b).mono fun _ _ _ h => ⟨h.2 va.asConst vb.asConst, h.1 ha hb⟩

theorem post_isZero (hs : s.WF) {a : CNum F} (ha : a.lc.Alloc s) :
    Post s (CNum.isZero a) (fun c s' => c.num.lc.Alloc s') := by
  unfold CNum.isZero
  split
  · exact Post.pure (alloc_fromConst _)
  · refine Post.bind (post_alloc_fresh hs _) fun inv s1 e1 h1 => ?_
    refine Post.bind Post.true fun _ s2 e2 _ => ?_
    refine Post.bind (post_mul (e2.wf (e1.wf hs)) inv a) fun res s3 e3 h3 => ?_
    refine Post.bind Post.true fun _ s4 e4 _ => ?_
    exact Post.pure (alloc_sub (alloc_fromConst _)
      ((h3.1 (h1.2.1.mono e2) (ha.mono (e1.trans e2))).mono e4))

/-- The bit computed by `is_zero` from a non-constant signal: `1 - res` for a new variable `res`. -/
theorem post_isZero_fresh (hs : s.WF) {a : CNum F} (ha : a.lc.Alloc s) (va : Varies a) :
    Post s (CNum.isZero a) (fun c s' => c.num.lc.Alloc s' ∧ Varies c.num) := by
  refine (post_isZero hs ha).and ?_
  unfold CNum.isZero
  rw [va.asConst]
  refine Post.bind (post_alloc_fresh hs _) fun inv s1 e1 h1 => ?_
  refine Post.bind Post.true fun _ s2 e2 _ => ?_
  refine Post.bind (post_mul (e2.wf (e1.wf hs)) inv a) fun res s3 e3 h3 => ?_
  refine Post.bind Post.true fun _ s4 e4 _ => ?_
  exact Post.pure ((h3.2 h1.1.asConst va.asConst).varies.constSub 1)

theorem post_switch (hs : s.WF) {t f : CNum F} {b : CBool F} (ht : t.lc.Alloc s) (hf : f.lc.Alloc s)
    (hb : b.num.lc.Alloc s) : Post s (CNum.switch t b f) (fun r s' => r.lc.Alloc s') := by
  unfold CNum.switch
  refine Post.bind (Q := fun _ s' => s' = s) (Post.lift fun _ _ => rfl) ?_
  rintro r _ _ rfl
  match r with
  | some true => exact Post.pure ht
  | some false => exact Post.pure hf
  | none =>
    dsimp only
    split
    · refine Post.bind (post_mul hs _ _) fun p s2 e2 h2 => ?_
      exact Post.pure (alloc_addAssign (h2.1 hb (alloc_sub ht hf)) (hf.mono e2))
    · refine Post.bind (post_mul hs _ _) fun p s2 e2 h2 => ?_
      exact Post.pure (alloc_addAssign (h2.1 (alloc_constSub hb 1) (alloc_sub hf ht)) (ht.mono e2))

end Fawkes

namespace Fawkes

variable {F : Type} [Field F] [DecidableEq F] {s s' : CS F}

/-- The signal depends on a variable that did not exist in state `s`. -/
def NewIn (s : CS F) (a : CNum F) : Prop :=
  ∃ k, k ≠ .input 0 ∧ k ∉ s.vars.map Prod.fst ∧ coef k a ≠ 0

theorem mem_vars_mono (e : s.Ext s') {k : Index} (h : k ∈ s.vars.map Prod.fst) : k ∈ s'.vars.map Prod.fst := by
  obtain ⟨t, ht⟩ := e.vars
  rw [← ht, List.map_append]; exact List.mem_append_left _ h

theorem FreshVar.anti {x : CNum F} (e : s.Ext s') (h : FreshVar s' x) : FreshVar s x := by
  obtain ⟨k, h1, h2, h3⟩ := h
  exact ⟨k, h1, h2, fun h => h3 (mem_vars_mono e h)⟩

theorem NewIn.anti {x : CNum F} (e : s.Ext s') (h : NewIn s' x) : NewIn s x := by
  obtain ⟨k, h1, h2, h3⟩ := h
  exact ⟨k, h1, fun h => h2 (mem_vars_mono e h), h3⟩

theorem FreshVar.newIn {x : CNum F} (h : FreshVar s x) : NewIn s x := by
  obtain ⟨k, h1, h2, h3, -⟩ := h.key
  exact ⟨k, h1, h2, by rw [h3]; exact one_ne_zero⟩

theorem NewIn.varies {x : CNum F} (h : NewIn s x) : Varies x := by
  obtain ⟨k, -, -, h⟩ := h
  exact Varies.of_coef h

theorem NewIn.neg {x : CNum F} (h : NewIn s x) : NewIn s (CNum.neg x) := by
  obtain ⟨k, h1, h2, h3⟩ := h
  exact ⟨k, h1, h2, by rw [coef_neg]; exact neg_ne_zero.2 h3⟩

theorem NewIn.addAssign {x a : CNum F} (h : NewIn s x) (ha : a.lc.Alloc s) : NewIn s (CNum.addAssign x a) := by
  obtain ⟨k, h1, h2, h3⟩ := h
  exact ⟨k, h1, h2, by rw [coef_addAssign, coef_alloc ha h1 h2, add_zero]; exact h3⟩

theorem NewIn.addAssign_left {x a : CNum F} (h : NewIn s x) (ha : a.lc.Alloc s) : NewIn s (CNum.addAssign a x) := by
  obtain ⟨k, h1, h2, h3⟩ := h
  exact ⟨k, h1, h2, by rw [coef_addAssign, coef_alloc ha h1 h2, zero_add]; exact h3⟩

theorem NewIn.add_left {x a : CNum F} (h : NewIn s x) (ha : a.lc.Alloc s) : NewIn s (CNum.add a x) := by
  obtain ⟨k, h1, h2, h3⟩ := h
  exact ⟨k, h1, h2, by rw [coef_add, coef_alloc ha h1 h2, zero_add]; exact h3⟩

theorem NewIn.add {x a : CNum F} (h : NewIn s x) (ha : a.lc.Alloc s) : NewIn s (CNum.add x a) := by
  obtain ⟨k, h1, h2, h3⟩ := h
  exact ⟨k, h1, h2, by rw [coef_add, coef_alloc ha h1 h2, add_zero]; exact h3⟩

theorem NewIn.sub {x a : CNum F} (h : NewIn s x) (ha : a.lc.Alloc s) : NewIn s (CNum.sub x a) := by
  obtain ⟨k, h1, h2, h3⟩ := h
  exact ⟨k, h1, h2, by rw [coef_sub, coef_alloc ha h1 h2, sub_zero]; exact h3⟩

theorem NewIn.sub_left {x a : CNum F} (h : NewIn s x) (ha : a.lc.Alloc s) : NewIn s (CNum.sub a x) := by
  obtain ⟨k, h1, h2, h3⟩ := h
  exact ⟨k, h1, h2, by rw [coef_sub, coef_alloc ha h1 h2, zero_sub]; exact neg_ne_zero.2 h3⟩

theorem NewIn.subConst {x : CNum F} (h : NewIn s x) (c : F) : NewIn s (CNum.subConst x c) :=
  h.sub (alloc_fromConst c)

theorem NewIn.addConst {x : CNum F} (h : NewIn s x) (c : F) : NewIn s (CNum.addConst x c) :=
  h.addAssign (alloc_fromConst c)

theorem NewIn.mulConst {x : CNum F} (h : NewIn s x) {c : F} (hc : c ≠ 0) : NewIn s (CNum.mulConst x c) := by
  obtain ⟨k, h1, h2, h3⟩ := h
  exact ⟨k, h1, h2, by rw [coef_mulConst]; exact mul_ne_zero h3 hc⟩

/-- A product is either a new variable or built from the variables of the factors. -/
theorem post_mul_cases {s0 : CS F} (hs : s.WF) {a b : CNum F} (ha : a.lc.Alloc s0) (hb : b.lc.Alloc s0) :
    Post s (CNum.mul a b) (fun c _ => FreshVar s c ∨ c.lc.Alloc s0) := by
  unfold CNum.mul
  split
  · exact Post.pure (Or.inr (alloc_mulConst hb _))
  · exact Post.pure (Or.inr (alloc_mulConst ha _))
  · refine Post.bind (post_alloc_fresh hs _) fun c s1 _ h1 => ?_
    exact Post.bind Post.true fun _ s2 _ _ => Post.pure (Or.inl h1.1)

/-- Variables that exist already and do not occur in the factors do not occur in the product. -/
theorem post_mul_coef (hs : s.WF) {a b : CNum F} {k : Index} (hk : k ≠ .input 0) (hm : k ∈ s.vars.map Prod.fst)
    (ha : coef k a = 0) (hb : coef k b = 0) : Post s (CNum.mul a b) (fun c _ => coef k c = 0) := by
  unfold CNum.mul
  split
  · exact Post.pure (by rw [coef_mulConst, hb, zero_mul])
  · exact Post.pure (by rw [coef_mulConst, ha, zero_mul])
  · refine Post.bind (post_alloc_fresh hs _) fun c s1 _ h1 => ?_
    refine Post.bind Post.true fun _ s2 _ _ => Post.pure ?_
    obtain ⟨j, hl, hj, hn⟩ := h1.1
    have hjk : k ≠ j := by rintro rfl; exact hn hm
    unfold coef CNum.eval
    rw [hl]
    simp [bump, hjk.symm, hj]

/-- The result of `switch` between two signals that differ: one of them (constant condition) or something new. -/
theorem post_switch_cases (hs : s.WF) {t f : CNum F} {b : CBool F} (ht : t.lc.Alloc s) (hf : f.lc.Alloc s)
    (hb : b.num.lc.Alloc s) (hbv : Plain b.num) (hv : Varies (CNum.sub t f)) :
    Post s (CNum.switch t b f) (fun r s' => (r = t ∧ b.asConst = .ok (some true)) ∨ (r = f ∧ b.asConst = .ok (some false)) ∨
      (NewIn s r ∧ b.num.asConst = none)) := by
  have hv' : Varies (CNum.sub f t) := by
    obtain ⟨w, w', hw, hw', h⟩ := varies_iff.1 hv
    refine varies_iff.2 ⟨w, w', hw, hw', fun e => h ?_⟩
    rw [CNum.eval_sub, CNum.eval_sub] at e ⊢
    linear_combination -e
  unfold CNum.switch
  refine Post.bind (Q := fun r s' => s' = s ∧ b.asConst = .ok r) (Post.lift fun _ h => ⟨rfl, h⟩) ?_
  rintro r _ _ ⟨rfl, hr⟩
  match r with
  | some true => exact Post.pure (Or.inl ⟨rfl, hr⟩)
  | some false => exact Post.pure (Or.inr (Or.inl ⟨rfl, hr⟩))
  | none =>
    have hbn : b.num.asConst = none := by
      unfold CBool.asConst at hr
      cases h : b.num.asConst with
      | none => rfl
      | some c =>
        rw [h] at hr
        dsimp only at hr
        cases hi : intoBool c <;> rw [hi] at hr <;> cases hr
    dsimp only
    split
    · refine Post.bind (post_mul hs _ _) fun p s2 e2 h2 => ?_
      refine Post.pure (Or.inr (Or.inr ⟨?_, hbn⟩))
      exact (h2.2 hbn hv.asConst).newIn.addAssign hf
    · refine Post.bind (post_mul hs _ _) fun p s2 e2 h2 => ?_
      refine Post.pure (Or.inr (Or.inr ⟨?_, hbn⟩))
      exact (h2.2 ((hbv hbn).constSub 1).asConst hv'.asConst).newIn.addAssign ht

end Fawkes
