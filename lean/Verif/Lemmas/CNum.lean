import Verif.Lemmas.Logic
import Mathlib.Tactic.FieldSimp

/-! # Structural, soundness and completeness lemmas for circuit numbers -/

set_option linter.unusedSectionVars false

namespace Fawkes

variable {F : Type} [Field F] [DecidableEq F]

/-- `x` is a variable that did not exist in state `s`. -/
def FreshVar (s : CS F) (x : CNum F) : Prop :=
  ∃ k, x.lc = [(k, 1)] ∧ k ≠ .input 0 ∧ k ∉ s.vars.map Prod.fst

omit [DecidableEq F] in
theorem FreshVar.asConst {s : CS F} {x : CNum F} (h : FreshVar s x) : x.asConst = none := by
  obtain ⟨k, hk, h0, _⟩ := h
  exact CNum.asConst_eq_none (k := k) (by simp [hk]) h0

omit [Field F] [DecidableEq F] in
theorem nextAlloc_fresh {s : CS F} (h : s.WF) :
    s.nextAlloc ≠ .input 0 ∧ s.nextAlloc ∉ s.vars.map Prod.fst := by
  unfold CS.nextAlloc
  split
  · refine ⟨?_, fun hm => ?_⟩
    · intro h'; injection h' with h'; have := h.pos; omega
    · have := h.input_lt _ hm; omega
  · refine ⟨by simp, fun hm => ?_⟩
    have := h.aux_lt _ hm; omega

omit [Field F] [DecidableEq F] in
theorem pushVar_vars (s : CS F) (i : Index) (v : Option F) :
    (s.pushVar i v).vars = s.vars ++ [(i, v)] := by
  unfold CS.pushVar; split <;> rfl

omit [Field F] [DecidableEq F] in
theorem pushVar_cons (s : CS F) (i : Index) (v : Option F) : (s.pushVar i v).cons = s.cons := by
  unfold CS.pushVar; split <;> rfl

omit [Field F] in
theorem run_csalloc (v : Option F) (s : CS F) :
    (CS.alloc v).run s = if s.backend = .prove ∧ v = none then .error .assignmentMissing
      else .ok (s.nextAlloc, s.pushVar s.nextAlloc v) := by
  unfold M.run CS.alloc
  by_cases h : s.backend = .prove ∧ v = none <;> simp [h]

omit [Field F] in
theorem run_csallocInput (v : Option F) (s : CS F) :
    (CS.allocInput v).run s = if s.backend = .prove ∧ v = none then .error .assignmentMissing
      else .ok (.input s.ninputs, s.pushVar (.input s.ninputs) v) := by
  unfold M.run CS.allocInput
  by_cases h : s.backend = .prove ∧ v = none <;> simp [h]

theorem run_enforce (a b c : CNum F) (s : CS F) :
    (CS.enforce a b c).run s = if s.backend = .test ∧ CS.checkTriple a b c = false then
      .error .unsatisfied else .ok ((), { s with cons := s.cons ++ [⟨a, b, c⟩] }) := by
  unfold M.run CS.enforce
  by_cases h : s.backend = .test ∧ CS.checkTriple a b c = false <;> simp [h]

/-! ## Structure -/

theorem post_alloc (s : CS F) (v : Option F) :
    Post s (CNum.alloc v) (fun x s' => x.value = v ∧ x.lc = [(s.nextAlloc, 1)] ∧
      s' = s.pushVar s.nextAlloc v) := by
  unfold CNum.alloc
  refine Post.bind (Q := fun i s' => i = s.nextAlloc ∧ s' = s.pushVar s.nextAlloc v) ?_ ?_
  · intro i s' h
    rw [run_csalloc] at h
    split at h
    · cases h
    · injection h with h; injection h with h1 h2; exact ⟨h1.symm, h2.symm⟩
  · rintro i s1 _ ⟨rfl, rfl⟩
    exact Post.pure ⟨rfl, rfl, rfl⟩

theorem post_alloc_fresh {s : CS F} (hs : s.WF) (v : Option F) :
    Post s (CNum.alloc v) (fun x s' => FreshVar s x ∧ x.lc.Alloc s' ∧ x.value = v) := by
  refine (post_alloc s v).mono ?_
  rintro x s' _ ⟨hv, hl, rfl⟩
  have := nextAlloc_fresh hs
  refine ⟨⟨_, hl, this.1, this.2⟩, ?_, hv⟩
  intro k hk
  rw [hl] at hk
  simp only [LC.keys_cons, LC.keys_nil, List.mem_singleton] at hk
  subst hk
  right; rw [pushVar_vars]; simp

theorem post_enforce (s : CS F) (a b c : CNum F) :
    Post s (CS.enforce a b c) (fun _ s' => s' = { s with cons := s.cons ++ [⟨a, b, c⟩] } ∧
      (s.backend = .test → CS.checkTriple a b c = true)) := by
  intro u s' h
  rw [run_enforce] at h
  split at h
  · cases h
  · next hn =>
    injection h with h; injection h with h1 h2
    refine ⟨h2.symm, fun ht => ?_⟩
    simp only [ht, true_and, Bool.not_eq_false] at hn
    exact hn

/-! ## Allocatedness of pure operations -/

section alloc
variable {s : CS F}

omit [DecidableEq F] in
theorem alloc_fromConst (k : F) : (CNum.fromConst k).lc.Alloc s := by
  intro j hj; left
  simpa [CNum.fromConst] using hj

theorem alloc_addAssign {a b : CNum F} (ha : a.lc.Alloc s) (hb : b.lc.Alloc s) :
    (CNum.addAssign a b).lc.Alloc s := by
  intro j hj
  rcases LC.mem_keys_add_of hj with h | h
  · exact ha j h
  · exact hb j h

theorem alloc_add {a b : CNum F} (ha : a.lc.Alloc s) (hb : b.lc.Alloc s) :
    (CNum.add a b).lc.Alloc s := by
  unfold CNum.add; split
  · exact alloc_addAssign ha hb
  · exact alloc_addAssign hb ha

theorem alloc_sub {a b : CNum F} (ha : a.lc.Alloc s) (hb : b.lc.Alloc s) :
    (CNum.sub a b).lc.Alloc s := by
  intro j hj
  rcases LC.mem_keys_sub_of hj with h | h
  · exact ha j h
  · exact hb j h

omit [DecidableEq F] in
theorem alloc_neg {a : CNum F} (ha : a.lc.Alloc s) : (CNum.neg a).lc.Alloc s := by
  intro j hj; exact ha j (by simpa [CNum.neg, LC.keys_map] using hj)

theorem alloc_addConst {a : CNum F} (ha : a.lc.Alloc s) (k : F) : (CNum.addConst a k).lc.Alloc s :=
  alloc_addAssign ha (alloc_fromConst k)

theorem alloc_subConst {a : CNum F} (ha : a.lc.Alloc s) (k : F) : (CNum.subConst a k).lc.Alloc s :=
  alloc_sub ha (alloc_fromConst k)

theorem alloc_constSub {a : CNum F} (ha : a.lc.Alloc s) (k : F) : (CNum.constSub k a).lc.Alloc s :=
  alloc_sub (alloc_fromConst k) ha

theorem alloc_mulConst {a : CNum F} (ha : a.lc.Alloc s) (k : F) : (CNum.mulConst a k).lc.Alloc s := by
  unfold CNum.mulConst; split
  · exact alloc_fromConst 0
  · intro j hj; exact ha j (by simpa [LC.keys_map] using hj)

end alloc

theorem post_divConst {s : CS F} (a : CNum F) (k : F) :
    Post s (CNum.divConst a k) (fun q s' => s' = s ∧ q.lc = a.lc.map (fun kv => (kv.1, kv.2 / k)) ∧
      q.value = a.value.map (· / k) ∧ ¬ (k = 0 ∧ (a.value ≠ none ∨ a.lc ≠ []))) := by
  unfold CNum.divConst
  split
  · exact Post.panic
  · next h => exact Post.pure ⟨rfl, rfl, rfl, h⟩

theorem post_mul {s : CS F} (hs : s.WF) (a b : CNum F) :
    Post s (CNum.mul a b) (fun c s' => (a.lc.Alloc s → b.lc.Alloc s → c.lc.Alloc s') ∧
      (a.asConst = none → b.asConst = none → FreshVar s c)) := by
  unfold CNum.mul
  split
  · next h => exact Post.pure ⟨fun _ hb => alloc_mulConst hb _, fun h' => by rw [h] at h'; cases h'⟩
  · next h _ => exact Post.pure ⟨fun ha _ => alloc_mulConst ha _, fun _ h' => by rw [h] at h'; cases h'⟩
  · refine Post.bind (post_alloc_fresh hs _) ?_
    rintro c s1 e1 ⟨hf, ha, -⟩
    refine Post.bind Post.true ?_
    rintro _ s2 e2 -
    exact Post.pure ⟨fun _ _ => ha.mono e2, fun _ _ => hf⟩

theorem post_div {s : CS F} (hs : s.WF) (a b : CNum F) :
    Post s (CNum.div a b) (fun c s' => (a.lc.Alloc s → b.lc.Alloc s → c.lc.Alloc s') ∧
      (a.asConst = none → b.asConst = none → FreshVar s c)) := by
  unfold CNum.div
  split
  · next h =>
    refine (post_divConst b _).mono ?_
    rintro q s' _ ⟨rfl, hl, -⟩
    refine ⟨fun _ hb j hj => hb j ?_, fun h' => by rw [h] at h'; cases h'⟩
    rw [hl, LC.keys_map] at hj; exact hj
  · next h _ =>
    refine (post_divConst a _).mono ?_
    rintro q s' _ ⟨rfl, hl, -⟩
    refine ⟨fun ha _ j hj => ha j ?_, fun _ h' => by rw [h] at h'; cases h'⟩
    rw [hl, LC.keys_map] at hj; exact hj
  · refine Post.bind Post.true ?_
    rintro v s0 e0 -
    refine Post.bind (post_alloc_fresh (e0.wf hs) _) ?_
    rintro c s1 e1 ⟨hf, ha, -⟩
    refine Post.bind Post.true ?_
    rintro _ s2 e2 -
    refine Post.pure ⟨fun _ _ => ha.mono e2, fun _ _ => ?_⟩
    obtain ⟨k, h1, h2, h3⟩ := hf
    refine ⟨k, h1, h2, fun hm => h3 ?_⟩
    obtain ⟨t, ht⟩ := e0.vars
    rw [← ht, List.map_append]; exact List.mem_append_left _ hm

/-! ## Soundness -/

section sound
variable {w : Index → F} {s : CS F}

theorem spec_enforce (a b c : CNum F) :
    Spec w s (CS.enforce a b c) (fun _ _ => a.eval w * b.eval w = c.eval w) := by
  intro u s' h hs
  obtain ⟨rfl, -⟩ := post_enforce s a b c u s' h
  exact hs ⟨a, b, c⟩ (by simp)

theorem spec_mul (hw : IsAssignment w) (a b : CNum F) :
    Spec w s (CNum.mul a b) (fun c _ => c.eval w = a.eval w * b.eval w) := by
  unfold CNum.mul
  split
  · next h =>
    refine Spec.pure fun _ => ?_
    rw [CNum.eval_mulConst hw, CNum.eval_of_asConst hw h, mul_comm]
  · next h _ =>
    refine Spec.pure fun _ => ?_
    rw [CNum.eval_mulConst hw, CNum.eval_of_asConst hw h]
  · refine Spec.bind (Spec.of_post Post.true) ?_
    rintro c s1 e1 -
    refine Spec.bind (spec_enforce a b c) ?_
    rintro _ s2 e2 h
    exact Spec.pure fun _ => h.symm

theorem spec_square (hw : IsAssignment w) (a : CNum F) :
    Spec w s (CNum.square a) (fun c _ => c.eval w = a.eval w * a.eval w) := spec_mul hw a a

/-- Division is sound unless the numerator is syntactically constant. -/
theorem spec_div (hw : IsAssignment w) {a : CNum F} (ha : a.asConst = none) (b : CNum F) :
    Spec w s (CNum.div a b) (fun q _ => q.eval w * b.eval w = a.eval w) := by
  unfold CNum.div
  split
  · next h => rw [h] at ha; cases ha
  · next y h _ =>
    refine (Spec.of_post (post_divConst a y)).mono ?_
    rintro q s' _ ⟨rfl, hl, -, hn⟩
    have hne : a.lc ≠ [] := by
      intro h0; rw [CNum.asConst, h0] at ha; cases ha
    have hy : y ≠ 0 := fun h0 => hn ⟨h0, Or.inr hne⟩
    rw [CNum.eval_of_asConst hw h, CNum.eval, hl, LC.eval_map_div, div_mul_cancel₀ _ hy]
  · refine Spec.bind (Spec.of_post Post.true) ?_
    rintro v s0 e0 -
    refine Spec.bind (Spec.of_post Post.true) ?_
    rintro c s1 e1 -
    refine Spec.bind (spec_enforce c b a) ?_
    rintro _ s2 e2 h
    exact Spec.pure fun _ => h

theorem spec_divConst {a : CNum F} {k : F} (hk : k ≠ 0) :
    Spec w s (CNum.divConst a k) (fun q _ => q.eval w * k = a.eval w) := by
  refine (Spec.of_post (post_divConst a k)).mono ?_
  rintro q s' _ ⟨rfl, hl, -, hn⟩
  rw [CNum.eval, hl, LC.eval_map_div, div_mul_cancel₀ _ hk]

theorem spec_assertConst (hw : IsAssignment w) (a : CNum F) (c : F) :
    Spec w s (CNum.assertConst a c) (fun _ _ => a.eval w = c) := by
  unfold CNum.assertConst
  split
  · next v h =>
    refine Spec.assert fun hb => ?_
    rw [CNum.eval_of_asConst hw h]; simpa using hb
  · refine (spec_enforce a _ _).mono ?_
    rintro _ s' _ h
    rwa [CNum.eval_one hw, CNum.eval_fromConst hw, mul_one] at h

theorem spec_assertZero (hw : IsAssignment w) (a : CNum F) :
    Spec w s (CNum.assertZero a) (fun _ _ => a.eval w = 0) := spec_assertConst hw a 0

theorem spec_assertEq (hw : IsAssignment w) (a b : CNum F) :
    Spec w s (CNum.assertEq a b) (fun _ _ => a.eval w = b.eval w) := by
  refine (spec_assertZero hw _).mono ?_
  rintro _ s' _ h
  rwa [CNum.eval_sub, sub_eq_zero] at h

theorem spec_assertNonzero (hw : IsAssignment w) (a : CNum F) :
    Spec w s (CNum.assertNonzero a) (fun _ _ => a.eval w ≠ 0) := by
  unfold CNum.assertNonzero
  split
  · next v h =>
    refine Spec.assert fun hb => ?_
    rw [CNum.eval_of_asConst hw h]; simpa using hb
  · refine Spec.bind (Spec.of_post Post.true) ?_
    rintro c s1 e1 -
    refine (spec_enforce a c _).mono ?_
    rintro _ s' _ h h0
    rw [h0, zero_mul, CNum.eval_one hw] at h
    exact zero_ne_one h

theorem spec_assertBit (hw : IsAssignment w) (a : CNum F) :
    Spec w s (CNum.assertBit a) (fun _ _ => a.eval w = 0 ∨ a.eval w = 1) := by
  unfold CNum.assertBit
  split
  · next v h =>
    refine Spec.assert fun hb => ?_
    rw [CNum.eval_of_asConst hw h]
    have hb : v = 1 ∨ v = 0 := by simpa using hb
    tauto
  · refine (spec_enforce a _ _).mono ?_
    rintro _ s' _ h
    rw [CNum.eval_subConst hw, CNum.eval_zero hw, mul_eq_zero, sub_eq_zero] at h
    exact h

theorem spec_isZero (hw : IsAssignment w) (a : CNum F) :
    Spec w s (CNum.isZero a) (fun b _ => b.num.eval w = if a.eval w = 0 then 1 else 0) := by
  unfold CNum.isZero
  split
  · next v h =>
    refine Spec.pure fun _ => ?_
    rw [CNum.eval_of_asConst hw h, CNum.eval_fromConst hw, boolToF]
    simp
  · refine Spec.bind (Spec.of_post Post.true) ?_
    rintro inv s1 e1 -
    refine Spec.bind (spec_assertNonzero hw inv) ?_
    rintro _ s2 e2 hne
    refine Spec.bind (spec_mul hw inv a) ?_
    rintro res s3 e3 hres
    refine Spec.bind (spec_assertBit hw res) ?_
    rintro _ s4 e4 hbit
    refine Spec.pure fun _ => ?_
    rw [CNum.eval_sub, CNum.eval_one hw]
    split
    · next h0 => rw [hres, h0, mul_zero, sub_zero]
    · next h0 =>
      rcases hbit with hb | hb
      · exfalso
        rw [hres, mul_eq_zero] at hb
        tauto
      · rw [hb, sub_self]

theorem spec_isEq (hw : IsAssignment w) (a b : CNum F) :
    Spec w s (CNum.isEq a b) (fun r _ => r.num.eval w = if a.eval w = b.eval w then 1 else 0) := by
  refine (spec_isZero hw _).mono ?_
  rintro r s' _ h
  rw [h, CNum.eval_sub]
  simp only [sub_eq_zero]

/-- `switch` computes `f + b (t - f)`; for constant conditions the condition is a boolean. -/
theorem spec_switch (hw : IsAssignment w) (t f : CNum F) (b : CBool F) :
    Spec w s (CNum.switch t b f)
      (fun r _ => r.eval w = f.eval w + b.num.eval w * (t.eval w - f.eval w)) := by
  unfold CNum.switch
  refine Spec.bind (Spec.lift (Q := fun r _ => ∀ v, r = some v → b.num.eval w = boolToF v) ?_) ?_
  · intro r hr v hv
    subst hv
    unfold CBool.asConst at hr
    cases hc : b.num.asConst with
    | none => rw [hc] at hr; cases hr
    | some c =>
      rw [hc] at hr
      rw [CNum.eval_of_asConst hw hc]
      unfold intoBool at hr
      by_cases h0 : c = 0
      · simp only [h0, if_true, Except.map] at hr
        injection hr with hr; injection hr with hr; subst hr; simp [boolToF, h0]
      · by_cases h1 : c = 1
        · simp only [h1, one_ne_zero, if_false, if_true, Except.map] at hr
          injection hr with hr; injection hr with hr; subst hr; simp [boolToF, h1]
        · simp only [h0, h1, if_false, Except.map] at hr; cases hr
  · rintro r s1 e1 hr
    match r with
    | some true =>
      refine Spec.pure fun _ => ?_
      rw [hr _ rfl]; simp [boolToF]
    | some false =>
      refine Spec.pure fun _ => ?_
      rw [hr _ rfl]; simp [boolToF]
    | none =>
      dsimp only
      split
      · refine Spec.bind (spec_mul hw _ _) ?_
        rintro p s2 e2 hp
        refine Spec.pure fun _ => ?_
        rw [CNum.eval_addAssign, hp, CNum.eval_sub]; ring
      · refine Spec.bind (spec_mul hw _ _) ?_
        rintro p s2 e2 hp
        refine Spec.pure fun _ => ?_
        rw [CNum.eval_addAssign, hp, CNum.eval_sub, CNum.eval_constSub hw]; ring

end sound

/-! ## Completeness -/

section complete
variable {s : CS F}

omit [DecidableEq F] in
theorem has_fromConst (k : F) : Has s (CNum.fromConst k) k :=
  ⟨alloc_fromConst k, rfl, CNum.eval_fromConst s.assign_isAssignment k⟩

omit [DecidableEq F] in
theorem has_zero : Has s (CNum.zero : CNum F) 0 := has_fromConst 0
omit [DecidableEq F] in
theorem has_one : Has s (CNum.one : CNum F) 1 := has_fromConst 1

theorem has_addAssign {a b : CNum F} {x y : F} (ha : Has s a x) (hb : Has s b y) :
    Has s (CNum.addAssign a b) (x + y) :=
  ⟨alloc_addAssign ha.alloc hb.alloc, by simp [CNum.addAssign, ha.value, hb.value, CNum.value₂],
   by have := CNum.eval_addAssign s.assign a b
      rw [CNum.eval, CNum.eval, CNum.eval, ha.eval, hb.eval] at this; exact this⟩

theorem has_add {a b : CNum F} {x y : F} (ha : Has s a x) (hb : Has s b y) :
    Has s (CNum.add a b) (x + y) := by
  unfold CNum.add; split
  · exact has_addAssign ha hb
  · rw [add_comm]; exact has_addAssign hb ha

theorem has_sub {a b : CNum F} {x y : F} (ha : Has s a x) (hb : Has s b y) :
    Has s (CNum.sub a b) (x - y) :=
  ⟨alloc_sub ha.alloc hb.alloc, by simp [CNum.sub, ha.value, hb.value, CNum.value₂],
   by have := CNum.eval_sub s.assign a b
      rw [CNum.eval, CNum.eval, CNum.eval, ha.eval, hb.eval] at this; exact this⟩

omit [DecidableEq F] in
theorem has_neg {a : CNum F} {x : F} (ha : Has s a x) : Has s (CNum.neg a) (-x) :=
  ⟨alloc_neg ha.alloc, by simp [CNum.neg, ha.value],
   by have := CNum.eval_neg s.assign a
      rw [CNum.eval, CNum.eval, ha.eval] at this; exact this⟩

theorem has_mulConst {a : CNum F} {x : F} (ha : Has s a x) (k : F) :
    Has s (CNum.mulConst a k) (x * k) := by
  refine ⟨alloc_mulConst ha.alloc k, ?_, ?_⟩
  · unfold CNum.mulConst; split
    · next h => simp [CNum.zero, CNum.fromConst, h]
    · simp [ha.value]
  · have := CNum.eval_mulConst s.assign_isAssignment a k
    rw [CNum.eval, CNum.eval, ha.eval] at this; exact this

theorem has_addConst {a : CNum F} {x : F} (ha : Has s a x) (k : F) :
    Has s (CNum.addConst a k) (x + k) := has_addAssign ha (has_fromConst k)

theorem has_subConst {a : CNum F} {x : F} (ha : Has s a x) (k : F) :
    Has s (CNum.subConst a k) (x - k) := has_sub ha (has_fromConst k)

theorem has_constSub {a : CNum F} {x : F} (ha : Has s a x) (k : F) :
    Has s (CNum.constSub k a) (k - x) := has_sub (has_fromConst k) ha

omit [DecidableEq F] in
theorem Has.const {a : CNum F} {x c : F} (ha : Has s a x) (h : a.asConst = some c) : c = x := by
  rw [← CNum.eval_of_asConst s.assign_isAssignment h]; exact ha.eval

omit [DecidableEq F] in
theorem assign_pushVar {s : CS F} {i : Index} {v : F} (h0 : i ≠ .input 0)
    (hi : i ∉ s.vars.map Prod.fst) : (s.pushVar i (some v)).assign i = v := by
  unfold CS.assign
  rw [if_neg h0, pushVar_vars]
  have : s.vars.lookup i = none := by
    rw [List.lookup_eq_none_iff]
    intro p hp
    have : i ≠ p.1 := fun h => hi (h ▸ List.mem_map_of_mem hp)
    simpa using this
  rw [List.lookup_append, this]; simp

omit [DecidableEq F] in
theorem honest_push {s s' : CS F} (hs : s.Honest) (e : s.Ext s') (hc : s'.cons = s.cons) : s'.Honest where
  wf := e.wf hs.wf
  sat := by
    intro c hcm
    rw [hc] at hcm
    have h := hs.alloc c hcm
    unfold Constraint.Sat
    rw [e.eval h.1, e.eval h.2.1, e.eval h.2.2]
    exact hs.sat c hcm
  alloc := by
    intro c hcm
    rw [hc] at hcm
    have h := hs.alloc c hcm
    exact ⟨h.1.mono e, h.2.1.mono e, h.2.2.mono e⟩

theorem runs_csalloc (hs : s.Honest) (v : F) :
    Runs s (CS.alloc (some v)) (fun i s' => i = s.nextAlloc ∧ s' = s.pushVar s.nextAlloc (some v)) := by
  refine ⟨s.nextAlloc, s.pushVar s.nextAlloc (some v), ?_, CS.ext_pushVar_next s _, ?_, rfl, rfl⟩
  · rw [run_csalloc]; simp
  · exact honest_push hs (CS.ext_pushVar_next s _) (pushVar_cons _ _ _)

theorem has_fromVar {s : CS F} {i : Index} {v : F} (h0 : i ≠ .input 0)
    (hi : i ∉ s.vars.map Prod.fst) : Has (s.pushVar i (some v)) (CNum.fromVar (some v) i) v where
  alloc := by
    intro k hk
    simp only [CNum.fromVar, LC.keys_cons, LC.keys_nil, List.mem_singleton] at hk
    right; rw [pushVar_vars, hk]; simp
  value := rfl
  eval := by simp [CNum.fromVar, assign_pushVar h0 hi]

theorem runs_alloc (hs : s.Honest) (v : F) :
    Runs s (CNum.alloc (some v)) (fun x s' => Has s' x v ∧ FreshVar s x) := by
  unfold CNum.alloc
  refine Runs.bind (runs_csalloc hs v) ?_
  rintro i s1 e1 h1 ⟨rfl, rfl⟩
  have hf := nextAlloc_fresh hs.wf
  exact Runs.pure h1 ⟨has_fromVar hf.1 hf.2, ⟨_, rfl, hf.1, hf.2⟩⟩

theorem runs_enforce (hs : s.Honest) {a b c : CNum F} {x y z : F} (ha : Has s a x) (hb : Has s b y)
    (hc : Has s c z) (h : x * y = z) : Runs s (CS.enforce a b c) (fun _ _ => True) := by
  have hr : (CS.enforce a b c).run s = .ok ((), { s with cons := s.cons ++ [⟨a, b, c⟩] }) := by
    rw [run_enforce, if_neg]
    rintro ⟨-, hf⟩
    simp [CS.checkTriple, ha.value, hb.value, hc.value, h] at hf
  have e := M.run_ext hr
  refine ⟨(), _, hr, e, ⟨e.wf hs.wf, ?_, ?_⟩, trivial⟩
  · intro q hq
    simp only [List.mem_append, List.mem_singleton] at hq
    rcases hq with hq | hq
    · have hh := hs.alloc q hq
      unfold Constraint.Sat
      rw [e.eval hh.1, e.eval hh.2.1, e.eval hh.2.2]
      exact hs.sat q hq
    · subst hq
      unfold Constraint.Sat
      rw [e.eval ha.alloc, e.eval hb.alloc, e.eval hc.alloc, ha.eval, hb.eval, hc.eval, h]
  · intro q hq
    simp only [List.mem_append, List.mem_singleton] at hq
    rcases hq with hq | hq
    · have hh := hs.alloc q hq
      exact ⟨hh.1.mono e, hh.2.1.mono e, hh.2.2.mono e⟩
    · subst hq
      exact ⟨ha.alloc.mono e, hb.alloc.mono e, hc.alloc.mono e⟩

theorem runs_mul (hs : s.Honest) {a b : CNum F} {x y : F} (ha : Has s a x) (hb : Has s b y) :
    Runs s (CNum.mul a b) (fun c s' => Has s' c (x * y)) := by
  unfold CNum.mul
  split
  · next h =>
    have := ha.const h; subst this
    exact Runs.pure hs (by rw [mul_comm]; exact has_mulConst hb _)
  · next h _ =>
    have := hb.const h; subst this
    exact Runs.pure hs (has_mulConst ha _)
  · rw [ha.value, hb.value]
    refine Runs.bind (runs_alloc hs _) ?_
    rintro c s1 e1 h1 ⟨hc, -⟩
    refine Runs.bind (runs_enforce h1 (ha.mono e1) (hb.mono e1) hc rfl) ?_
    rintro _ s2 e2 h2 -
    exact Runs.pure h2 (hc.mono e2)

theorem runs_square (hs : s.Honest) {a : CNum F} {x : F} (ha : Has s a x) :
    Runs s (CNum.square a) (fun c s' => Has s' c (x * x)) := runs_mul hs ha ha

theorem runs_divConst (hs : s.Honest) {a : CNum F} {x : F} (ha : Has s a x) {k : F} (hk : k ≠ 0) :
    Runs s (CNum.divConst a k) (fun c s' => Has s' c (x / k)) := by
  unfold CNum.divConst
  rw [if_neg (fun h => hk h.1)]
  refine Runs.pure hs ⟨?_, ?_, ?_⟩
  · intro j hj; exact ha.alloc j (by simpa [LC.keys_map] using hj)
  · simp [ha.value]
  · simp only [LC.eval_map_div, ha.eval]

/-- Honest division succeeds for a non-constant numerator and non-zero denominator. -/
theorem runs_div (hs : s.Honest) {a b : CNum F} {x y : F} (ha : Has s a x) (hb : Has s b y)
    (hc : a.asConst = none) (hy : y ≠ 0) : Runs s (CNum.div a b) (fun c s' => Has s' c (x / y)) := by
  unfold CNum.div
  split
  · next h => rw [h] at hc; cases hc
  · next h _ =>
    have := hb.const h; subst this
    exact runs_divConst hs ha hy
  · rw [ha.value, hb.value]
    simp only [CNum.divValue, hy, if_false]
    refine Runs.bind (Q := fun v s' => v = some (x / y) ∧ s' = s) (Runs.pure hs ⟨rfl, rfl⟩) ?_
    rintro v s0 e0 h0 ⟨rfl, rfl⟩
    refine Runs.bind (runs_alloc h0 _) ?_
    rintro c s1 e1 h1 ⟨hcc, -⟩
    refine Runs.bind (runs_enforce h1 hcc (hb.mono e1) (ha.mono e1) (div_mul_cancel₀ _ hy)) ?_
    rintro _ s2 e2 h2 -
    exact Runs.pure h2 (hcc.mono e2)

theorem runs_assertConst (hs : s.Honest) {a : CNum F} {x : F} (ha : Has s a x) :
    Runs s (CNum.assertConst a x) (fun _ _ => True) := by
  unfold CNum.assertConst
  split
  · next h =>
    have := ha.const h; subst this
    exact Runs.assert hs (by simp) trivial
  · exact runs_enforce hs ha has_one (has_fromConst x) (mul_one x)

theorem runs_assertZero (hs : s.Honest) {a : CNum F} (ha : Has s a 0) :
    Runs s (CNum.assertZero a) (fun _ _ => True) := runs_assertConst hs ha

theorem runs_assertEq (hs : s.Honest) {a b : CNum F} {x : F} (ha : Has s a x) (hb : Has s b x) :
    Runs s (CNum.assertEq a b) (fun _ _ => True) := by
  refine runs_assertZero hs ?_
  have := has_sub ha hb
  rwa [sub_self] at this

theorem runs_assertNonzero (hs : s.Honest) {a : CNum F} {x : F} (ha : Has s a x) (hx : x ≠ 0) :
    Runs s (CNum.assertNonzero a) (fun _ _ => True) := by
  unfold CNum.assertNonzero
  split
  · next h =>
    have := ha.const h; subst this
    exact Runs.assert hs (by simpa using hx) trivial
  · rw [ha.value]
    simp only [CNum.invValue, Option.map_some, hx, if_false]
    refine Runs.bind (runs_alloc hs _) ?_
    rintro c s1 e1 h1 ⟨hcc, -⟩
    exact runs_enforce h1 (ha.mono e1) hcc has_one (mul_inv_cancel₀ hx)

theorem runs_assertBit (hs : s.Honest) {a : CNum F} {x : F} (ha : Has s a x) (hx : x = 0 ∨ x = 1) :
    Runs s (CNum.assertBit a) (fun _ _ => True) := by
  unfold CNum.assertBit
  split
  · next h =>
    have := ha.const h; subst this
    exact Runs.assert hs (by simpa using hx.symm) trivial
  · refine runs_enforce hs ha (has_subConst ha 1) has_zero ?_
    rcases hx with h | h <;> simp [h]

theorem runs_isZero (hs : s.Honest) {a : CNum F} {x : F} (ha : Has s a x) :
    Runs s (CNum.isZero a) (fun b s' => Has s' b.num (if x = 0 then 1 else 0)) := by
  unfold CNum.isZero
  split
  · next h =>
    have := ha.const h; subst this
    refine Runs.pure hs ?_
    simp only [boolToF, decide_eq_true_eq]
    exact has_fromConst _
  · rw [ha.value]
    simp only [CNum.invValue, Option.map_some]
    refine Runs.bind (runs_alloc hs _) ?_
    rintro inv s1 e1 h1 ⟨hinv, -⟩
    have hne : (if x = 0 then (1 : F) else x⁻¹) ≠ 0 := by
      split
      · exact one_ne_zero
      · next h => exact inv_ne_zero h
    refine Runs.bind (runs_assertNonzero h1 hinv hne) ?_
    rintro _ s2 e2 h2 -
    refine Runs.bind (runs_mul h2 (hinv.mono e2) (ha.mono (e1.trans e2))) ?_
    rintro res s3 e3 h3 hres
    have hv : (if x = 0 then (1 : F) else x⁻¹) * x = if x = 0 then 0 else 1 := by
      split
      · next h => simp [h]
      · next h => exact inv_mul_cancel₀ h
    rw [hv] at hres
    refine Runs.bind (runs_assertBit h3 hres (by split <;> simp)) ?_
    rintro _ s4 e4 h4 -
    refine Runs.pure h4 ?_
    have := has_sub (has_one (s := s4)) (hres.mono e4)
    convert this using 1
    split <;> simp

theorem runs_isEq (hs : s.Honest) {a b : CNum F} {x y : F} (ha : Has s a x) (hb : Has s b y) :
    Runs s (CNum.isEq a b) (fun r s' => Has s' r.num (if x = y then 1 else 0)) := by
  refine (runs_isZero hs (has_sub ha hb)).mono ?_
  rintro r s' _ _ h
  simpa only [sub_eq_zero] using h

theorem runs_switch_gen (hs : s.Honest) {t f : CNum F} {b : CBool F} {x y c : F} (ht : Has s t x)
    (hf : Has s f y) (hb : Has s b.num c) (hc : b.num.asConst ≠ none → c = 0 ∨ c = 1) :
    Runs s (CNum.switch t b f) (fun r s' => Has s' r (y + c * (x - y))) := by
  have key : ∃ r, b.asConst = .ok r ∧ (∀ v, r = some v → c = boolToF v) := by
    unfold CBool.asConst
    cases h : b.num.asConst with
    | none => exact ⟨none, rfl, by simp⟩
    | some v =>
      have := hb.const h; subst this
      rcases hc (by rw [h]; simp) with h0 | h1
      · subst h0; exact ⟨some false, by simp [intoBool, Except.map], by simp [boolToF]⟩
      · subst h1; exact ⟨some true, by simp [intoBool, Except.map], by simp [boolToF]⟩
  obtain ⟨r, hr, hv⟩ := key
  unfold CNum.switch
  refine Runs.bind (Runs.lift (Q := fun r' s' => r' = r ∧ s' = s) hs hr ⟨rfl, rfl⟩) ?_
  rintro r' s1 e1 h1 ⟨rfl, rfl⟩
  match r' with
  | some true =>
    refine Runs.pure h1 ?_
    have := hv _ rfl; subst this; simpa [boolToF] using ht
  | some false =>
    refine Runs.pure h1 ?_
    have := hv _ rfl; subst this; simpa [boolToF] using hf
  | none =>
    dsimp only
    split
    · refine Runs.bind (runs_mul h1 hb (has_sub ht hf)) ?_
      rintro p s2 e2 h2 hp
      refine Runs.pure h2 ?_
      rw [add_comm]; exact has_addAssign hp (hf.mono e2)
    · refine Runs.bind (runs_mul h1 (has_constSub hb 1) (has_sub hf ht)) ?_
      rintro p s2 e2 h2 hp
      refine Runs.pure h2 ?_
      have := has_addAssign hp (ht.mono e2)
      convert this using 1; ring

theorem runs_switch (hs : s.Honest) {t f : CNum F} {b : CBool F} {x y c : F} (ht : Has s t x)
    (hf : Has s f y) (hb : Has s b.num c) (hc : c = 0 ∨ c = 1) :
    Runs s (CNum.switch t b f) (fun r s' => Has s' r (y + c * (x - y))) := runs_switch_gen hs ht hf hb fun _ => hc

end complete

end Fawkes
