import Verif.Lemmas.RenLink

/-!
# Runs on `TestCS` and on the prover

The two back ends number variables differently.  `testLink` relates a run on `TestCS` with the corresponding run on the
prover, `proveLink` the other way round.
-/

set_option linter.unusedSectionVars false

namespace Fawkes

variable {F : Type} [Field F] [DecidableEq F]

/-- Corresponding variables and constraints. -/
structure RSt (R : Ren) (w : Index → F) (s t : CS F) : Prop where
  vars : t.vars = s.vars.map fun p => (R.ρ p.1, p.2)
  dom : ∀ p ∈ s.vars, R.dom p.1
  cons : List.Forall₂ (fun c d : Constraint F => RFit R w c.a d.a ∧ RFit R w c.b d.b ∧ RFit R w c.c d.c) s.cons t.cons

namespace RSt

variable {R : Ren} {w : Index → F} {s t : CS F}

theorem lookup {l : List (Index × Option F)} (hd : ∀ p ∈ l, R.dom p.1) {k : Index} (hk : R.dom k) :
    (l.map fun p => (R.ρ p.1, p.2)).lookup (R.ρ k) = l.lookup k := by
  induction l with
  | nil => rfl
  | cons p l ih =>
    obtain ⟨j, v⟩ := p
    rw [List.map_cons, List.lookup_cons, List.lookup_cons]
    simp only
    have he : (R.ρ k == R.ρ j) = (k == j) := by
      by_cases h : k = j
      · subst h; simp
      · have : R.ρ k ≠ R.ρ j := fun e => h (R.inj _ _ hk (hd (j, v) (by simp)) e)
        rw [beq_eq_false_iff_ne.2 h, beq_eq_false_iff_ne.2 this]
    rw [he, ih fun p hp => hd p (by simp [hp])]

theorem assign (h : RSt R w s t) {k : Index} (hk : R.dom k) : t.assign (R.ρ k) = s.assign k := by
  unfold CS.assign
  have h0 : R.ρ k = .input 0 ↔ k = .input 0 := by
    constructor
    · intro e; exact R.inj _ _ hk R.dom_zero (e.trans R.zero.symm)
    · rintro rfl; exact R.zero
  by_cases e : k = .input 0
  · rw [if_pos e, if_pos (h0.2 e)]
  · rw [if_neg e, if_neg fun e' => e (h0.1 e'), h.vars, lookup h.dom hk]

/-- The recorded values satisfy the one system if and only if they satisfy the other one. -/
theorem sat (h : RSt R s.assign s t) : s.Sat s.assign ↔ t.Sat t.assign := by
  have key : ∀ c d : Constraint F, RFit R s.assign c.a d.a ∧ RFit R s.assign c.b d.b ∧ RFit R s.assign c.c d.c →
      (c.Sat s.assign ↔ d.Sat t.assign) := by
    intro c d hcd
    unfold Constraint.Sat
    rw [hcd.1.eval t.assign fun k hk => h.assign hk, hcd.2.1.eval t.assign fun k hk => h.assign hk,
      hcd.2.2.eval t.assign fun k hk => h.assign hk]
  unfold CS.Sat
  have hc := h.cons
  generalize s.cons = l at hc
  generalize t.cons = m at hc
  induction hc with
  | nil => simp
  | cons hcd _ ih => simp only [List.forall_mem_cons]; rw [key _ _ hcd, propext ih]

theorem new (b b' : Backend) : RSt R w (CS.new b) (CS.new b') := ⟨rfl, by simp [CS.new], .nil⟩

theorem push {i j : Index} {v : Option F} (h : RSt R w s t) (hi : R.dom i) (hj : j = R.ρ i) :
    RSt R w (s.pushVar i v) (t.pushVar j v) where
  vars := by rw [pushVar_vars, pushVar_vars, h.vars, hj]; simp
  dom := by
    intro p hp
    rw [pushVar_vars] at hp
    rcases List.mem_append.1 hp with hp | hp
    · exact h.dom p hp
    · rw [List.mem_singleton] at hp; subst hp; exact hi
  cons := by rw [pushVar_cons, pushVar_cons]; exact h.cons

theorem enforce {a b c a' b' c' : CNum F} (h : RSt R w s t) (ha : RFit R w a a') (hb : RFit R w b b') (hc : RFit R w c c') :
    RSt R w { s with cons := s.cons ++ [⟨a, b, c⟩] } { t with cons := t.cons ++ [⟨a', b', c'⟩] } where
  vars := h.vars
  dom := h.dom
  cons := List.rel_append h.cons (.cons ⟨ha, hb, hc⟩ .nil)

end RSt

theorem run_alloc_ok {u : Option F} {s s' : CS F} {a : CNum F} (h : (CNum.alloc u).run s = .ok (a, s')) :
    a = CNum.fromVar u s.nextAlloc ∧ s' = s.pushVar s.nextAlloc u := by
  unfold CNum.alloc at h
  obtain ⟨i, s1, h1, h2⟩ := M.bind_ok h
  rw [run_csalloc] at h1
  split at h1
  · cases h1
  · injection h1 with h1; injection h1 with e1 e2
    subst e1 e2
    rw [M.run_pure] at h2; injection h2 with h2; injection h2 with e1 e2
    exact ⟨e1.symm, e2.symm⟩

theorem run_alloc_some (v : F) (s : CS F) :
    (CNum.alloc (some v)).run s = .ok (CNum.fromVar (some v) s.nextAlloc, s.pushVar s.nextAlloc (some v)) := by
  unfold CNum.alloc
  rw [M.run_bind, run_csalloc, if_neg (by simp)]
  rfl

theorem run_allocInput_ok {u : Option F} {s s' : CS F} {i : Index} (h : (CS.allocInput u).run s = .ok (i, s')) :
    i = .input s.ninputs ∧ s' = s.pushVar (.input s.ninputs) u := by
  rw [run_csallocInput] at h
  split at h
  · cases h
  · injection h with h; injection h with e1 e2
    exact ⟨e1.symm, e2.symm⟩

theorem run_allocInput_some (v : F) (s : CS F) :
    (CS.allocInput (some v)).run s = .ok (.input s.ninputs, s.pushVar (.input s.ninputs) (some v)) := by
  rw [run_csallocInput, if_neg (by simp)]

theorem pushVar_input_ninputs (s : CS F) (n : Nat) (u : Option F) :
    (s.pushVar (.input n) u).ninputs = s.ninputs + 1 ∧ (s.pushVar (.input n) u).naux = s.naux ∧
      (s.pushVar (.input n) u).backend = s.backend := ⟨rfl, rfl, rfl⟩

theorem pushVar_aux_naux (s : CS F) (n : Nat) (u : Option F) :
    (s.pushVar (.aux n) u).ninputs = s.ninputs ∧ (s.pushVar (.aux n) u).naux = s.naux + 1 ∧
      (s.pushVar (.aux n) u).backend = s.backend := ⟨rfl, rfl, rfl⟩

/-! ## From `TestCS` to the prover -/

/-- How many of the first `n` variables are public (`b = true`), or not. -/
def cnt (K : Nat → Bool) (b : Bool) : Nat → Nat
  | 0 => 0
  | n + 1 => cnt K b n + if K n = b then 1 else 0

theorem cnt_mono (K : Nat → Bool) (b : Bool) {m n : Nat} (h : m ≤ n) : cnt K b m ≤ cnt K b n := by
  induction h with
  | refl => exact le_refl _
  | step _ ih => exact ih.trans (Nat.le_add_right _ _)

theorem cnt_lt (K : Nat → Bool) (b : Bool) {m n : Nat} (h : m < n) (hm : K m = b) : cnt K b m < cnt K b n := by
  have : cnt K b (m + 1) ≤ cnt K b n := cnt_mono K b h
  have e : cnt K b (m + 1) = cnt K b m + 1 := by rw [cnt, if_pos hm]
  omega

theorem cnt_inj (K : Nat → Bool) (b : Bool) {m n : Nat} (hm : K m = b) (hn : K n = b) (h : cnt K b m = cnt K b n) : m = n := by
  rcases lt_trichotomy m n with h1 | h1 | h1
  · have := cnt_lt K b h1 hm; omega
  · exact h1
  · have := cnt_lt K b h1 hn; omega

/-- The index that the prover gives to the `n`-th variable. -/
def proverIndex (K : Nat → Bool) (n : Nat) : Index :=
  if K n then .input (1 + cnt K true n) else .aux (cnt K false n)

/-- From the numbers of `TestCS` to those of the prover, if `K` tells which variables are public. -/
def testRen (K : Nat → Bool) : Ren where
  ρ
    | .input 0 => .input 0
    | .input (n + 1) => proverIndex K n
    | .aux n => .aux n
  dom k := ∃ n, k = .input n
  zero := rfl
  dom_zero := ⟨0, rfl⟩
  inj := by
    rintro _ _ ⟨m, rfl⟩ ⟨n, rfl⟩ h
    have h0 : ∀ n, proverIndex K n ≠ .input 0 := by
      intro n h; unfold proverIndex at h
      split at h
      · injection h with h; omega
      · cases h
    cases m with
    | zero =>
      cases n with
      | zero => rfl
      | succ n => exact absurd h.symm (h0 n)
    | succ m =>
      cases n with
      | zero => exact absurd h (h0 m)
      | succ n =>
        simp only [proverIndex] at h
        have : m = n := by
          cases hm : K m <;> cases hn : K n <;> simp [hm, hn] at h
          · exact cnt_inj K false hm hn h
          · exact cnt_inj K true hm hn h
        rw [this]

/-- What corresponding states of the two runs look like. -/
structure TestSt (K : Nat → Bool) (w : Index → F) (s t : CS F) : Prop where
  test : s.backend = .test
  prove : t.backend = .prove
  inputs : s.ninputs = 1 + s.vars.length
  inputs' : t.ninputs = 1 + cnt K true s.vars.length
  aux' : t.naux = cnt K false s.vars.length
  same : RSt (testRen K) w s t

theorem TestSt.new (K : Nat → Bool) (w : Index → F) : TestSt K w (CS.new .test) (CS.new .prove) :=
  ⟨rfl, rfl, rfl, rfl, rfl, RSt.new _ _⟩

/-- A run on `TestCS` that ends in `fin`, and the corresponding run on the prover. -/
def testLink (K : Nat → Bool) (fin : CS F) (hf : fin.WF) : Link F where
  st s t := TestSt K fin.assign s t
  ok p s s' := (∀ n, s.vars.length ≤ n → n < s'.vars.length → K n = p) ∧ s'.vars <+: fin.vars
  ok_mid := by
    intro p s s1 s2 h1 h2 ⟨hk, hv⟩
    have l1 := h1.vars.length_le
    have l2 := h2.vars.length_le
    exact ⟨⟨fun n h h' => hk n h (by omega), h2.vars.trans hv⟩, fun n h h' => hk n (by omega) h', hv⟩
  lax := false
  known := true
  fit := RFit (testRen K) fin.assign
  fit_value h := Or.inr ⟨h.same, fun _ => by rw [h.value]; simp⟩
  fit_asConst h := h.asConst
  fit_length h := h.length
  fit_const := RFit.const fin.assign_isAssignment
  fit_addAssign h h' := h.addAssign h'
  fit_sub h h' := h.sub h'
  fit_scale k hk h := h.scale hk
  sim_alloc' := by
    rintro u v h s t hs a s' hr ⟨hK, hok⟩
    obtain ⟨rfl, hk⟩ : v = u ∧ (true = true → u ≠ none) := h.resolve_left (by simp)
    obtain ⟨x, rfl⟩ := Option.ne_none_iff_exists'.1 (hk rfl)
    obtain ⟨rfl, rfl⟩ := run_alloc_ok hr
    have hn : s.nextAlloc = .input (s.vars.length + 1) := by
      unfold CS.nextAlloc; rw [hs.test]; simp only; rw [hs.inputs, Nat.add_comm]
    have hK0 : K s.vars.length = false := hK _ (le_refl _) (by rw [pushVar_vars]; simp)
    have hn' : t.nextAlloc = .aux (cnt K false s.vars.length) := by
      unfold CS.nextAlloc; rw [hs.prove]; simp only; rw [hs.aux']
    have hρ : t.nextAlloc = (testRen K).ρ s.nextAlloc := by
      rw [hn, hn']; simp [testRen, proverIndex, hK0]
    have hd : (testRen K).dom s.nextAlloc := ⟨_, hn⟩
    refine ⟨_, _, run_alloc_some x t, ⟨?_, ?_, ?_, ?_, ?_, ?_⟩, ?_⟩
    · rw [hn]; exact hs.test
    · rw [hn']; exact hs.prove
    · rw [pushVar_vars, hn, (pushVar_input_ninputs _ _ _).1, hs.inputs]; simp; omega
    · rw [pushVar_vars, hn', (pushVar_aux_naux _ _ _).1, hs.inputs', List.length_append, List.length_singleton, cnt, if_neg (by simp [hK0])]
      rfl
    · rw [pushVar_vars, hn', (pushVar_aux_naux _ _ _).2.1, hs.aux', List.length_append, List.length_singleton, cnt, if_pos hK0]
    · exact hs.same.push hd hρ
    · rw [hρ]
      refine RFit.var hd (hf.assign_mem (hok.subset ?_))
      rw [pushVar_vars]; simp
  sim_allocInput' := by
    rintro u v h s t hs a s' hr ⟨hK, hok⟩
    obtain ⟨rfl, hk⟩ : v = u ∧ (true = true → u ≠ none) := h.resolve_left (by simp)
    obtain ⟨x, rfl⟩ := Option.ne_none_iff_exists'.1 (hk rfl)
    obtain ⟨rfl, rfl⟩ := run_allocInput_ok hr
    have hK0 : K s.vars.length = true := hK _ (le_refl _) (by rw [pushVar_vars]; simp)
    have hρ : .input t.ninputs = (testRen K).ρ (.input s.ninputs) := by
      rw [hs.inputs', hs.inputs, Nat.add_comm 1 s.vars.length]; simp [testRen, proverIndex, hK0]
    have hd : (testRen K).dom (.input s.ninputs) := ⟨_, rfl⟩
    refine ⟨_, _, run_allocInput_some x t, ⟨hs.test, hs.prove, ?_, ?_, ?_, ?_⟩, ?_⟩
    · rw [pushVar_vars, (pushVar_input_ninputs _ _ _).1, hs.inputs]; simp; omega
    · rw [pushVar_vars, (pushVar_input_ninputs _ _ _).1, hs.inputs', List.length_append, List.length_singleton, cnt, if_pos hK0]
      omega
    · rw [pushVar_vars, (pushVar_input_ninputs _ _ _).2.1, hs.aux', List.length_append, List.length_singleton, cnt,
        if_neg (by simp [hK0])]
      rfl
    · exact hs.same.push hd hρ
    · rw [hρ]
      refine RFit.var hd (hf.assign_mem (hok.subset ?_))
      rw [pushVar_vars]; simp
  sim_enforce' := by
    rintro p a b c a' b' c' ha hb hc s t hs x s' hr hok
    rw [run_enforce] at hr
    split at hr
    · cases hr
    · injection hr with hr; injection hr with e1 e2
      subst e2
      refine ⟨(), { t with cons := t.cons ++ [⟨a', b', c'⟩] }, ?_, ⟨hs.test, hs.prove, hs.inputs, hs.inputs', hs.aux', hs.same.enforce ha hb hc⟩, trivial⟩
      rw [run_enforce, if_neg]
      rw [hs.prove]; simp

/-! ## From the prover to `TestCS` -/

/-- From the numbers of the prover to those of `TestCS`: the position in the order of allocation. -/
def proveRen (fin : CS F) : Ren where
  ρ i := if i = .input 0 then .input 0 else .input (1 + (fin.vars.map Prod.fst).idxOf i)
  dom i := i = .input 0 ∨ i ∈ fin.vars.map Prod.fst
  zero := by simp
  dom_zero := Or.inl rfl
  inj := by
    intro i j hi hj h
    by_cases h0 : i = .input 0 <;> by_cases h1 : j = .input 0
    · rw [h0, h1]
    · rw [if_pos h0, if_neg h1] at h; injection h with h; omega
    · rw [if_neg h0, if_pos h1] at h; injection h with h; omega
    · rw [if_neg h0, if_neg h1] at h; injection h with h
      exact (List.idxOf_inj (hi.resolve_left h0)).1 (by omega)

theorem proveRen_next {fin : CS F} (hf : fin.WF) {l : List (Index × Option F)} {i : Index} {u : Option F}
    (h : l ++ [(i, u)] <+: fin.vars) : (proveRen fin).ρ i = .input (1 + l.length) ∧ (proveRen fin).dom i := by
  have hm : (i, u) ∈ fin.vars := h.subset (by simp)
  have hi : i ∈ fin.vars.map Prod.fst := List.mem_map_of_mem (f := Prod.fst) hm
  refine ⟨?_, Or.inr hi⟩
  have h0 : i ≠ .input 0 := hf.mem_ne hm
  obtain ⟨t, ht⟩ := h
  have hl : (fin.vars.map Prod.fst).idxOf i = l.length := by
    have hnd := hf.nodup
    rw [← ht] at hnd ⊢
    simp only [List.map_append, List.map_cons, List.map_nil, List.append_assoc, List.singleton_append] at hnd ⊢
    have hnot : i ∉ l.map Prod.fst := by
      intro hil
      exact (List.nodup_append.1 hnd).2.2 i hil i (by simp) rfl
    rw [List.idxOf_append_of_notMem hnot, List.idxOf_cons_self, List.length_map]
    omega
  show (if i = .input 0 then _ else _) = _
  rw [if_neg h0, hl]

/-- What corresponding states of the two runs look like. -/
structure ProveSt (fin : CS F) (s t : CS F) : Prop where
  prove : s.backend = .prove
  test : t.backend = .test
  inputs' : t.ninputs = 1 + s.vars.length
  same : RSt (proveRen fin) fin.assign s t

theorem ProveSt.new (fin : CS F) : ProveSt fin (CS.new .prove) (CS.new .test) := ⟨rfl, rfl, rfl, RSt.new _ _⟩

/-- A run on the prover that ends in `fin` and satisfies all constraints, and the corresponding run on `TestCS`. -/
def proveLink (fin : CS F) (hf : fin.WF) (hsat : fin.Sat fin.assign) : Link F where
  st s t := ProveSt fin s t
  ok _ _ s' := s'.vars <+: fin.vars ∧ s'.cons <+: fin.cons
  ok_mid h1 h2 h := ⟨⟨h2.vars.trans h.1, h2.cons.trans h.2⟩, h⟩
  lax := false
  known := true
  fit := RFit (proveRen fin) fin.assign
  fit_value h := Or.inr ⟨h.same, fun _ => by rw [h.value]; simp⟩
  fit_asConst h := h.asConst
  fit_length h := h.length
  fit_const := RFit.const fin.assign_isAssignment
  fit_addAssign h h' := h.addAssign h'
  fit_sub h h' := h.sub h'
  fit_scale k hk h := h.scale hk
  sim_alloc' := by
    rintro u v h s t hs a s' hr ⟨hok, -⟩
    obtain ⟨rfl, hk⟩ : v = u ∧ (true = true → u ≠ none) := h.resolve_left (by simp)
    obtain ⟨x, rfl⟩ := Option.ne_none_iff_exists'.1 (hk rfl)
    obtain ⟨rfl, rfl⟩ := run_alloc_ok hr
    rw [pushVar_vars] at hok
    obtain ⟨hρ, hd⟩ := proveRen_next hf hok
    have hn' : t.nextAlloc = .input t.ninputs := by unfold CS.nextAlloc; rw [hs.test]
    have hρ' : t.nextAlloc = (proveRen fin).ρ s.nextAlloc := by rw [hρ, hn', hs.inputs']
    refine ⟨_, _, run_alloc_some x t, ⟨?_, ?_, ?_, hs.same.push hd hρ'⟩, ?_⟩
    · rw [(CS.ext_pushVar_next s _).backend]; exact hs.prove
    · rw [(CS.ext_pushVar_next t _).backend]; exact hs.test
    · rw [pushVar_vars, hn', (pushVar_input_ninputs _ _ _).1, hs.inputs']; simp; omega
    · rw [hρ']
      exact RFit.var hd (hf.assign_mem (hok.subset (by simp)))
  sim_allocInput' := by
    rintro u v h s t hs a s' hr ⟨hok, -⟩
    obtain ⟨rfl, hk⟩ : v = u ∧ (true = true → u ≠ none) := h.resolve_left (by simp)
    obtain ⟨x, rfl⟩ := Option.ne_none_iff_exists'.1 (hk rfl)
    obtain ⟨rfl, rfl⟩ := run_allocInput_ok hr
    rw [pushVar_vars] at hok
    obtain ⟨hρ, hd⟩ := proveRen_next hf hok
    have hρ' : .input t.ninputs = (proveRen fin).ρ (.input s.ninputs) := by rw [hρ, hs.inputs']
    refine ⟨_, _, run_allocInput_some x t, ⟨hs.prove, hs.test, ?_, hs.same.push hd hρ'⟩, ?_⟩
    · rw [pushVar_vars, (pushVar_input_ninputs _ _ _).1, hs.inputs']; simp; omega
    · rw [hρ']
      exact RFit.var hd (hf.assign_mem (hok.subset (by simp)))
  sim_enforce' := by
    rintro p a b c a' b' c' ha hb hc s t hs x s' hr ⟨-, hok⟩
    rw [run_enforce, if_neg (by rw [hs.prove]; simp)] at hr
    injection hr with hr; injection hr with e1 e2
    subst e2
    refine ⟨(), { t with cons := t.cons ++ [⟨a', b', c'⟩] }, ?_, ⟨hs.prove, hs.test, hs.inputs', hs.same.enforce ha hb hc⟩, trivial⟩
    rw [run_enforce, if_neg]
    rintro ⟨-, hcheck⟩
    have := hsat ⟨a, b, c⟩ (hok.subset (by simp))
    unfold Constraint.Sat at this
    unfold CS.checkTriple at hcheck
    rw [ha.same, hb.same, hc.same, ha.value, hb.value, hc.value] at hcheck
    simp at hcheck
    exact hcheck this

end Fawkes
