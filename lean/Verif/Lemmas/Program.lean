import Verif.Model.Program
import Verif.Lemmas.Shape
import Verif.Lemmas.Canonical

/-!
# Invariants of client programs
-/

set_option linter.unusedSectionVars false

namespace Fawkes

variable {F α β : Type} [Field F] [DecidableEq F]

/-! ## Canonical form -/

/-- The signal's linear combination is canonical. -/
abbrev CNum.Canon (a : CNum F) : Prop := a.lc.Canonical

theorem canon_fromConst (v : F) : (CNum.fromConst v).Canon := LC.canonical_single _ _ (Or.inl rfl)
theorem canon_fromVar (v : Option F) (i : Index) : (CNum.fromVar v i).Canon :=
  LC.canonical_single _ _ (Or.inr one_ne_zero)

theorem canon_addAssign {a b : CNum F} (ha : a.Canon) (hb : b.Canon) : (CNum.addAssign a b).Canon :=
  LC.Canonical.add ha hb
theorem canon_add {a b : CNum F} (ha : a.Canon) (hb : b.Canon) : (CNum.add a b).Canon := by
  unfold CNum.add; split
  · exact canon_addAssign ha hb
  · exact canon_addAssign hb ha
theorem canon_sub {a b : CNum F} (ha : a.Canon) (hb : b.Canon) : (CNum.sub a b).Canon :=
  LC.Canonical.sub ha hb
theorem canon_neg {a : CNum F} (ha : a.Canon) : (CNum.neg a).Canon :=
  LC.Canonical.map ha (- ·) fun _ h => neg_ne_zero.2 h
theorem canon_mulConst {a : CNum F} (ha : a.Canon) (k : F) : (CNum.mulConst a k).Canon := by
  unfold CNum.mulConst; split
  · exact canon_fromConst 0
  · next h => exact LC.Canonical.map ha (· * k) fun _ h' => mul_ne_zero h' h

theorem canon_alloc {s : CS F} (v : Option F) : Post s (CNum.alloc v) (fun x _ => x.Canon) :=
  (post_alloc s v).mono fun x _ _ h => by
    unfold CNum.Canon; rw [h.2.1]; exact LC.canonical_single _ _ (Or.inr one_ne_zero)

theorem canon_divConst {s : CS F} {a : CNum F} (ha : a.Canon) (k : F) :
    Post s (CNum.divConst a k) (fun x _ => x.Canon) :=
  (post_divConst a k).mono fun x _ _ h => by
    by_cases hk : k = 0
    · have : a.lc = [] := by
        by_contra hne; exact h.2.2.2 ⟨hk, Or.inr hne⟩
      unfold CNum.Canon; rw [h.2.1, this]; exact ⟨by simp, by simp⟩
    · unfold CNum.Canon; rw [h.2.1]
      exact LC.Canonical.map ha (· / k) fun _ h' => div_ne_zero h' hk

theorem canon_mul {s : CS F} {a b : CNum F} (ha : a.Canon) (hb : b.Canon) :
    Post s (CNum.mul a b) (fun x _ => x.Canon) := by
  unfold CNum.mul
  split
  · exact Post.pure (canon_mulConst hb _)
  · exact Post.pure (canon_mulConst ha _)
  · exact Post.bind (canon_alloc _) fun c _ _ hc => Post.bind Post.true fun _ _ _ _ => Post.pure hc

theorem canon_div {s : CS F} {a b : CNum F} (ha : a.Canon) (hb : b.Canon) :
    Post s (CNum.div a b) (fun x _ => x.Canon) := by
  unfold CNum.div
  split
  · exact canon_divConst hb _
  · exact canon_divConst ha _
  · exact Post.bind Post.true fun _ _ _ _ =>
      Post.bind (canon_alloc _) fun c _ _ hc => Post.bind Post.true fun _ _ _ _ => Post.pure hc

theorem canon_isZero {s : CS F} (a : CNum F) (ha : a.Canon) :
    Post s (CNum.isZero a) (fun x _ => x.num.Canon) := by
  unfold CNum.isZero
  split
  · exact Post.pure (canon_fromConst _)
  · exact Post.bind (canon_alloc _) fun c _ _ hc => Post.bind Post.true fun _ _ _ _ =>
      Post.bind (canon_mul hc ha) fun r _ _ hr => Post.bind Post.true fun _ _ _ _ =>
        Post.pure (canon_sub (canon_fromConst _) hr)

theorem canon_switch {s : CS F} {t f : CNum F} {b : CBool F} (ht : t.Canon) (hf : f.Canon)
    (hb : b.num.Canon) : Post s (CNum.switch t b f) (fun x _ => x.Canon) := by
  unfold CNum.switch
  refine Post.bind Post.true fun r _ _ _ => ?_
  split
  · exact Post.pure ht
  · exact Post.pure hf
  · split
    · exact Post.bind (canon_mul hb (canon_sub ht hf)) fun p _ _ hp => Post.pure (canon_addAssign hp hf)
    · exact Post.bind (canon_mul (canon_sub (canon_fromConst _) hb) (canon_sub hf ht)) fun p _ _ hp =>
        Post.pure (canon_addAssign hp ht)

theorem post_reg {s : CS F} (r : List (CNum F)) (i : Nat) :
    Post s (reg r i) (fun x s' => x ∈ r ∧ s' = s) := by
  unfold reg
  split
  · next x h => exact Post.pure ⟨List.mem_of_getElem? h, rfl⟩
  · exact Post.panic

theorem forall_snoc {P : CNum F → Prop} {r : List (CNum F)} {x : CNum F} (hr : ∀ y ∈ r, P y) (hx : P x) :
    ∀ y ∈ r ++ [x], P y := by
  intro y hy
  rcases List.mem_append.1 hy with h | h
  · exact hr y h
  · rw [List.mem_singleton.1 h]; exact hx

theorem canon_op {s : CS F} {r : List (CNum F)} (hr : ∀ x ∈ r, x.Canon) (o : Op F) :
    Post s (o.exec r) (fun r' _ => ∀ x ∈ r', x.Canon) := by
  have hreg : ∀ {s : CS F} (i : Nat), Post s (reg r i) (fun x _ => x.Canon) := fun i =>
    (post_reg r i).mono fun x _ _ h => hr x h.1
  cases o with
  | const v => exact Post.pure (forall_snoc hr (canon_fromConst v))
  | alloc v =>
    exact Post.bind (canon_alloc v) fun x _ _ hx => Post.pure (forall_snoc hr hx)
  | allocInput v =>
    exact Post.bind Post.true fun x _ _ hx => Post.pure (forall_snoc hr (canon_fromVar _ _))
  | add i j =>
    exact Post.bind (hreg i) fun a _ _ ha => Post.bind (hreg j) fun b _ _ hb =>
      Post.pure (forall_snoc hr (canon_add ha hb))
  | sub i j =>
    exact Post.bind (hreg i) fun a _ _ ha => Post.bind (hreg j) fun b _ _ hb =>
      Post.pure (forall_snoc hr (canon_sub ha hb))
  | neg i =>
    exact Post.bind (hreg i) fun a _ _ ha => Post.pure (forall_snoc hr (canon_neg ha))
  | mulConst i k =>
    exact Post.bind (hreg i) fun a _ _ ha => Post.pure (forall_snoc hr (canon_mulConst ha k))
  | divConst i k =>
    exact Post.bind (hreg i) fun a _ _ ha => Post.bind (canon_divConst ha k) fun q _ _ hq => Post.pure (forall_snoc hr hq)
  | mul i j =>
    exact Post.bind (hreg i) fun a _ _ ha => Post.bind (hreg j) fun b _ _ hb =>
      Post.bind (canon_mul ha hb) fun q _ _ hq => Post.pure (forall_snoc hr hq)
  | div i j =>
    exact Post.bind (hreg i) fun a _ _ ha => Post.bind (hreg j) fun b _ _ hb =>
      Post.bind (canon_div ha hb) fun q _ _ hq => Post.pure (forall_snoc hr hq)
  | enforce i j k =>
    exact Post.bind Post.true fun _ _ _ _ => Post.bind Post.true fun _ _ _ _ =>
      Post.bind Post.true fun _ _ _ _ => Post.bind Post.true fun _ _ _ _ => Post.pure hr
  | assertConst i v =>
    exact Post.bind Post.true fun _ _ _ _ => Post.bind Post.true fun _ _ _ _ =>
      Post.pure hr
  | assertEq i j =>
    exact Post.bind Post.true fun _ _ _ _ => Post.bind Post.true fun _ _ _ _ =>
      Post.bind Post.true fun _ _ _ _ => Post.pure hr
  | assertNonzero i =>
    exact Post.bind Post.true fun _ _ _ _ => Post.bind Post.true fun _ _ _ _ =>
      Post.pure hr
  | assertBit i =>
    exact Post.bind Post.true fun _ _ _ _ => Post.bind Post.true fun _ _ _ _ =>
      Post.pure hr
  | inputize i =>
    exact Post.bind Post.true fun _ _ _ _ => Post.bind Post.true fun _ _ _ _ =>
      Post.pure hr
  | isZero i =>
    exact Post.bind (hreg i) fun a _ _ ha => Post.bind (canon_isZero a ha) fun q _ _ hq => Post.pure (forall_snoc hr hq)
  | isEq i j =>
    exact Post.bind (hreg i) fun a _ _ ha => Post.bind (hreg j) fun b _ _ hb =>
      Post.bind (canon_isZero _ (canon_sub ha hb)) fun q _ _ hq => Post.pure (forall_snoc hr hq)
  | switch i b j =>
    exact Post.bind (hreg i) fun t _ _ ht => Post.bind (hreg b) fun c _ _ hc =>
      Post.bind (hreg j) fun f _ _ hf =>
      Post.bind (canon_switch (b := ⟨c⟩) ht hf hc) fun q _ _ hq => Post.pure (forall_snoc hr hq)

theorem canon_exec {s : CS F} {r : List (CNum F)} (hr : ∀ x ∈ r, x.Canon) (os : List (Op F)) :
    Post s (exec r os) (fun r' _ => ∀ x ∈ r', x.Canon) := by
  induction os generalizing s r with
  | nil => exact Post.pure hr
  | cons o os ih =>
    exact Post.bind (canon_op hr o) fun r' _ _ h => ih h

/-! ## Structure does not depend on values -/

/-- Registers with equal linear combinations. -/
def SameLcs (r r' : List (CNum F)) : Prop := r.map CNum.lc = r'.map CNum.lc

theorem SameLcs.snoc {r r' : List (CNum F)} {x x' : CNum F} (h : SameLcs r r') (hx : x.lc = x'.lc) :
    SameLcs (r ++ [x]) (r' ++ [x']) := by
  unfold SameLcs at *; simp [h, hx]

theorem rel_reg {r r' : List (CNum F)} (h : SameLcs r r') (i : Nat) :
    Rel (reg r i) (reg r' i) (fun a b => a.lc = b.lc) := by
  unfold reg
  have : r[i]?.map CNum.lc = r'[i]?.map CNum.lc := by
    rw [← List.getElem?_map, ← List.getElem?_map, h]
  split
  · next x hx =>
    rw [hx] at this
    split
    · next y hy => rw [hy] at this; exact Rel.pure (by simpa using this)
    · exact Rel.panic_right
  · exact Rel.panic_left

/-- The two calls differ at most in the values of allocations. -/
def Op.SameCode (o o' : Op F) : Prop := o.erase = o'.erase

theorem rel_op {r r' : List (CNum F)} (h : SameLcs r r') (o o' : Op F) (ho : o.SameCode o') :
    Rel (o.exec r) (o'.exec r') SameLcs := by
  have hr := rel_reg h
  unfold Op.SameCode at ho
  cases o with
  | alloc v =>
    cases o' <;> simp only [Op.erase, reduceCtorEq] at ho
    exact Rel.bind (rel_alloc _ _) fun a b hab => Rel.pure (h.snoc hab)
  | allocInput v =>
    cases o' <;> simp only [Op.erase, reduceCtorEq] at ho
    exact Rel.bind (rel_allocInput _ _) fun a b hab => Rel.pure (h.snoc (by rw [hab]; rfl))
  | const v =>
    cases o' <;> simp only [Op.erase, reduceCtorEq] at ho
    injection ho with ho; subst ho
    exact Rel.pure (h.snoc rfl)
  | add i j =>
    cases o' <;> simp only [Op.erase, reduceCtorEq] at ho
    injection ho with h1 h2; subst h1 h2
    exact Rel.bind (hr i) fun _ _ ha => Rel.bind (hr j) fun _ _ hb => Rel.pure (h.snoc (shape_add ha hb))
  | sub i j =>
    cases o' <;> simp only [Op.erase, reduceCtorEq] at ho
    injection ho with h1 h2; subst h1 h2
    exact Rel.bind (hr i) fun _ _ ha => Rel.bind (hr j) fun _ _ hb => Rel.pure (h.snoc (shape_sub ha hb))
  | neg i =>
    cases o' <;> simp only [Op.erase, reduceCtorEq] at ho
    injection ho with h1; subst h1
    exact Rel.bind (hr i) fun _ _ ha => Rel.pure (h.snoc (shape_neg ha))
  | mulConst i k =>
    cases o' <;> simp only [Op.erase, reduceCtorEq] at ho
    injection ho with h1 h2; subst h1 h2
    exact Rel.bind (hr i) fun _ _ ha => Rel.pure (h.snoc (shape_mulConst ha _))
  | divConst i k =>
    cases o' <;> simp only [Op.erase, reduceCtorEq] at ho
    injection ho with h1 h2; subst h1 h2
    exact Rel.bind (hr i) fun _ _ ha => Rel.bind (rel_divConst ha _) fun _ _ hq => Rel.pure (h.snoc hq)
  | mul i j =>
    cases o' <;> simp only [Op.erase, reduceCtorEq] at ho
    injection ho with h1 h2; subst h1 h2
    exact Rel.bind (hr i) fun _ _ ha => Rel.bind (hr j) fun _ _ hb =>
      Rel.bind (rel_mul ha hb) fun _ _ hq => Rel.pure (h.snoc hq)
  | div i j =>
    cases o' <;> simp only [Op.erase, reduceCtorEq] at ho
    injection ho with h1 h2; subst h1 h2
    exact Rel.bind (hr i) fun _ _ ha => Rel.bind (hr j) fun _ _ hb =>
      Rel.bind (rel_div ha hb) fun _ _ hq => Rel.pure (h.snoc hq)
  | enforce i j k =>
    cases o' <;> simp only [Op.erase, reduceCtorEq] at ho
    injection ho with h1 h2 h3; subst h1 h2 h3
    exact Rel.bind (hr i) fun _ _ ha => Rel.bind (hr j) fun _ _ hb => Rel.bind (hr k) fun _ _ hc =>
      Rel.bind (rel_enforce ha hb hc) fun _ _ _ => Rel.pure h
  | assertConst i v =>
    cases o' <;> simp only [Op.erase, reduceCtorEq] at ho
    injection ho with h1 h2; subst h1 h2
    exact Rel.bind (hr i) fun _ _ ha => Rel.bind (rel_assertConst ha _) fun _ _ _ => Rel.pure h
  | assertEq i j =>
    cases o' <;> simp only [Op.erase, reduceCtorEq] at ho
    injection ho with h1 h2; subst h1 h2
    exact Rel.bind (hr i) fun _ _ ha => Rel.bind (hr j) fun _ _ hb =>
      Rel.bind (rel_assertEq ha hb) fun _ _ _ => Rel.pure h
  | assertNonzero i =>
    cases o' <;> simp only [Op.erase, reduceCtorEq] at ho
    injection ho with h1; subst h1
    exact Rel.bind (hr i) fun _ _ ha => Rel.bind (rel_assertNonzero ha) fun _ _ _ => Rel.pure h
  | assertBit i =>
    cases o' <;> simp only [Op.erase, reduceCtorEq] at ho
    injection ho with h1; subst h1
    exact Rel.bind (hr i) fun _ _ ha => Rel.bind (rel_assertBit ha) fun _ _ _ => Rel.pure h
  | inputize i =>
    cases o' <;> simp only [Op.erase, reduceCtorEq] at ho
    injection ho with h1; subst h1
    exact Rel.bind (hr i) fun _ _ ha => Rel.bind (rel_inputize ha) fun _ _ _ => Rel.pure h
  | isZero i =>
    cases o' <;> simp only [Op.erase, reduceCtorEq] at ho
    injection ho with h1; subst h1
    exact Rel.bind (hr i) fun _ _ ha => Rel.bind (rel_isZero ha) fun _ _ hq => Rel.pure (h.snoc hq)
  | isEq i j =>
    cases o' <;> simp only [Op.erase, reduceCtorEq] at ho
    injection ho with h1 h2; subst h1 h2
    exact Rel.bind (hr i) fun _ _ ha => Rel.bind (hr j) fun _ _ hb =>
      Rel.bind (rel_isEq ha hb) fun _ _ hq => Rel.pure (h.snoc hq)
  | switch i b j =>
    cases o' <;> simp only [Op.erase, reduceCtorEq] at ho
    injection ho with h1 h2 h3; subst h1 h2 h3
    exact Rel.bind (hr i) fun _ _ ha => Rel.bind (hr b) fun c c' hb => Rel.bind (hr j) fun _ _ hc =>
      Rel.bind (rel_switch (b := ⟨c⟩) (b' := ⟨c'⟩) ha hc hb) fun _ _ hq => Rel.pure (h.snoc hq)

theorem rel_exec {r r' : List (CNum F)} (h : SameLcs r r') (os os' : List (Op F))
    (ho : os.map Op.erase = os'.map Op.erase) : Rel (exec r os) (exec r' os') SameLcs := by
  induction os generalizing r r' os' with
  | nil =>
    cases os' with
    | nil => exact Rel.pure h
    | cons o' os' => simp at ho
  | cons o os ih =>
    cases os' with
    | nil => simp at ho
    | cons o' os' =>
      simp only [List.map_cons, List.cons.injEq] at ho
      exact Rel.bind (rel_op h o o' ho.1) fun a b hab => ih hab os' ho.2

/-! ## Acceptance by the test constraint system -/

/-- Non-panicking runs on the test back end keep the state honest. -/
def Acc (s : CS F) (m : M F α) (Q : α → CS F → Prop) : Prop :=
  s.backend = .test → s.Honest → ∀ a s', m.run s = .ok (a, s') → s'.Honest ∧ Q a s'

namespace Acc

variable {s : CS F} {Q : α → CS F → Prop} {R : β → CS F → Prop}

theorem pure {a : α} (h : s.Honest → Q a s) : Acc s (Pure.pure a : M F α) Q := by
  intro _ hs b s' hr; rw [M.run_pure] at hr; injection hr with hr; injection hr with h1 h2
  subst h1 h2; exact ⟨hs, h hs⟩

theorem bind {m : M F α} {f : α → M F β} (hm : Acc s m Q)
    (hf : ∀ a s1, s.Ext s1 → Q a s1 → Acc s1 (f a) R) : Acc s (m >>= f) R := by
  intro hb hs b s' h
  obtain ⟨a, s1, h1, h2⟩ := M.bind_ok h
  obtain ⟨hh, hq⟩ := hm hb hs _ _ h1
  have e := M.run_ext h1
  exact hf a s1 e hq (e.backend.trans hb) hh _ _ h2

theorem of_post {m : M F α} (h : Post s m (fun a s' => s' = s ∧ (s.Honest → Q a s))) : Acc s m Q := by
  intro _ hs a s' hr
  obtain ⟨rfl, hq⟩ := h a s' hr
  exact ⟨hs, hq hs⟩

theorem of_runs {m : M F α} (h : s.Honest → Runs s m Q) : Acc s m Q := by
  intro _ hs a s' hr
  obtain ⟨a', s'', hr', _, hh, hq⟩ := h hs
  rw [hr] at hr'; injection hr' with hr'; injection hr' with h1 h2
  subst h1 h2; exact ⟨hh, hq⟩

theorem panic {e : Panic} : Acc s (M.panic e : M F α) Q := by
  intro _ _ a s' hr; rw [M.run_panic] at hr; cases hr

end Acc

/-- The signal has a value, consistent with the recorded assignment. -/
def Valued (s : CS F) (a : CNum F) : Prop := ∃ v, Has s a v

theorem Valued.mono {s s' : CS F} {a : CNum F} (h : Valued s a) (e : s.Ext s') : Valued s' a :=
  h.imp fun _ h => h.mono e

variable {s : CS F}

theorem acc_enforce {a b c : CNum F} (ha : Valued s a) (hb : Valued s b) (hc : Valued s c) :
    Acc s (CS.enforce a b c) (fun _ _ => a.eval s.assign * b.eval s.assign = c.eval s.assign) := by
  intro hbk hs u s' hr
  obtain ⟨x, hx⟩ := ha; obtain ⟨y, hy⟩ := hb; obtain ⟨z, hz⟩ := hc
  have hck := (post_enforce s a b c u s' hr).2 hbk
  simp [CS.checkTriple, hx.value, hy.value, hz.value] at hck
  obtain ⟨h, hq⟩ := Acc.of_runs (fun hs => runs_enforce hs hx hy hz hck) hbk hs u s' hr
  refine ⟨h, ?_⟩
  rw [CNum.eval, CNum.eval, CNum.eval, hx.eval, hy.eval, hz.eval]; exact hck

theorem acc_alloc (v : F) : Acc s (CNum.alloc (some v)) (fun x s' => Valued s' x) := by
  intro hb hs x s' hr
  have := Acc.of_runs (fun hs => runs_alloc hs v) hb hs x s' hr
  exact ⟨this.1, v, this.2.1⟩

theorem runs_allocInput (hs : s.Honest) (v : F) :
    Runs s (CS.allocInput (some v)) (fun i s' => i = .input s.ninputs ∧
      s' = s.pushVar (.input s.ninputs) (some v) ∧ Has s' (CNum.fromVar (some v) i) v) := by
  have h0 : Index.input s.ninputs ≠ .input 0 := by
    intro h; injection h with h; have := hs.wf.pos; omega
  have hi : Index.input s.ninputs ∉ s.vars.map Prod.fst := fun hm => by
    have := hs.wf.input_lt _ hm; omega
  refine ⟨_, _, ?_, CS.ext_pushVar_input s _, ?_, rfl, rfl, has_fromVar h0 hi⟩
  · rw [run_csallocInput]; simp
  · exact honest_push hs (CS.ext_pushVar_input s _) (pushVar_cons _ _ _)

theorem acc_allocInput (v : F) :
    Acc s (CS.allocInput (some v)) (fun i s' => Valued s' (CNum.fromVar (some v) i)) := by
  intro hb hs x s' hr
  have := Acc.of_runs (fun hs => runs_allocInput hs v) hb hs x s' hr
  exact ⟨this.1, v, this.2.2.2⟩

theorem acc_mul {a b : CNum F} (ha : Valued s a) (hb : Valued s b) :
    Acc s (CNum.mul a b) (fun c s' => Valued s' c) := by
  obtain ⟨x, hx⟩ := ha; obtain ⟨y, hy⟩ := hb
  exact Acc.of_runs fun hs => (runs_mul hs hx hy).mono fun c s' _ _ h => ⟨_, h⟩

theorem acc_divConst {a : CNum F} (ha : Valued s a) (k : F) :
    Acc s (CNum.divConst a k) (fun c s' => Valued s' c) := by
  obtain ⟨x, hx⟩ := ha
  by_cases hk : k = 0
  · have : CNum.divConst a k = M.panic .divByZero := by
      unfold CNum.divConst; rw [if_pos ⟨hk, Or.inl (by simp [hx.value])⟩]
    rw [this]; exact Acc.panic
  · exact Acc.of_runs fun hs => (runs_divConst hs hx hk).mono fun c s' _ _ h => ⟨_, h⟩

theorem acc_div {a b : CNum F} (ha : Valued s a) (hb : Valued s b) :
    Acc s (CNum.div a b) (fun c s' => Valued s' c) := by
  unfold CNum.div
  split
  · exact acc_divConst hb _
  · exact acc_divConst ha _
  · obtain ⟨x, hx⟩ := ha; obtain ⟨y, hy⟩ := hb
    rw [hx.value, hy.value, CNum.divValue]
    by_cases h0 : y = 0
    · simp only [h0, if_true]; exact Acc.bind (Q := fun _ _ => False) Acc.panic (fun _ _ _ h => h.elim)
    · simp only [h0, if_false]
      refine Acc.bind (Q := fun v s' => v = some (x / y) ∧ s' = s) (Acc.pure fun _ => ⟨rfl, rfl⟩) ?_
      rintro v s1 _ ⟨rfl, rfl⟩
      refine Acc.bind (acc_alloc _) fun c s2 e2 hc => ?_
      refine Acc.bind (acc_enforce hc ⟨y, hy.mono e2⟩ ⟨x, hx.mono e2⟩) fun _ s3 e3 _ => ?_
      exact Acc.pure fun _ => hc.mono e3

theorem acc_assertConst {a : CNum F} (ha : Valued s a) (v : F) :
    Acc s (CNum.assertConst a v) (fun _ _ => True) := by
  unfold CNum.assertConst
  split
  · exact Acc.of_post (Post.assert fun _ => ⟨rfl, fun _ => trivial⟩)
  · intro hb hs u s' hr
    exact ⟨(acc_enforce ha ⟨_, has_one⟩ ⟨_, has_fromConst _⟩ hb hs u s' hr).1, trivial⟩

theorem acc_enforce' {a b c : CNum F} (ha : Valued s a) (hb : Valued s b) (hc : Valued s c) :
    Acc s (CS.enforce a b c) (fun _ _ => True) := fun hb' hs u s' hr =>
  ⟨(acc_enforce ha hb hc hb' hs u s' hr).1, trivial⟩

theorem acc_assertNonzero {a : CNum F} (ha : Valued s a) :
    Acc s (CNum.assertNonzero a) (fun _ _ => True) := by
  unfold CNum.assertNonzero
  split
  · exact Acc.of_post (Post.assert fun _ => ⟨rfl, fun _ => trivial⟩)
  · obtain ⟨x, hx⟩ := ha
    rw [hx.value, CNum.invValue, Option.map_some]
    exact Acc.bind (acc_alloc _) fun c s2 e2 hc => acc_enforce' ⟨x, hx.mono e2⟩ hc ⟨_, has_one⟩

theorem acc_assertBit {a : CNum F} (ha : Valued s a) : Acc s (CNum.assertBit a) (fun _ _ => True) := by
  unfold CNum.assertBit
  split
  · exact Acc.of_post (Post.assert fun _ => ⟨rfl, fun _ => trivial⟩)
  · obtain ⟨x, hx⟩ := ha
    exact acc_enforce' ⟨x, hx⟩ ⟨_, has_subConst hx 1⟩ ⟨_, has_zero⟩

theorem acc_inputize {a : CNum F} (ha : Valued s a) : Acc s (CNum.inputize a) (fun _ _ => True) := by
  unfold CNum.inputize
  obtain ⟨x, hx⟩ := ha
  split
  · exact Acc.bind (acc_allocInput _) fun c s2 e2 hc => acc_enforce' hc ⟨_, has_one⟩ ⟨_, has_fromConst _⟩
  · rw [hx.value]
    exact Acc.bind (acc_allocInput _) fun c s2 e2 hc => acc_enforce' hc ⟨_, has_one⟩ ⟨x, hx.mono e2⟩

theorem acc_isZero {a : CNum F} (ha : Valued s a) : Acc s (CNum.isZero a) (fun b s' => Valued s' b.num) := by
  obtain ⟨x, hx⟩ := ha
  exact Acc.of_runs fun hs => (runs_isZero hs hx).mono fun b s' _ _ h => ⟨_, h⟩

theorem Valued.sub {a b : CNum F} (ha : Valued s a) (hb : Valued s b) : Valued s (CNum.sub a b) := by
  obtain ⟨x, hx⟩ := ha; obtain ⟨y, hy⟩ := hb; exact ⟨_, has_sub hx hy⟩

theorem acc_switch {t f c : CNum F} (ht : Valued s t) (hf : Valued s f) (hc : Valued s c) :
    Acc s (CNum.switch t ⟨c⟩ f) (fun r s' => Valued s' r) := by
  unfold CNum.switch
  refine Acc.bind (Q := fun _ s' => s' = s)
    (Acc.of_post (Post.lift fun _ _ => ⟨rfl, fun _ => rfl⟩)) ?_
  rintro r _ _ rfl
  split
  · exact Acc.pure fun _ => ht
  · exact Acc.pure fun _ => hf
  · split
    · refine Acc.bind (acc_mul hc (ht.sub hf)) fun p s2 e2 hp => Acc.pure fun _ => ?_
      obtain ⟨x, hx⟩ := hp; obtain ⟨y, hy⟩ := hf
      exact ⟨_, has_addAssign hx (hy.mono e2)⟩
    · obtain ⟨z, hz⟩ := hc
      refine Acc.bind (acc_mul ⟨_, has_constSub hz 1⟩ (hf.sub ht)) fun p s2 e2 hp => Acc.pure fun _ => ?_
      obtain ⟨x, hx⟩ := hp; obtain ⟨y, hy⟩ := ht
      exact ⟨_, has_addAssign hx (hy.mono e2)⟩

/-- All values a call allocates are present. -/
def Op.HasValues : Op F → Prop
  | .alloc v => v ≠ none
  | .allocInput v => v ≠ none
  | _ => True

theorem acc_op {r : List (CNum F)} (hr : ∀ x ∈ r, Valued s x) (o : Op F) (ho : o.HasValues) :
    Acc s (o.exec r) (fun r' s' => ∀ x ∈ r', Valued s' x) := by
  have hreg : ∀ (i : Nat), Acc s (reg r i) (fun x s' => Valued s x ∧ s' = s) := fun i =>
    Acc.of_post ((post_reg r i).mono fun x _ _ h => ⟨h.2, fun _ => ⟨hr x h.1, rfl⟩⟩)
  have hmono : ∀ {s' : CS F}, s.Ext s' → ∀ x ∈ r, Valued s' x := fun e x hx => (hr x hx).mono e
  cases o with
  | const v => exact Acc.pure fun _ => forall_snoc hr ⟨v, has_fromConst v⟩
  | alloc v =>
    cases v with
    | none => exact absurd rfl ho
    | some v => exact Acc.bind (acc_alloc v) fun x _ e hx => Acc.pure fun _ => forall_snoc (hmono e) hx
  | allocInput v =>
    cases v with
    | none => exact absurd rfl ho
    | some v => exact Acc.bind (acc_allocInput v) fun x _ e hx => Acc.pure fun _ => forall_snoc (hmono e) hx
  | add i j =>
    refine Acc.bind (hreg i) ?_; rintro a _ _ ⟨⟨x, ha⟩, rfl⟩
    refine Acc.bind (hreg j) ?_; rintro b _ _ ⟨⟨y, hb⟩, rfl⟩
    exact Acc.pure fun _ => forall_snoc hr ⟨_, has_add ha hb⟩
  | sub i j =>
    refine Acc.bind (hreg i) ?_; rintro a _ _ ⟨⟨x, ha⟩, rfl⟩
    refine Acc.bind (hreg j) ?_; rintro b _ _ ⟨⟨y, hb⟩, rfl⟩
    exact Acc.pure fun _ => forall_snoc hr ⟨_, has_sub ha hb⟩
  | neg i =>
    refine Acc.bind (hreg i) ?_; rintro a _ _ ⟨⟨x, ha⟩, rfl⟩
    exact Acc.pure fun _ => forall_snoc hr ⟨_, has_neg ha⟩
  | mulConst i k =>
    refine Acc.bind (hreg i) ?_; rintro a _ _ ⟨⟨x, ha⟩, rfl⟩
    exact Acc.pure fun _ => forall_snoc hr ⟨_, has_mulConst ha k⟩
  | divConst i k =>
    refine Acc.bind (hreg i) ?_; rintro a _ _ ⟨ha, rfl⟩
    exact Acc.bind (acc_divConst ha k) fun q _ e hq => Acc.pure fun _ => forall_snoc (hmono e) hq
  | mul i j =>
    refine Acc.bind (hreg i) ?_; rintro a _ _ ⟨ha, rfl⟩
    refine Acc.bind (hreg j) ?_; rintro b _ _ ⟨hb, rfl⟩
    exact Acc.bind (acc_mul ha hb) fun q _ e hq => Acc.pure fun _ => forall_snoc (hmono e) hq
  | div i j =>
    refine Acc.bind (hreg i) ?_; rintro a _ _ ⟨ha, rfl⟩
    refine Acc.bind (hreg j) ?_; rintro b _ _ ⟨hb, rfl⟩
    exact Acc.bind (acc_div ha hb) fun q _ e hq => Acc.pure fun _ => forall_snoc (hmono e) hq
  | enforce i j k =>
    refine Acc.bind (hreg i) ?_; rintro a _ _ ⟨ha, rfl⟩
    refine Acc.bind (hreg j) ?_; rintro b _ _ ⟨hb, rfl⟩
    refine Acc.bind (hreg k) ?_; rintro c _ _ ⟨hc, rfl⟩
    exact Acc.bind (acc_enforce' ha hb hc) fun q _ e hq => Acc.pure fun _ => hmono e
  | assertConst i v =>
    refine Acc.bind (hreg i) ?_; rintro a _ _ ⟨ha, rfl⟩
    exact Acc.bind (acc_assertConst ha v) fun q _ e hq => Acc.pure fun _ => hmono e
  | assertEq i j =>
    refine Acc.bind (hreg i) ?_; rintro a _ _ ⟨ha, rfl⟩
    refine Acc.bind (hreg j) ?_; rintro b _ _ ⟨hb, rfl⟩
    exact Acc.bind (acc_assertConst (ha.sub hb) 0) fun q _ e hq => Acc.pure fun _ => hmono e
  | assertNonzero i =>
    refine Acc.bind (hreg i) ?_; rintro a _ _ ⟨ha, rfl⟩
    exact Acc.bind (acc_assertNonzero ha) fun q _ e hq => Acc.pure fun _ => hmono e
  | assertBit i =>
    refine Acc.bind (hreg i) ?_; rintro a _ _ ⟨ha, rfl⟩
    exact Acc.bind (acc_assertBit ha) fun q _ e hq => Acc.pure fun _ => hmono e
  | inputize i =>
    refine Acc.bind (hreg i) ?_; rintro a _ _ ⟨ha, rfl⟩
    exact Acc.bind (acc_inputize ha) fun q _ e hq => Acc.pure fun _ => hmono e
  | isZero i =>
    refine Acc.bind (hreg i) ?_; rintro a _ _ ⟨ha, rfl⟩
    exact Acc.bind (acc_isZero ha) fun q _ e hq => Acc.pure fun _ => forall_snoc (hmono e) hq
  | isEq i j =>
    refine Acc.bind (hreg i) ?_; rintro a _ _ ⟨ha, rfl⟩
    refine Acc.bind (hreg j) ?_; rintro b _ _ ⟨hb, rfl⟩
    exact Acc.bind (acc_isZero (ha.sub hb)) fun q _ e hq => Acc.pure fun _ => forall_snoc (hmono e) hq
  | switch i b j =>
    refine Acc.bind (hreg i) ?_; rintro t _ _ ⟨ht, rfl⟩
    refine Acc.bind (hreg b) ?_; rintro c _ _ ⟨hc, rfl⟩
    refine Acc.bind (hreg j) ?_; rintro f _ _ ⟨hf, rfl⟩
    exact Acc.bind (acc_switch ht hf hc) fun q _ e hq => Acc.pure fun _ => forall_snoc (hmono e) hq

theorem acc_exec {r : List (CNum F)} (hr : ∀ x ∈ r, Valued s x) (os : List (Op F))
    (ho : ∀ o ∈ os, o.HasValues) : Acc s (exec r os) (fun r' s' => ∀ x ∈ r', Valued s' x) := by
  induction os generalizing s r with
  | nil => exact Acc.pure fun _ => hr
  | cons o os ih =>
    exact Acc.bind (acc_op hr o (ho o (by simp))) fun r' s' _ h => ih h fun o' ho' => ho o' (by simp [ho'])

end Fawkes
