import Verif.Lemmas.Mode
import Verif.Lemmas.CEcc
import Verif.Lemmas.PoseidonVaries
import Verif.Spec.Unique

/-!
# Two satisfying assignments

`Rig w w' s m Q`: whenever `m` runs from `s` and both assignments satisfy the constraints of the final state, then, if
they agree on the variables of `s`, they agree on all variables of the final state, and `Q` holds.
-/

set_option linter.unusedSectionVars false

namespace Fawkes

variable {F : Type} [Field F] [DecidableEq F] {α β : Type} {w w' : Index → F} {s : CS F}

/-- The signal has the same value in both assignments. -/
def Same (w w' : Index → F) (a : CNum F) : Prop := a.eval w = a.eval w'

/-- The rigidity triple. -/
def Rig (w w' : Index → F) (s : CS F) (m : M F α) (Q : α → CS F → Prop) : Prop :=
  ∀ a s', m.run s = .ok (a, s') → s'.Sat w → s'.Sat w' → Agree w w' s → Agree w w' s' ∧ Q a s'

/-- Every run satisfied by both assignments establishes `P`. -/
def Forces (w w' : Index → F) (s : CS F) (m : M F α) (P : Prop) : Prop :=
  ∀ a s', m.run s = .ok (a, s') → s'.Sat w → s'.Sat w' → P

namespace Rig

variable {Q : α → CS F → Prop} {R : β → CS F → Prop}

theorem pure {a : α} (h : Q a s) : Rig w w' s (Pure.pure a : M F α) Q := by
  intro b s' hb _ _ ha; rw [M.run_pure] at hb; injection hb with hb; injection hb with h1 h2
  subst h1 h2; exact ⟨ha, h⟩

theorem bind {m : M F α} {f : α → M F β} (hm : Rig w w' s m Q)
    (hf : ∀ a s1, s.Ext s1 → Q a s1 → Rig w w' s1 (f a) R) : Rig w w' s (m >>= f) R := by
  intro b s' h hs hs' ha
  obtain ⟨a, s1, h1, h2⟩ := M.bind_ok h
  have e2 := M.run_ext h2
  obtain ⟨ha1, hq⟩ := hm _ _ h1 (e2.sat hs) (e2.sat hs') ha
  exact hf a s1 (M.run_ext h1) hq _ _ h2 hs hs' ha1

theorem mono {m : M F α} {Q' : α → CS F → Prop} (h : Rig w w' s m Q)
    (hq : ∀ a s', s.Ext s' → Q a s' → Q' a s') : Rig w w' s m Q' := fun a s' hr hs hs' ha =>
  ⟨(h a s' hr hs hs' ha).1, hq a s' (M.run_ext hr) (h a s' hr hs hs' ha).2⟩

theorem and_spec {m : M F α} {Q' : α → CS F → Prop} (h : Rig w w' s m Q) (h' : Spec w s m Q') :
    Rig w w' s m (fun a s' => Q a s' ∧ Q' a s') := fun a s' hr hs hs' ha =>
  ⟨(h a s' hr hs hs' ha).1, (h a s' hr hs hs' ha).2, h' a s' hr hs⟩

theorem and_post {m : M F α} {Q' : α → CS F → Prop} (h : Rig w w' s m Q) (h' : Post s m Q') :
    Rig w w' s m (fun a s' => Q a s' ∧ Q' a s') := h.and_spec (.of_post h')

theorem of_post {m : M F α} (h : Post s m (fun a s' => s'.vars = s.vars ∧ Q a s')) : Rig w w' s m Q :=
  fun a s' hr _ _ ha => ⟨by unfold Agree; rw [(h a s' hr).1]; exact ha, (h a s' hr).2⟩

theorem panic {e : Panic} : Rig w w' s (M.panic e : M F α) Q := of_post Post.panic

theorem lift {x : Except Panic α} (h : ∀ a, x = .ok a → Q a s) : Rig w w' s (M.lift x) Q :=
  of_post (Post.lift fun a ha => ⟨rfl, h a ha⟩)

theorem assert {b : Bool} {e : Panic} {Q : Unit → CS F → Prop} (h : b = true → Q () s) : Rig w w' s (M.assert b e) Q :=
  of_post (Post.assert fun hb => ⟨rfl, h hb⟩)

theorem forces {m : M F α} {P : Prop} (h : Rig w w' s m (fun _ _ => True)) (h' : Forces w w' s m P) :
    Rig w w' s m (fun _ _ => P) := fun a s' hr hs hs' ha => ⟨(h a s' hr hs hs' ha).1, h' a s' hr hs hs'⟩

end Rig

theorem Forces.bind {m : M F α} {f : α → M F β} {P : Prop} (hf : ∀ a s1, Forces w w' s1 (f a) P) :
    Forces w w' s (m >>= f) P := by
  intro b s' h hs hs'
  obtain ⟨a, s1, h1, h2⟩ := M.bind_ok h
  exact hf a s1 _ _ h2 hs hs'

theorem Forces.of_spec {m : M F α} {P : Prop} {Q Q' : α → CS F → Prop} (h : Spec w s m Q) (h' : Spec w' s m Q')
    (hp : ∀ a s', Q a s' → Q' a s' → P) : Forces w w' s m P := fun a s' hr hs hs' =>
  hp a s' (h a s' hr hs) (h' a s' hr hs')

theorem same_var {k : Index} {a : CNum F} (h : a.lc = [(k, 1)]) : Same w w' a ↔ w k = w' k := by
  simp [Same, CNum.eval, h, LC.eval]

/-- An allocation followed by code that forces the value of the new variable. -/
theorem Rig.alloc_bind {v : Option F} {f : CNum F → M F β} {R : β → CS F → Prop}
    (hx : ∀ x s1, s.Ext s1 → Forces w w' s1 (f x) (Same w w' x))
    (hf : ∀ x s1, s.Ext s1 → Same w w' x → Rig w w' s1 (f x) R) : Rig w w' s (CNum.alloc v >>= f) R := by
  intro b s' h hs hs' ha
  obtain ⟨x, s1, h1, h2⟩ := M.bind_ok h
  have e1 := M.run_ext h1
  have hsame := hx x s1 e1 _ _ h2 hs hs'
  obtain ⟨-, hl, rfl⟩ := post_alloc s v _ _ h1
  refine hf x _ e1 hsame _ _ h2 hs hs' ?_
  intro k hk
  rw [pushVar_vars, List.map_append, List.mem_append] at hk
  rcases hk with hk | hk
  · exact ha k hk
  · simp only [List.map_cons, List.map_nil, List.mem_singleton] at hk
    subst hk
    exact (same_var hl).1 hsame

section linear
variable {a b : CNum F}

theorem Same.fromConst (hw : IsAssignment w) (hw' : IsAssignment w') (k : F) : Same w w' (CNum.fromConst k) := by
  unfold Same; rw [CNum.eval_fromConst hw, CNum.eval_fromConst hw']

theorem Same.zero (hw : IsAssignment w) (hw' : IsAssignment w') : Same w w' (CNum.zero : CNum F) := .fromConst hw hw' 0

theorem Same.one (hw : IsAssignment w) (hw' : IsAssignment w') : Same w w' (CNum.one : CNum F) := .fromConst hw hw' 1

theorem Same.addAssign (ha : Same w w' a) (hb : Same w w' b) : Same w w' (CNum.addAssign a b) := by
  unfold Same at *; rw [CNum.eval_addAssign, CNum.eval_addAssign, ha, hb]

theorem Same.add (ha : Same w w' a) (hb : Same w w' b) : Same w w' (CNum.add a b) := by
  unfold Same at *; rw [CNum.eval_add, CNum.eval_add, ha, hb]

theorem Same.sub (ha : Same w w' a) (hb : Same w w' b) : Same w w' (CNum.sub a b) := by
  unfold Same at *; rw [CNum.eval_sub, CNum.eval_sub, ha, hb]

theorem Same.neg (ha : Same w w' a) : Same w w' (CNum.neg a) := by
  unfold Same at *; rw [CNum.eval_neg, CNum.eval_neg, ha]

theorem Same.mulConst (hw : IsAssignment w) (hw' : IsAssignment w') (ha : Same w w' a) (k : F) :
    Same w w' (CNum.mulConst a k) := by
  unfold Same at *; rw [CNum.eval_mulConst hw, CNum.eval_mulConst hw', ha]

theorem Same.addConst (hw : IsAssignment w) (hw' : IsAssignment w') (ha : Same w w' a) (k : F) :
    Same w w' (CNum.addConst a k) := ha.addAssign (.fromConst hw hw' k)

theorem Same.subConst (hw : IsAssignment w) (hw' : IsAssignment w') (ha : Same w w' a) (k : F) :
    Same w w' (CNum.subConst a k) := ha.sub (.fromConst hw hw' k)

theorem Same.constSub (hw : IsAssignment w) (hw' : IsAssignment w') (ha : Same w w' a) (k : F) :
    Same w w' (CNum.constSub k a) := (Same.fromConst hw hw' k).sub ha

/-- Signals over allocated variables have the same value in assignments that agree. -/
theorem Agree.same (hw : IsAssignment w) (hw' : IsAssignment w') (h : Agree w w' s) (ha : a.lc.Alloc s) :
    Same w w' a := by
  unfold Same CNum.eval LC.eval
  congr 1
  apply List.map_congr_left
  intro kv hkv
  rcases ha kv.1 (List.mem_map_of_mem hkv) with h0 | h0
  · rw [h0, hw, hw']
  · rw [h _ h0]

end linear

section prims
variable (hw : IsAssignment w) (hw' : IsAssignment w') {a b : CNum F}
include hw hw'

theorem rig_enforce (a b c : CNum F) : Rig w w' s (CS.enforce a b c) (fun _ _ => True) :=
  Rig.of_post ((post_enforce s a b c).mono fun _ s' _ h => ⟨by rw [h.1], trivial⟩)

theorem rig_mul (ha : Same w w' a) (hb : Same w w' b) : Rig w w' s (CNum.mul a b) (fun c _ => Same w w' c) := by
  unfold CNum.mul
  split
  · exact Rig.pure (hb.mulConst hw hw' _)
  · exact Rig.pure (ha.mulConst hw hw' _)
  · refine Rig.alloc_bind (fun c s1 e1 => ?_) fun c s1 e1 hc => ?_
    · intro u s' h hs hs'
      obtain ⟨_, s2, h1, h2⟩ := M.bind_ok h
      have e2 := M.run_ext h2
      have h3 := spec_enforce (w := w) a b c _ _ h1 (e2.sat hs)
      have h4 := spec_enforce (w := w') a b c _ _ h1 (e2.sat hs')
      unfold Same at *
      rw [← h3, ← h4, ha, hb]
    · exact Rig.bind (rig_enforce hw hw' a b c) fun _ s2 _ _ => Rig.pure hc

theorem rig_divConst (ha : Same w w' a) (k : F) : Rig w w' s (CNum.divConst a k) (fun c _ => Same w w' c) := by
  refine Rig.of_post ((post_divConst a k).mono fun q s' _ h => ⟨by rw [h.1], ?_⟩)
  unfold Same CNum.eval at *
  rw [h.2.1, LC.eval_map_div, LC.eval_map_div, ha]

/-- A quotient is determined unless both operands are variable and the divisor is zero. -/
theorem rig_div (ha : Same w w' a) (hb : Same w w' b) (h0 : a.asConst = none → b.asConst = none → b.eval w ≠ 0) :
    Rig w w' s (CNum.div a b) (fun c _ => Same w w' c) := by
  unfold CNum.div
  split
  · exact rig_divConst hw hw' hb _
  · exact rig_divConst hw hw' ha _
  · next h1 h2 =>
    have h0 := h0 h1 h2
    refine Rig.bind (Q := fun _ _ => True) (Rig.of_post ?_) fun v s1 _ _ => ?_
    · unfold CNum.divValue
      split
      · split
        · exact Post.panic
        · exact Post.pure ⟨rfl, trivial⟩
      · exact Post.pure ⟨rfl, trivial⟩
    refine Rig.alloc_bind (fun c s1 e1 => ?_) fun c s1 e1 hc => ?_
    · intro u s' h hs hs'
      obtain ⟨_, s2, h1, h2⟩ := M.bind_ok h
      have e2 := M.run_ext h2
      have h3 := spec_enforce (w := w) c b a _ _ h1 (e2.sat hs)
      have h4 := spec_enforce (w := w') c b a _ _ h1 (e2.sat hs')
      unfold Same at *
      rw [← ha, ← hb, ← h3] at h4
      exact mul_right_cancel₀ h0 h4.symm
    · exact Rig.bind (rig_enforce hw hw' c b a) fun _ s2 _ _ => Rig.pure hc

theorem rig_square (ha : Same w w' a) : Rig w w' s (CNum.square a) (fun c _ => Same w w' c) := rig_mul hw hw' ha ha

theorem rig_assertConst (c : F) : Rig w w' s (CNum.assertConst a c) (fun _ _ => True) := by
  unfold CNum.assertConst
  split
  · exact Rig.assert fun _ => trivial
  · exact rig_enforce hw hw' _ _ _

theorem rig_assertZero : Rig w w' s (CNum.assertZero a) (fun _ _ => True) := rig_assertConst hw hw' 0

theorem rig_assertEq : Rig w w' s (CNum.assertEq a b) (fun _ _ => True) := rig_assertZero hw hw'

theorem rig_assertBit : Rig w w' s (CNum.assertBit a) (fun _ _ => True) := by
  unfold CNum.assertBit
  split
  · exact Rig.assert fun _ => trivial
  · exact rig_enforce hw hw' _ _ _

/-- The helper of `assert_nonzero` is the inverse. -/
theorem rig_assertNonzero (ha : Same w w' a) : Rig w w' s (CNum.assertNonzero a) (fun _ _ => True) := by
  unfold CNum.assertNonzero
  split
  · exact Rig.assert fun _ => trivial
  · refine Rig.alloc_bind (fun c s1 e1 => ?_) fun c s1 e1 hc => rig_enforce hw hw' _ _ _
    refine Forces.of_spec (spec_enforce a c _) (spec_enforce a c _) fun _ _ h1 h2 => ?_
    unfold Same at *
    rw [CNum.eval_one hw] at h1
    rw [CNum.eval_one hw', ← ha, ← h1] at h2
    refine mul_left_cancel₀ (fun h0 => ?_) h2.symm
    rw [h0, zero_mul] at h1
    exact zero_ne_one h1

/-- The helpers of a zero test are determined when the tested value is not zero. -/
theorem rig_isZero (ha : Same w w' a) (h0 : a.asConst = none → a.eval w ≠ 0) :
    Rig w w' s (CNum.isZero a) (fun c _ => Same w w' c.num) := by
  unfold CNum.isZero
  split
  · exact Rig.pure (.fromConst hw hw' _)
  · next hc =>
    have h0 := h0 hc
    refine Rig.alloc_bind (fun c s1 e1 => ?_) fun c s1 e1 hc => ?_
    · have key : ∀ v, IsAssignment v → Spec v s1 (do
          CNum.assertNonzero c
          let res ← CNum.mul c a
          CNum.assertBit res
          pure (CBool.mk (CNum.sub CNum.one res))) (fun _ _ => a.eval v ≠ 0 → c.eval v * a.eval v = 1) := by
        intro v hv
        refine Spec.bind (spec_assertNonzero hv c) fun _ s2 _ hn => ?_
        refine Spec.bind (spec_mul hv c a) fun res s3 _ hr => ?_
        refine Spec.bind (spec_assertBit hv res) fun _ s4 _ hb => ?_
        refine Spec.pure fun _ hav => ?_
        rcases hb with hb | hb
        · rw [hr] at hb
          rcases mul_eq_zero.1 hb with h | h
          · exact absurd h hn
          · exact absurd h hav
        · rw [← hr, hb]
      refine Forces.of_spec (key w hw) (key w' hw') fun _ _ h1 h2 => ?_
      unfold Same at *
      have h1 := h1 h0
      have h2 := h2 (ha ▸ h0)
      rw [← ha, ← h1] at h2
      exact mul_right_cancel₀ h0 h2.symm
    · refine Rig.bind (rig_assertNonzero hw hw' hc) fun _ s2 _ _ => ?_
      refine Rig.bind (rig_mul hw hw' hc ha) fun res s3 _ hr => ?_
      refine Rig.bind (rig_assertBit hw hw') fun _ s4 _ _ => ?_
      exact Rig.pure ((Same.one hw hw').sub hr)

theorem rig_isEq (ha : Same w w' a) (hb : Same w w' b) (h0 : (CNum.sub a b).asConst = none → a.eval w ≠ b.eval w) :
    Rig w w' s (CNum.isEq a b) (fun c _ => Same w w' c.num) :=
  rig_isZero hw hw' (ha.sub hb) fun hc h => h0 hc (by rwa [CNum.eval_sub, sub_eq_zero] at h)

theorem rig_switch {t f : CNum F} {b : CBool F} (ht : Same w w' t) (hf : Same w w' f) (hb : Same w w' b.num) :
    Rig w w' s (CNum.switch t b f) (fun c _ => Same w w' c) := by
  unfold CNum.switch
  refine Rig.bind (Q := fun _ _ => True) (Rig.lift fun _ _ => trivial) fun r s1 _ _ => ?_
  match r with
  | some true => exact Rig.pure ht
  | some false => exact Rig.pure hf
  | none =>
    dsimp only
    split
    · exact Rig.bind (rig_mul hw hw' hb (ht.sub hf)) fun p s2 _ hp => Rig.pure (hp.addAssign hf)
    · exact Rig.bind (rig_mul hw hw' (hb.constSub hw hw' 1) (hf.sub ht)) fun p s2 _ hp => Rig.pure (hp.addAssign ht)

/-- `inputize` pins its new public variable. -/
theorem rig_inputize (ha : Same w w' a) : Rig w w' s (CNum.inputize a) (fun _ _ => True) := by
  have key : ∀ (v : Option F) (c : CNum F), Same w w' c → Rig w w' s (do
      let i ← CS.allocInput v
      CS.enforce (CNum.fromVar v i) CNum.one c) (fun _ _ => True) := by
    intro v c hc u s' h hs hs' hag
    refine ⟨?_, trivial⟩
    obtain ⟨i, s1, h1, h2⟩ := M.bind_ok h
    have h3 := spec_enforce (w := w) _ _ _ _ _ h2 hs
    have h4 := spec_enforce (w := w') _ _ _ _ _ h2 hs'
    obtain ⟨rfl, -⟩ := post_enforce _ _ _ _ _ _ h2
    rw [run_csallocInput] at h1
    have hi : ∀ k ∈ s1.vars.map Prod.fst, k ∈ s.vars.map Prod.fst ∨ k = i := by
      intro k hk
      split at h1
      · cases h1
      · injection h1 with h1; injection h1 with h5 h6
        subst h6
        rw [pushVar_vars, List.map_append, List.mem_append] at hk
        rcases hk with hk | hk
        · exact Or.inl hk
        · refine Or.inr ?_
          simp only [List.map_cons, List.map_nil, List.mem_singleton] at hk
          rw [hk, h5]
    intro k hk
    rcases hi k hk with hk | hk
    · exact hag k hk
    · subst hk
      have h5 : Same w w' (CNum.fromVar v k) := by
        unfold Same at *
        rw [CNum.eval_one hw, mul_one] at h3
        rw [CNum.eval_one hw', mul_one] at h4
        rw [h3, h4, hc]
      exact (same_var rfl).1 h5
  unfold CNum.inputize
  split
  · exact key _ _ (.fromConst hw hw' _)
  · exact key _ _ ha

end prims


/-! ## Lists of signals, multiplexer, hash functions -/

section lists
variable (hw : IsAssignment w) (hw' : IsAssignment w')
include hw hw'

theorem rig_column {s0 s1 s2 : CBool F} {s10 : CNum F} (h0 : Same w w' s0.num) (h1 : Same w w' s1.num)
    (h2 : Same w w' s2.num) (h10 : Same w w' s10) (c0 c1 c2 c3 c4 c5 c6 c7 : F) :
    Rig w w' s (Mux.column s0 s1 s2 s10 c0 c1 c2 c3 c4 c5 c6 c7) (fun r _ => Same w w' r) := by
  unfold Mux.column
  have m {x : CNum F} (hx : Same w w' x) (k : F) := hx.mulConst hw hw' k
  refine Rig.bind (rig_mul hw hw' ((((m h10 _).add (m h1 _)).add (m h0 _)).addConst hw hw' _) h2) fun t s1' _ ht => ?_
  exact Rig.pure ((((ht.add (m h10 _)).add (m h1 _)).add (m h0 _)).addConst hw hw' _)

theorem rig_columns {s0 s1 s2 : CBool F} {s10 : CNum F} (h0 : Same w w' s0.num) (h1 : Same w w' s1.num)
    (h2 : Same w w' s2.num) (h10 : Same w w' s10) (c : List (List F)) : ∀ {s : CS F},
    Rig w w' s (Mux.columns s0 s1 s2 s10 c) (fun r _ => ∀ x ∈ r, Same w w' x) := by
  induction c with
  | nil => intro s; exact Rig.pure (by simp)
  | cons col c ih =>
    intro s
    unfold Mux.columns
    split
    · exact Rig.pure (by simp)
    · next heq =>
      injection heq with ha hb
      subst ha hb
      refine Rig.bind (rig_column hw hw' h0 h1 h2 h10 _ _ _ _ _ _ _ _) fun r s1' e1 hr => ?_
      refine Rig.bind ih fun rs s2' e2 hrs => ?_
      refine Rig.pure fun x hx => ?_
      rcases List.mem_cons.1 hx with rfl | hx
      · exact hr
      · exact hrs x hx
    · exact Rig.panic

theorem rig_mux3 {sb : List (CBool F)} (hb : ∀ b ∈ sb, Same w w' b.num) (c : List (List F)) :
    Rig w w' s (Mux.mux3 sb c) (fun r _ => ∀ x ∈ r, Same w w' x) := by
  unfold Mux.mux3
  refine Rig.bind (Q := fun _ _ => True) (Rig.assert fun _ => trivial) fun _ s1 e1 _ => ?_
  refine Rig.bind (Q := fun _ _ => True) (Rig.assert fun _ => trivial) fun _ s2 e2 _ => ?_
  split
  · next s0 s1' s2' =>
    refine Rig.bind (rig_mul hw hw' (hb s0 (by simp)) (hb s1' (by simp))) fun s10 s3 e3 h10 => ?_
    exact rig_columns hw hw' (hb s0 (by simp)) (hb s1' (by simp)) (hb s2' (by simp)) h10 c
  · exact Rig.panic

theorem rig_sigma {a : CNum F} (ha : Same w w' a) : Rig w w' s (CPoseidon.sigma a) (fun c _ => Same w w' c) := by
  unfold CPoseidon.sigma
  refine Rig.bind (rig_mul hw hw' ha ha) fun x s1 _ hx => ?_
  refine Rig.bind (rig_mul hw hw' hx hx) fun y s2 _ hy => ?_
  exact rig_mul hw hw' hy ha

theorem rig_sigmaAll (l : List (CNum F)) : ∀ {s : CS F}, (∀ a ∈ l, Same w w' a) →
    Rig w w' s (CPoseidon.sigmaAll l) (fun r _ => ∀ x ∈ r, Same w w' x) := by
  induction l with
  | nil => intro s _; exact Rig.pure (by simp)
  | cons x xs ih =>
    intro s h
    unfold CPoseidon.sigmaAll
    refine Rig.bind (rig_sigma hw hw' (h x (by simp))) fun y s1 _ hy => ?_
    refine Rig.bind (ih fun a ha => h a (by simp [ha])) fun ys s2 _ hys => ?_
    refine Rig.pure fun z hz => ?_
    rcases List.mem_cons.1 hz with rfl | hz
    · exact hy
    · exact hys z hz

theorem same_mixRow {st : List (CNum F)} (h : ∀ a ∈ st, Same w w' a) (row : List F) {acc r : CNum F}
    (ha : Same w w' acc) (hr : CPoseidon.mixRow st row acc = .ok r) : Same w w' r := by
  induction st generalizing row acc with
  | nil => cases row <;> (unfold CPoseidon.mixRow at hr; cases hr; exact ha)
  | cons x st ih =>
    match row with
    | [] => unfold CPoseidon.mixRow at hr; cases hr
    | c :: row =>
      unfold CPoseidon.mixRow at hr
      exact ih (fun a ha => h a (by simp [ha])) row (ha.addAssign ((h x (by simp)).mulConst hw hw' c)) hr

theorem same_mixRows {st : List (CNum F)} (h : ∀ a ∈ st, Same w w' a) (rows : List (List F)) (n : Nat)
    {r : List (CNum F)} (hr : CPoseidon.mixRows st rows n = .ok r) : ∀ a ∈ r, Same w w' a := by
  induction n generalizing rows r with
  | zero => cases rows <;> (unfold CPoseidon.mixRows at hr; cases hr; simp)
  | succ n ih =>
    match rows with
    | [] => unfold CPoseidon.mixRows at hr; cases hr
    | row :: rows =>
      unfold CPoseidon.mixRows at hr
      cases h1 : CPoseidon.mixRow st row CNum.zero with
      | error e => rw [h1] at hr; cases hr
      | ok x =>
        rw [h1] at hr
        cases h2 : CPoseidon.mixRows st rows n with
        | error e =>
          change (CPoseidon.mixRows st rows n >>= fun xs => Except.ok (x :: xs)) = _ at hr
          rw [h2] at hr; cases hr
        | ok xs =>
          change (CPoseidon.mixRows st rows n >>= fun xs => Except.ok (x :: xs)) = _ at hr
          rw [h2] at hr
          cases hr
          intro a ha
          rcases List.mem_cons.1 ha with rfl | ha
          · exact same_mixRow hw hw' h row (.zero hw hw') h1
          · exact ih rows h2 a ha

theorem rig_layer (P : PoseidonParams F) (i : Nat) {st : List (CNum F)} (h : ∀ a ∈ st, Same w w' a) :
    Rig w w' s (CPoseidon.layer P i st) (fun r _ => ∀ x ∈ r, Same w w' x) := by
  unfold CPoseidon.layer
  split
  · exact rig_sigmaAll hw hw' st h
  · split
    · exact Rig.panic
    · next x xs =>
      refine Rig.bind (rig_sigma hw hw' (h x (by simp))) fun y s1 _ hy => ?_
      refine Rig.pure fun z hz => ?_
      rcases List.mem_cons.1 hz with rfl | hz
      · exact hy
      · exact h z (by simp [hz])

theorem rig_rounds (P : PoseidonParams F) (n : Nat) : ∀ (i : Nat) {s : CS F} {st : List (CNum F)},
    (∀ a ∈ st, Same w w' a) → Rig w w' s (CPoseidon.rounds P n i st) (fun r _ => ∀ x ∈ r, Same w w' x) := by
  induction n with
  | zero => intro i s st h; exact Rig.pure h
  | succ n ih =>
    intro i s st h
    unfold CPoseidon.rounds
    refine Rig.bind (Q := fun _ _ => True) (Rig.lift fun _ _ => trivial) fun c s1 _ _ => ?_
    refine Rig.bind (rig_layer hw hw' P i (st := CPoseidon.ark st c) ?_) fun st' s2 _ h' => ?_
    · intro a ha
      obtain ⟨b, hb, rfl⟩ := List.mem_map.1 ha
      exact (h b hb).addConst hw hw' c
    refine Rig.bind (Q := fun r _ => ∀ x ∈ r, Same w w' x)
      (Rig.lift fun r hr => same_mixRows hw hw' h' _ _ hr) fun st'' s3 _ h'' => ?_
    exact ih (i + 1) h''

theorem same_getIdx {l : List (CNum F)} {i : Nat} {r : CNum F} (h : ∀ a ∈ l, Same w w' a) (hr : getIdx l i = .ok r) :
    Same w w' r := by
  unfold getIdx at hr
  cases hl : l[i]? with
  | none => rw [hl] at hr; cases hr
  | some x =>
    rw [hl] at hr
    cases hr
    exact h _ (List.mem_of_getElem? hl)

theorem rig_poseidon (P : PoseidonParams F) {inputs : List (CNum F)} (h : ∀ a ∈ inputs, Same w w' a) :
    Rig w w' s (CPoseidon.poseidon inputs P) (fun r _ => Same w w' r) := by
  unfold CPoseidon.poseidon
  split
  · exact Rig.panic
  · split
    · exact Rig.panic
    · refine Rig.bind (rig_rounds hw hw' P _ 0 ?_) fun st s1 _ hst => Rig.lift fun r hr => same_getIdx hw hw' hst hr
      intro a ha
      rcases List.mem_append.1 ha with ha | ha
      · exact h a ha
      · rw [(List.mem_replicate.1 ha).2]; exact .zero hw hw'

theorem rig_poseidonWithSalt (P : PoseidonParams F) (seed : F) {inputs : List (CNum F)} (h : ∀ a ∈ inputs, Same w w' a) :
    Rig w w' s (CPoseidon.poseidonWithSalt inputs seed P) (fun r _ => Same w w' r) := by
  unfold CPoseidon.poseidonWithSalt
  split
  · exact Rig.panic
  · split
    · exact Rig.panic
    · refine rig_poseidon hw hw' P fun a ha => ?_
      rcases List.mem_append.1 ha with ha | ha
      · exact h a ha
      · rw [List.mem_singleton.1 ha]; exact .fromConst hw hw' seed

theorem rig_proofLoop (P : PoseidonParams F) (l : List (CBool F × CNum F)) : ∀ {s : CS F} {root : CNum F},
    Same w w' root → (∀ x ∈ l, Same w w' x.1.num ∧ Same w w' x.2) →
    Rig w w' s (CPoseidon.proofLoop P root l) (fun r _ => Same w w' r) := by
  induction l with
  | nil => intro s root hr _; unfold CPoseidon.proofLoop; exact Rig.pure hr
  | cons x l ih =>
    intro s root hr h
    obtain ⟨b, sb⟩ := x
    obtain ⟨hb, hs⟩ := h (b, sb) (by simp)
    unfold CPoseidon.proofLoop
    refine Rig.bind (rig_switch hw hw' hs hr hb) fun f s1 _ hf => ?_
    refine Rig.bind (rig_poseidon hw hw' P (inputs := [f, _]) ?_) fun r s2 _ hr' => ih hr' fun x hx => h x (by simp [hx])
    intro a ha
    simp only [List.mem_cons, List.not_mem_nil, or_false] at ha
    rcases ha with rfl | rfl
    · exact hf
    · exact (hr.add hs).sub hf

theorem rig_merkleProofRoot (P : PoseidonParams F) {leaf : CNum F} {sibling : List (CNum F)} {path : List (CBool F)}
    (hl : Same w w' leaf) (hs : ∀ a ∈ sibling, Same w w' a) (hp : ∀ b ∈ path, Same w w' b.num) :
    Rig w w' s (CPoseidon.merkleProofRoot leaf sibling path P) (fun r _ => Same w w' r) :=
  rig_proofLoop hw hw' P _ hl fun _ hx => ⟨hp _ (List.of_mem_zip hx).1, hs _ (List.of_mem_zip hx).2⟩

theorem rig_treeInner (P : PoseidonParams F) (n : Nat) : ∀ (i : Nat) {s : CS F} {st : List (CNum F)},
    (∀ a ∈ st, Same w w' a) → Rig w w' s (CPoseidon.treeInner P n i st) (fun r _ => ∀ x ∈ r, Same w w' x) := by
  induction n with
  | zero => intro i s st h; exact Rig.pure h
  | succ n ih =>
    intro i s st h
    unfold CPoseidon.treeInner
    refine Rig.bind (Q := fun r _ => Same w w' r) (Rig.lift fun r hr => same_getIdx hw hw' h hr) fun a s1 _ ha => ?_
    refine Rig.bind (Q := fun r _ => Same w w' r) (Rig.lift fun r hr => same_getIdx hw hw' h hr) fun b s2 _ hb => ?_
    refine Rig.bind (rig_poseidon hw hw' P (inputs := [a, b]) ?_) fun r s3 _ hr => ih (i + 1) fun x hx => ?_
    · intro x hx
      simp only [List.mem_cons, List.not_mem_nil, or_false] at hx
      rcases hx with rfl | rfl
      · exact ha
      · exact hb
    · rcases List.mem_or_eq_of_mem_set hx with hx | rfl
      · exact h x hx
      · exact hr

theorem rig_treeLevels (P : PoseidonParams F) (total n : Nat) : ∀ (j : Nat) {s : CS F} {st : List (CNum F)},
    (∀ a ∈ st, Same w w' a) → Rig w w' s (CPoseidon.treeLevels P total n j st) (fun r _ => ∀ x ∈ r, Same w w' x) := by
  induction n with
  | zero => intro j s st h; exact Rig.pure h
  | succ n ih =>
    intro j s st h
    unfold CPoseidon.treeLevels
    exact Rig.bind (rig_treeInner hw hw' P _ 0 h) fun st' s1 _ h' => ih (j + 1) h'

theorem rig_merkleTreeRoot (P : PoseidonParams F) {leaf : List (CNum F)} (h : ∀ a ∈ leaf, Same w w' a) :
    Rig w w' s (CPoseidon.merkleTreeRoot leaf P) (fun r _ => Same w w' r) := by
  unfold CPoseidon.merkleTreeRoot
  split
  · exact Rig.panic
  · refine Rig.bind (rig_treeLevels hw hw' P _ _ 0 ?_) fun st s1 _ hst => Rig.lift fun r hr => same_getIdx hw hw' hst hr
    intro a ha
    rcases List.mem_append.1 ha with ha | ha
    · exact h a ha
    · rw [(List.mem_replicate.1 ha).2]; exact .zero hw hw'

end lists

/-! ## Curve points -/

section curve
variable (hw : IsAssignment w) (hw' : IsAssignment w') {C : EdCurve F} {J : JubJubParams F}
include hw hw'

/-- The coordinates have the same values. -/
def SamePoint (w w' : Index → F) (p : CEdwardsPoint F) : Prop := Same w w' p.x ∧ Same w w' p.y

theorem rig_edAdd (hd : J.d = C.d) {p q : CEdwardsPoint F} (hp : SamePoint w w' p) (hq : SamePoint w w' q)
    {P Q : EdPoint C} (hP : p.x.eval w = P.x ∧ p.y.eval w = P.y) (hQ : q.x.eval w = Q.x ∧ q.y.eval w = Q.y) :
    Rig w w' s (p.add q J) (fun r _ => SamePoint w w' r) := by
  unfold CEdwardsPoint.add
  refine Rig.bind ((rig_mul hw hw' hp.1 hq.2).and_spec (spec_mul hw _ _)) fun v1 s1 _ ⟨h1, e1⟩ => ?_
  refine Rig.bind ((rig_mul hw hw' hq.1 hp.2).and_spec (spec_mul hw _ _)) fun v2 s2 _ ⟨h2, e2⟩ => ?_
  refine Rig.bind ((rig_mul hw hw' h1 h2).and_spec (spec_mul hw _ _)) fun v12 s3 _ ⟨h12, e12⟩ => ?_
  refine Rig.bind (rig_mul hw hw' (hp.1.add hp.2) (hq.1.add hq.2)) fun u s4 _ hu => ?_
  have hd1 := EdPoint.denom_add_ne C P.on Q.on
  have hd2 := EdPoint.denom_sub_ne C P.on Q.on
  rw [e1, e2, hP.1, hP.2, hQ.1, hQ.2] at e12
  refine Rig.bind (rig_div hw hw' (h1.add h2) ((h12.mulConst hw hw' _).addConst hw hw' _) fun _ _ h => hd1 ?_)
    fun x s5 _ hx => ?_
  · rw [CNum.eval_addConst hw, CNum.eval_mulConst hw, e12, hd] at h
    linear_combination h
  refine Rig.bind (rig_div hw hw' ((hu.sub h1).sub h2) ((h12.mulConst hw hw' _).constSub hw hw' _) fun _ _ h => hd2 ?_)
    fun y s6 _ hy => Rig.pure ⟨hx, hy⟩
  rw [CNum.eval_constSub hw, CNum.eval_mulConst hw, e12, hd] at h
  linear_combination h

theorem rig_edDouble (hd : J.d = C.d) {p : CEdwardsPoint F} (hp : SamePoint w w' p)
    {P : EdPoint C} (hP : p.x.eval w = P.x ∧ p.y.eval w = P.y) :
    Rig w w' s (p.double J) (fun r _ => SamePoint w w' r) := by
  unfold CEdwardsPoint.double
  refine Rig.bind ((rig_mul hw hw' hp.1 hp.2).and_spec (spec_mul hw _ _)) fun v s1 _ ⟨h1, e1⟩ => ?_
  refine Rig.bind ((rig_square hw hw' h1).and_spec (spec_square hw _)) fun v2 s2 _ ⟨h2, e2⟩ => ?_
  refine Rig.bind (rig_square hw hw' (hp.1.add hp.2)) fun u s4 _ hu => ?_
  have hd1 := EdPoint.denom_add_ne C P.on P.on
  have hd2 := EdPoint.denom_sub_ne C P.on P.on
  rw [e1, hP.1, hP.2] at e2
  have m {x : CNum F} (hx : Same w w' x) (k : F) := hx.mulConst hw hw' k
  refine Rig.bind (rig_div hw hw' (m h1 2) ((m h2 _).addConst hw hw' _) fun _ _ h => hd1 ?_)
    fun x s5 _ hx => ?_
  · rw [CNum.eval_addConst hw, CNum.eval_mulConst hw, e2, hd] at h
    linear_combination h
  refine Rig.bind (rig_div hw hw' (hu.sub (m h1 2)) ((m h2 _).constSub hw hw' _) fun _ _ h => hd2 ?_)
    fun y s6 _ hy => Rig.pure ⟨hx, hy⟩
  rw [CNum.eval_constSub hw, CNum.eval_mulConst hw, e2, hd] at h
  linear_combination h

theorem rig_assertInCurve {p : CEdwardsPoint F} (hp : SamePoint w w' p) :
    Rig w w' s (p.assertInCurve J) (fun _ _ => True) := by
  unfold CEdwardsPoint.assertInCurve
  refine Rig.bind (rig_square hw hw' hp.1) fun x2 s1 _ _ => ?_
  refine Rig.bind (rig_square hw hw' hp.2) fun y2 s2 _ _ => ?_
  exact rig_enforce hw hw' _ _ _

theorem rig_intoMontgomery {p : CEdwardsPoint F} (hp : SamePoint w w' p) (h1 : p.y.eval w ≠ 1) (h0 : p.x.eval w ≠ 0) :
    Rig w w' s p.intoMontgomery (fun r _ => Same w w' r.x ∧ Same w w' r.y) := by
  unfold CEdwardsPoint.intoMontgomery
  refine Rig.bind (rig_div hw hw' (hp.2.addConst hw hw' 1) (hp.2.constSub hw hw' 1) fun _ _ h => h1 ?_)
    fun x s1 _ hx => ?_
  · rw [CNum.eval_constSub hw] at h
    linear_combination -h
  exact Rig.bind (rig_div hw hw' hx hp.1 fun _ _ => h0) fun y s2 _ hy => Rig.pure ⟨hx, hy⟩

theorem rig_montAdd {p q : CMontgomeryPoint F} (hpx : Same w w' p.x) (hpy : Same w w' p.y) (hqx : Same w w' q.x)
    (hqy : Same w w' q.y) (h : p.x.eval w ≠ q.x.eval w) :
    Rig w w' s (p.add q J) (fun r _ => Same w w' r.x ∧ Same w w' r.y) := by
  unfold CMontgomeryPoint.add
  have m {x : CNum F} (hx : Same w w' x) (k : F) := hx.mulConst hw hw' k
  refine Rig.bind (rig_div hw hw' (hqy.sub hpy) (hqx.sub hpx) fun _ _ h0 => h ?_) fun l s1 _ hl => ?_
  · rw [CNum.eval_sub] at h0
    linear_combination -h0
  refine Rig.bind (rig_square hw hw' hl) fun l2 s2 _ hl2 => ?_
  refine Rig.bind (rig_mul hw hw' hl ((((m hpx 2).addAssign hqx).addConst hw hw' _).sub (m hl2 _))) fun t s3 _ ht => ?_
  exact Rig.pure ⟨(((m hl2 _).subConst hw hw' _).sub hpx).sub hqx, ht.sub hpy⟩

theorem rig_montDouble {p : CMontgomeryPoint F} (hpx : Same w w' p.x) (hpy : Same w w' p.y)
    (h : p.y.eval w ≠ 0) (h2 : (2 : F) ≠ 0) (hb : J.b ≠ 0) :
    Rig w w' s (p.double J) (fun r _ => Same w w' r.x ∧ Same w w' r.y) := by
  unfold CMontgomeryPoint.double
  have m {x : CNum F} (hx : Same w w' x) (k : F) := hx.mulConst hw hw' k
  refine Rig.bind (rig_square hw hw' hpx) fun x2 s1 _ hx2 => ?_
  refine Rig.bind (rig_div hw hw' (((m hx2 3).add (m hpx _)).addConst hw hw' 1) (m hpy _) fun _ _ h0 => h ?_)
    fun l s1 _ hl => ?_
  · rw [CNum.eval_mulConst hw] at h0
    rcases mul_eq_zero.1 h0 with h0 | h0
    · exact h0
    · exact absurd h0 (mul_ne_zero h2 hb)
  refine Rig.bind (rig_square hw hw' hl) fun l2 s2 _ hl2 => ?_
  refine Rig.bind (rig_mul hw hw' hl (((m hpx 3).addConst hw hw' _).sub (m hl2 _))) fun t s3 _ ht => ?_
  exact Rig.pure ⟨((m hl2 _).subConst hw hw' _).sub (m hpx 2), ht.sub hpy⟩

theorem rig_intoEdwards {p : CMontgomeryPoint F} (hpx : Same w w' p.x) (hpy : Same w w' p.y)
    (h : p.y.eval w ≠ 0) (h1 : p.x.eval w ≠ -1) :
    Rig w w' s p.intoEdwards (fun r _ => SamePoint w w' r) := by
  unfold CMontgomeryPoint.intoEdwards
  refine Rig.bind ((rig_isZero hw hw' hpy fun _ => h).and_spec (spec_isZero hw _)) fun z s1 _ ⟨hz, ez⟩ => ?_
  refine Rig.bind (rig_div hw hw' hpx (hz.addAssign hpy) fun _ _ h0 => h ?_) fun x s2 _ hx => ?_
  · rw [CNum.eval_addAssign, ez, if_neg h, zero_add] at h0
    exact h0
  refine Rig.bind (rig_div hw hw' (hpx.subConst hw hw' 1) (hpx.addConst hw hw' 1) fun _ _ h0 => h1 ?_)
    fun y s2 _ hy => Rig.pure ⟨hx, hy⟩
  rw [CNum.eval_addConst hw] at h0
  linear_combination h0

end curve

theorem Same.both {a : CNum F} {v : F} (h : Same w w' a) (ha : a.lc.Alloc s) (e : a.eval w = v) :
    a.lc.Alloc s ∧ a.eval w = v ∧ a.eval w' = v := ⟨ha, e, h.symm.trans e⟩

/-- Determination, as a reading of the curve gadgets: values under two assignments. -/
def detMode (w w' : Index → F) (hw : IsAssignment w) (hw' : IsAssignment w') : Mode F where
  St s := s.WF
  H s a v := a.lc.Alloc s ∧ a.eval w = v ∧ a.eval w' = v
  T s m Q := s.WF → Rig w w' s m Q
  Z x := x ≠ 0
  wf h := h
  alloc h := h.1
  mono e h := ⟨h.1.mono e, h.2⟩
  fromConst k := ⟨alloc_fromConst k, CNum.eval_fromConst hw k, CNum.eval_fromConst hw' k⟩
  addAssign h h' := ⟨alloc_addAssign h.1 h'.1, by rw [CNum.eval_addAssign, h.2.1, h'.2.1],
    by rw [CNum.eval_addAssign, h.2.2, h'.2.2]⟩
  add h h' := ⟨alloc_add h.1 h'.1, by rw [CNum.eval_add, h.2.1, h'.2.1], by rw [CNum.eval_add, h.2.2, h'.2.2]⟩
  sub h h' := ⟨alloc_sub h.1 h'.1, by rw [CNum.eval_sub, h.2.1, h'.2.1], by rw [CNum.eval_sub, h.2.2, h'.2.2]⟩
  neg h := ⟨alloc_neg h.1, by rw [CNum.eval_neg, h.2.1], by rw [CNum.eval_neg, h.2.2]⟩
  mulConst k h := ⟨alloc_mulConst h.1 k, by rw [CNum.eval_mulConst hw, h.2.1], by rw [CNum.eval_mulConst hw', h.2.2]⟩
  pure _ h := fun _ => Rig.pure h
  bind hm hf := fun hs => Rig.bind (hm hs) fun a s1 e1 h1 => hf a s1 e1 (e1.wf hs) h1 (e1.wf hs)
  weaken h hq := fun hs => (h hs).mono fun a s' e h' => hq a s' e (e.wf hs) h'
  post h h' := fun hs => (h hs).and_post h'
  lift _ hx h := fun _ => Rig.lift fun b hb => by rw [hx] at hb; injection hb with hb; subst hb; exact h
  mul hs h h' := fun _ => (((rig_mul hw hw' (h.2.1.trans h.2.2.symm) (h'.2.1.trans h'.2.2.symm)).and_spec
      (spec_mul hw _ _)).and_post (post_mul hs _ _)).mono fun c s' _ hc => hc.1.1.both (hc.2.1 h.1 h'.1) (by rw [hc.1.2, h.2.1, h'.2.1])
  div hs h h' hc hy := fun _ => (((rig_div hw hw' (h.2.1.trans h.2.2.symm) (h'.2.1.trans h'.2.2.symm)
      (fun _ _ => by rw [h'.2.1]; exact hy)).and_spec (spec_div hw hc _)).and_post (post_div hs _ _)).mono
    fun c s' _ hq => hq.1.1.both (hq.2.1 h.1 h'.1) (by rw [eq_div_iff hy, ← h.2.1, ← h'.2.1]; exact hq.1.2)
  isZero hs h hz := fun _ => (((rig_isZero hw hw' (h.2.1.trans h.2.2.symm) (fun _ => by rw [h.2.1]; exact hz)).and_spec
      (spec_isZero hw _)).and_post (post_isZero hs h.1)).mono fun c s' _ hc => hc.1.1.both hc.2 (by rw [hc.1.2, h.2.1])
  switch hs ht hf hb _ := fun _ => (((rig_switch hw hw' (ht.2.1.trans ht.2.2.symm) (hf.2.1.trans hf.2.2.symm)
      (hb.2.1.trans hb.2.2.symm)).and_spec (spec_switch hw _ _ _)).and_post (post_switch hs ht.1 hf.1 hb.1)).mono
    fun c s' _ hc => hc.1.1.both hc.2 (by rw [hc.1.2, ht.2.1, hf.2.1, hb.2.1])
  mux3 := by
    intro s sb b0 b1 b2 c hs hb hc _
    have hsp : SpellsBits w sb [b0, b1, b2] := hb.imp fun _ _ h => h.2.1
    have hal : ∀ b ∈ sb, b.num.lc.Alloc s ∧ Same w w' b.num := by
      clear hsp
      generalize [b0, b1, b2] = bs at hb
      induction hb with
      | nil => simp
      | cons h1 h2 ih =>
        intro b hb
        rcases List.mem_cons.1 hb with rfl | hb
        · exact ⟨h1.1, h1.2.1.trans h1.2.2.symm⟩
        · exact ih b hb
    refine (((rig_mux3 hw hw' (fun b hb => (hal b hb).2) c).and_spec (spec_mux3 hw hsp c s)).and_post
      (alloc_mux3 hs (fun b hb => (hal b hb).1) c)).mono fun r s' _ hr => ?_
    have h1 := forall₂_and_mem hr.1.2 hr.1.1
    exact (forall₂_and_mem h1 hr.2).imp fun _ _ h => ⟨_, ⟨h.1, rfl, h.2.1.symm⟩, h.2.2⟩

end Fawkes
