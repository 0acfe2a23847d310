import Verif.Lemmas.CNum

/-!
# Two runs of the same code with different witness values build the same circuit
-/

namespace Fawkes

variable {F α β γ δ : Type}

/-- Runs of `m₁` and `m₂` from equally shaped states end, unless one of them panics, in equally
shaped states and related results. -/
def Rel (m₁ : M F α) (m₂ : M F β) (Q : α → β → Prop) : Prop :=
  ∀ s t, s.SameShape t → ∀ a s' b t', m₁.run s = .ok (a, s') → m₂.run t = .ok (b, t') →
    s'.SameShape t' ∧ Q a b

namespace Rel

variable {Q : α → β → Prop} {R : γ → δ → Prop}

theorem pure {a : α} {b : β} (h : Q a b) : Rel (Pure.pure a : M F α) (Pure.pure b : M F β) Q := by
  intro s t hst a' s' b' t' h1 h2
  rw [M.run_pure] at h1 h2
  injection h1 with h1; injection h1 with h1 h1'
  injection h2 with h2; injection h2 with h2 h2'
  subst h1 h1' h2 h2'; exact ⟨hst, h⟩

theorem bind {m₁ : M F α} {m₂ : M F β} {f₁ : α → M F γ} {f₂ : β → M F δ} (hm : Rel m₁ m₂ Q)
    (hf : ∀ a b, Q a b → Rel (f₁ a) (f₂ b) R) : Rel (m₁ >>= f₁) (m₂ >>= f₂) R := by
  intro s t hst a s' b t' h1 h2
  obtain ⟨a1, s1, h1, h1'⟩ := M.bind_ok h1
  obtain ⟨b1, t1, h2, h2'⟩ := M.bind_ok h2
  obtain ⟨hs, hq⟩ := hm s t hst _ _ _ _ h1 h2
  exact hf _ _ hq _ _ hs _ _ _ _ h1' h2'

theorem mono {m₁ : M F α} {m₂ : M F β} {Q' : α → β → Prop} (h : Rel m₁ m₂ Q)
    (hq : ∀ a b, Q a b → Q' a b) : Rel m₁ m₂ Q' := by
  intro s t hst a s' b t' h1 h2
  obtain ⟨hs, h⟩ := h s t hst _ _ _ _ h1 h2
  exact ⟨hs, hq _ _ h⟩

theorem panic_left {e : Panic} {m : M F β} : Rel (M.panic e : M F α) m Q := by
  intro s t _ a s' b t' h1; rw [M.run_panic] at h1; cases h1

theorem panic_right {e : Panic} {m : M F α} : Rel m (M.panic e : M F β) Q := by
  intro s t _ a s' b t' _ h1; rw [M.run_panic] at h1; cases h1

theorem lift {x : Except Panic α} {y : Except Panic β} (h : ∀ a b, x = .ok a → y = .ok b → Q a b) :
    Rel (M.lift x : M F α) (M.lift y) Q := by
  cases x with
  | error e => exact panic_left
  | ok a =>
    cases y with
    | error e => exact panic_right
    | ok b => exact pure (h _ _ rfl rfl)

theorem assert {b c : Bool} {e e' : Panic} {Q : Unit → Unit → Prop} (h : b = true → c = true → Q () ()) :
    Rel (M.assert b e : M F Unit) (M.assert c e') Q := by
  cases b with
  | false => exact panic_left
  | true =>
    cases c with
    | false => exact panic_right
    | true => exact pure (h rfl rfl)

end Rel

section
variable [Field F] [DecidableEq F]

omit [DecidableEq F] in
theorem CNum.asConst_congr {a b : CNum F} (h : a.lc = b.lc) : a.asConst = b.asConst := by
  unfold CNum.asConst; rw [h]

theorem rel_alloc (u v : Option F) : Rel (CNum.alloc u) (CNum.alloc v) (fun a b => a.lc = b.lc) := by
  intro s t hst a s' b t' h1 h2
  obtain ⟨-, g1, rfl⟩ := post_alloc s u _ _ h1
  obtain ⟨-, g2, rfl⟩ := post_alloc t v _ _ h2
  have hn : s.nextAlloc = t.nextAlloc := by
    unfold CS.nextAlloc
    have hb := hst.backend
    cases hs : s.backend <;> cases ht : t.backend <;> simp_all [hst.ninputs, hst.naux]
  refine ⟨?_, by show a.lc = b.lc; rw [g1, g2, hn]⟩
  rw [hn]
  unfold CS.pushVar
  split
  · exact ⟨hst.backend, by simp [hst.ninputs], hst.naux, by simp [hst.vars], hst.cons⟩
  · exact ⟨hst.backend, hst.ninputs, by simp [hst.naux], by simp [hst.vars], hst.cons⟩

omit [Field F] in
theorem rel_allocInput (u v : Option F) : Rel (CS.allocInput u) (CS.allocInput v) (fun a b => a = b) := by
  intro s t hst a s' b t' h1 h2
  rw [run_csallocInput] at h1 h2
  split at h1
  · cases h1
  split at h2
  · cases h2
  injection h1 with h1; injection h1 with h1 h1'
  injection h2 with h2; injection h2 with h2 h2'
  subst h1 h1' h2 h2'
  exact ⟨⟨hst.backend, by simp [CS.pushVar, hst.ninputs], hst.naux,
    by simp [CS.pushVar, hst.vars, hst.ninputs], hst.cons⟩, by rw [hst.ninputs]⟩

theorem rel_enforce {a b c a' b' c' : CNum F} (ha : a.lc = a'.lc) (hb : b.lc = b'.lc)
    (hc : c.lc = c'.lc) : Rel (CS.enforce a b c) (CS.enforce a' b' c') (fun _ _ => True) := by
  intro s t hst u s' u' t' h1 h2
  obtain ⟨rfl, -⟩ := post_enforce s a b c _ _ h1
  obtain ⟨rfl, -⟩ := post_enforce t a' b' c' _ _ h2
  exact ⟨⟨hst.backend, hst.ninputs, hst.naux, hst.vars,
    by simp [hst.cons, Constraint.shape, ha, hb, hc]⟩, trivial⟩

theorem shape_addAssign {a b a' b' : CNum F} (ha : a.lc = a'.lc) (hb : b.lc = b'.lc) :
    (CNum.addAssign a b).lc = (CNum.addAssign a' b').lc := by simp [CNum.addAssign, ha, hb]

theorem shape_add {a b a' b' : CNum F} (ha : a.lc = a'.lc) (hb : b.lc = b'.lc) :
    (CNum.add a b).lc = (CNum.add a' b').lc := by
  unfold CNum.add CNum.capacity
  rw [ha, hb]; split
  · exact shape_addAssign ha hb
  · exact shape_addAssign hb ha

theorem shape_sub {a b a' b' : CNum F} (ha : a.lc = a'.lc) (hb : b.lc = b'.lc) :
    (CNum.sub a b).lc = (CNum.sub a' b').lc := by simp [CNum.sub, ha, hb]

omit [DecidableEq F] in
theorem shape_neg {a a' : CNum F} (ha : a.lc = a'.lc) : (CNum.neg a).lc = (CNum.neg a').lc := by
  simp [CNum.neg, ha]

theorem shape_addConst {a a' : CNum F} (ha : a.lc = a'.lc) (k : F) :
    (CNum.addConst a k).lc = (CNum.addConst a' k).lc := shape_addAssign ha rfl

theorem shape_subConst {a a' : CNum F} (ha : a.lc = a'.lc) (k : F) :
    (CNum.subConst a k).lc = (CNum.subConst a' k).lc := shape_sub ha rfl

theorem shape_constSub {a a' : CNum F} (ha : a.lc = a'.lc) (k : F) :
    (CNum.constSub k a).lc = (CNum.constSub k a').lc := shape_sub rfl ha

theorem shape_mulConst {a a' : CNum F} (ha : a.lc = a'.lc) (k : F) :
    (CNum.mulConst a k).lc = (CNum.mulConst a' k).lc := by
  unfold CNum.mulConst; split
  · rfl
  · simp [ha]

theorem rel_divConst {a a' : CNum F} (ha : a.lc = a'.lc) (k : F) :
    Rel (CNum.divConst a k) (CNum.divConst a' k) (fun q q' => q.lc = q'.lc) := by
  intro s t hst q s' q' t' h1 h2
  obtain ⟨rfl, g1, -⟩ := post_divConst a k _ _ h1
  obtain ⟨rfl, g2, -⟩ := post_divConst a' k _ _ h2
  exact ⟨hst, by show q.lc = q'.lc; rw [g1, g2, ha]⟩

theorem rel_mul {a b a' b' : CNum F} (ha : a.lc = a'.lc) (hb : b.lc = b'.lc) :
    Rel (CNum.mul a b) (CNum.mul a' b') (fun c c' => c.lc = c'.lc) := by
  unfold CNum.mul
  rw [CNum.asConst_congr ha, CNum.asConst_congr hb]
  split
  · exact Rel.pure (shape_mulConst hb _)
  · exact Rel.pure (shape_mulConst ha _)
  · refine Rel.bind (rel_alloc _ _) fun c c' hc => ?_
    refine Rel.bind (rel_enforce ha hb hc) fun _ _ _ => ?_
    exact Rel.pure hc

theorem rel_divValue (a b a' b' : Option F) :
    Rel (CNum.divValue a b : M F _) (CNum.divValue a' b') (fun _ _ => True) := by
  unfold CNum.divValue
  split
  · split
    · exact Rel.panic_left
    · split
      · split
        · exact Rel.panic_right
        · exact Rel.pure trivial
      · exact Rel.pure trivial
  · split
    · split
      · exact Rel.panic_right
      · exact Rel.pure trivial
    · exact Rel.pure trivial

theorem rel_div {a b a' b' : CNum F} (ha : a.lc = a'.lc) (hb : b.lc = b'.lc) :
    Rel (CNum.div a b) (CNum.div a' b') (fun c c' => c.lc = c'.lc) := by
  unfold CNum.div
  rw [CNum.asConst_congr ha, CNum.asConst_congr hb]
  split
  · exact rel_divConst hb _
  · exact rel_divConst ha _
  · refine Rel.bind (rel_divValue _ _ _ _) fun _ _ _ => ?_
    refine Rel.bind (rel_alloc _ _) fun c c' hc => ?_
    refine Rel.bind (rel_enforce hc hb ha) fun _ _ _ => ?_
    exact Rel.pure hc

theorem rel_square {a a' : CNum F} (ha : a.lc = a'.lc) :
    Rel (CNum.square a) (CNum.square a') (fun c c' => c.lc = c'.lc) := rel_mul ha ha

theorem rel_assertConst {a a' : CNum F} (ha : a.lc = a'.lc) (v : F) :
    Rel (CNum.assertConst a v) (CNum.assertConst a' v) (fun _ _ => True) := by
  unfold CNum.assertConst
  rw [CNum.asConst_congr ha]
  split
  · exact Rel.assert fun _ _ => trivial
  · exact rel_enforce ha rfl rfl

theorem rel_assertZero {a a' : CNum F} (ha : a.lc = a'.lc) :
    Rel (CNum.assertZero a) (CNum.assertZero a') (fun _ _ => True) := rel_assertConst ha 0

theorem rel_assertEq {a b a' b' : CNum F} (ha : a.lc = a'.lc) (hb : b.lc = b'.lc) :
    Rel (CNum.assertEq a b) (CNum.assertEq a' b') (fun _ _ => True) := rel_assertZero (shape_sub ha hb)

theorem rel_assertNonzero {a a' : CNum F} (ha : a.lc = a'.lc) :
    Rel (CNum.assertNonzero a) (CNum.assertNonzero a') (fun _ _ => True) := by
  unfold CNum.assertNonzero
  rw [CNum.asConst_congr ha]
  split
  · exact Rel.assert fun _ _ => trivial
  · refine Rel.bind (rel_alloc _ _) fun c c' hc => ?_
    exact rel_enforce ha hc rfl

theorem rel_assertBit {a a' : CNum F} (ha : a.lc = a'.lc) :
    Rel (CNum.assertBit a) (CNum.assertBit a') (fun _ _ => True) := by
  unfold CNum.assertBit
  rw [CNum.asConst_congr ha]
  split
  · exact Rel.assert fun _ _ => trivial
  · exact rel_enforce ha (shape_subConst ha 1) rfl

theorem rel_inputize {a a' : CNum F} (ha : a.lc = a'.lc) :
    Rel (CNum.inputize a) (CNum.inputize a') (fun _ _ => True) := by
  unfold CNum.inputize
  rw [CNum.asConst_congr ha]
  split
  · refine Rel.bind (rel_allocInput _ _) fun c c' hc => ?_
    exact rel_enforce (by rw [hc]) rfl rfl
  · refine Rel.bind (rel_allocInput _ _) fun c c' hc => ?_
    exact rel_enforce (by rw [hc]; rfl) rfl ha

theorem rel_isZero {a a' : CNum F} (ha : a.lc = a'.lc) :
    Rel (CNum.isZero a) (CNum.isZero a') (fun b b' => b.num.lc = b'.num.lc) := by
  unfold CNum.isZero
  rw [CNum.asConst_congr ha]
  split
  · exact Rel.pure rfl
  · refine Rel.bind (rel_alloc _ _) fun c c' hc => ?_
    refine Rel.bind (rel_assertNonzero hc) fun _ _ _ => ?_
    refine Rel.bind (rel_mul hc ha) fun r r' hr => ?_
    refine Rel.bind (rel_assertBit hr) fun _ _ _ => ?_
    exact Rel.pure (shape_sub rfl hr)

theorem rel_isEq {a b a' b' : CNum F} (ha : a.lc = a'.lc) (hb : b.lc = b'.lc) :
    Rel (CNum.isEq a b) (CNum.isEq a' b') (fun b b' => b.num.lc = b'.num.lc) :=
  rel_isZero (shape_sub ha hb)

omit [Field F] in
theorem CBool.asConst_congr [Field F] {b b' : CBool F} (h : b.num.lc = b'.num.lc) :
    b.asConst = b'.asConst := by
  unfold CBool.asConst; rw [CNum.asConst_congr h]

theorem rel_switch {t f t' f' : CNum F} {b b' : CBool F} (ht : t.lc = t'.lc) (hf : f.lc = f'.lc)
    (hb : b.num.lc = b'.num.lc) :
    Rel (CNum.switch t b f) (CNum.switch t' b' f') (fun r r' => r.lc = r'.lc) := by
  unfold CNum.switch CNum.capacity
  rw [CBool.asConst_congr hb]
  refine Rel.bind (Rel.lift (Q := fun x y => x = y) ?_) ?_
  · intro x y h1 h2; rw [h1] at h2; injection h2
  · rintro x _ rfl
    split
    · exact Rel.pure ht
    · exact Rel.pure hf
    · rw [ht, hf]
      split
      · refine Rel.bind (rel_mul hb (shape_sub ht hf)) fun p p' hp => ?_
        exact Rel.pure (shape_addAssign hp hf)
      · refine Rel.bind (rel_mul (shape_constSub hb 1) (shape_sub hf ht)) fun p p' hp => ?_
        exact Rel.pure (shape_addAssign hp ht)

end

end Fawkes
