import Verif.Lemmas.Shape

/-!
# Two runs of the same circuit code

A `Link` relates the signals and states of two runs of the same code, for example a proving run and a key generation
run, or a run on the checking back end and a proving run.  `Sim X pub m₁ m₂ Q`: whenever `m₁` succeeds in the first
run, `m₂` succeeds in the second run and the results are related.
-/

set_option linter.unusedSectionVars false

namespace Fawkes

variable {F α β γ δ : Type}

/-- How states of the two runs are related.  `ok pub s s'` is what is known about the piece of the first run that leads
from `s` to `s'` (`pub`: that piece allocates public inputs, otherwise it allocates none). -/
structure World (F : Type) where
  st : CS F → CS F → Prop
  ok : Bool → CS F → CS F → Prop
  ok_mid : ∀ {p s s1 s2}, s.Ext s1 → s1.Ext s2 → ok p s s2 → ok p s s1 ∧ ok p s1 s2

/-- Successful runs of `m₁` are matched by successful runs of `m₂`. -/
def World.Sim (X : World F) (p : Bool) (m₁ : M F α) (m₂ : M F β) (Q : α → β → Prop) : Prop :=
  ∀ s t, X.st s t → ∀ a s', m₁.run s = .ok (a, s') → X.ok p s s' →
    ∃ b t', m₂.run t = .ok (b, t') ∧ X.st s' t' ∧ Q a b

/-- How signals of the two runs are related.  With `lax` the second run may know fewer values, with `known` the first
run knows all of them. -/
structure Link (F : Type) [Field F] [DecidableEq F] extends World F where
  lax : Bool
  known : Bool
  fit : CNum F → CNum F → Prop
  fit_value : ∀ {a b}, fit a b → (lax = true ∧ b.value = none) ∨ (b.value = a.value ∧ (known = true → a.value ≠ none))
  fit_asConst : ∀ {a b}, fit a b → a.asConst = b.asConst
  fit_length : ∀ {a b}, fit a b → a.lc.length = b.lc.length
  fit_const : ∀ v, fit (CNum.fromConst v) (CNum.fromConst v)
  fit_addAssign : ∀ {a b a' b'}, fit a a' → fit b b' → fit (CNum.addAssign a b) (CNum.addAssign a' b')
  fit_sub : ∀ {a b a' b'}, fit a a' → fit b b' → fit (CNum.sub a b) (CNum.sub a' b')
  fit_scale : ∀ {a b} (k : F), k ≠ 0 → fit a b →
    fit ⟨a.value.map (· * k), a.lc.map fun kv => (kv.1, kv.2 * k)⟩ ⟨b.value.map (· * k), b.lc.map fun kv => (kv.1, kv.2 * k)⟩
  sim_alloc' : ∀ {u v : Option F}, (lax = true ∧ v = none) ∨ (v = u ∧ (known = true → u ≠ none)) →
    toWorld.Sim false (CNum.alloc u) (CNum.alloc v) fit
  sim_allocInput' : ∀ {u v : Option F}, (lax = true ∧ v = none) ∨ (v = u ∧ (known = true → u ≠ none)) →
    toWorld.Sim true (CS.allocInput u) (CS.allocInput v) (fun i j => fit (CNum.fromVar u i) (CNum.fromVar v j))
  sim_enforce' : ∀ {p a b c a' b' c'}, fit a a' → fit b b' → fit c c' →
    toWorld.Sim p (CS.enforce a b c) (CS.enforce a' b' c') (fun _ _ => True)

section
variable [Field F] [DecidableEq F]

/-- Successful runs of `m₁` are matched by successful runs of `m₂`. -/
abbrev Sim (X : Link F) (p : Bool) (m₁ : M F α) (m₂ : M F β) (Q : α → β → Prop) : Prop := X.toWorld.Sim p m₁ m₂ Q

/-- Values of the two runs. -/
def Link.V (X : Link F) {A : Type} (u v : Option A) : Prop :=
  (X.lax = true ∧ v = none) ∨ (v = u ∧ (X.known = true → u ≠ none))

namespace Sim

variable {X : Link F} {p : Bool} {Q : α → β → Prop} {R : γ → δ → Prop}

theorem pure {a : α} {b : β} (h : Q a b) : Sim X p (Pure.pure a : M F α) (Pure.pure b : M F β) Q := by
  intro s t hst a' s' h1 _
  rw [M.run_pure] at h1
  injection h1 with h1; injection h1 with h1 h1'
  subst h1 h1'; exact ⟨b, t, rfl, hst, h⟩

theorem bind {m₁ : M F α} {m₂ : M F β} {f₁ : α → M F γ} {f₂ : β → M F δ} (hm : Sim X p m₁ m₂ Q)
    (hf : ∀ a b, Q a b → Sim X p (f₁ a) (f₂ b) R) : Sim X p (m₁ >>= f₁) (m₂ >>= f₂) R := by
  intro s t hst a s' h1 hok
  obtain ⟨a1, s1, h1, h1'⟩ := M.bind_ok h1
  obtain ⟨ok1, ok2⟩ := X.ok_mid (M.run_ext h1) (M.run_ext h1') hok
  obtain ⟨b1, t1, h2, hst1, hq⟩ := hm s t hst _ _ h1 ok1
  obtain ⟨b2, t2, h3, h4⟩ := hf _ _ hq _ _ hst1 _ _ h1' ok2
  refine ⟨b2, t2, ?_, h4⟩
  rw [M.run_bind, h2]; exact h3

theorem mono {m₁ : M F α} {m₂ : M F β} {Q' : α → β → Prop} (h : Sim X p m₁ m₂ Q)
    (hq : ∀ a b, Q a b → Q' a b) : Sim X p m₁ m₂ Q' := by
  intro s t hst a s' h1 hok
  obtain ⟨b, t', h2, h3, h6⟩ := h s t hst _ _ h1 hok
  exact ⟨b, t', h2, h3, hq _ _ h6⟩

theorem and_left {m₁ : M F α} {m₂ : M F β} {P : α → Prop} (h : Sim X p m₁ m₂ Q) (hp : ∀ s, Post s m₁ (fun a _ => P a)) :
    Sim X p m₁ m₂ (fun a b => Q a b ∧ P a) := by
  intro s t hst a s' h1 hok
  obtain ⟨b, t', h2, h3, h6⟩ := h s t hst _ _ h1 hok
  exact ⟨b, t', h2, h3, h6, hp _ _ _ h1⟩

theorem panic_left {e : Panic} {m : M F β} : Sim X p (M.panic e : M F α) m Q := by
  intro s t _ a s' h1; rw [M.run_panic] at h1; cases h1

theorem lift {x : Except Panic α} {y : Except Panic β} (h : ∀ a, x = .ok a → ∃ b, y = .ok b ∧ Q a b) :
    Sim X p (M.lift x : M F α) (M.lift y) Q := by
  cases x with
  | error e => exact panic_left
  | ok a =>
    obtain ⟨b, hb, hq⟩ := h a rfl
    rw [hb]; exact pure hq

theorem lift_same {x : Except Panic α} : Sim X p (M.lift x : M F α) (M.lift x) (fun a b => a = b) :=
  lift fun a h => ⟨a, h, rfl⟩

theorem assert {b c : Bool} {e e' : Panic} (h : b = true → c = true) :
    Sim X p (M.assert b e : M F Unit) (M.assert c e') (fun _ _ => b = true) := by
  cases b with
  | false => exact panic_left
  | true => rw [h rfl]; exact pure rfl

end Sim

variable {X : Link F}

namespace Link

theorem V.some {A : Type} (a : A) : X.V (some a) (some a) := Or.inr ⟨rfl, fun _ => by simp⟩

theorem V.map {A B : Type} {u v : Option A} (h : X.V u v) (f : A → B) : X.V (u.map f) (v.map f) := by
  rcases h with ⟨hl, rfl⟩ | ⟨rfl, hk⟩
  · exact Or.inl ⟨hl, rfl⟩
  · exact Or.inr ⟨rfl, fun k => by simpa using hk k⟩

theorem V.value₂ {A : Type} [Field A] {u v u' v' : Option A} (h : X.V u u') (h' : X.V v v') (f : A → A → A) :
    X.V (CNum.value₂ f u v) (CNum.value₂ f u' v') := by
  rcases h with ⟨hl, rfl⟩ | ⟨rfl, hk⟩
  · exact Or.inl ⟨hl, rfl⟩
  · rcases h' with ⟨hl, rfl⟩ | ⟨rfl, hk'⟩
    · left; cases u' <;> exact ⟨hl, rfl⟩
    · refine Or.inr ⟨rfl, fun k => ?_⟩
      have h1 := hk k; have h2 := hk' k
      cases u' <;> cases v' <;> simp_all [CNum.value₂]

end Link

theorem sim_alloc {u v : Option F} (h : X.V u v) : Sim X false (CNum.alloc u) (CNum.alloc v) X.fit := X.sim_alloc' h

theorem sim_enforce {p : Bool} {a b c a' b' c' : CNum F} (ha : X.fit a a') (hb : X.fit b b')
    (hc : X.fit c c') : Sim X p (CS.enforce a b c) (CS.enforce a' b' c') (fun _ _ => True) := X.sim_enforce' ha hb hc

theorem fits_addAssign {a b a' b' : CNum F} (ha : X.fit a a') (hb : X.fit b b') :
    X.fit (CNum.addAssign a b) (CNum.addAssign a' b') := X.fit_addAssign ha hb

theorem fits_add {a b a' b' : CNum F} (ha : X.fit a a') (hb : X.fit b b') : X.fit (CNum.add a b) (CNum.add a' b') := by
  unfold CNum.add CNum.capacity
  rw [X.fit_length ha, X.fit_length hb]; split
  · exact fits_addAssign ha hb
  · exact fits_addAssign hb ha

theorem fits_sub {a b a' b' : CNum F} (ha : X.fit a a') (hb : X.fit b b') : X.fit (CNum.sub a b) (CNum.sub a' b') :=
  X.fit_sub ha hb

theorem fits_neg {a a' : CNum F} (ha : X.fit a a') : X.fit (CNum.neg a) (CNum.neg a') := by
  have := X.fit_scale (-1) (by simp) ha
  simp only [mul_neg_one] at this
  exact this

theorem fits_addConst {a a' : CNum F} (ha : X.fit a a') (k : F) : X.fit (CNum.addConst a k) (CNum.addConst a' k) :=
  fits_addAssign ha (X.fit_const _)

theorem fits_subConst {a a' : CNum F} (ha : X.fit a a') (k : F) : X.fit (CNum.subConst a k) (CNum.subConst a' k) :=
  fits_sub ha (X.fit_const _)

theorem fits_constSub {a a' : CNum F} (ha : X.fit a a') (k : F) : X.fit (CNum.constSub k a) (CNum.constSub k a') :=
  fits_sub (X.fit_const _) ha

theorem fits_mulConst {a a' : CNum F} (ha : X.fit a a') (k : F) : X.fit (CNum.mulConst a k) (CNum.mulConst a' k) := by
  unfold CNum.mulConst; split
  · exact X.fit_const _
  · next h => exact X.fit_scale k h ha

theorem sim_divConst {p : Bool} {a a' : CNum F} (ha : X.fit a a') (k : F) :
    Sim X p (CNum.divConst a k) (CNum.divConst a' k) X.fit := by
  unfold CNum.divConst
  have hnil : a.lc = [] ↔ a'.lc = [] := by
    rw [← List.length_eq_zero_iff, ← List.length_eq_zero_iff, X.fit_length ha]
  split
  · exact Sim.panic_left
  · next h =>
    have hne : ¬ (k = 0 ∧ (a'.value ≠ none ∨ a'.lc ≠ [])) := by
      rintro ⟨h0, h1⟩
      refine h ⟨h0, ?_⟩
      rcases X.fit_value ha with ⟨_, hv⟩ | ⟨hv, _⟩
      · rw [hv] at h1; right; rw [ne_eq, hnil]; simpa using h1
      · rw [hv] at h1; rw [ne_eq a.lc, hnil]; exact h1
    rw [if_neg hne]
    by_cases hk : k = 0
    · have h1 : a.value = none ∧ a.lc = [] := by
        constructor
        · by_contra hc; exact h ⟨hk, Or.inl hc⟩
        · by_contra hc; exact h ⟨hk, Or.inr hc⟩
      have h2 : a'.value = none ∧ a'.lc = [] := by
        constructor
        · by_contra hc; exact hne ⟨hk, Or.inl hc⟩
        · by_contra hc; exact hne ⟨hk, Or.inr hc⟩
      refine Sim.pure ?_
      obtain ⟨v, l⟩ := a; obtain ⟨v', l'⟩ := a'
      simp only at h1 h2
      rw [h1.1, h1.2, h2.1, h2.2] at ha
      simp only [h1.1, h1.2, h2.1, h2.2]
      exact ha
    · refine Sim.pure ?_
      have := X.fit_scale k⁻¹ (inv_ne_zero hk) ha
      simp only [← div_eq_mul_inv] at this
      exact this

theorem sim_mul {a b a' b' : CNum F} (ha : X.fit a a') (hb : X.fit b b') :
    Sim X false (CNum.mul a b) (CNum.mul a' b') X.fit := by
  unfold CNum.mul
  rw [X.fit_asConst ha, X.fit_asConst hb]
  split
  · exact Sim.pure (fits_mulConst hb _)
  · exact Sim.pure (fits_mulConst ha _)
  · refine Sim.bind (sim_alloc (Link.V.value₂ (X.fit_value ha) (X.fit_value hb) _)) fun c c' hc => ?_
    exact Sim.bind (sim_enforce ha hb hc) fun _ _ _ => Sim.pure hc

theorem sim_divValue {p : Bool} {a b a' b' : Option F} (ha : X.V a a') (hb : X.V b b') :
    Sim X p (CNum.divValue a b : M F _) (CNum.divValue a' b') X.V := by
  have hlax : X.lax = true → (CNum.divValue a' b' : M F _) = Pure.pure none →
      Sim X p (CNum.divValue a b : M F _) (CNum.divValue a' b') X.V := by
    intro hl he
    rw [he]
    unfold CNum.divValue
    split
    · split
      · exact Sim.panic_left
      · exact Sim.pure (Or.inl ⟨hl, rfl⟩)
    · exact Sim.pure (Or.inl ⟨hl, rfl⟩)
  rcases ha with ⟨hl, rfl⟩ | ⟨rfl, hk⟩
  · exact hlax hl rfl
  · rcases hb with ⟨hl, rfl⟩ | ⟨rfl, hk'⟩
    · exact hlax hl (by cases a' <;> rfl)
    · unfold CNum.divValue
      split
      · split
        · exact Sim.panic_left
        · exact Sim.pure (Link.V.some _)
      · next h =>
        refine Sim.pure (Or.inr ⟨rfl, fun k => ?_⟩)
        cases h1 : a' with
        | none => exact absurd h1 (hk k)
        | some x =>
          cases h2 : b' with
          | none => exact absurd h2 (hk' k)
          | some y => exact (h x y h1 h2).elim

theorem sim_div {a b a' b' : CNum F} (ha : X.fit a a') (hb : X.fit b b') :
    Sim X false (CNum.div a b) (CNum.div a' b') X.fit := by
  unfold CNum.div
  rw [X.fit_asConst ha, X.fit_asConst hb]
  split
  · exact sim_divConst hb _
  · exact sim_divConst ha _
  · refine Sim.bind (sim_divValue (X.fit_value ha) (X.fit_value hb)) fun _ _ hv => ?_
    refine Sim.bind (sim_alloc hv) fun c c' hc => ?_
    exact Sim.bind (sim_enforce hc hb ha) fun _ _ _ => Sim.pure hc

theorem sim_square {a a' : CNum F} (ha : X.fit a a') : Sim X false (CNum.square a) (CNum.square a') X.fit := sim_mul ha ha

theorem sim_assertConst {p : Bool} {a a' : CNum F} (ha : X.fit a a') (v : F) :
    Sim X p (CNum.assertConst a v) (CNum.assertConst a' v) (fun _ _ => True) := by
  unfold CNum.assertConst
  rw [X.fit_asConst ha]
  split
  · exact (Sim.assert id).mono fun _ _ _ => trivial
  · exact sim_enforce ha (X.fit_const _) (X.fit_const _)

theorem sim_assertZero {p : Bool} {a a' : CNum F} (ha : X.fit a a') :
    Sim X p (CNum.assertZero a) (CNum.assertZero a') (fun _ _ => True) := sim_assertConst ha 0

theorem sim_assertEq {p : Bool} {a b a' b' : CNum F} (ha : X.fit a a') (hb : X.fit b b') :
    Sim X p (CNum.assertEq a b) (CNum.assertEq a' b') (fun _ _ => True) := sim_assertZero (fits_sub ha hb)

theorem sim_assertNonzero {a a' : CNum F} (ha : X.fit a a') :
    Sim X false (CNum.assertNonzero a) (CNum.assertNonzero a') (fun _ _ => True) := by
  unfold CNum.assertNonzero
  rw [X.fit_asConst ha]
  split
  · exact (Sim.assert id).mono fun _ _ _ => trivial
  · refine Sim.bind (sim_alloc (Link.V.map (X.fit_value ha) _)) fun c c' hc => ?_
    exact sim_enforce ha hc (X.fit_const _)

theorem sim_assertBit {p : Bool} {a a' : CNum F} (ha : X.fit a a') :
    Sim X p (CNum.assertBit a) (CNum.assertBit a') (fun _ _ => True) := by
  unfold CNum.assertBit
  rw [X.fit_asConst ha]
  split
  · exact (Sim.assert id).mono fun _ _ _ => trivial
  · exact sim_enforce ha (fits_subConst ha 1) (X.fit_const _)

theorem sim_inputize {a a' : CNum F} (ha : X.fit a a') :
    Sim X true (CNum.inputize a) (CNum.inputize a') (fun _ _ => True) := by
  unfold CNum.inputize
  rw [X.fit_asConst ha]
  split
  · next v _ =>
    refine Sim.bind (X.sim_allocInput' (Link.V.some v)) fun c c' hc => ?_
    exact sim_enforce hc (X.fit_const _) (X.fit_const _)
  · refine Sim.bind (X.sim_allocInput' (X.fit_value ha)) fun c c' hc => ?_
    exact sim_enforce hc (X.fit_const _) ha

theorem sim_isZero {a a' : CNum F} (ha : X.fit a a') :
    Sim X false (CNum.isZero a) (CNum.isZero a') (fun b b' => X.fit b.num b'.num) := by
  unfold CNum.isZero
  rw [X.fit_asConst ha]
  split
  · exact Sim.pure (X.fit_const _)
  · refine Sim.bind (sim_alloc (Link.V.map (X.fit_value ha) _)) fun c c' hc => ?_
    refine Sim.bind (sim_assertNonzero hc) fun _ _ _ => ?_
    refine Sim.bind (sim_mul hc ha) fun r r' hr => ?_
    refine Sim.bind (sim_assertBit hr) fun _ _ _ => ?_
    exact Sim.pure (fits_sub (X.fit_const _) hr)

theorem sim_isEq {a b a' b' : CNum F} (ha : X.fit a a') (hb : X.fit b b') :
    Sim X false (CNum.isEq a b) (CNum.isEq a' b') (fun b b' => X.fit b.num b'.num) :=
  sim_isZero (fits_sub ha hb)

theorem sim_switch {t f t' f' : CNum F} {b b' : CBool F} (ht : X.fit t t') (hf : X.fit f f')
    (hb : X.fit b.num b'.num) : Sim X false (CNum.switch t b f) (CNum.switch t' b' f') X.fit := by
  unfold CNum.switch CNum.capacity CBool.asConst
  rw [X.fit_asConst hb]
  refine Sim.bind Sim.lift_same ?_
  · rintro x _ rfl
    split
    · exact Sim.pure ht
    · exact Sim.pure hf
    · rw [X.fit_length ht, X.fit_length hf]
      split
      · refine Sim.bind (sim_mul hb (fits_sub ht hf)) fun p p' hp => ?_
        exact Sim.pure (fits_addAssign hp hf)
      · refine Sim.bind (sim_mul (fits_constSub hb 1) (fits_sub hf ht)) fun p p' hp => ?_
        exact Sim.pure (fits_addAssign hp ht)

theorem sim_boolAlloc {u v : Option Bool} (h : X.V u v) :
    Sim X false (CBool.alloc u : M F _) (CBool.alloc v) (fun a b => X.fit a.num b.num) := by
  unfold CBool.alloc
  exact Sim.bind (sim_alloc (h.map _)) fun _ _ h => Sim.pure h

end

end Fawkes
