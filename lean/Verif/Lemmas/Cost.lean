import Verif.Lemmas.CNum

/-!
# Upper bounds for the number of constraints
-/

set_option linter.unusedSectionVars false

namespace Fawkes

variable {F α β : Type}

/-- From every state, `m` adds at most `n` constraints; and unless `pub`, `m` adds no public inputs (on the Groth16 back
ends; `TestCS` does not tell inputs from other variables). -/
def Cost (m : M F α) (n : Nat) (pub : Bool := false) : Prop :=
  ∀ s a s', m.run s = .ok (a, s') →
    s'.cons.length ≤ s.cons.length + n ∧ (pub = false → s.backend ≠ .test → s'.ninputs = s.ninputs)

namespace Cost

variable {pub : Bool}

theorem pure {a : α} {n : Nat} : Cost (Pure.pure a : M F α) n pub := by
  intro s a' s' h
  rw [M.run_pure] at h; injection h with h; injection h with h h'; subst h'
  exact ⟨by omega, fun _ _ => rfl⟩

theorem panic {e : Panic} {n : Nat} : Cost (M.panic e : M F α) n pub := by
  intro s a s' h; rw [M.run_panic] at h; cases h

theorem lift {x : Except Panic α} {n : Nat} : Cost (M.lift x : M F α) n pub := by
  cases x with
  | error e => exact panic
  | ok a => exact pure

theorem assert {b : Bool} {e : Panic} {n : Nat} : Cost (M.assert b e : M F Unit) n pub := by
  cases b with
  | false => exact panic
  | true => exact pure

/-- As `bind`, when the bound of the continuation depends on the result of the first part. -/
theorem bind' {m : M F α} {f : α → M F β} {k n : Nat} {Q : α → Prop} (hm : Cost m k pub)
    (hq : ∀ s a s', m.run s = .ok (a, s') → Q a) (hf : ∀ a, Q a → Cost (f a) n pub) : Cost (m >>= f) (k + n) pub := by
  intro s b s' h
  obtain ⟨a, s1, h1, h2⟩ := M.bind_ok h
  obtain ⟨i1, j1⟩ := hm _ _ _ h1
  obtain ⟨i2, j2⟩ := hf _ (hq _ _ _ h1) _ _ _ h2
  refine ⟨by omega, fun hp hs => ?_⟩
  rw [j2 hp (by rw [(M.run_ext h1).backend]; exact hs), j1 hp hs]

theorem bind {m : M F α} {f : α → M F β} {k n : Nat} (hm : Cost m k pub) (hf : ∀ a, Cost (f a) n pub) :
    Cost (m >>= f) (k + n) pub :=
  bind' (Q := fun _ => True) hm (fun _ _ _ _ => trivial) fun a _ => hf a

theorem mono {m : M F α} {k n : Nat} (h : Cost m k pub) (hkn : k ≤ n) : Cost m n pub := by
  intro s a s' hr; have := h _ _ _ hr; exact ⟨by omega, this.2⟩

theorem weak {m : M F α} {n : Nat} (h : Cost m n pub) : Cost m n true := by
  intro s a s' hr; exact ⟨(h _ _ _ hr).1, fun hp => by cases hp⟩

end Cost

variable [Field F] [DecidableEq F]

theorem cost_alloc (v : Option F) : Cost (CNum.alloc v) 0 := by
  intro s a s' h
  refine ⟨?_, fun _ hs => ?_⟩
  · rw [(post_alloc s v _ _ h).2.2]
    simp [pushVar_cons]
  · rw [(post_alloc s v _ _ h).2.2]
    cases hb : s.backend with
    | test => exact absurd hb hs
    | setup => simp [CS.nextAlloc, CS.pushVar, hb]
    | prove => simp [CS.nextAlloc, CS.pushVar, hb]

theorem cost_enforce (a b c : CNum F) : Cost (CS.enforce a b c) 1 := by
  intro s x s' h
  rw [(post_enforce s a b c _ _ h).1]
  exact ⟨by simp, fun _ _ => rfl⟩

theorem cost_mul (a b : CNum F) : Cost (CNum.mul a b) 1 := by
  unfold CNum.mul
  split
  · exact Cost.pure
  · exact Cost.pure
  · exact (Cost.bind (cost_alloc _) fun c => Cost.bind (cost_enforce _ _ _) fun _ => Cost.pure (n := 0)).mono (by omega)

theorem cost_assertNonzero (a : CNum F) : Cost (CNum.assertNonzero a) 1 := by
  unfold CNum.assertNonzero
  split
  · exact Cost.assert
  · exact (Cost.bind (cost_alloc _) fun c => cost_enforce _ _ _).mono (by omega)

theorem cost_assertBit (a : CNum F) : Cost (CNum.assertBit a) 1 := by
  unfold CNum.assertBit
  split
  · exact Cost.assert
  · exact cost_enforce _ _ _

theorem cost_isZero (a : CNum F) : Cost (CNum.isZero a) 3 := by
  unfold CNum.isZero
  split
  · exact Cost.pure
  · refine Cost.mono (Cost.bind (cost_alloc _) fun inv => Cost.bind (cost_assertNonzero _) fun _ =>
      Cost.bind (cost_mul _ _) fun _ => Cost.bind (cost_assertBit _) fun _ => Cost.pure (n := 0)) (by omega)

theorem cost_switch (t f : CNum F) (b : CBool F) : Cost (CNum.switch t b f) 1 := by
  unfold CNum.switch
  refine Cost.mono (Cost.bind (k := 0) (n := 1) Cost.lift fun c => ?_) (by omega)
  split
  · exact Cost.pure
  · exact Cost.pure
  · split
    · exact Cost.bind (cost_mul _ _) fun _ => Cost.pure (n := 0)
    · exact Cost.bind (cost_mul _ _) fun _ => Cost.pure (n := 0)

end Fawkes
