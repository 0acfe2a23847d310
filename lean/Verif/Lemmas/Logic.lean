import Verif.Lemmas.LC
import Verif.Spec.Circuit

/-!
# Program logics for circuit building

* `Post s m Q`: every non-panicking run of `m` from `s` ends in `Q` (structural facts).
* `Spec w s m Q`: every non-panicking run of `m` from `s` whose final constraints are satisfied by the
  assignment `w` ends in `Q` (soundness).
* `Runs s m Q`: `m` does not panic from `s`, keeps the state honest and ends in `Q` (completeness).
-/

namespace Fawkes

variable {F : Type} {α β : Type}

namespace M

theorem run_ext {m : M F α} {s s' : CS F} {a : α} (h : m.run s = .ok (a, s')) : s.Ext s' := by
  unfold run at h
  split at h
  · cases h
  · next a' s1 _ => injection h with h; injection h with h1 h2; subst h2; exact s1.2

theorem run_pure (a : α) (s : CS F) : (pure a : M F α).run s = .ok (a, s) := rfl

theorem run_bind (m : M F α) (f : α → M F β) (s : CS F) :
    (m >>= f).run s = match m.run s with
      | .error e => .error e
      | .ok (a, s1) => (f a).run s1 := by
  simp only [Bind.bind, run]
  cases hm : m s with
  | error e => rfl
  | ok r =>
    obtain ⟨a, s1⟩ := r
    simp only
    cases f a s1.1 with
    | error e => rfl
    | ok r => rfl

theorem run_panic (e : Panic) (s : CS F) : (M.panic e : M F α).run s = .error e := rfl

theorem run_lift (x : Except Panic α) (s : CS F) :
    (M.lift x : M F α).run s = match x with | .error e => .error e | .ok a => .ok (a, s) := by
  unfold run lift; cases x <;> rfl

theorem run_assert (b : Bool) (e : Panic) (s : CS F) :
    (M.assert b e : M F Unit).run s = if b then .ok ((), s) else .error e := by
  unfold M.assert; cases b <;> rfl

theorem bind_ok {m : M F α} {f : α → M F β} {s s' : CS F} {b : β}
    (h : (m >>= f).run s = .ok (b, s')) :
    ∃ a s1, m.run s = .ok (a, s1) ∧ (f a).run s1 = .ok (b, s') := by
  rw [run_bind] at h
  cases hm : m.run s with
  | error e => rw [hm] at h; cases h
  | ok r => rw [hm] at h; exact ⟨r.1, r.2, rfl, h⟩

theorem run_bind_ok {m : M F α} {f : α → M F β} {s s1 : CS F} {a : α}
    (h : m.run s = .ok (a, s1)) : (m >>= f).run s = (f a).run s1 := by
  rw [run_bind, h]

private theorem ext' {m m' : M F α} (h : ∀ s, m s = m' s) : m = m' := funext h

instance : LawfulMonad (M F) := LawfulMonad.mk'
  (id_map := by
    intro α x
    apply ext'; intro s
    show (match x s with
      | .error e => _
      | .ok (a, s1) => _) = _
    cases x s with
    | error e => rfl
    | ok r => rfl)
  (pure_bind := by
    intro α β x f
    apply ext'; intro s
    simp only [Bind.bind, Pure.pure]
    cases f x s with
    | error e => rfl
    | ok r => rfl)
  (bind_assoc := by
    intro α β γ x f g
    apply ext'; intro s
    simp only [Bind.bind]
    cases x s with
    | error e => rfl
    | ok r =>
      obtain ⟨a, s1⟩ := r
      simp only
      cases f a s1.1 with
      | error e => rfl
      | ok r =>
        obtain ⟨b, s2⟩ := r
        simp only
        cases g b s2.1 with
        | error e => rfl
        | ok r => rfl)

end M

/-- Every non-panicking run ends in `Q`. -/
def Post (s : CS F) (m : M F α) (Q : α → CS F → Prop) : Prop :=
  ∀ a s', m.run s = .ok (a, s') → Q a s'

namespace Post

variable {s : CS F} {Q : α → CS F → Prop} {R : β → CS F → Prop}

theorem pure {a : α} (h : Q a s) : Post s (Pure.pure a : M F α) Q := by
  intro b s' hb; rw [M.run_pure] at hb; injection hb with hb; injection hb with h1 h2
  subst h1 h2; exact h

theorem bind {m : M F α} {f : α → M F β} (hm : Post s m Q)
    (hf : ∀ a s1, s.Ext s1 → Q a s1 → Post s1 (f a) R) : Post s (m >>= f) R := by
  intro b s' h
  obtain ⟨a, s1, h1, h2⟩ := M.bind_ok h
  exact hf a s1 (M.run_ext h1) (hm _ _ h1) _ _ h2

theorem mono {m : M F α} {Q' : α → CS F → Prop} (h : Post s m Q)
    (hq : ∀ a s', s.Ext s' → Q a s' → Q' a s') : Post s m Q' :=
  fun a s' hr => hq a s' (M.run_ext hr) (h a s' hr)

theorem and {m : M F α} {Q' : α → CS F → Prop} (h : Post s m Q) (h' : Post s m Q') :
    Post s m (fun a s' => Q a s' ∧ Q' a s') := fun a s' hr => ⟨h a s' hr, h' a s' hr⟩

theorem panic {e : Panic} : Post s (M.panic e : M F α) Q := by
  intro a s' h; rw [M.run_panic] at h; cases h

theorem lift {x : Except Panic α} (h : ∀ a, x = .ok a → Q a s) : Post s (M.lift x) Q := by
  intro a s' hr; rw [M.run_lift] at hr
  cases x with
  | error e => cases hr
  | ok b => injection hr with hr; injection hr with h1 h2; subst h1 h2; exact h _ rfl

theorem assert {b : Bool} {e : Panic} {Q : Unit → CS F → Prop} (h : b = true → Q () s) :
    Post s (M.assert b e) Q := by
  intro a s' hr; rw [M.run_assert] at hr
  cases b with
  | false => cases hr
  | true => injection hr with hr; injection hr with h1 h2; subst h2; exact h rfl

theorem true {m : M F α} : Post s m (fun _ _ => True) := fun _ _ _ => trivial

end Post

section sat
variable [Field F]

theorem CS.Ext.sat {s s' : CS F} (h : s.Ext s') {w : Index → F} (hs : s'.Sat w) : s.Sat w :=
  fun c hc => hs c (h.cons.subset hc)

/-- Soundness triple: every non-panicking run whose final constraints are satisfied by `w`
ends in `Q`. -/
def Spec (w : Index → F) (s : CS F) (m : M F α) (Q : α → CS F → Prop) : Prop :=
  ∀ a s', m.run s = .ok (a, s') → s'.Sat w → Q a s'

namespace Spec

variable {w : Index → F} {s : CS F} {Q : α → CS F → Prop} {R : β → CS F → Prop}

theorem pure {a : α} (h : s.Sat w → Q a s) : Spec w s (Pure.pure a : M F α) Q := by
  intro b s' hb hs; rw [M.run_pure] at hb; injection hb with hb; injection hb with h1 h2
  subst h1 h2; exact h hs

theorem bind {m : M F α} {f : α → M F β} (hm : Spec w s m Q)
    (hf : ∀ a s1, s.Ext s1 → Q a s1 → Spec w s1 (f a) R) : Spec w s (m >>= f) R := by
  intro b s' h hs
  obtain ⟨a, s1, h1, h2⟩ := M.bind_ok h
  exact hf a s1 (M.run_ext h1) (hm _ _ h1 ((M.run_ext h2).sat hs)) _ _ h2 hs

theorem mono {m : M F α} {Q' : α → CS F → Prop} (h : Spec w s m Q)
    (hq : ∀ a s', s.Ext s' → Q a s' → Q' a s') : Spec w s m Q' :=
  fun a s' hr hs => hq a s' (M.run_ext hr) (h a s' hr hs)

theorem of_post {m : M F α} (h : Post s m Q) : Spec w s m Q := fun a s' hr _ => h a s' hr

theorem and {m : M F α} {Q' : α → CS F → Prop} (h : Spec w s m Q) (h' : Spec w s m Q') :
    Spec w s m (fun a s' => Q a s' ∧ Q' a s') := fun a s' hr hs => ⟨h a s' hr hs, h' a s' hr hs⟩

theorem and_post {m : M F α} {Q' : α → CS F → Prop} (h : Spec w s m Q) (h' : Post s m Q') :
    Spec w s m (fun a s' => Q a s' ∧ Q' a s') := h.and (of_post h')

theorem panic {e : Panic} : Spec w s (M.panic e : M F α) Q := of_post Post.panic

theorem lift {x : Except Panic α} (h : ∀ a, x = .ok a → Q a s) : Spec w s (M.lift x) Q :=
  of_post (Post.lift h)

theorem assert {b : Bool} {e : Panic} {Q : Unit → CS F → Prop} (h : b = true → Q () s) :
    Spec w s (M.assert b e) Q := of_post (Post.assert h)

end Spec

omit [Field F] in
theorem LC.Alloc.mono {s s' : CS F} {l : LC F} (h : l.Alloc s) (e : s.Ext s') : l.Alloc s' := by
  intro k hk
  rcases h k hk with h | h
  · exact Or.inl h
  · refine Or.inr ?_
    obtain ⟨t, ht⟩ := e.vars
    rw [← ht, List.map_append]; exact List.mem_append_left _ h

theorem CS.assign_isAssignment (s : CS F) : IsAssignment s.assign := by
  simp [IsAssignment, CS.assign]

omit [Field F] in
theorem lookup_append_of_mem {l t : List (Index × Option F)} {k : Index} (h : k ∈ l.map Prod.fst) :
    (l ++ t).lookup k = l.lookup k := by
  induction l with
  | nil => cases h
  | cons kv l ih =>
    obtain ⟨k', v⟩ := kv
    simp only [List.cons_append, List.lookup_cons]
    by_cases hk : k = k'
    · subst hk; simp
    · have hb : (k == k') = false := by simpa using hk
      rw [hb]
      simp only
      apply ih
      simpa [hk] using h

theorem CS.Ext.assign {s s' : CS F} (e : s.Ext s') {k : Index}
    (h : k = .input 0 ∨ k ∈ s.vars.map Prod.fst) : s'.assign k = s.assign k := by
  unfold CS.assign
  split
  · rfl
  · next hk =>
    rcases h with h | h
    · exact absurd h hk
    · obtain ⟨t, ht⟩ := e.vars
      rw [← ht, lookup_append_of_mem h]

theorem CS.Ext.eval {s s' : CS F} (e : s.Ext s') {l : LC F} (h : l.Alloc s) :
    l.eval s'.assign = l.eval s.assign := by
  unfold LC.eval
  congr 1
  apply List.map_congr_left
  intro kv hkv
  rw [e.assign (h kv.1 (List.mem_map_of_mem hkv))]

theorem CS.honest_new (b : Backend) : (CS.new b : CS F).Honest where
  wf := ⟨Nat.le_refl _, by simp [CS.new], by simp [CS.new], by simp [CS.new]⟩
  sat := by intro c hc; cases hc
  alloc := by intro c hc; cases hc

theorem Has.mono {s s' : CS F} {a : CNum F} {v : F} (h : Has s a v) (e : s.Ext s') : Has s' a v :=
  ⟨h.alloc.mono e, h.value, (e.eval h.alloc).trans h.eval⟩

/-- Completeness triple: `m` does not panic from the honest state `s`, stays honest and ends in `Q`. -/
def Runs (s : CS F) (m : M F α) (Q : α → CS F → Prop) : Prop :=
  ∃ a s', m.run s = .ok (a, s') ∧ s.Ext s' ∧ s'.Honest ∧ Q a s'

namespace Runs

variable {s : CS F} {Q : α → CS F → Prop} {R : β → CS F → Prop}

theorem pure {a : α} (hs : s.Honest) (h : Q a s) : Runs s (Pure.pure a : M F α) Q :=
  ⟨a, s, rfl, .refl s, hs, h⟩

theorem bind {m : M F α} {f : α → M F β} (hm : Runs s m Q)
    (hf : ∀ a s1, s.Ext s1 → s1.Honest → Q a s1 → Runs s1 (f a) R) : Runs s (m >>= f) R := by
  obtain ⟨a, s1, h1, e1, hh, hq⟩ := hm
  obtain ⟨b, s2, h2, e2, hh2, hr⟩ := hf a s1 e1 hh hq
  exact ⟨b, s2, (M.run_bind_ok h1).trans h2, e1.trans e2, hh2, hr⟩

theorem mono {m : M F α} {Q' : α → CS F → Prop} (h : Runs s m Q)
    (hq : ∀ a s', s.Ext s' → s'.Honest → Q a s' → Q' a s') : Runs s m Q' := by
  obtain ⟨a, s1, h1, e1, hh, h⟩ := h
  exact ⟨a, s1, h1, e1, hh, hq a s1 e1 hh h⟩

theorem and_post {m : M F α} {Q' : α → CS F → Prop} (h : Runs s m Q) (h' : Post s m Q') :
    Runs s m (fun a s' => Q a s' ∧ Q' a s') := by
  obtain ⟨a, s1, h1, e1, hh, h⟩ := h
  exact ⟨a, s1, h1, e1, hh, h, h' _ _ h1⟩

/-- Soundness of the recorded assignment comes for free on an honest run. -/
theorem and_spec {m : M F α} {Q' : (Index → F) → α → CS F → Prop} (h : Runs s m Q)
    (h' : ∀ w, IsAssignment w → Spec w s m (Q' w)) :
    Runs s m (fun a s' => Q a s' ∧ Q' s'.assign a s') := by
  obtain ⟨a, s1, h1, e1, hh, h⟩ := h
  exact ⟨a, s1, h1, e1, hh, h, h' _ (CS.assign_isAssignment s1) _ _ h1 hh.sat⟩

theorem lift {x : Except Panic α} {a : α} (hs : s.Honest) (hx : x = .ok a) (h : Q a s) :
    Runs s (M.lift x) Q := ⟨a, s, by rw [M.run_lift, hx], .refl s, hs, h⟩

theorem assert {b : Bool} {e : Panic} {Q : Unit → CS F → Prop} (hs : s.Honest) (hb : b = true)
    (h : Q () s) : Runs s (M.assert b e) Q :=
  ⟨(), s, by rw [M.run_assert, hb]; rfl, .refl s, hs, h⟩

end Runs

end sat

end Fawkes
