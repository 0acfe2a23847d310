import Verif.Lemmas.NativeCode

/-!
# The assignment that the prover computes
-/

set_option linter.unusedSectionVars false

namespace Fawkes

section link
variable {F : Type} [Field F] [DecidableEq F]

/-- A run that ends in `fin`, linked with itself, whatever the constraints at its start, if all values are known. -/
def carryLink (fin : CS F) (hf : fin.WF) : Link F where
  st s t := s = t
  ok _ _ s' := s'.vars <+: fin.vars
  ok_mid _ h2 h := ⟨h2.vars.trans h, h⟩
  lax := false
  known := true
  fit a b := a = b ∧ Good true fin a
  fit_value := by
    rintro a b ⟨rfl, h⟩
    exact Or.inr ⟨rfl, fun _ => by rw [h.value rfl]; simp⟩
  fit_asConst h := by rw [h.1]
  fit_length h := by rw [h.1]
  fit_const v := ⟨rfl, Good.const v⟩
  fit_addAssign := by rintro a b _ _ ⟨rfl, ha⟩ ⟨rfl, hb⟩; exact ⟨rfl, ha.addAssign hb⟩
  fit_sub := by rintro a b _ _ ⟨rfl, ha⟩ ⟨rfl, hb⟩; exact ⟨rfl, ha.sub hb⟩
  fit_scale := by rintro a _ k hk ⟨rfl, ha⟩; exact ⟨rfl, ha.scale hk⟩
  sim_alloc' := by
    rintro u v h s t rfl a s' hr hok
    obtain ⟨rfl, hk⟩ := h.resolve_left (by simp)
    have h0 := hr
    unfold CNum.alloc at hr
    rw [M.run_bind, run_csalloc] at hr
    split at hr
    · next heq => split at heq <;> cases hr
    · next i s1 heq =>
      split at heq
      · cases heq
      · injection heq with heq; injection heq with e1 e2
        subst e1 e2
        rw [M.run_pure] at hr; injection hr with hr; injection hr with e1 e2
        subst e1 e2
        refine ⟨_, _, h0, rfl, rfl, ?_⟩
        change (CS.pushVar _ _ _).vars <+: _ at hok; rw [pushVar_vars] at hok
        exact Good.of_var hf (hok.subset (by simp)) hk
  sim_allocInput' := by
    rintro u v h s t rfl a s' hr hok
    obtain ⟨rfl, hk⟩ := h.resolve_left (by simp)
    have h0 := hr
    rw [run_csallocInput] at hr
    split at hr
    · cases hr
    · injection hr with hr; injection hr with e1 e2
      subst e1 e2
      refine ⟨_, _, h0, rfl, rfl, ?_⟩
      change (CS.pushVar _ _ _).vars <+: _ at hok; rw [pushVar_vars] at hok
      exact Good.of_var hf (hok.subset (by simp)) hk
  sim_enforce' := by
    rintro p a b c _ _ _ ⟨rfl, ha⟩ ⟨rfl, hb⟩ ⟨rfl, hc⟩ s t rfl x s' hr hok
    exact ⟨x, s', hr, rfl, trivial⟩

theorem carryLink_fits {fin : CS F} {hf : fin.WF} {q : List (CNum F)} (h : ∀ a ∈ q, Good true fin a) :
    List.Forall₂ (carryLink fin hf).fit q q := by
  induction q with
  | nil => exact .nil
  | cons a q ih => exact .cons ⟨rfl, h a (by simp)⟩ (ih fun x hx => h x (by simp [hx]))

theorem carryLink_good {fin : CS F} {hf : fin.WF} {q q' : List (CNum F)}
    (h : List.Forall₂ (carryLink fin hf).fit q q') : ∀ a ∈ q, Good true fin a := by
  induction h with
  | nil => simp
  | cons h _ ih =>
    intro a ha
    rcases List.mem_cons.1 ha with rfl | ha
    · exact h.2
    · exact ih a ha

end link

variable {r : Nat} [Fact r.Prime] {W : Type} {q : List (CNum (ZMod r))} {s : CS (ZMod r)}

theorem Good.mono {s s' : CS (ZMod r)} {a : CNum (ZMod r)} (h : Good true s a) (e : s.Ext s') : Good true s' a :=
  ⟨h.canon, h.alloc.mono e, fun k => by rw [e.eval h.alloc]; exact h.value k⟩

theorem good_call {v : W} {c : Call r W} (hk : c.Known) {q' : List (CNum (ZMod r))} {s' : CS (ZMod r)} (hs : s.WF)
    (hq : ∀ a ∈ q, Good true s a) (h : (c.exec (some v) q).run s = .ok (q', s')) : ∀ a ∈ q', Good true s' a := by
  have e := M.run_ext h
  obtain ⟨_, _, _, _, h3⟩ := sim_call (X := carryLink s' (e.wf hs)) (q := q) (q' := q) (carryLink_fits fun a ha => (hq a ha).mono e)
    (w := some v) (w' := some v) (Or.inr ⟨rfl, fun k => by simp⟩) c (fun k => by cases k) (fun _ => hk) s s rfl _ _ h
    (List.prefix_refl _)
  exact carryLink_good h3

theorem good_carried (h : ∀ a ∈ q, Good true s a) : Carried s q := fun a ha => ⟨(h a ha).alloc, (h a ha).value rfl, rfl⟩

theorem good_tidy (h : ∀ a ∈ q, Good true s a) : Tidy s q := fun a ha => ⟨(h a ha).canon, (h a ha).alloc⟩

/-- One call of the native code that does not stop: the prover's assignment stays satisfying. -/
theorem step_witness (hs : s.Honest) (hq : ∀ a ∈ q, Good true s a) {v : Option W} {c : Call r W}
    (hc : c.Proper q (valuesOf s.assign q)) {q' : List (CNum (ZMod r))} {s' : CS (ZMod r)} (h : (c.exec v q).run s = .ok (q', s'))
    {ins : List (ZMod r)} {o : List (ZMod r) × List (ZMod r) × List (ZMod r)} (hstep : c.step ins (valuesOf s.assign q) = some o) :
    s'.Honest := by
  by_cases hown : c.Own
  · have e := M.run_ext h
    obtain ⟨i, x, u, pub', hi, ho, hx, rfl, rfl, hst, hst0⟩ := own_run hown h
    refine ⟨e.wf hs.wf, ?_, ?_⟩
    · intro c hc
      rw [pushVar_cons] at hc
      obtain ⟨a1, a2, a3⟩ := hs.alloc c hc
      unfold Constraint.Sat
      rw [e.eval a1, e.eval a2, e.eval a3]
      exact hs.sat c hc
    · intro c hc
      rw [pushVar_cons] at hc
      obtain ⟨a1, a2, a3⟩ := hs.alloc c hc
      exact ⟨a1.mono e, a2.mono e, a3.mono e⟩
  · have key : ∀ new, c.native (valuesOf s.assign q) = some new → s'.Honest := by
      intro new hn
      obtain ⟨o', t, hr, -, hon, -⟩ := runs_call hs (good_carried hq) (good_tidy hq) (v := v) hc hn ⟨v, q, s, _, rfl, h⟩
      rw [h] at hr
      injection hr with hr; injection hr with _ hr
      rw [hr]; exact hon
    rcases publishes_cases hown with hp | ⟨i, rfl⟩
    · rw [step_other hown hp] at hstep
      obtain ⟨xs, hn, he⟩ := get_some hstep
      exact key _ hn
    · obtain ⟨a, ha, he⟩ := get_reg hstep
      exact key [] (by simp only [Call.native, Op.native, valuesOf_get ha]; rfl)

theorem CS.Honest.sat_ext {s s' : CS (ZMod r)} (hs : s.Honest) (e : s.Ext s') : s.Sat s'.assign := by
  intro c hc
  obtain ⟨a1, a2, a3⟩ := hs.alloc c hc
  unfold Constraint.Sat
  rw [e.eval a1, e.eval a2, e.eval a3]
  exact hs.sat c hc

theorem valuesOf_ext {s s' : CS (ZMod r)} (ht : Tidy s q) (e : s.Ext s') : valuesOf s'.assign q = valuesOf s.assign q :=
  List.map_congr_left fun a ha => e.eval (ht a ha).2

/-- A run of the native code that does not stop: the assignment that the prover computes is satisfying. -/
theorem code_witness (hs : s.Honest) (hq : ∀ a ∈ q, Good true s a) {v : W} {code : Code r W} (hk : code.Known)
    {o : List (CNum (ZMod r))} {fin : CS (ZMod r)} (h : (code.exec (some v) q).run s = .ok (o, fin))
    (hp : code.Proper (some v) q s ((code.ownVars (some v) q s).map fin.assign) (valuesOf fin.assign q)) {out : List (ZMod r) × List (ZMod r)}
    (hrun : nativeRun (code.calls (some v) q s) ((code.ownVars (some v) q s).map fin.assign) (valuesOf fin.assign q) = some out) :
    fin.Honest ∧ ∀ a ∈ o, Good true fin a := by
  induction code generalizing q s out with
  | done =>
    rw [Code.exec, M.run_pure] at h
    injection h with h; injection h with e1 e2; subst e1 e2
    exact ⟨hs, hq⟩
  | call c next ih =>
    obtain ⟨q1, s1, r1, h⟩ := M.bind_ok h
    have e := M.run_ext r1
    have e' := M.run_ext h
    have ht := good_tidy hq
    have hv : (Code.call c next).ownVars (some v) q s = c.ownVar s ++ (next (q1.map CNum.lc)).ownVars (some v) q1 s1 := by
      rw [Code.ownVars, r1]
    have hcalls : (Code.call c next).calls (some v) q s = c :: (next (q1.map CNum.lc)).calls (some v) q1 s1 := by
      rw [Code.calls, r1]
    rw [hcalls] at hrun
    obtain ⟨hp1, hp2⟩ := hp
    obtain ⟨⟨ins1, new, pub⟩, hstep, hrun⟩ := get_some hrun
    obtain ⟨⟨out', pubs'⟩, hrun, -⟩ := get_some hrun
    have hvq : valuesOf fin.assign q = valuesOf s.assign q := valuesOf_ext ht (e.trans e')
    have hs1 : s1.Honest := step_witness hs hq (by rw [← hvq]; exact hp1) r1 (by rw [← hvq]; exact hstep)
    have hq1 := good_call hk.1 hs.wf hq r1
    obtain ⟨new', pub', hstep', hval, -⟩ := step_sound (w := fin.assign) fin.assign_isAssignment hs.wf ht hp1 r1 (hs1.sat_ext e')
      ((next (q1.map CNum.lc)).ownVars (some v) q1 s1 |>.map fin.assign)
    rw [hv, List.map_append, hstep'] at hstep
    injection hstep with hstep; injection hstep with h1 hstep; injection hstep with h2 h3
    have hp2 := hp2 q1 s1 ins1 new pub r1 (by rw [hv, List.map_append, hstep', h1, h2, h3])
    rw [← h2, ← hval, ← h1] at hp2
    change nativeRun _ ins1 (valuesOf fin.assign q ++ new) = _ at hrun
    rw [← h2, ← hval, ← h1] at hrun
    exact ih _ hs1 hq1 (hk.2 _) h hp2 hrun

end Fawkes
