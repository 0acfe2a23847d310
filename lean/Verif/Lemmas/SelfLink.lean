import Verif.Lemmas.LinkSignal
import Verif.Lemmas.Program

/-!
# What every client of the circuit API produces

A run linked with itself: all signals have canonical linear combinations over allocated variables, and if values are
known they are the values of the linear combinations.
-/

set_option linter.unusedSectionVars false

namespace Fawkes

variable {F : Type} [Field F] [DecidableEq F]

theorem CS.WF.mem_ne {fin : CS F} (hf : fin.WF) {i : Index} {u : Option F} (h : (i, u) ∈ fin.vars) : i ≠ .input 0 := by
  intro h0; subst h0
  have := hf.input_lt 0 (List.mem_map_of_mem (f := Prod.fst) h)
  omega

theorem lookup_of_mem {l : List (Index × Option F)} (hn : (l.map Prod.fst).Nodup) {i : Index} {u : Option F}
    (h : (i, u) ∈ l) : l.lookup i = some u := by
  induction l with
  | nil => cases h
  | cons kv l ih =>
    obtain ⟨k, v⟩ := kv
    rw [List.map_cons, List.nodup_cons] at hn
    rw [List.lookup_cons]
    rcases List.mem_cons.1 h with h | h
    · injection h with h1 h2; subst h1 h2; simp
    · have : i ≠ k := fun hk => hn.1 (hk ▸ (List.mem_map_of_mem (f := Prod.fst) h : i ∈ _))
      have hb : (i == k) = false := by simpa using this
      rw [hb]; exact ih hn.2 h

theorem CS.WF.assign_mem {fin : CS F} (hf : fin.WF) {i : Index} {v : F} (h : (i, some v) ∈ fin.vars) : fin.assign i = v := by
  unfold CS.assign
  rw [if_neg (hf.mem_ne h), lookup_of_mem hf.nodup h]

/-- A signal of a run that ends in `fin`. -/
structure Good (kn : Bool) (fin : CS F) (a : CNum F) : Prop where
  canon : a.lc.Canonical
  alloc : a.lc.Alloc fin
  value : kn = true → a.value = some (a.lc.eval fin.assign)

theorem Good.of_var {kn : Bool} {fin : CS F} (hf : fin.WF) {i : Index} {u : Option F} (h : (i, u) ∈ fin.vars)
    (hu : kn = true → u ≠ none) : Good kn fin (CNum.fromVar u i) where
  canon := canon_fromVar u i
  alloc := by
    intro k hk
    simp [CNum.fromVar, LC.keys] at hk
    subst hk; exact Or.inr (List.mem_map_of_mem (f := Prod.fst) h)
  value k := by
    obtain ⟨v, rfl⟩ := Option.ne_none_iff_exists'.1 (hu k)
    simp [CNum.fromVar, LC.eval, hf.assign_mem h]

theorem Good.const {kn : Bool} {fin : CS F} (v : F) : Good kn fin (CNum.fromConst v) where
  canon := canon_fromConst v
  alloc := alloc_fromConst v
  value _ := by rw [show (CNum.fromConst v).lc.eval fin.assign = v from CNum.eval_fromConst fin.assign_isAssignment v]; rfl

theorem Good.addAssign {kn : Bool} {fin : CS F} {a b : CNum F} (ha : Good kn fin a) (hb : Good kn fin b) :
    Good kn fin (CNum.addAssign a b) where
  canon := canon_addAssign ha.canon hb.canon
  alloc := alloc_addAssign ha.alloc hb.alloc
  value k := by
    have := CNum.eval_addAssign (w := fin.assign) a b
    unfold CNum.eval at this
    rw [this]
    simp [CNum.addAssign, ha.value k, hb.value k, CNum.value₂]

theorem Good.sub {kn : Bool} {fin : CS F} {a b : CNum F} (ha : Good kn fin a) (hb : Good kn fin b) :
    Good kn fin (CNum.sub a b) where
  canon := canon_sub ha.canon hb.canon
  alloc := alloc_sub ha.alloc hb.alloc
  value k := by
    have := CNum.eval_sub (w := fin.assign) a b
    unfold CNum.eval at this
    rw [this]
    simp [CNum.sub, ha.value k, hb.value k, CNum.value₂]

theorem Good.scale {kn : Bool} {fin : CS F} {a : CNum F} {k : F} (hk : k ≠ 0) (ha : Good kn fin a) :
    Good kn fin ⟨a.value.map (· * k), a.lc.map fun kv => (kv.1, kv.2 * k)⟩ where
  canon := ha.canon.map (· * k) fun v hv => mul_ne_zero hv hk
  alloc := by
    intro j hj
    rw [LC.keys_map a.lc (fun kv => kv.2 * k)] at hj
    exact ha.alloc j hj
  value h := by simp only; rw [ha.value h, LC.eval_map_mul]; rfl

/-- What is known about the constraints emitted so far. -/
def ConsGood (kn : Bool) (fin s : CS F) : Prop :=
  ∀ c ∈ s.cons, Good kn fin c.a ∧ Good kn fin c.b ∧ Good kn fin c.c ∧ (kn = true → s.backend = .test → c.Sat fin.assign)

theorem check_sat {kn : Bool} {fin : CS F} {a b c : CNum F} (ha : Good kn fin a) (hb : Good kn fin b) (hc : Good kn fin c)
    (k : kn = true) (h : CS.checkTriple a b c ≠ false) : Constraint.Sat fin.assign ⟨a, b, c⟩ := by
  unfold CS.checkTriple at h
  rw [ha.value k, hb.value k, hc.value k] at h
  simpa [Constraint.Sat] using h

/-- A run that ends in `fin`, linked with itself. -/
def selfLink (kn : Bool) (fin : CS F) (hf : fin.WF) : Link F where
  st s t := s = t ∧ ConsGood kn fin s
  ok _ _ s' := s'.vars <+: fin.vars
  ok_mid _ h2 h := ⟨h2.vars.trans h, h⟩
  lax := false
  known := kn
  fit a b := a = b ∧ Good kn fin a
  fit_value := by
    rintro a b ⟨rfl, h⟩
    exact Or.inr ⟨rfl, fun k => by rw [h.value k]; simp⟩
  fit_asConst h := by rw [h.1]
  fit_length h := by rw [h.1]
  fit_const v := ⟨rfl, Good.const v⟩
  fit_addAssign := by rintro a b _ _ ⟨rfl, ha⟩ ⟨rfl, hb⟩; exact ⟨rfl, ha.addAssign hb⟩
  fit_sub := by rintro a b _ _ ⟨rfl, ha⟩ ⟨rfl, hb⟩; exact ⟨rfl, ha.sub hb⟩
  fit_scale := by rintro a _ k hk ⟨rfl, ha⟩; exact ⟨rfl, ha.scale hk⟩
  sim_alloc' := by
    rintro u v h s t ⟨rfl, hs⟩ a s' hr hok
    obtain ⟨rfl, hk⟩ : v = u ∧ (kn = true → u ≠ none) := h.resolve_left (by simp)
    have h0 := hr
    unfold CNum.alloc at hr
    rw [M.run_bind, run_csalloc] at hr
    split at hr
    · next heq => split at heq <;> cases hr
    · next i s1 heq =>
      split at heq
      · cases heq
      · injection heq with heq; injection heq with e1 e2
        subst e1 e2
        rw [M.run_pure] at hr; injection hr with hr; injection hr with e1 e2
        subst e1 e2
        refine ⟨_, _, h0, ⟨rfl, ?_⟩, rfl, ?_⟩
        · intro c hc; rw [pushVar_cons] at hc
          rw [(CS.ext_pushVar_next s v).backend]; exact hs c hc
        · change (CS.pushVar _ _ _).vars <+: _ at hok; rw [pushVar_vars] at hok
          exact Good.of_var hf (hok.subset (by simp)) hk
  sim_allocInput' := by
    rintro u v h s t ⟨rfl, hs⟩ a s' hr hok
    obtain ⟨rfl, hk⟩ : v = u ∧ (kn = true → u ≠ none) := h.resolve_left (by simp)
    have h0 := hr
    rw [run_csallocInput] at hr
    split at hr
    · cases hr
    · injection hr with hr; injection hr with e1 e2
      subst e1 e2
      refine ⟨_, _, h0, ⟨rfl, ?_⟩, rfl, ?_⟩
      · intro c hc; rw [pushVar_cons] at hc
        rw [(CS.ext_pushVar_input s v).backend]; exact hs c hc
      · change (CS.pushVar _ _ _).vars <+: _ at hok; rw [pushVar_vars] at hok
        exact Good.of_var hf (hok.subset (by simp)) hk
  sim_enforce' := by
    rintro p a b c _ _ _ ⟨rfl, ha⟩ ⟨rfl, hb⟩ ⟨rfl, hc⟩ s t ⟨rfl, hs⟩ x s' hr hok
    refine ⟨x, s', hr, ⟨rfl, ?_⟩, trivial⟩
    rw [run_enforce] at hr
    split at hr
    · cases hr
    · next hn =>
      injection hr with hr; injection hr with e1 e2
      subst e2
      intro d hd
      rcases List.mem_append.1 hd with hd | hd
      · exact hs d hd
      · rw [List.mem_singleton] at hd; subst hd
        exact ⟨ha, hb, hc, fun k ht => check_sat ha hb hc k fun hf => hn ⟨ht, hf⟩⟩

theorem consGood_new (kn : Bool) (fin : CS F) (b : Backend) : ConsGood kn fin (CS.new b) := by
  intro c hc; simp [CS.new] at hc

variable {r : Nat} [Fact r.Prime] {W : Type}

theorem selfLink_eq {kn : Bool} {fin : CS F} {hf : fin.WF} {q q' : List (CNum F)}
    (h : List.Forall₂ (selfLink kn fin hf).fit q q') : q = q' ∧ ∀ x ∈ q, Good kn fin x := by
  induction h with
  | nil => exact ⟨rfl, by simp⟩
  | cons h _ ih => exact ⟨by rw [h.1, ih.1], by simpa using ⟨h.2, ih.2⟩⟩

theorem selfLink_fits {kn : Bool} {fin : CS F} {hf : fin.WF} {q : List (CNum F)} (h : ∀ x ∈ q, Good kn fin x) :
    List.Forall₂ (selfLink kn fin hf).fit q q := by
  induction q with
  | nil => exact .nil
  | cons a q ih => exact .cons ⟨rfl, h a (by simp)⟩ (ih fun x hx => h x (by simp [hx]))

theorem selfLink_sees (c : Code r W) {kn : Bool} {fin : CS (ZMod r)} {hf : fin.WF} : c.Sees (selfLink kn fin hf) := by
  induction c with
  | done => trivial
  | call c next ih => exact ⟨fun q q' h => by rw [(selfLink_eq h).1], fun l => ih l⟩

/-- If `ok` holds of every piece of a run, then it holds of every call of the client. -/
theorem Code.ok_of_run {X : Link (ZMod r)} (c : Code r W) {w : Option W} {q p : List (CNum (ZMod r))} {s fin : CS (ZMod r)}
    (h : (c.exec w q).run s = .ok (p, fin)) (hX : ∀ b s1 s2, s1.Ext s2 → s2.Ext fin → X.ok b s1 s2) : c.Ok X w q s := by
  induction c generalizing q s with
  | done => trivial
  | call c next ih =>
    intro q1 s1 h1
    rw [Code.exec] at h
    obtain ⟨q2, s2, h2, h3⟩ := M.bind_ok h
    rw [h1] at h2; injection h2 with h2; injection h2 with e1 e2
    subst e1 e2
    exact ⟨hX _ _ _ (M.run_ext h1) (M.run_ext h3), ih _ h3⟩

theorem wf_new (b : Backend) : (CS.new b : CS F).WF := ⟨le_refl _, by simp [CS.new], by simp [CS.new], by simp [CS.new]⟩

/-- Client code started on good signals produces good signals and good constraints. -/
theorem good_code (kn : Bool) (code : Code r W) (w : Option W) (hw : kn = true → w ≠ none) (hk : kn = true → code.Known)
    (s fin : CS (ZMod r)) (q p : List (CNum (ZMod r))) (last : CS (ZMod r)) (hl : last.WF) (hq : ∀ x ∈ q, Good kn last x)
    (hs : ConsGood kn last s) (h : (code.exec w q).run s = .ok (p, fin)) (hx : fin.vars <+: last.vars) :
    ConsGood kn last fin ∧ ∀ x ∈ p, Good kn last x := by
  obtain ⟨p', t', h1, h2, h3⟩ := sim_code (X := selfLink kn last hl) (w := w) (w' := w) (Or.inr ⟨rfl, hw⟩) code
    (fun k => by cases k) hk (selfLink_sees code) (selfLink_fits hq) s s ⟨rfl, hs⟩ p fin h
    (code.ok_of_run h fun b s1 s2 _ e => e.vars.trans hx)
  exact ⟨h2.2, (selfLink_eq h3).2⟩

end Fawkes
