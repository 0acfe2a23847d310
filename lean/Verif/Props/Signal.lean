import Verif.Lemmas.Signal
import Verif.Lemmas.SignalConst
import Verif.Props.Num

/-!
# Properties of compound signals: C06, C09, C10, C57, C58, C62

Every statement ranges over all signal types `t : Ty` (numbers, booleans, sized vectors, tuples, derived
structs, nested arbitrarily). `t.evals w a` is the list of values of the components of `a`, `t.flat v` the list
of components of a native value, `t.Carries s a v` says the signal carries the native value `v`.
-/

set_option linter.unusedSectionVars false

namespace Fawkes.Props

open Fawkes

variable {F : Type} [Field F] [DecidableEq F]

/-- A concrete compound signal: `(x, (flag, [y, x]))`. -/
abbrev exTy : Ty := .pair .num (.pair .bool (.vec 2 .num))

def exSignal : exTy.S (ZMod 7) :=
  (⟨some 3, [(.aux 0, 1)]⟩, (CBool.fromConst true, ⟨[⟨some 5, [(.aux 1, 1)]⟩, ⟨some 3, [(.aux 0, 1)]⟩]⟩))

def exValue : exTy.V (ZMod 7) := ((3 : ZMod 7), (true, ⟨[(5 : ZMod 7), (3 : ZMod 7)]⟩))

theorem exSignal_carries : exTy.Carries exState exSignal exValue :=
  ⟨exState_x, has_fromConst _, rfl, .cons exState_y (.cons exState_x .nil)⟩

theorem exTy_nonEmpty : exTy.NonEmpty := ⟨trivial, trivial, by decide, trivial⟩

/-! ## C06 -/

/-- C06: the constraints emitted by `assert_eq` hold iff all components are equal. -/
theorem C06_signal_assertEq_iff (t : Ty) (a b : t.S F) (ha : t.ok F a) (hb : t.ok F b) (s s' : CS F)
    (h : (t.assertEq a b).run s = .ok ((), s')) (w : Index → F) (hw : IsAssignment w) :
    s'.Sat w ↔ s.Sat w ∧ t.evals w a = t.evals w b := t.post_assertEq hw a b ha hb s _ _ h

/-- C06: the constraints emitted by `assert_const` hold iff the components are those of the constant. -/
theorem C06_signal_assertConst_iff (t : Ty) (a : t.S F) (v : t.V F) (ha : t.ok F a) (hv : t.okV F v)
    (s s' : CS F) (h : (t.assertConst a v).run s = .ok ((), s')) (w : Index → F) (hw : IsAssignment w) :
    s'.Sat w ↔ s.Sat w ∧ t.evals w a = t.flat F v := t.post_assertConst hw a v ha hv s _ _ h

/-- C06: equal signals are accepted. -/
theorem C06_signal_complete (t : Ty) (s : CS F) (hs : s.Honest) (a b : t.S F) (v : t.V F)
    (ha : t.Carries s a v) (hb : t.Carries s b v) :
    (∃ s', (t.assertEq a b).run s = .ok ((), s') ∧ s'.Honest) ∧
    (∃ s', (t.assertConst a v).run s = .ok ((), s') ∧ s'.Honest) := by
  obtain ⟨_, s1, h1, -, hh1, -⟩ := t.runs_assertEq hs ha hb
  obtain ⟨_, s2, h2, -, hh2, -⟩ := t.runs_assertConst hs ha
  exact ⟨⟨s1, h1, hh1⟩, ⟨s2, h2, hh2⟩⟩

example : (∃ s', (exTy.assertEq exSignal exSignal).run exState = .ok ((), s') ∧ s'.Honest) ∧
    (∃ s', (exTy.assertConst exSignal exValue).run exState = .ok ((), s') ∧ s'.Honest) :=
  C06_signal_complete exTy exState exState_honest _ _ _ exSignal_carries exSignal_carries

/-- C06: on a signal all of whose components are constants the calls add no constraint, and panic exactly if the components differ. -/
theorem C06_signal_const (t : Ty) (a b : t.S F) (v : t.V F) (ha : t.ok F a) (hb : t.ok F b) (hv : t.okV F v)
    (ca : ∀ x ∈ t.leaves F a, x.asConst ≠ none) (cb : ∀ x ∈ t.leaves F b, x.asConst ≠ none) (s : CS F) (w : Index → F)
    (hw : IsAssignment w) :
    (t.assertEq a b).run s = (if t.evals w a = t.evals w b then .ok ((), s) else .error .assertion) ∧
    (t.assertConst a v).run s = (if t.evals w a = t.flat F v then .ok ((), s) else .error .assertion) :=
  ⟨t.run_assertEq_const hw a b ha hb ca cb s, t.run_assertConst_const hw a v ha hv ca s⟩

/-- Constant compound signals, made by `from_const`. -/
example : ∀ x ∈ exTy.leaves _ (exTy.fromConst exValue), CNum.asConst x ≠ none := by
  show ∀ x ∈ exTy.leaves (ZMod 7) (exTy.fromConst exValue), x.asConst ≠ none
  decide

/-! ## C09 -/

/-- C09 soundness of `is_eq` on every signal type. -/
theorem C09_signal_isEq_sound (t : Ty) (a b : t.S F) (ha : t.ok F a) (hb : t.ok F b) (r : CBool F)
    (s s' : CS F) (h : (t.isEq a b).run s = .ok (r, s')) (w : Index → F) (hw : IsAssignment w)
    (hs : s'.Sat w) : r.num.lc.eval w = if t.evals w a = t.evals w b then 1 else 0 :=
  t.spec_isEq hw a b ha hb s r s' h hs

/-- C09 completeness: the prover is never rejected and the result is right.  (A vector of length zero
panics, see `C09_isEq_empty_vec_panics`.) -/
theorem C09_signal_isEq_complete (t : Ty) (hne : t.NonEmpty) (s : CS F) (hs : s.Honest) (a b : t.S F)
    (u v : t.V F) (ha : t.Carries s a u) (hb : t.Carries s b v) :
    ∃ r s', (t.isEq a b).run s = .ok (r, s') ∧ s'.Honest ∧
      (u = v → Has s' r.num 1) ∧ (u ≠ v → Has s' r.num 0) := by
  obtain ⟨r, s', h, -, hh, hr⟩ := t.runs_isEq hne hs ha hb
  exact ⟨r, s', h, hh, hr⟩

/-- `is_eq` on vectors of length zero indexes element 0 and panics. -/
theorem C09_isEq_empty_vec_panics (t : Ty) (a b : (Ty.vec 0 t).S F) (ha : (Ty.vec 0 t).ok F a) (s : CS F) :
    ((Ty.vec 0 t).isEq a b).run s = .error .outOfBounds := by
  have h0 : a.items = [] := List.eq_nil_of_length_eq_zero ha.1
  show (vecIsEq t.isEq 0 a.items b.items).run s = _
  rw [h0]; rfl

example : ∃ r s', (exTy.isEq exSignal exSignal).run exState = .ok (r, s') ∧ s'.Honest ∧
    (exValue = exValue → Has s' r.num 1) ∧ (exValue ≠ exValue → Has s' r.num 0) :=
  C09_signal_isEq_complete exTy exTy_nonEmpty exState exState_honest _ _ _ _ exSignal_carries exSignal_carries

/-! ## C10 -/

/-- C10 soundness of `switch` on every signal type. -/
theorem C10_signal_switch_sound (t : Ty) (x y : t.S F) (c : CBool F) (hx : t.ok F x) (hy : t.ok F y)
    (r : t.S F) (s s' : CS F) (h : (t.switch x c y).run s = .ok (r, s')) (w : Index → F)
    (hw : IsAssignment w) (hs : s'.Sat w) :
    (c.num.lc.eval w = 1 → t.evals w r = t.evals w x) ∧ (c.num.lc.eval w = 0 → t.evals w r = t.evals w y) :=
  (t.spec_switch hw x y c hx hy s r s' h hs).2

/-- C10 completeness. -/
theorem C10_signal_switch_complete (t : Ty) (s : CS F) (hs : s.Honest) (x y : t.S F) (u v : t.V F)
    (c : Bool) (bit : CBool F) (hx : t.Carries s x u) (hy : t.Carries s y v)
    (hb : Has s bit.num (boolToF c)) :
    ∃ r s', (t.switch x bit y).run s = .ok (r, s') ∧ s'.Honest ∧ t.Carries s' r (if c then u else v) := by
  obtain ⟨r, s', h, -, hh, hr⟩ := t.runs_switch hs hx hy hb
  exact ⟨r, s', h, hh, hr⟩

example : ∃ r s', (exTy.switch exSignal (CBool.fromConst false) exSignal).run exState = .ok (r, s') ∧
    s'.Honest ∧ exTy.Carries s' r (if false then exValue else exValue) :=
  C10_signal_switch_complete exTy exState exState_honest _ _ _ _ false _ exSignal_carries exSignal_carries
    (has_fromConst _)

/-! ## C57 -/

/-- C57, full statement: both constructors only produce vectors of the declared length. -/
def C57_full : Prop :=
  ∀ (T : Type) (n : Nat) (l : List T),
    (∀ v : SizedVec T n, SizedVec.collect l = .ok v → v.items.length = n) ∧
    (SizedVec.deserialize l : SizedVec T n).items.length = n

/-- C57 is false of the code: deserialising a sequence of another length succeeds
(src/core/sizedvec.rs:34-38). -/
theorem C57_refuted : ¬ C57_full := by
  intro h
  have := (h Nat 3 [1]).2
  revert this; decide

/-- C57, what holds: `collect` succeeds exactly on sequences of the declared length and keeps the elements.
Missing: deserialisation, where the claim is false (`C57_refuted`). -/
theorem C57_collect_partial {T : Type} (n : Nat) (l : List T) :
    (l.length = n ↔ ∃ v : SizedVec T n, SizedVec.collect l = .ok v) ∧
    (∀ v : SizedVec T n, SizedVec.collect l = .ok v → v.items = l ∧ v.items.length = n) := by
  unfold SizedVec.collect
  by_cases h : l.length = n
  · simp only [h, if_true]
    refine ⟨by simp, ?_⟩
    rintro v hv; injection hv with hv; subst hv; exact ⟨rfl, h⟩
  · simp only [h, if_false]
    exact ⟨by simp, by simp⟩

/-- C57: so an allocated signal always has vectors of the declared lengths, whatever value was supplied. -/
theorem C57_alloc_lengths (t : Ty) (v : Option (t.V F)) (a : t.S F) (s s' : CS F)
    (h : (t.alloc v).run s = .ok (a, s')) : t.ok F a := (t.post_alloc v s a s' h).1

/-! ## C58 -/

/-- C58: `linearize` lists the components; there are `width` of them. -/
theorem C58_linearize (t : Ty) (a : t.S F) (ha : t.ok F a) :
    t.linearize a = t.leaves F a ∧ (t.linearize a).length = t.width :=
  ⟨t.linearize_eq a, (congrArg _ (t.linearize_eq a)).trans (t.leaves_length a ha)⟩

/-- C58: `inputize` adds one public input per component, and in every satisfying assignment these inputs are,
in order, the components. -/
theorem C58_inputize_sound (t : Ty) (a : t.S F) (ha : t.ok F a) (s s' : CS F)
    (h : (t.inputize a).run s = .ok ((), s')) (w : Index → F) (hw : IsAssignment w) (hs : s'.Sat w) :
    s'.ninputs = s.ninputs + t.width ∧
    (List.range t.width).map (fun i => w (.input (s.ninputs + i))) = t.evals w a := by
  obtain ⟨h1, -, h3⟩ := t.spec_inputize hw a s _ _ h hs
  rw [t.evals_length w a ha] at h1
  refine ⟨h1, List.ext_getElem (by simp [t.evals_length w a ha]) ?_⟩
  intro i h4 h5
  simp only [List.getElem_map, List.getElem_range]
  exact h3 i h5

/-- C58: the honest prover can always publish. -/
theorem C58_inputize_complete (t : Ty) (s : CS F) (hs : s.Honest) (a : t.S F) (v : t.V F)
    (ha : t.Carries s a v) : ∃ s', (t.inputize a).run s = .ok ((), s') ∧ s'.Honest := by
  obtain ⟨_, s', h, -, hh, -⟩ := t.runs_inputize hs ha
  exact ⟨s', h, hh⟩

/-- C58 for the circuits generated by the command-line macros: on a Groth16 back end, if the user's circuit
publishes nothing itself, then in every satisfying assignment the public inputs are exactly
the components of the public signal. -/
theorem C58_circuit_sound (P Q : Ty) (main : P.S F → Q.S F → M F Unit) (p : Option (P.V F))
    (q : Option (Q.V F))
    (hmain : ∀ a b s s', (main a b).run s = .ok ((), s') → s.backend ≠ .test → s'.ninputs = s.ninputs)
    (be : Backend) (hbe : be ≠ .test) (a : P.S F) (s' : CS F)
    (h : (synthesize P Q main p q).run (CS.new be) = .ok (a, s')) (w : Index → F) (hw : IsAssignment w)
    (hs : s'.Sat w) :
    s'.ninputs = 1 + P.width ∧ (List.range P.width).map (fun i => w (.input (1 + i))) = P.evals w a := by
  obtain ⟨a1, s1, h1, h⟩ := M.bind_ok h
  obtain ⟨b1, s2, h2, h⟩ := M.bind_ok h
  obtain ⟨_, s3, h3, h⟩ := M.bind_ok h
  obtain ⟨_, s4, h4, h⟩ := M.bind_ok h
  rw [M.run_pure] at h; injection h with h; injection h with ha hs4; subst ha hs4
  obtain ⟨hok, hk1⟩ := P.post_alloc p _ _ _ h1
  obtain ⟨-, hk2⟩ := Q.post_alloc q _ _ _ h2
  have hn : s3.ninputs = 1 := by
    rw [hmain _ _ _ _ h3 (by rw [(M.run_ext h2).backend, (M.run_ext h1).backend]; exact hbe), (hk1.trans _ _ _ hk2).2 hbe]; rfl
  have := C58_inputize_sound P a1 hok s3 s4 h4 w hw hs
  rwa [hn] at this

/-- C58: and the public inputs the prover records, whether or not the circuit is satisfied, are what
`get_inputs()` returns: the components of the public data. -/
theorem C58_circuit_get_inputs (P Q : Ty) (main : P.S F → Q.S F → M F Unit) (p : P.V F) (hp : P.okV F p)
    (q : Option (Q.V F))
    (hmain : ∀ a b s s', (main a b).run s = .ok ((), s') → s.backend ≠ .test → s'.ninputs = s.ninputs)
    (a : P.S F) (s' : CS F)
    (h : (synthesize P Q main (some p) q).run (CS.new .prove) = .ok (a, s')) :
    s'.ninputs = 1 + P.width ∧ (List.range P.width).map (fun i => s'.assign (.input (1 + i))) = P.flat F p ∧
    getInputs P (some p) = .ok (some (P.flat F p)) := by
  have hget : getInputs P (some p) = .ok (some (P.flat F p)) := by
    obtain ⟨a2, s5, h5, -, -, hc⟩ := P.runs_alloc (CS.honest_new (F := F) .test) p hp
    unfold getInputs
    rw [h5]
    simp only
    rw [P.linearize_eq, mapM_forall₂ hc.leaves]
  obtain ⟨a1, s1, h1, h⟩ := M.bind_ok h
  obtain ⟨b1, s2, h2, h⟩ := M.bind_ok h
  obtain ⟨_, s3, h3, h⟩ := M.bind_ok h
  obtain ⟨_, s4, h4, h⟩ := M.bind_ok h
  rw [M.run_pure] at h; injection h with h; injection h with ha hs4; subst ha hs4
  obtain ⟨a2, s5, h5, -, hh, hc⟩ := P.runs_alloc (CS.honest_new (F := F) .prove) p hp
  rw [h1] at h5; injection h5 with h5; injection h5 with h5 h6; subst h5 h6
  obtain ⟨hok, hk1⟩ := P.post_alloc (some p) _ _ _ h1
  obtain ⟨-, hk2⟩ := Q.post_alloc q _ _ _ h2
  have e2 := M.run_ext h2
  have e3 := M.run_ext h3
  have hbe : (CS.new .prove : CS F).backend ≠ .test := by simp [CS.new]
  have hn : s3.ninputs = 1 := by
    rw [hmain _ _ _ _ h3 (by rw [e2.backend, (M.run_ext h1).backend]; exact hbe), (hk1.trans _ _ _ hk2).2 hbe]; rfl
  obtain ⟨hr1, hr2⟩ := P.recorded_inputize (e3.wf (e2.wf hh.wf)) (hc.mono (e2.trans e3)) h4
  have hw : (P.flat F p).length = P.width := by rw [← hc.evals]; exact P.evals_length _ _ hok
  rw [hn] at hr1 hr2
  refine ⟨by rw [hr1, hw], List.ext_getElem (by simp [hw]) ?_, hget⟩
  intro i h4 h5
  simp only [List.getElem_map, List.getElem_range]
  exact (hr2 i h5).2

example : ∃ s', (exTy.inputize exSignal).run exState = .ok ((), s') ∧ s'.Honest :=
  C58_inputize_complete exTy exState exState_honest _ _ exSignal_carries

/-- The hypotheses of `C58_circuit_get_inputs` are met by a circuit that asserts two of the values equal (for circuits
built from the whole API see `C58_client_sound`). -/
example : ∃ a s', (synthesize exTy .num (fun a b => CNum.assertEq a.1 b) (some exValue)
      (some (3 : ZMod 7))).run (CS.new .prove) = .ok (a, s') ∧ s'.Sat s'.assign := by
  have key : Runs (CS.new .prove) (synthesize exTy .num (fun a b => CNum.assertEq a.1 b) (some exValue)
      (some (3 : ZMod 7))) (fun _ _ => True) := by
    refine Runs.bind (exTy.runs_alloc (CS.honest_new .prove) exValue exSignal_carries.okV)
      fun a s1 e1 hs1 h1 => ?_
    refine Runs.bind (Ty.num.runs_alloc hs1 (3 : ZMod 7) trivial) fun b s2 e2 hs2 h2 => ?_
    refine Runs.bind (runs_assertEq hs2 (h1.mono e2).1 h2) fun _ s3 e3 hs3 _ => ?_
    refine Runs.bind (exTy.runs_inputize hs3 ((h1.mono e2).mono e3)) fun _ s4 e4 hs4 _ => ?_
    exact Runs.pure hs4 trivial
  obtain ⟨a, s', h, -, hh, -⟩ := key
  exact ⟨a, s', h, hh.sat⟩

/-! ## C62 -/

/-- C62, full statement: `get_value` and `as_const` never panic on signals freshly allocated without
a value; they return `None`. -/
def C62_full : Prop :=
  ∀ (F : Type) (_ : Field F) (_ : DecidableEq F) (t : Ty) (a : t.S F) (s s' : CS F),
    0 < t.width → (t.alloc none).run s = .ok (a, s') → t.getValue a = .ok none ∧ t.asConst a = .ok none

/-- C62 is false of the code: on a vector, collecting into `Option<SizedVec<_, _>>` hands the
truncated sequence to the length assertion of `SizedVec`, which panics. -/
theorem C62_refuted : ¬ C62_full := by
  intro h
  have := (h (ZMod 7) inferInstance inferInstance (.vec 1 .num) ⟨[⟨none, [(.aux 0, 1)]⟩]⟩ (CS.new .setup)
    ⟨.setup, 1, 1, [(.aux 0, none)], []⟩ (by decide) (by rfl)).1
  cases this

/-- C62, what holds: on a signal that carries a value `get_value` returns that value, for every signal type.
Missing: signals without value, where vectors panic (`C62_refuted`). -/
theorem C62_getValue_partial (t : Ty) (s : CS F) (a : t.S F) (v : t.V F) (h : t.Carries s a v) :
    t.getValue a = .ok (some v) := t.getValue_carries h

/-- C62: so `alloc(Some(v)).get_value()` is `Some(v)`. -/
theorem C62_alloc_getValue (t : Ty) (v : t.V F) (hv : t.okV F v) (s : CS F) (hs : s.Honest) :
    ∃ a s', (t.alloc (some v)).run s = .ok (a, s') ∧ s'.Honest ∧ t.getValue a = .ok (some v) := by
  obtain ⟨a, s', h, -, hh, hc⟩ := t.runs_alloc hs v hv
  exact ⟨a, s', h, hh, t.getValue_carries hc⟩

/-- C62: `from_const(v)` carries the value, with `as_const` and `get_value` both returning it. -/
theorem C62_fromConst (t : Ty) (v : t.V F) (hv : t.okV F v) (s : CS F) :
    t.Carries s (t.fromConst v) v ∧ t.getValue (t.fromConst v) = .ok (some v) ∧
      t.asConst (t.fromConst v) = .ok (some v) := by
  have hc : t.Carries s (t.fromConst v) v := t.carries_fromConst v hv
  exact ⟨hc, t.getValue_carries hc, t.asConst_fromConst v hv⟩

example : exTy.getValue exSignal = .ok (some exValue) :=
  C62_getValue_partial exTy exState _ _ exSignal_carries

end Fawkes.Props
