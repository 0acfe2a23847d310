import Verif.Lemmas.Program
import Mathlib.Algebra.Field.ZMod
import Mathlib.Tactic.NormNum.Prime

/-!
# Properties C01–C13: circuit numbers and constraint systems

Conventions in the statements:
* `a.lc.eval w` is the value of signal `a` under an assignment `w` of the circuit variables;
* `s'.Sat w` says that `w` satisfies every constraint enforced so far;
* `IsAssignment w` says that the constant variable is 1;
* `Has s a v` says that signal `a` has witness value `v` in state `s`, consistently with the
  recorded variable values; `s.Honest` says the recorded values satisfy all constraints of `s`.
-/

set_option linter.unusedSectionVars false

namespace Fawkes.Props

open Fawkes

/-- A concrete field for the examples. -/
instance : Fact (Nat.Prime 7) := ⟨by norm_num⟩

variable {F : Type} [Field F] [DecidableEq F]

/-! ## C01 -/

/-- C01: under every assignment the linear operations have exactly the expected value.  The three
forms of `+` are the ones the operand ownership selects between. -/
theorem C01_linear_exact (a b : CNum F) (k : F) (w : Index → F) (hw : IsAssignment w) :
    (CNum.add a b).lc.eval w = a.lc.eval w + b.lc.eval w ∧
    (CNum.addAssign a b).lc.eval w = a.lc.eval w + b.lc.eval w ∧
    (CNum.addAssign b a).lc.eval w = a.lc.eval w + b.lc.eval w ∧
    (CNum.sub a b).lc.eval w = a.lc.eval w - b.lc.eval w ∧
    (CNum.neg a).lc.eval w = - a.lc.eval w ∧
    (CNum.mulConst a k).lc.eval w = a.lc.eval w * k ∧
    (CNum.addConst a k).lc.eval w = a.lc.eval w + k ∧
    (CNum.subConst a k).lc.eval w = a.lc.eval w - k ∧
    (CNum.constSub k a).lc.eval w = k - a.lc.eval w ∧
    (CNum.fromConst k).lc.eval w = k :=
  ⟨CNum.eval_add w a b, CNum.eval_addAssign w a b,
   (CNum.eval_addAssign w b a).trans (add_comm _ _), CNum.eval_sub w a b, CNum.eval_neg w a,
   CNum.eval_mulConst hw a k, CNum.eval_addConst hw a k, CNum.eval_subConst hw a k,
   CNum.eval_constSub hw a k, CNum.eval_fromConst hw k⟩

/-- C01: and so do the witness values, when the operands have them. -/
theorem C01_values (a b : CNum F) (k x y : F) (ha : a.value = some x) (hb : b.value = some y) :
    (CNum.add a b).value = some (x + y) ∧
    (CNum.addAssign a b).value = some (x + y) ∧
    (CNum.sub a b).value = some (x - y) ∧
    (CNum.neg a).value = some (-x) ∧
    (CNum.mulConst a k).value = some (x * k) ∧
    (CNum.addConst a k).value = some (x + k) ∧
    (CNum.subConst a k).value = some (x - k) ∧
    (CNum.constSub k a).value = some (k - x) := by
  refine ⟨?_, by simp [CNum.addAssign, CNum.value₂, ha, hb], by simp [CNum.sub, CNum.value₂, ha, hb],
    by simp [CNum.neg, ha], ?_, by simp [CNum.addConst, CNum.addAssign, CNum.value₂, ha, CNum.fromConst],
    by simp [CNum.subConst, CNum.sub, CNum.value₂, ha, CNum.fromConst],
    by simp [CNum.constSub, CNum.sub, CNum.value₂, ha, CNum.fromConst]⟩
  · unfold CNum.add; split
    · simp [CNum.addAssign, CNum.value₂, ha, hb]
    · simp [CNum.addAssign, CNum.value₂, ha, hb, add_comm]
  · unfold CNum.mulConst; split
    · next h => simp [CNum.zero, CNum.fromConst, h]
    · simp [ha]

/-- C01: without a value on an operand the result has none (unless scaled by zero). -/
theorem C01_values_none (a b : CNum F) (k : F) (ha : a.value = none) :
    (CNum.add a b).value = none ∧ (CNum.add b a).value = none ∧ (CNum.sub a b).value = none ∧
    (CNum.sub b a).value = none ∧ (CNum.neg a).value = none ∧
    (CNum.mulConst a k).value = (if k = 0 then some 0 else none) ∧ (CNum.addConst a k).value = none ∧
    (CNum.subConst a k).value = none ∧ (CNum.constSub k a).value = none := by
  refine ⟨?_, ?_, by simp [CNum.sub, CNum.value₂, ha], ?_, by simp [CNum.neg, ha], ?_,
    by simp [CNum.addConst, CNum.addAssign, CNum.value₂, ha], by simp [CNum.subConst, CNum.sub, CNum.value₂, ha],
    by simp [CNum.constSub, CNum.sub, CNum.value₂, ha, CNum.fromConst]⟩
  · unfold CNum.add; split
    · simp [CNum.addAssign, CNum.value₂, ha]
    · cases h : b.value <;> simp [CNum.addAssign, CNum.value₂, ha, h]
  · unfold CNum.add; split
    · cases h : b.value <;> simp [CNum.addAssign, CNum.value₂, ha, h]
    · simp [CNum.addAssign, CNum.value₂, ha]
  · cases h : b.value <;> simp [CNum.sub, CNum.value₂, ha, h]
  · unfold CNum.mulConst; split <;> simp [CNum.zero, CNum.fromConst, ha]

/-- C01: division by a non-zero constant never panics, adds nothing to the constraint system, and is
exact; division by the constant zero panics for every signal that has a value. -/
theorem C01_divConst (a : CNum F) (k : F) (s : CS F) :
    (k ≠ 0 → ∃ q, (CNum.divConst a k).run s = .ok (q, s) ∧ q.value = a.value.map (· / k) ∧
      ∀ w, q.lc.eval w = a.lc.eval w / k) ∧
    (k = 0 → a.value ≠ none → (CNum.divConst a k).run s = .error .divByZero) := by
  constructor
  · intro hk
    refine ⟨_, by unfold CNum.divConst; rw [if_neg (fun h => hk h.1)]; rfl, rfl, fun w => ?_⟩
    exact LC.eval_map_div w _ _
  · intro hk ha
    unfold CNum.divConst; rw [if_pos ⟨hk, Or.inl ha⟩]; rfl

/-- Concrete instance: `(3·x₁ + 2) + (4·x₁ + x₂)` over `ZMod 7` cancels the `x₁` term. -/
example : (CNum.add ⟨none, [(.input 0, 2), (.aux 1, 3)]⟩ ⟨none, [(.aux 1, 4), (.aux 2, 1)]⟩ :
    CNum (ZMod 7)).lc = [(.input 0, 2), (.aux 2, 1)] := by decide

/-! ## C02 -/

/-- C02: running any program of API calls from canonical signals gives only canonical signals: strictly
increasing variables and no zero coefficient on a non-constant variable. -/
theorem C02_signals_canonical (ops : List (Op F)) (b : Backend) (r : List (CNum F)) (s : CS F)
    (h : (exec [] ops).run (CS.new b) = .ok (r, s)) : ∀ x ∈ r, x.lc.Canonical :=
  canon_exec (by simp) ops r s h

/-- C02: on canonical signals `+` gives literally the same signal in either operand order, and the
owned/borrowed forms all agree. -/
theorem C02_add_comm (a b : CNum F) (ha : a.lc.Canonical) (hb : b.lc.Canonical) :
    CNum.add a b = CNum.add b a ∧ CNum.add a b = CNum.addAssign a b ∧
      CNum.add a b = CNum.addAssign b a := by
  have key : CNum.addAssign a b = CNum.addAssign b a := by
    unfold CNum.addAssign
    rw [LC.add_comm_of_canonical ha hb]
    congr 1
    cases a.value <;> cases b.value <;> simp [CNum.value₂, add_comm]
  have h1 : ∀ c d : CNum F, CNum.addAssign c d = CNum.addAssign d c → CNum.add c d = CNum.addAssign c d := by
    intro c d h
    unfold CNum.add; split
    · rfl
    · exact h.symm
  refine ⟨?_, h1 a b key, (h1 a b key).trans key⟩
  rw [h1 a b key, h1 b a key.symm, key]

/-- The registers after a concrete program: `x, y, x+y, x*y, (x*y - x)/3`. -/
example : ((exec [] [.alloc (some 3), .alloc (some 5), .add 0 1, .mul 0 1, .sub 3 0, .divConst 4 3] :
    M (ZMod 7) _).run (CS.new .test)).toOption.map (fun r => r.1.map CNum.lc) =
    some [[(.input 1, 1)], [(.input 2, 1)], [(.input 1, 1), (.input 2, 1)], [(.input 3, 1)],
      [(.input 1, 6), (.input 3, 1)], [(.input 1, 2), (.input 3, 5)]] := by decide +kernel

/-! ## C03 -/

/-- C03: `as_const() = Some(c)` implies the signal is `c` under every assignment. -/
theorem C03_asConst_sound (a : CNum F) (c : F) (h : a.asConst = some c) (w : Index → F)
    (hw : IsAssignment w) : a.lc.eval w = c := CNum.eval_of_asConst hw h

private theorem eval_update (l : LC F) (w : Index → F) (k : Index) (v u : F)
    (hs : l.Pairwise fun a b => a.1.Before b.1) (hm : (k, v) ∈ l) :
    l.eval (fun j => if j = k then u else w j) - l.eval w = v * (u - w k) := by
  have hnot : ∀ l : LC F, (∀ kv ∈ l, kv.1 ≠ k) →
      l.eval (fun j => if j = k then u else w j) = l.eval w := by
    intro l hl
    unfold LC.eval
    congr 1
    apply List.map_congr_left
    intro kv hkv
    simp [hl kv hkv]
  induction l with
  | nil => cases hm
  | cons x l ih =>
    rw [List.pairwise_cons] at hs
    rw [List.mem_cons] at hm
    rcases hm with hm | hm
    · subst hm
      have : ∀ kv ∈ l, kv.1 ≠ k := by
        intro kv hkv he; exact Index.before_irrefl k (he ▸ hs.1 kv hkv)
      simp only [LC.eval_cons, hnot l this]
      simp; ring
    · have hx : x.1 ≠ k := by
        intro he; have h3 := hs.1 _ hm; rw [he] at h3; exact Index.before_irrefl k h3
      have := ih hs.2 hm
      simp only [LC.eval_cons, hx, if_false]
      rw [← this]; ring

/-- C03: a canonical signal that takes one value under all assignments is recognised as that
constant.  (By C02 every signal built through the API is canonical.) -/
theorem C03_asConst_complete (a : CNum F) (ha : a.lc.Canonical) (c : F)
    (h : ∀ w, IsAssignment w → a.lc.eval w = c) : a.asConst = some c := by
  have hk : ∀ kv ∈ a.lc, kv.1 = .input 0 := by
    intro kv hkv
    by_contra h0
    have hv := ha.nonzero kv hkv h0
    let w : Index → F := fun j => if j = .input 0 then 1 else 0
    have hw : IsAssignment w := by simp [IsAssignment, w]
    have hw' : IsAssignment (fun j => if j = kv.1 then 1 else w j) := by
      simp [IsAssignment, w]
    have e := eval_update a.lc w kv.1 kv.2 1 ha.sorted hkv
    rw [h _ hw, h _ hw'] at e
    have : w kv.1 = 0 := by simp [w, h0]
    rw [this] at e
    apply hv; simpa using e.symm
  let w : Index → F := fun j => if j = .input 0 then 1 else 0
  have hw : IsAssignment w := by simp [IsAssignment, w]
  have hc := h w hw
  unfold CNum.asConst
  match hl : a.lc with
  | [] => rw [hl] at hc; simpa using hc
  | [(k, v)] =>
    have := hk (k, v) (by rw [hl]; simp)
    simp only at this; subst this
    rw [hl] at hc
    simpa [w] using hc
  | x :: y :: l =>
    exfalso
    have hs := ha.sorted
    rw [hl, List.pairwise_cons] at hs
    have h1 := hk x (by rw [hl]; simp)
    have h2 := hk y (by rw [hl]; simp)
    have := hs.1 y (by simp)
    rw [h1, h2] at this
    exact Index.before_irrefl _ this

/-- C03 for programs: after any sequence of API calls, `as_const` of a signal is `Some(c)` exactly
if the signal equals `c` under every assignment. -/
theorem C03_asConst_exact (ops : List (Op F)) (b : Backend) (r : List (CNum F)) (s : CS F)
    (h : (exec [] ops).run (CS.new b) = .ok (r, s)) (x : CNum F) (hx : x ∈ r) (c : F) :
    x.asConst = some c ↔ ∀ w, IsAssignment w → x.lc.eval w = c :=
  ⟨fun hc w hw => C03_asConst_sound x c hc w hw,
   C03_asConst_complete x (C02_signals_canonical ops b r s h x hx) c⟩

/-- `x - x` and `0 * x` are recognised as zero. -/
example : ((exec [] [.alloc none, .sub 0 0, .mulConst 0 0] : M (ZMod 7) _).run (CS.new .setup)).toOption.map
    (fun r => r.1.map CNum.asConst) = some [none, some 0, some 0] := by decide +kernel

/-! ## C04 -/

/-- C04 soundness. -/
theorem C04_mul_sound (a b c : CNum F) (s s' : CS F) (h : (CNum.mul a b).run s = .ok (c, s'))
    (w : Index → F) (hw : IsAssignment w) (hs : s'.Sat w) :
    c.lc.eval w = a.lc.eval w * b.lc.eval w := spec_mul hw a b c s' h hs

/-- C04 completeness: with honest values the call succeeds on every back end, the new constraints
are satisfied by the recorded values and the result carries the product. -/
theorem C04_mul_complete (s : CS F) (hs : s.Honest) (a b : CNum F) (x y : F) (ha : Has s a x)
    (hb : Has s b y) :
    ∃ c s', (CNum.mul a b).run s = .ok (c, s') ∧ s'.Honest ∧ Has s' c (x * y) := by
  obtain ⟨c, s', h, -, hh, hc⟩ := runs_mul hs ha hb
  exact ⟨c, s', h, hh, hc⟩

/-- C04 cost: one variable and one constraint, except none for a constant operand. -/
theorem C04_mul_cost (a b c : CNum F) (s s' : CS F) (h : (CNum.mul a b).run s = .ok (c, s')) :
    ((a.asConst ≠ none ∨ b.asConst ≠ none) → s' = s) ∧
    (a.asConst = none → b.asConst = none →
      s'.vars.length = s.vars.length + 1 ∧ s'.cons.length = s.cons.length + 1) := by
  unfold CNum.mul at h
  split at h
  · next h1 =>
    rw [M.run_pure] at h; injection h with h; injection h with _ h; subst h
    exact ⟨fun _ => rfl, fun h' => by rw [h1] at h'; cases h'⟩
  · next h1 _ =>
    rw [M.run_pure] at h; injection h with h; injection h with _ h; subst h
    exact ⟨fun _ => rfl, fun _ h' => by rw [h1] at h'; cases h'⟩
  · next h1 h2 =>
    refine ⟨fun h' => by simp [h1, h2] at h', fun _ _ => ?_⟩
    obtain ⟨x, s1, h3, h4⟩ := M.bind_ok h
    obtain ⟨-, -, rfl⟩ := post_alloc s _ x s1 h3
    obtain ⟨_, s2, h5, h6⟩ := M.bind_ok h4
    obtain ⟨rfl, -⟩ := post_enforce _ _ _ _ _ _ h5
    rw [M.run_pure] at h6; injection h6 with h6; injection h6 with _ h6; subst h6
    constructor
    · simp [pushVar_vars]
    · simp [pushVar_cons]

/-- A concrete honest state: `x₁ = 3`, `x₂ = 5` on the prover back end. -/
def exState : CS (ZMod 7) := ⟨.prove, 1, 2, [(.aux 0, some 3), (.aux 1, some 5)], []⟩

theorem exState_honest : exState.Honest :=
  ⟨⟨by decide, by decide, by simp [exState], by simp [exState]⟩, by simp [exState, CS.Sat], by simp [exState]⟩

theorem exState_x : Has exState ⟨some 3, [(.aux 0, 1)]⟩ 3 :=
  ⟨by simp [LC.Alloc, exState], rfl, by decide⟩
theorem exState_y : Has exState ⟨some 5, [(.aux 1, 1)]⟩ 5 :=
  ⟨by simp [LC.Alloc, exState], rfl, by decide⟩

example : ∃ c s', (CNum.mul ⟨some 3, [(.aux 0, 1)]⟩ ⟨some 5, [(.aux 1, 1)]⟩).run exState = .ok (c, s') ∧
    s'.Honest ∧ Has s' c (3 * 5) := C04_mul_complete _ exState_honest _ _ _ _ exState_x exState_y

/-! ## C05 -/

/-- C05, full statement: the quotient times the denominator is the numerator, whatever the operands. -/
def C05_full : Prop :=
  ∀ (F : Type) (_ : Field F) (_ : DecidableEq F) (a b q : CNum F) (s s' : CS F),
    (CNum.div a b).run s = .ok (q, s') → ∀ w, IsAssignment w → s'.Sat w →
      q.lc.eval w * b.lc.eval w = a.lc.eval w

/-- C05 is false of the code: `2 / x` with a constant numerator returns `x / 2`
(src/circuit/num.rs:498-500 divides the wrong way round). -/
theorem C05_refuted : ¬ C05_full := by
  intro h
  have := h (ZMod 7) inferInstance inferInstance (CNum.fromConst 2) ⟨some 3, [(.aux 0, 1)]⟩
    ⟨some (3 / 2), [(.aux 0, 1 / 2)]⟩ exState exState (by rfl)
    exState.assign (CS.assign_isAssignment _) (by simp [exState, CS.Sat])
  revert this; decide +kernel

/-- C05, what holds: for a numerator that is not a constant signal the quotient is right.
Missing: constant numerators, where the claim is false (`C05_refuted`). -/
theorem C05_div_sound_partial (a b q : CNum F) (ha : a.asConst = none) (s s' : CS F)
    (h : (CNum.div a b).run s = .ok (q, s')) (w : Index → F) (hw : IsAssignment w) (hs : s'.Sat w) :
    q.lc.eval w * b.lc.eval w = a.lc.eval w := spec_div hw ha b q s' h hs

/-- C05 completeness for a non-constant numerator and non-zero denominator. -/
theorem C05_div_complete_partial (s : CS F) (hs : s.Honest) (a b : CNum F) (x y : F) (ha : Has s a x)
    (hb : Has s b y) (hc : a.asConst = none) (hy : y ≠ 0) :
    ∃ q s', (CNum.div a b).run s = .ok (q, s') ∧ s'.Honest ∧ Has s' q (x / y) := by
  obtain ⟨c, s', h, -, hh, hc⟩ := runs_div hs ha hb hc hy
  exact ⟨c, s', h, hh, hc⟩

/-- The behaviour on a constant numerator `x ≠ 0`: the result is the *inverse* quotient `b / x`. -/
theorem C05_div_const_numerator (a b : CNum F) (x : F) (ha : a.asConst = some x) (hx : x ≠ 0)
    (s : CS F) : ∃ q, (CNum.div a b).run s = .ok (q, s) ∧
      ∀ w, IsAssignment w → q.lc.eval w = b.lc.eval w / a.lc.eval w := by
  refine ⟨_, by unfold CNum.div; rw [ha]; simp only [CNum.divConst, hx, false_and, if_false]; rfl, ?_⟩
  intro w hw
  rw [show a.lc.eval w = x from CNum.eval_of_asConst hw ha]
  exact LC.eval_map_div w _ _

/-- The constant numerator `0` makes an honest division `0 / b` panic. -/
theorem C05_div_const_zero_panics (a b : CNum F) (ha : a.asConst = some 0) (hb : b.value ≠ none)
    (s : CS F) : (CNum.div a b).run s = .error .divByZero := by
  unfold CNum.div; rw [ha]; simp only [CNum.divConst, true_and]; rw [if_pos (Or.inl hb)]; rfl

example : ∃ q s', (CNum.div ⟨some 3, [(.aux 0, 1)]⟩ ⟨some 5, [(.aux 1, 1)]⟩).run exState = .ok (q, s') ∧
    s'.Honest ∧ Has s' q (3 / 5) :=
  C05_div_complete_partial _ exState_honest _ _ _ _ exState_x exState_y (by decide) (by decide)

/-! ## C06 (numbers; compound signals in Props/Signal.lean) -/

/-- C06: on a signal that is not syntactically constant, the one emitted constraint says exactly
`a = c`. -/
theorem C06_assertConst_iff (a : CNum F) (c : F) (ha : a.asConst = none) (s s' : CS F)
    (h : (CNum.assertConst a c).run s = .ok ((), s')) (w : Index → F) (hw : IsAssignment w) :
    s'.Sat w ↔ s.Sat w ∧ a.lc.eval w = c := by
  constructor
  · intro hs
    exact ⟨(M.run_ext h).sat hs, spec_assertConst hw a c () s' h hs⟩
  · rintro ⟨hs, hc⟩
    unfold CNum.assertConst at h; rw [ha] at h
    obtain ⟨rfl, -⟩ := post_enforce _ _ _ _ _ _ h
    intro q hq
    simp only [List.mem_append, List.mem_singleton] at hq
    rcases hq with hq | hq
    · exact hs q hq
    · subst hq
      unfold Constraint.Sat
      have h1 := CNum.eval_one (F := F) hw
      have h2 := CNum.eval_fromConst hw c
      simp only [CNum.eval] at h1 h2
      rw [h1, h2, hc, mul_one]

/-- C06: on a constant signal the call changes nothing and panics iff the constant differs. -/
theorem C06_assertConst_const (a : CNum F) (c v : F) (ha : a.asConst = some v) (s : CS F) :
    (CNum.assertConst a c).run s = if v = c then .ok ((), s) else .error .assertion := by
  unfold CNum.assertConst; rw [ha]; simp only; rw [M.run_assert]; simp

/-- C06: `assert_zero`. -/
theorem C06_assertZero_iff (a : CNum F) (ha : a.asConst = none) (s s' : CS F)
    (h : (CNum.assertZero a).run s = .ok ((), s')) (w : Index → F) (hw : IsAssignment w) :
    s'.Sat w ↔ s.Sat w ∧ a.lc.eval w = 0 := C06_assertConst_iff a 0 ha s s' h w hw

/-- C06: `assert_zero` on a constant. -/
theorem C06_assertZero_const (a : CNum F) (v : F) (ha : a.asConst = some v) (s : CS F) :
    (CNum.assertZero a).run s = if v = 0 then .ok ((), s) else .error .assertion := C06_assertConst_const a 0 v ha s

/-- C06: `assert_eq` on numbers. -/
theorem C06_assertEq_iff (a b : CNum F) (hab : (CNum.sub a b).asConst = none) (s s' : CS F)
    (h : (CNum.assertEq a b).run s = .ok ((), s')) (w : Index → F) (hw : IsAssignment w) :
    s'.Sat w ↔ s.Sat w ∧ a.lc.eval w = b.lc.eval w := by
  have := C06_assertConst_iff (CNum.sub a b) 0 hab s s' h w hw
  rw [this, show (CNum.sub a b).lc.eval w = _ from CNum.eval_sub w a b, sub_eq_zero]

/-- C06: if the difference is constant (for instance both are constants) the call panics iff they
differ under every assignment. -/
theorem C06_assertEq_const (a b : CNum F) (v : F) (hab : (CNum.sub a b).asConst = some v) (s : CS F) :
    (CNum.assertEq a b).run s = (if v = 0 then .ok ((), s) else .error .assertion) ∧
    ∀ w, IsAssignment w → (v = 0 ↔ a.lc.eval w = b.lc.eval w) := by
  refine ⟨C06_assertConst_const _ 0 v hab s, fun w hw => ?_⟩
  have := CNum.eval_of_asConst hw hab
  rw [CNum.eval_sub] at this
  rw [← this, sub_eq_zero]

/-- C06 completeness: honest equal values are accepted. -/
theorem C06_assertEq_complete (s : CS F) (hs : s.Honest) (a b : CNum F) (x : F) (ha : Has s a x)
    (hb : Has s b x) : ∃ s', (CNum.assertEq a b).run s = .ok ((), s') ∧ s'.Honest := by
  obtain ⟨_, s', h, -, hh, -⟩ := runs_assertEq hs ha hb
  exact ⟨s', h, hh⟩

example : (⟨some 3, [(.aux 0, 1)]⟩ : CNum (ZMod 7)).asConst = none ∧
    (CNum.sub ⟨some 3, [(.aux 0, 1)]⟩ ⟨some 5, [(.aux 1, 1)]⟩ : CNum (ZMod 7)).asConst = none := by decide

/-! ## C07 -/

/-- C07: for a non-constant signal, an assignment `w` of the existing variables that satisfies the
old constraints extends (by choosing the one new helper variable) to a satisfying assignment
iff the signal is non-zero under `w`. -/
theorem C07_assertNonzero_iff (a : CNum F) (ha : a.asConst = none) (s s' : CS F) (hwf : s.WF)
    (halloc : a.lc.Alloc s) (hcons : ∀ c ∈ s.cons, c.a.lc.Alloc s ∧ c.b.lc.Alloc s ∧ c.c.lc.Alloc s)
    (h : (CNum.assertNonzero a).run s = .ok ((), s')) (w : Index → F) (hw : IsAssignment w)
    (hs : s.Sat w) :
    (∃ w', IsAssignment w' ∧ (∀ i ∈ s.vars.map Prod.fst, w' i = w i) ∧ s'.Sat w') ↔
      a.lc.eval w ≠ 0 := by
  have agree : ∀ w' : Index → F, IsAssignment w' → (∀ i ∈ s.vars.map Prod.fst, w' i = w i) →
      ∀ l : LC F, l.Alloc s → l.eval w' = l.eval w := by
    intro w' hw' hag l hl
    unfold LC.eval
    congr 1
    apply List.map_congr_left
    intro kv hkv
    rcases hl kv.1 (List.mem_map_of_mem hkv) with h0 | h0
    · unfold IsAssignment at hw hw'; rw [h0, hw, hw']
    · rw [hag _ h0]
  constructor
  · rintro ⟨w', hw', hag, hsat⟩
    rw [← agree w' hw' hag a.lc halloc]
    exact spec_assertNonzero hw' a () s' h hsat
  · intro hne
    unfold CNum.assertNonzero at h
    rw [ha] at h
    obtain ⟨x, s1, h1, h2⟩ := M.bind_ok h
    obtain ⟨-, hl, rfl⟩ := post_alloc s _ x s1 h1
    obtain ⟨rfl, -⟩ := post_enforce _ _ _ _ _ _ h2
    obtain ⟨hf0, hf1⟩ := nextAlloc_fresh hwf
    let w' : Index → F := fun i => if i = s.nextAlloc then (a.lc.eval w)⁻¹ else w i
    have hw' : IsAssignment w' := by
      unfold IsAssignment at *; simp only [w']; rw [if_neg (Ne.symm hf0), hw]
    have hag : ∀ i ∈ s.vars.map Prod.fst, w' i = w i := by
      intro i hi; simp only [w']; rw [if_neg]; rintro rfl; exact hf1 hi
    refine ⟨w', hw', hag, ?_⟩
    intro q hq
    simp only [pushVar_cons, List.mem_append, List.mem_singleton] at hq
    rcases hq with hq | hq
    · obtain ⟨h1, h2, h3⟩ := hcons q hq
      unfold Constraint.Sat
      rw [agree w' hw' hag _ h1, agree w' hw' hag _ h2, agree w' hw' hag _ h3]
      exact hs q hq
    · subst hq
      unfold Constraint.Sat
      have h1 := CNum.eval_one (F := F) hw'
      simp only [CNum.eval] at h1
      rw [h1, agree w' hw' hag _ halloc, hl]
      simp [w', mul_inv_cancel₀ hne]

/-- C07: constants: panics iff zero. -/
theorem C07_assertNonzero_const (a : CNum F) (v : F) (ha : a.asConst = some v) (s : CS F) :
    (CNum.assertNonzero a).run s = if v ≠ 0 then .ok ((), s) else .error .assertion := by
  unfold CNum.assertNonzero; rw [ha]; simp only; rw [M.run_assert]; simp

/-- C07 completeness: the honest prover is accepted for a non-zero value, and on the test back
end rejected for zero. -/
theorem C07_assertNonzero_honest (s : CS F) (hs : s.Honest) (a : CNum F) (x : F) (ha : Has s a x) :
    (x ≠ 0 → ∃ s', (CNum.assertNonzero a).run s = .ok ((), s') ∧ s'.Honest) ∧
    (x = 0 → s.backend = .test → ∀ s', (CNum.assertNonzero a).run s ≠ .ok ((), s')) := by
  constructor
  · intro hx
    obtain ⟨_, s', h, -, hh, -⟩ := runs_assertNonzero hs ha hx
    exact ⟨s', h, hh⟩
  · intro hx hb s' hr
    have hh := (acc_assertNonzero ⟨x, ha⟩ hb hs () s' hr).1
    have := spec_assertNonzero s'.assign_isAssignment a () s' hr hh.sat
    exact this (((ha.mono (M.run_ext hr)).eval).trans hx)

/-- C07: on every back end, if the call comes through for the value zero, then the constraints do not hold under the values: with the
proving back end the bad value shows in the proof, not in a panic. -/
theorem C07_assertNonzero_zero (s s' : CS F) (a : CNum F) (ha : Has s a 0) (h : (CNum.assertNonzero a).run s = .ok ((), s')) :
    ¬ s'.Sat s'.assign := fun hsat =>
  spec_assertNonzero s'.assign_isAssignment a () s' h hsat (ha.mono (M.run_ext h)).eval

example : ∃ s', (CNum.assertNonzero ⟨some 3, [(.aux 0, 1)]⟩).run exState = .ok ((), s') ∧ s'.Honest :=
  (C07_assertNonzero_honest _ exState_honest _ _ exState_x).1 (by decide)

/-! ## C08 -/

/-- C08: the constraint of `assert_bit` on a non-constant signal holds iff the signal is 0 or 1. -/
theorem C08_assertBit_iff (a : CNum F) (ha : a.asConst = none) (s s' : CS F)
    (h : (CNum.assertBit a).run s = .ok ((), s')) (w : Index → F) (hw : IsAssignment w) :
    s'.Sat w ↔ s.Sat w ∧ (a.lc.eval w = 0 ∨ a.lc.eval w = 1) := by
  constructor
  · intro hs
    exact ⟨(M.run_ext h).sat hs, spec_assertBit hw a () s' h hs⟩
  · rintro ⟨hs, hc⟩
    unfold CNum.assertBit at h; rw [ha] at h
    obtain ⟨rfl, -⟩ := post_enforce _ _ _ _ _ _ h
    intro q hq
    simp only [List.mem_append, List.mem_singleton] at hq
    rcases hq with hq | hq
    · exact hs q hq
    · subst hq
      unfold Constraint.Sat
      have h1 := CNum.eval_zero (F := F) hw
      have h2 := CNum.eval_subConst hw a 1
      simp only [CNum.eval] at h1 h2
      rw [h1, h2]
      rcases hc with hc | hc <;> rw [hc] <;> ring

/-- C08: constants: panics iff neither 0 nor 1. -/
theorem C08_assertBit_const (a : CNum F) (v : F) (ha : a.asConst = some v) (s : CS F) :
    (CNum.assertBit a).run s = if v = 0 ∨ v = 1 then .ok ((), s) else .error .assertion := by
  unfold CNum.assertBit; rw [ha]; simp only; rw [M.run_assert]; simp [or_comm]

/-- C08 completeness. -/
theorem C08_assertBit_complete (s : CS F) (hs : s.Honest) (a : CNum F) (x : F) (ha : Has s a x)
    (hx : x = 0 ∨ x = 1) : ∃ s', (CNum.assertBit a).run s = .ok ((), s') ∧ s'.Honest := by
  obtain ⟨_, s', h, -, hh, -⟩ := runs_assertBit hs ha hx
  exact ⟨s', h, hh⟩

example : ∃ s', (CNum.assertBit ⟨some 1, [(.aux 0, 5)]⟩).run exState = .ok ((), s') ∧ s'.Honest :=
  C08_assertBit_complete _ exState_honest _ 1
    ⟨by simp [LC.Alloc, exState], rfl, by decide⟩ (Or.inr rfl)

/-! ## C09 (numbers) -/

/-- C09 soundness of `is_zero`, whatever the prover puts in the helper variables. -/
theorem C09_isZero_sound (a : CNum F) (b : CBool F) (s s' : CS F)
    (h : (CNum.isZero a).run s = .ok (b, s')) (w : Index → F) (hw : IsAssignment w) (hs : s'.Sat w) :
    b.num.lc.eval w = if a.lc.eval w = 0 then 1 else 0 := spec_isZero hw a b s' h hs

/-- C09 soundness of `is_eq` on numbers. -/
theorem C09_isEq_sound (a b : CNum F) (r : CBool F) (s s' : CS F)
    (h : (CNum.isEq a b).run s = .ok (r, s')) (w : Index → F) (hw : IsAssignment w) (hs : s'.Sat w) :
    r.num.lc.eval w = if a.lc.eval w = b.lc.eval w then 1 else 0 := spec_isEq hw a b r s' h hs

/-- C09 completeness. -/
theorem C09_isEq_complete (s : CS F) (hs : s.Honest) (a b : CNum F) (x y : F) (ha : Has s a x)
    (hb : Has s b y) : ∃ r s', (CNum.isEq a b).run s = .ok (r, s') ∧ s'.Honest ∧
      Has s' r.num (if x = y then 1 else 0) := by
  obtain ⟨r, s', h, -, hh, hr⟩ := runs_isEq hs ha hb
  exact ⟨r, s', h, hh, hr⟩

/-- C09 completeness of `is_zero`. -/
theorem C09_isZero_complete (s : CS F) (hs : s.Honest) (a : CNum F) (x : F) (ha : Has s a x) :
    ∃ r s', (CNum.isZero a).run s = .ok (r, s') ∧ s'.Honest ∧
      Has s' r.num (if x = 0 then 1 else 0) := by
  obtain ⟨r, s', h, -, hh, hr⟩ := runs_isZero hs ha
  exact ⟨r, s', h, hh, hr⟩

example : ∃ r s', (CNum.isEq ⟨some 3, [(.aux 0, 1)]⟩ ⟨some 5, [(.aux 1, 1)]⟩).run exState = .ok (r, s') ∧
    s'.Honest ∧ Has s' r.num (if (3 : ZMod 7) = 5 then 1 else 0) :=
  C09_isEq_complete _ exState_honest _ _ _ _ exState_x exState_y

/-! ## C10 (numbers) -/

/-- C10 soundness. -/
theorem C10_switch_sound (t f : CNum F) (b : CBool F) (r : CNum F) (s s' : CS F)
    (h : (CNum.switch t b f).run s = .ok (r, s')) (w : Index → F) (hw : IsAssignment w) (hs : s'.Sat w) :
    (b.num.lc.eval w = 1 → r.lc.eval w = t.lc.eval w) ∧
    (b.num.lc.eval w = 0 → r.lc.eval w = f.lc.eval w) := by
  have := spec_switch hw t f b r s' h hs
  simp only [CNum.eval] at this
  constructor <;> intro hb <;> rw [this, hb] <;> ring

/-- C10 completeness. -/
theorem C10_switch_complete (s : CS F) (hs : s.Honest) (t f : CNum F) (b : CBool F) (x y : F)
    (c : Bool) (ht : Has s t x) (hf : Has s f y) (hb : Has s b.num (boolToF c)) :
    ∃ r s', (CNum.switch t b f).run s = .ok (r, s') ∧ s'.Honest ∧ Has s' r (if c then x else y) := by
  obtain ⟨r, s', h, -, hh, hr⟩ := runs_switch hs ht hf hb (by cases c <;> simp [boolToF])
  refine ⟨r, s', h, hh, ?_⟩
  cases c
  · simpa [boolToF] using hr
  · simpa [boolToF] using hr

example : ∃ r s', (CNum.switch ⟨some 3, [(.aux 0, 1)]⟩ (CBool.fromConst true) ⟨some 5, [(.aux 1, 1)]⟩).run
    exState = .ok (r, s') ∧ s'.Honest ∧ Has s' r (if true then 3 else 5) :=
  C10_switch_complete _ exState_honest _ _ _ _ _ true exState_x exState_y (has_fromConst _)

/-! ## C11 -/

/-- C11: if a program whose allocations all carry values runs on the test constraint system without
a panic, the recorded variable values satisfy every enforced constraint. -/
theorem C11_test_accept (ops : List (Op F)) (r : List (CNum F)) (s : CS F)
    (hv : ∀ v, Op.alloc v ∈ ops ∨ Op.allocInput v ∈ ops → v ≠ none)
    (h : (exec [] ops).run (CS.new .test) = .ok (r, s)) : s.Sat s.assign := by
  have ho : ∀ o ∈ ops, o.HasValues := by
    intro o hm
    cases o <;> simp only [Op.HasValues]
    · exact hv _ (Or.inl hm)
    · exact hv _ (Or.inr hm)
  exact (acc_exec (s := CS.new .test) (by simp) ops ho rfl (CS.honest_new _) r s h).1.sat

/-- C11: and every signal's value is what its linear combination gives on the recorded values. -/
theorem C11_test_values (ops : List (Op F)) (r : List (CNum F)) (s : CS F)
    (hv : ∀ v, Op.alloc v ∈ ops ∨ Op.allocInput v ∈ ops → v ≠ none)
    (h : (exec [] ops).run (CS.new .test) = .ok (r, s)) :
    ∀ x ∈ r, x.value = some (x.lc.eval s.assign) := by
  have ho : ∀ o ∈ ops, o.HasValues := by
    intro o hm
    cases o <;> simp only [Op.HasValues]
    · exact hv _ (Or.inl hm)
    · exact hv _ (Or.inr hm)
  intro x hx
  obtain ⟨v, hv⟩ := (acc_exec (s := CS.new .test) (by simp) ops ho rfl (CS.honest_new _) r s h).2 x hx
  rw [hv.value, hv.eval]

/-- C11: enforcing a violated triple panics, enforcing a satisfied one does not. -/
theorem C11_enforce (s : CS F) (hb : s.backend = .test) (a b c : CNum F) (x y z : F)
    (ha : a.value = some x) (hb' : b.value = some y) (hc : c.value = some z) :
    (x * y ≠ z → (CS.enforce a b c).run s = .error .unsatisfied) ∧
    (x * y = z → ∃ s', (CS.enforce a b c).run s = .ok ((), s')) := by
  constructor <;> intro h
  · rw [run_enforce, if_pos]
    simp [hb, CS.checkTriple, ha, hb', hc, h]
  · rw [run_enforce, if_neg]
    · exact ⟨_, rfl⟩
    · simp [CS.checkTriple, ha, hb', hc, h]

/-- C11: a triple of which a value is missing is counted, but not checked. -/
theorem C11_enforce_missing (s : CS F) (a b c : CNum F) (h : a.value = none ∨ b.value = none ∨ c.value = none) :
    ∃ s', (CS.enforce a b c).run s = .ok ((), s') ∧ s'.cons = s.cons ++ [⟨a, b, c⟩] := by
  rw [run_enforce, if_neg]
  · exact ⟨_, rfl, rfl⟩
  · rintro ⟨-, hc⟩
    unfold CS.checkTriple at hc
    rcases h with h | h | h <;> rw [h] at hc <;> split at hc <;> simp_all

/-- Concrete: without a value for the second factor nothing is checked. -/
example : ((CS.enforce ⟨some 3, [(.aux 0, 1)]⟩ ⟨none, [(.aux 1, 1)]⟩ (CNum.fromConst 2) : M (ZMod 7) Unit).run (CS.new .test)).isOk = true ∧
    ((CS.enforce ⟨some 3, [(.aux 0, 1)]⟩ ⟨some 5, [(.aux 1, 1)]⟩ (CNum.fromConst 2) : M (ZMod 7) Unit).run (CS.new .test)).isOk = false := by
  decide +kernel

/-- A concrete accepted and a concrete rejected program. -/
example : ((exec [] [.alloc (some 3), .alloc (some 5), .mul 0 1, .const 1, .assertEq 2 3] :
    M (ZMod 7) _).run (CS.new .test)).isOk = true ∧
   ((exec [] [.alloc (some 3), .alloc (some 5), .mul 0 1, .const 2, .assertEq 2 3] :
    M (ZMod 7) _).run (CS.new .test)).isOk = false := by decide +kernel

/-! ## C12 -/

/-- C12: take two runs of the same client code (equal up to the witness values given to
allocations), one on the key generator, where no values are known, and one on the prover.  If neither
panics they allocate the same variables and emit the same constraint matrices, and corresponding
signals are the same linear combinations. -/
theorem C12_structure_independent (ops ops' : List (Op F)) (hsame : ops.map Op.erase = ops'.map Op.erase)
    (r r' : List (CNum F)) (s s' : CS F)
    (h : (exec [] ops).run (CS.new .setup) = .ok (r, s))
    (h' : (exec [] ops').run (CS.new .prove) = .ok (r', s')) :
    s.ninputs = s'.ninputs ∧ s.naux = s'.naux ∧
    s.cons.map Constraint.shape = s'.cons.map Constraint.shape ∧ r.map CNum.lc = r'.map CNum.lc := by
  have hn : (CS.new .setup : CS F).SameShape (CS.new .prove) :=
    ⟨by simp [CS.new], rfl, rfl, rfl, rfl⟩
  obtain ⟨hs, hr⟩ := rel_exec (F := F) (r := []) (r' := []) rfl ops ops' hsame _ _ hn _ _ _ _ h h'
  exact ⟨hs.ninputs, hs.naux, hs.cons, hr⟩

/-- C12: the same for two runs with different witnesses on one and the same back end. -/
theorem C12_witness_independent (ops ops' : List (Op F)) (hsame : ops.map Op.erase = ops'.map Op.erase)
    (b : Backend) (r r' : List (CNum F)) (s s' : CS F)
    (h : (exec [] ops).run (CS.new b) = .ok (r, s))
    (h' : (exec [] ops').run (CS.new b) = .ok (r', s')) :
    s.ninputs = s'.ninputs ∧ s.naux = s'.naux ∧
    s.cons.map Constraint.shape = s'.cons.map Constraint.shape ∧ r.map CNum.lc = r'.map CNum.lc := by
  have hn : (CS.new b : CS F).SameShape (CS.new b) := ⟨Iff.rfl, rfl, rfl, rfl, rfl⟩
  obtain ⟨hs, hr⟩ := rel_exec (F := F) (r := []) (r' := []) rfl ops ops' hsame _ _ hn _ _ _ _ h h'
  exact ⟨hs.ninputs, hs.naux, hs.cons, hr⟩

/-- Both runs of a concrete program succeed. -/
example :
    ((exec [] ([.alloc (some 3), .alloc (some 5), .isEq 0 1, .switch 0 2 1].map Op.erase) :
      M (ZMod 7) _).run (CS.new .setup)).isOk = true ∧
    ((exec [] [.alloc (some 3), .alloc (some 5), .isEq 0 1, .switch 0 2 1] :
      M (ZMod 7) _).run (CS.new .prove)).isOk = true := by decide +kernel

/-! ## C13 -/

/-- C13: on every back end, after any circuit code whatsoever, all allocated variables are pairwise
different and none is the constant variable. -/
theorem C13_indices_distinct {α : Type} (m : M F α) (b : Backend) (x : α) (s : CS F)
    (h : m.run (CS.new b) = .ok (x, s)) :
    (s.vars.map Prod.fst).Nodup ∧ Index.input 0 ∉ s.vars.map Prod.fst := by
  have hwf := (M.run_ext h).wf (CS.honest_new (F := F) b).wf
  exact ⟨hwf.nodup, fun hm => absurd (hwf.input_lt 0 hm).1 (by omega)⟩

/-- C13: the variable returned by `alloc` or `alloc_input` is new, and is recorded with its value. -/
theorem C13_alloc_fresh (s s' : CS F) (hwf : s.WF) (v : Option F) (i : Index)
    (h : (CS.alloc v).run s = .ok (i, s') ∨ (CS.allocInput v).run s = .ok (i, s')) :
    i ∉ s.vars.map Prod.fst ∧ i ≠ .input 0 ∧ s'.vars = s.vars ++ [(i, v)] := by
  rcases h with h | h
  · rw [run_csalloc] at h
    split at h
    · cases h
    injection h with h; injection h with h1 h2; subst h1 h2
    obtain ⟨h0, h1⟩ := nextAlloc_fresh hwf
    exact ⟨h1, h0, pushVar_vars _ _ _⟩
  · rw [run_csallocInput] at h
    split at h
    · cases h
    injection h with h; injection h with h1 h2; subst h1 h2
    refine ⟨fun hm => ?_, ?_, pushVar_vars _ _ _⟩
    · have := hwf.input_lt _ hm; omega
    · intro h; injection h with h; have := hwf.pos; omega

example : (exState : CS (ZMod 7)).WF := exState_honest.wf

end Fawkes.Props
