import Verif.Model.BoolApi
import Verif.Props.Num
import Verif.Props.Signal

/-!
# The short forms of booleans (C06, C10) and the calls of two runs of one program (C12)
-/

set_option linter.unusedSectionVars false

namespace Fawkes.Props

open Fawkes

variable {F : Type} [Field F] [DecidableEq F]

/-! ## C06 -/

/-- C06: `assert_true` on a boolean that is no constant: the constraints say exactly that it is one. -/
theorem C06_assertTrue_iff (b : CBool F) (hb : b.num.asConst = none) (s s' : CS F)
    (h : b.assertTrue.run s = .ok ((), s')) (w : Index → F) (hw : IsAssignment w) :
    s'.Sat w ↔ s.Sat w ∧ b.num.lc.eval w = 1 := C06_assertConst_iff b.num 1 hb s s' h w hw

/-- C06: `assert_false` on a boolean that is no constant: the constraints say exactly that it is zero. -/
theorem C06_assertFalse_iff (b : CBool F) (hb : b.num.asConst = none) (s s' : CS F)
    (h : b.assertFalse.run s = .ok ((), s')) (w : Index → F) (hw : IsAssignment w) :
    s'.Sat w ↔ s.Sat w ∧ b.num.lc.eval w = 0 := C06_assertConst_iff b.num 0 hb s s' h w hw

/-- C06: on the constants `c_true` and `c_false` exactly the wrong assertion panics, and nothing is emitted. -/
theorem C06_bool_constants (s : CS F) :
    (CBool.cTrue (F := F)).assertTrue.run s = .ok ((), s) ∧ (CBool.cFalse (F := F)).assertFalse.run s = .ok ((), s) ∧
    (CBool.cFalse (F := F)).assertTrue.run s = .error .assertion ∧ (CBool.cTrue (F := F)).assertFalse.run s = .error .assertion := by
  have h1 : (CNum.fromConst (1 : F)).asConst = some 1 := CNum.asConst_fromConst 1
  have h0 : (CNum.fromConst (0 : F)).asConst = some 0 := CNum.asConst_fromConst 0
  exact ⟨(C06_assertConst_const _ _ _ h1 s).trans (if_pos rfl), (C06_assertConst_const _ _ _ h0 s).trans (if_pos rfl),
    (C06_assertConst_const _ _ _ h0 s).trans (if_neg zero_ne_one), (C06_assertConst_const _ _ _ h1 s).trans (if_neg one_ne_zero)⟩

/-- C06: a prover whose boolean has the asserted value is accepted. -/
theorem C06_bool_complete (s : CS F) (hs : s.Honest) (b : CBool F) :
    (Has s b.num 1 → ∃ s', b.assertTrue.run s = .ok ((), s') ∧ s'.Honest) ∧
    (Has s b.num 0 → ∃ s', b.assertFalse.run s = .ok ((), s') ∧ s'.Honest) := by
  refine ⟨fun h => ?_, fun h => ?_⟩ <;>
  · obtain ⟨_, s', hr, -, hh, -⟩ := runs_assertConst hs h
    exact ⟨s', hr, hh⟩

/-- An allocated bit that is one: the hypotheses are met and the call gets through. -/
example : ((⟨⟨some 1, [(.aux 0, 1)]⟩⟩ : CBool (ZMod 7)).num.asConst = none) ∧
    ((do let b ← CBool.alloc (F := ZMod 7) (some true); b.assertTrue).run (CS.new .prove)).isOk = true := by
  decide +kernel

/-! ## C10 -/

/-- C10: `bit.if_else(x, y)` is `x` where the bit is one and `y` where it is zero. -/
theorem C10_if_else_sound (t : Ty) (c : CBool F) (x y : t.S F) (hx : t.ok F x) (hy : t.ok F y) (r : t.S F) (s s' : CS F)
    (h : (c.ifElse t x y).run s = .ok (r, s')) (w : Index → F) (hw : IsAssignment w) (hs : s'.Sat w) :
    (c.intoNum.lc.eval w = 1 → t.evals w r = t.evals w x) ∧ (c.intoNum.lc.eval w = 0 → t.evals w r = t.evals w y) :=
  C10_signal_switch_sound t x y c hx hy r s s' h w hw hs

/-- C10: and it carries the chosen value for the prover. -/
theorem C10_if_else_complete (t : Ty) (s : CS F) (hs : s.Honest) (x y : t.S F) (u v : t.V F) (c : Bool) (bit : CBool F)
    (hx : t.Carries s x u) (hy : t.Carries s y v) (hb : Has s bit.intoNum (boolToF c)) :
    ∃ r s', (bit.ifElse t x y).run s = .ok (r, s') ∧ s'.Honest ∧ t.Carries s' r (if c then u else v) :=
  C10_signal_switch_complete t s hs x y u v c bit hx hy hb

/-- C10: with the constants it returns one of its arguments and emits nothing. -/
theorem C10_if_else_constants (s : CS F) (x y : CNum F) :
    (CBool.cTrue.ifElse .num x y).run s = .ok (x, s) ∧ (CBool.cFalse.ifElse .num x y).run s = .ok (y, s) := by
  have h1 : (CBool.fromConst (F := F) true).asConst = .ok (some true) := by
    have : (CBool.fromConst (F := F) true).num.asConst = some 1 := CNum.asConst_fromConst 1
    simp [CBool.asConst, this, intoBool, Except.map]
  have h0 : (CBool.fromConst (F := F) false).asConst = .ok (some false) := by
    have : (CBool.fromConst (F := F) false).num.asConst = some 0 := CNum.asConst_fromConst 0
    simp [CBool.asConst, this, intoBool, Except.map]
  constructor
  · show (CNum.switch x (CBool.fromConst true) y).run s = _
    unfold CNum.switch; rw [h1]; rfl
  · show (CNum.switch x (CBool.fromConst false) y).run s = _
    unfold CNum.switch; rw [h0]; rfl

example : ∃ r s', ((CBool.cTrue (F := ZMod 7)).ifElse exTy exSignal exSignal).run exState = .ok (r, s') ∧ s'.Honest ∧
    exTy.Carries s' r exValue := by
  obtain ⟨r, s', h, hh, hc⟩ := C10_if_else_complete exTy exState exState_honest exSignal exSignal exValue exValue true CBool.cTrue
    exSignal_carries exSignal_carries (has_fromConst _)
  exact ⟨r, s', h, hh, by simpa using hc⟩

/-! ## C12 -/

/-- Two calls that differ at most in the value they allocate. -/
inductive SameCall : Op F → Op F → Prop
  | alloc (v v' : Option F) : SameCall (.alloc v) (.alloc v')
  | allocInput (v v' : Option F) : SameCall (.allocInput v) (.allocInput v')
  | same (o : Op F) : SameCall o o

theorem sameCall_iff (o o' : Op F) : SameCall o o' ↔ o.erase = o'.erase := by
  constructor
  · rintro (⟨v, v'⟩ | ⟨v, v'⟩ | _) <;> rfl
  · intro h
    cases o <;> cases o' <;> simp only [Op.erase, reduceCtorEq] at h <;>
      first | exact .alloc _ _ | exact .allocInput _ _ | (rw [h]; exact .same _)

/-- C12: two programs make the same calls, up to allocated values (secret or public), exactly when the theorems
`C12_structure_independent` and `C12_witness_independent` apply to them. -/
theorem C12_same_calls (ops ops' : List (Op F)) :
    List.Forall₂ SameCall ops ops' ↔ ops.map Op.erase = ops'.map Op.erase := by
  induction ops generalizing ops' with
  | nil => cases ops' <;> simp
  | cons o os ih =>
    cases ops' with
    | nil => simp
    | cons o' os' => simp [ih, sameCall_iff]

/-- C12: what runs during setup holds no value, neither of a secret nor of a public variable. -/
theorem C12_setup_no_values (ops : List (Op F)) (v : F) :
    Op.alloc (some v) ∉ ops.map Op.erase ∧ Op.allocInput (some v) ∉ ops.map Op.erase := by
  simp only [List.mem_map, not_exists, not_and]
  refine ⟨fun o _ h => ?_, fun o _ h => ?_⟩ <;> cases o <;> simp [Op.erase] at h

example : List.Forall₂ SameCall ([.alloc (some 3), .allocInput (some 5), .mul 0 1] : List (Op (ZMod 7)))
    [.alloc none, .allocInput none, .mul 0 1] := .cons (.alloc _ _) (.cons (.allocInput _ _) (.cons (.same _) .nil))

end Fawkes.Props
