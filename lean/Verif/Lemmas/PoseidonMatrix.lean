import Verif.Props.Rand
import Verif.Spec.PoseidonMatrix

/-!
# The matrix of Poseidon parameters
-/

namespace Fawkes

theorem new_ok {r : Nat} [Fact r.Prime] {checks : Bool} {tries t f p : Nat} {P : PoseidonParams (ZMod r)}
    (h : PoseidonParams.new r checks tries t f p = .ok P) : P.t = t ∧ P.f = f ∧ P.p = p := by
  obtain ⟨_, _, _, _, e3, e4, e5⟩ := Props.newParams_ok h
  exact ⟨e3, e4, e5⟩

theorem new_matrix_eq {r : Nat} [Fact r.Prime] {checks : Bool} {n tries t f p : Nat} {P : PoseidonParams (ZMod r)}
    {m : List (List (ZMod r))} (hm : (PoseidonParams.new r true n t f p).map (fun P => P.m) = .ok m)
    (h : PoseidonParams.new r checks tries t f p = .ok P) : P.m = m := by
  cases e : PoseidonParams.new r true n t f p with
  | error e' => rw [e] at hm; cases hm
  | ok Q =>
    rw [e] at hm
    have := Props.C65_deterministic _ _ _ _ _ _ _ _ _ e h
    subst this
    exact Except.ok.inj hm

theorem all_nonzero {F : Type} [Zero F] [DecidableEq F] {m : List (List F)}
    (h : (m.all fun row => row.all fun c => !decide (c = 0)) = true) : ∀ row ∈ m, ∀ c ∈ row, c ≠ 0 := by
  simpa using h

end Fawkes
