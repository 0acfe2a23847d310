import Verif.Spec.Varies
import Verif.Spec.Montgomery

/-!
# Specification: the number of constraints
-/

namespace Fawkes

variable {F α : Type}

/-- Every run of `m` from `s` that does not panic adds exactly `n` constraints to the circuit. -/
def Adds (s : CS F) (m : M F α) (n : Nat) : Prop :=
  ∀ a s', m.run s = .ok (a, s') → s'.cons.length = s.cons.length + n

/-- The number of constraints of a scalar multiplication of a constant by `n` bits: six for three bits, four for two
remaining ones or three for a single one, five for the final change of coordinates. -/
def constMulCount (n : Nat) : Nat :=
  6 * (n / 3) + (if n % 3 = 0 then 0 else if n % 3 = 1 then 3 else 4) + 5

variable [Field F] {C : EdCurve F}

/-- The differences `f 5 - f 1`, `f 6 - f 2`, `f 7 - f 3`, `f 8 - f 4` are not all the same. -/
def Uneven (f : Nat → F) : Prop := ∃ i j, 0 < i ∧ i ≤ 4 ∧ 0 < j ∧ j ≤ 4 ∧ f (4 + i) - f i ≠ f (4 + j) - f j

/-- The Montgomery coordinates of `P, 2 P, …, 8 P` do not follow an accidental pattern in which one constraint could be
saved. -/
def Generic (P : EdPoint C) : Prop :=
  Uneven (fun i => (i • P).montX) ∧ Uneven (fun i => (i • P).montY)

end Fawkes
