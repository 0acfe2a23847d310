import Verif.Spec.Edwards

/-!
# Specification: the Montgomery form of the curve

`b v² = u³ + a u² + u` with `a = 2 (1 - d) / (1 + d)`, `b = -4 / (1 + d)`, and the standard birational map
`(x, y) ↦ ((1 + y) / (1 - y), (1 + y) / ((1 - y) x))`.
-/

namespace Fawkes

variable {F : Type} [Field F]

namespace EdCurve

/-- The Montgomery coefficient `a`. -/
def a (C : EdCurve F) : F := 2 * (1 - C.d) / (1 + C.d)

/-- The Montgomery coefficient `b`. -/
def b (C : EdCurve F) : F := -4 / (1 + C.d)

end EdCurve

/-- The Montgomery equation. -/
def OnMont (a b u v : F) : Prop := b * v ^ 2 = u ^ 3 + a * u ^ 2 + u

namespace EdPoint

variable {C : EdCurve F}

/-- First Montgomery coordinate (of a point other than the neutral one). -/
def montX (P : EdPoint C) : F := (1 + P.y) / (1 - P.y)

/-- Second Montgomery coordinate; the point `(0, -1)` of order two goes to `(0, 0)`. -/
def montY (P : EdPoint C) : F := P.montX / P.x

/-- The point `(0, -1)` of order two. -/
def torsion2 : EdPoint C := ⟨0, -1, by simp [OnCurve]⟩

end EdPoint

end Fawkes
