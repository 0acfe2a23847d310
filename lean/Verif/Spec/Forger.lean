import Mathlib.Data.Fintype.Card
import Mathlib.Data.Real.Basic

/-!
# Probability over a finite set
-/

namespace Fawkes

open Classical in
/-- The probability of `p` for an element chosen uniformly from a finite set. -/
noncomputable def chance {Ω : Type} [Fintype Ω] (p : Ω → Prop) : ℝ := (Finset.univ.filter p).card / Fintype.card Ω

end Fawkes
