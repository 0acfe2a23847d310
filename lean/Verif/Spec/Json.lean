import Verif.Model.Json

/-!
# Specification: nesting of JSON values
-/

namespace Fawkes.Json

mutual

/-- How many arrays and objects are nested in each other. -/
def depth : Json → Nat
  | .arr l => 1 + depthItems l
  | .obj l => 1 + depthFields l
  | _ => 0

def depthItems : List Json → Nat
  | [] => 0
  | x :: xs => max (depth x) (depthItems xs)

def depthFields : List (List Char × Json) → Nat
  | [] => 0
  | (_, x) :: xs => max (depth x) (depthFields xs)

end

mutual

/-- No number occurs in the value (the library writes numbers of the field as strings). -/
def NoNumber : Json → Prop
  | .num _ => False
  | .arr l => NoNumberItems l
  | .obj l => NoNumberFields l
  | _ => True

def NoNumberItems : List Json → Prop
  | [] => True
  | x :: xs => NoNumber x ∧ NoNumberItems xs

def NoNumberFields : List (List Char × Json) → Prop
  | [] => True
  | (_, x) :: xs => NoNumber x ∧ NoNumberFields xs

end

end Fawkes.Json
