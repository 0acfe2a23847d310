import Verif.Model.Derive
import Verif.Spec.Signal

/-!
# Specification: a struct is the nested pairs of its fields

`nest t ts` is the signal type `((t, t₁), t₂), …`.  `toNest` rearranges the fields of a struct into such pairs.  `DeclaresValue` and
`Data.fields` tell which structs the derive macro has to accept.
-/

namespace Fawkes.Derive

/-- `((t, t₁), t₂), …` -/
def nest (t : Ty) : List Ty → Ty
  | [] => t
  | u :: us => nest (.pair t u) us

/-- The fields `x, xs…` as nested pairs. -/
def toNest (F : Type) (t : Ty) : (ts : List Ty) → t.S F → Rec F ts → (nest t ts).S F
  | [], x, _ => x
  | u :: us, x, xs => toNest F (.pair t u) us (x, xs.1) xs.2

/-- The same of native values. -/
def toNestV (F : Type) (t : Ty) : (ts : List Ty) → t.V F → RecV F ts → (nest t ts).V F
  | [], x, _ => x
  | u :: us, x, xs => toNestV F (.pair t u) us (x, xs.1) xs.2

/-- All sized vectors inside the fields have their declared length. -/
def RecOk (F : Type) : (ts : List Ty) → Rec F ts → Prop
  | [], _ => True
  | t :: ts, x => t.ok F x.1 ∧ RecOk F ts x.2

/-- Under an assignment every field of the one struct has the same components as that field of the other. -/
def FieldsEqual {F : Type} [Field F] [DecidableEq F] (w : Index → F) : (ts : List Ty) → Rec F ts → Rec F ts → Prop
  | [], _, _ => True
  | t :: ts, x, y => t.evals w x.1 = t.evals w y.1 ∧ FieldsEqual w ts x.2 y.2

/-- The components of all fields, in the order in which they are declared. -/
def components (F : Type) : (ts : List Ty) → Rec F ts → List (CNum F)
  | [], _ => []
  | t :: ts, x => t.leaves F x.1 ++ components F ts x.2

/-- The attribute `#[Value = "…"]` is there, its text is the type `value`, and there is no other attribute of that name. -/
def DeclaresValue (parse : String → Option TypeExpr) (attrs : List Attr) (value : TypeExpr) : Prop :=
  ∃ s, Attr.nameValue "Value" (some s) ∈ attrs ∧ (∀ l, Attr.nameValue "Value" l ∈ attrs → l = some s) ∧ parse s = some value

/-- The fields of a struct with their names; those of a tuple struct are `0`, `1`, …. -/
def Data.fields : Data → List (String × TypeExpr)
  | .tupleStruct fs => ((List.range fs.length).map toString).zip fs
  | .namedStruct fs => fs
  | .unitStruct => []
  | .enumOrUnion => []

/-- Every attribute before `#[Value = "…"]` is of the form `name = literal` or of a form that is none of the three usual ones. -/
def PlainBefore (attrs : List Attr) (s : String) : Prop :=
  ∃ pre post, attrs = pre ++ Attr.nameValue "Value" (some s) :: post ∧
    ∀ a ∈ pre, (∃ n l, a = .nameValue n l ∧ n ≠ "Value") ∨ a = .unparsable

/-- A type written as a path. -/
def TypeExpr.IsPath : TypeExpr → Prop
  | .path _ _ => True
  | .other _ => False

/-- The first segment of a path. -/
def TypeExpr.head : TypeExpr → String
  | .path first _ => first
  | .other _ => ""

end Fawkes.Derive
