import Verif.Model.Signal

/-!
# The short forms of `CBool` (src/circuit/bool.rs:55-90)
-/

namespace Fawkes

variable {F : Type} [Field F] [DecidableEq F]

namespace CBool

/-- src/circuit/bool.rs:56-59: `bit.if_else(&if_true, &if_false)` is `if_true.switch(bit, if_false)`. -/
def ifElse (t : Ty) (self : CBool F) (ifTrue ifFalse : t.S F) : M F (t.S F) := t.switch ifTrue self ifFalse

/-- src/circuit/bool.rs:61-63 -/
def intoNum (self : CBool F) : CNum F := self.num

/-- src/circuit/bool.rs:81-84 -/
def cTrue : CBool F := fromConst true

/-- src/circuit/bool.rs:86-89 -/
def cFalse : CBool F := fromConst false

end CBool

end Fawkes
