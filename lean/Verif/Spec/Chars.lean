import Lean.Elab.Term

/-!
# Character lists as string literals

`chars! "abc"` is the list `['a', 'b', 'c']`.  The kernel sees the list, so that equations between long texts are checked by
comparing lists.
-/

/-- The list of the characters of a string literal. -/
elab "chars!" s:str : term => return Lean.toExpr s.getString.toList
