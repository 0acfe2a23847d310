import Verif.Spec.Json

/-!
# Specification: the JSON grammar (RFC 8259)

`Text t j`: the text `t` spells the value `j`.  Written from the RFC, without the reader of Model/Json.lean.
-/

namespace Fawkes.Json.Grammar

/-- `ws` (section 2): blanks, tabs and line ends. -/
def Ws (t : List Char) : Prop := ∀ c ∈ t, c = ' ' ∨ c = '\t' ∨ c = '\n' ∨ c = '\r'

/-- `HEXDIG`, in upper or lower case, and its value. -/
def Hex (c : Char) (n : Nat) : Prop := (chars! "0123456789abcdef")[n]? = some c ∨ (chars! "0123456789ABCDEF")[n]? = some c

/-- `4HEXDIG` -/
def Hex4 (a b c d : Char) (n : Nat) : Prop :=
  ∃ x y z w, Hex a x ∧ Hex b y ∧ Hex c z ∧ Hex d w ∧ n = x * 4096 + y * 256 + z * 16 + w

/-- `char` (section 7): an unescaped character, one of the eight short escapes, the escape of a code, or two escapes that are a
surrogate pair. -/
inductive SpellsChar : List Char → Char → Prop
  | plain (c : Char) (h : 0x20 ≤ c.toNat) (h1 : c ≠ '"') (h2 : c ≠ '\\') : SpellsChar [c] c
  | short (e c : Char) (h : (e, c) ∈ [('"', '"'), ('\\', '\\'), ('/', '/'), ('b', '\x08'), ('f', '\x0c'), ('n', '\n'), ('r', '\r'),
      ('t', '\t')]) : SpellsChar ['\\', e] c
  | code (a b c d x : Char) (h : Hex4 a b c d x.toNat) : SpellsChar ['\\', 'u', a, b, c, d] x
  | pair (a b c d a' b' c' d' x : Char) (hi lo : Nat) (h1 : hi < 0x400) (h2 : lo < 0x400) (h : Hex4 a b c d (0xD800 + hi))
      (h' : Hex4 a' b' c' d' (0xDC00 + lo)) (hx : x.toNat = 0x10000 + hi * 0x400 + lo) :
      SpellsChar ['\\', 'u', a, b, c, d, '\\', 'u', a', b', c', d'] x

/-- `*char` -/
inductive SpellsString : List Char → List Char → Prop
  | nil : SpellsString [] []
  | cons {t u s : List Char} {c : Char} (h : SpellsChar t c) (hs : SpellsString u s) : SpellsString (t ++ u) (c :: s)

/-- `DIGIT` -/
def Digit (c : Char) : Prop := '0' ≤ c ∧ c ≤ '9'

/-- `int` (section 6): `zero / ( digit1-9 *DIGIT )` -/
def IsInt (t : List Char) : Prop := t = ['0'] ∨ ∃ c u, t = c :: u ∧ Digit c ∧ c ≠ '0' ∧ ∀ d ∈ u, Digit d

/-- `[ frac ]`: `decimal-point 1*DIGIT` -/
def IsFrac (t : List Char) : Prop := t = [] ∨ ∃ u, t = '.' :: u ∧ u ≠ [] ∧ ∀ d ∈ u, Digit d

/-- `[ exp ]`: `e [ minus / plus ] 1*DIGIT` -/
def IsExp (t : List Char) : Prop :=
  t = [] ∨ ∃ e sign u, t = e :: (sign ++ u) ∧ (e = 'e' ∨ e = 'E') ∧ (sign = [] ∨ sign = ['+'] ∨ sign = ['-']) ∧ u ≠ [] ∧ ∀ d ∈ u, Digit d

/-- `number`: `[ minus ] int [ frac ] [ exp ]` -/
def IsNumber (t : List Char) : Prop :=
  ∃ sign a b c, (sign = [] ∨ sign = ['-']) ∧ IsInt a ∧ IsFrac b ∧ IsExp c ∧ t = sign ++ (a ++ (b ++ c))

mutual

/-- `value` (section 3) -/
inductive Spells : List Char → Json → Prop
  | null : Spells ['n', 'u', 'l', 'l'] .null
  | yes : Spells ['t', 'r', 'u', 'e'] (.bool true)
  | no : Spells ['f', 'a', 'l', 's', 'e'] (.bool false)
  | num {t : List Char} (h : IsNumber t) : Spells t (.num t)
  | str {t s : List Char} (h : SpellsString t s) : Spells ('"' :: (t ++ ['"'])) (.str s)
  | arrEmpty {w : List Char} (h : Ws w) : Spells ('[' :: (w ++ [']'])) (.arr [])
  | arr {t : List Char} {l : List Json} (h : SpellsItems t l) : Spells ('[' :: (t ++ [']'])) (.arr l)
  | objEmpty {w : List Char} (h : Ws w) : Spells ('{' :: (w ++ ['}'])) (.obj [])
  | obj {t : List Char} {l : List (List Char × Json)} (h : SpellsFields t l) : Spells ('{' :: (t ++ ['}'])) (.obj l)

/-- `value *( value-separator value )` (section 5), with white space around the values. -/
inductive SpellsItems : List Char → List Json → Prop
  | one {w v w' : List Char} {x : Json} (hw : Ws w) (h : Spells v x) (hw' : Ws w') : SpellsItems (w ++ (v ++ w')) [x]
  | more {w v w' t : List Char} {x : Json} {l : List Json} (hw : Ws w) (h : Spells v x) (hw' : Ws w') (ht : SpellsItems t l) :
      SpellsItems (w ++ (v ++ (w' ++ ',' :: t))) (x :: l)

/-- `member *( value-separator member )` (section 4), with white space around names and values. -/
inductive SpellsFields : List Char → List (List Char × Json) → Prop
  | one {w k w1 w2 v w' s : List Char} {x : Json} (hw : Ws w) (hk : SpellsString k s) (h1 : Ws w1) (h2 : Ws w2) (h : Spells v x)
      (hw' : Ws w') : SpellsFields (w ++ '"' :: (k ++ '"' :: (w1 ++ ':' :: (w2 ++ (v ++ w'))))) [(s, x)]
  | more {w k w1 w2 v w' s t : List Char} {x : Json} {l : List (List Char × Json)} (hw : Ws w) (hk : SpellsString k s) (h1 : Ws w1)
      (h2 : Ws w2) (h : Spells v x) (hw' : Ws w') (ht : SpellsFields t l) :
      SpellsFields (w ++ '"' :: (k ++ '"' :: (w1 ++ ':' :: (w2 ++ (v ++ (w' ++ ',' :: t)))))) ((s, x) :: l)

end

/-- `JSON-text`: a value with white space around it. -/
def Text (t : List Char) (j : Json) : Prop := ∃ w v w', Ws w ∧ Spells v j ∧ Ws w' ∧ t = w ++ (v ++ w')

end Fawkes.Json.Grammar
