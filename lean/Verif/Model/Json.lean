import Verif.Model.CS
import Verif.Spec.Chars

/-!
# JSON texts (external crate `serde_json` 1.0, as used in src/macros.rs:363-432 and the copies)

`serde_json::to_string_pretty` and the part of `serde_json::from_str` that depends on the text only.  The crate deserialises
while it reads; here a text is first read to a value (`Json`), from which the typed value is taken (Model/Serde.lean).  Since
every error ends in a panic of the command (`unwrap`), it does not matter which of several errors is found first.
Simplifications: in fields that are ignored the crate checks strings less strictly and has no recursion limit.
-/

namespace Fawkes

/-- What a JSON text says.  Numbers are kept as texts: the library never asks for one. -/
inductive Json where
  | null
  | bool (b : Bool)
  | num (text : List Char)
  | str (s : List Char)
  | arr (items : List Json)
  | obj (fields : List (List Char × Json))

namespace Json

/-! ### Writing -/

/-- A hexadecimal digit (`b"0123456789abcdef"`). -/
def hexDigit (n : Nat) : Char := ['0', '1', '2', '3', '4', '5', '6', '7', '8', '9', 'a', 'b', 'c', 'd', 'e', 'f'].getD n '0'

/-- serde_json `format_escaped_str_contents`, one character. -/
def escape (c : Char) : List Char :=
  if c = '"' then ['\\', '"']
  else if c = '\\' then ['\\', '\\']
  else if c = '\x08' then ['\\', 'b']
  else if c = '\x0c' then ['\\', 'f']
  else if c = '\n' then ['\\', 'n']
  else if c = '\r' then ['\\', 'r']
  else if c = '\t' then ['\\', 't']
  else if c.toNat < 32 then ['\\', 'u', '0', '0', hexDigit (c.toNat / 16), hexDigit (c.toNat % 16)]
  else [c]

/-- serde_json `format_escaped_str` -/
def quote (s : List Char) : List Char := '"' :: (s.flatMap escape ++ ['"'])

/-- serde_json `indent`: two spaces for every level. -/
def indent (i : Nat) : List Char := List.replicate (2 * i) ' '

mutual

/-- `to_string_pretty` (serde_json `PrettyFormatter`), `i` levels deep. -/
def pretty (i : Nat) : Json → List Char
  | .null => ['n', 'u', 'l', 'l']
  | .bool true => ['t', 'r', 'u', 'e']
  | .bool false => ['f', 'a', 'l', 's', 'e']
  | .num t => t
  | .str s => quote s
  | .arr [] => ['[', ']']
  | .arr (x :: xs) => '[' :: '\n' :: (indent (i + 1) ++ (pretty (i + 1) x ++ (prettyItems (i + 1) xs ++ ('\n' :: (indent i ++ [']'])))))
  | .obj [] => ['{', '}']
  | .obj ((k, x) :: xs) =>
    '{' :: '\n' :: (indent (i + 1) ++ (quote k ++ (':' :: ' ' :: (pretty (i + 1) x ++
      (prettyFields (i + 1) xs ++ ('\n' :: (indent i ++ ['}'])))))))

/-- The second and further elements of an array. -/
def prettyItems (i : Nat) : List Json → List Char
  | [] => []
  | x :: xs => ',' :: '\n' :: (indent i ++ (pretty i x ++ prettyItems i xs))

/-- The second and further fields of an object. -/
def prettyFields (i : Nat) : List (List Char × Json) → List Char
  | [] => []
  | (k, x) :: xs => ',' :: '\n' :: (indent i ++ (quote k ++ (':' :: ' ' :: (pretty i x ++ prettyFields i xs))))

end

/-! ### Reading -/

/-- serde_json `parse_whitespace` -/
def skip : List Char → List Char
  | [] => []
  | c :: t => if c = ' ' ∨ c = '\n' ∨ c = '\t' ∨ c = '\r' then skip t else c :: t

/-- serde_json `decode_hex_val` -/
def hexVal (c : Char) : Option Nat :=
  if '0' ≤ c ∧ c ≤ '9' then some (c.toNat - 48)
  else if 'a' ≤ c ∧ c ≤ 'f' then some (c.toNat - 87)
  else if 'A' ≤ c ∧ c ≤ 'F' then some (c.toNat - 55)
  else none

/-- serde_json `decode_hex_escape` -/
def hex4 (a b c d : Char) : Option Nat := do
  let a ← hexVal a
  let b ← hexVal b
  let c ← hexVal c
  let d ← hexVal d
  some (((a * 16 + b) * 16 + c) * 16 + d)

/-- The characters after a backslash other than `u` (serde_json `parse_escape`). -/
def simpleEscape (c : Char) : Option Char :=
  if c = '"' then some '"' else if c = '\\' then some '\\' else if c = '/' then some '/' else if c = 'b' then some '\x08'
  else if c = 'f' then some '\x0c' else if c = 'n' then some '\n' else if c = 'r' then some '\r'
  else if c = 't' then some '\t' else none

/-- The rest of a string after the opening quote (serde_json `parse_str`, `parse_escape`). -/
def parseString : List Char → Option (List Char × List Char)
  | [] => none
  | '"' :: t => some ([], t)
  | '\\' :: 'u' :: a :: b :: c :: d :: t =>
    match hex4 a b c d with
    | none => none
    | some n =>
      if 0xDC00 ≤ n ∧ n ≤ 0xDFFF then none
      else if 0xD800 ≤ n ∧ n ≤ 0xDBFF then
        match t with
        | '\\' :: 'u' :: a' :: b' :: c' :: d' :: t' =>
          match hex4 a' b' c' d' with
          | none => none
          | some n' =>
            if 0xDC00 ≤ n' ∧ n' ≤ 0xDFFF then
              match parseString t' with
              | none => none
              | some (s, t) => some (Char.ofNat ((n - 0xD800) * 1024 + (n' - 0xDC00) + 0x10000) :: s, t)
            else none
        | _ => none
      else match parseString t with
        | none => none
        | some (s, t) => some (Char.ofNat n :: s, t)
  | '\\' :: c :: t =>
    match simpleEscape c with
    | none => none
    | some c =>
      match parseString t with
      | none => none
      | some (s, t) => some (c :: s, t)
  | c :: t =>
    if c = '\\' ∨ c.toNat < 32 then none
    else match parseString t with
      | none => none
      | some (s, t) => some (c :: s, t)

/-- A run of digits. -/
def digits : List Char → List Char × List Char
  | [] => ([], [])
  | c :: t => if '0' ≤ c ∧ c ≤ '9' then let (ds, t) := digits t; (c :: ds, t) else ([], c :: t)

/-- At least one digit. -/
def digits1 (t : List Char) : Option (List Char × List Char) :=
  match digits t with
  | ([], _) => none
  | r => some r

/-- The part of a number before the point (serde_json `parse_integer`): no leading zeros. -/
def parseInt (t : List Char) : Option (List Char × List Char) :=
  match digits t with
  | ([], _) => none
  | ('0' :: _ :: _, _) => none
  | r => some r

/-- The fraction (serde_json `parse_decimal`). -/
def parseFrac : List Char → Option (List Char × List Char)
  | '.' :: t => do
    let (ds, t) ← digits1 t
    some ('.' :: ds, t)
  | t => some ([], t)

/-- The exponent (serde_json `parse_exponent`). -/
def parseExp : List Char → Option (List Char × List Char)
  | c :: t =>
    if c = 'e' ∨ c = 'E' then
      match t with
      | s :: t' =>
        if s = '+' ∨ s = '-' then do
          let (ds, t) ← digits1 t'
          some (c :: s :: ds, t)
        else do
          let (ds, t) ← digits1 t
          some (c :: ds, t)
      | [] => none
    else some ([], c :: t)
  | [] => some ([], [])

/-- serde_json `parse_any_number` -/
def parseNumber (t : List Char) : Option (List Char × List Char) := do
  let (sign, t) := match t with
    | '-' :: t => (['-'], t)
    | t => ([], t)
  let (a, t) ← parseInt t
  let (b, t) ← parseFrac t
  let (c, t) ← parseExp t
  some (sign ++ a ++ b ++ c, t)

mutual

/-- A value (serde_json `parse_any_value`).  `depth` is the crate's `remaining_depth`; `fuel` bounds the recursion and is
larger than the length of the text, so that it never runs out. -/
def parseValue : (fuel depth : Nat) → List Char → Option (Json × List Char)
  | 0, _, _ => none
  | fuel + 1, depth, t =>
    match skip t with
    | '"' :: t => do
      let (s, t) ← parseString t
      some (.str s, t)
    | '[' :: t =>
      if depth ≤ 1 then none
      else do
        let (l, t) ← parseItems fuel (depth - 1) true t
        some (.arr l, t)
    | '{' :: t =>
      if depth ≤ 1 then none
      else do
        let (l, t) ← parseFields fuel (depth - 1) true t
        some (.obj l, t)
    | 'n' :: 'u' :: 'l' :: 'l' :: t => some (.null, t)
    | 't' :: 'r' :: 'u' :: 'e' :: t => some (.bool true, t)
    | 'f' :: 'a' :: 'l' :: 's' :: 'e' :: t => some (.bool false, t)
    | t => do
      let (n, t) ← parseNumber t
      some (.num n, t)

/-- The elements of an array up to the closing bracket (serde_json `SeqAccess`, `end_seq`). -/
def parseItems : (fuel depth : Nat) → (first : Bool) → List Char → Option (List Json × List Char)
  | 0, _, _, _ => none
  | fuel + 1, depth, first, t =>
    match skip t with
    | ']' :: t => some ([], t)
    | ',' :: t =>
      if first then none
      else match skip t with
        | ']' :: _ => none
        | t => do
          let (x, t) ← parseValue fuel depth t
          let (xs, t) ← parseItems fuel depth false t
          some (x :: xs, t)
    | t =>
      if first then do
        let (x, t) ← parseValue fuel depth t
        let (xs, t) ← parseItems fuel depth false t
        some (x :: xs, t)
      else none

/-- The fields of an object up to the closing brace (serde_json `MapAccess`, `end_map`). -/
def parseFields : (fuel depth : Nat) → (first : Bool) → List Char → Option (List (List Char × Json) × List Char)
  | 0, _, _, _ => none
  | fuel + 1, depth, first, t =>
    match skip t with
    | '}' :: t => some ([], t)
    | ',' :: t =>
      if first then none
      else match skip t with
        | '"' :: t => parseField fuel depth t
        | _ => none
    | '"' :: t => if first then parseField fuel depth t else none
    | _ => none

/-- One field, after the opening quote of its name, and the fields after it. -/
def parseField : (fuel depth : Nat) → List Char → Option (List (List Char × Json) × List Char)
  | 0, _, _ => none
  | fuel + 1, depth, t => do
    let (k, t) ← parseString t
    match skip t with
    | ':' :: t =>
      let (x, t) ← parseValue fuel depth t
      let (xs, t) ← parseFields fuel depth false t
      some ((k, x) :: xs, t)
    | _ => none

end

/-- The text part of `serde_json::from_str`: one value with white space around it.  The crate's recursion limit is 128. -/
def parse (t : List Char) : Option Json :=
  match parseValue (2 * t.length + 2) 128 t with
  | none => none
  | some (j, t) => if skip t = [] then some j else none

end Json

end Fawkes
