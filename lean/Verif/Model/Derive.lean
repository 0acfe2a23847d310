import Verif.Model.Signal

/-!
# Structs and tuples as signals, field by field (fawkes-crypto_derive/src/signal.rs, src/core/signal.rs:114-166)

Model/Signal takes a struct with several fields for a nested pair.  Here the code that the macros generate is modelled as it is: every
method goes through the list of fields.
-/

namespace Fawkes

variable {F : Type} [Field F] [DecidableEq F]

/-- `get_cs`, which panics for a vector without elements (src/core/signal.rs:67-69, 126-128, src/circuit/num.rs:93-95,
src/circuit/bool.rs:11-13, fawkes-crypto_derive/src/signal.rs:130-132, 188-190). -/
def Ty.getCs (F : Type) : (t : Ty) → t.S F → Except Panic Unit
  | .num, _ => .ok ()
  | .bool, _ => .ok ()
  | .pair a _, x => a.getCs F x.1
  | .vec _ a, x => match x.items with
    | [] => .error .outOfBounds
    | y :: _ => a.getCs F y

namespace Derive

/-- The fields of a struct, or the components of a tuple. -/
def Rec (F : Type) : List Ty → Type
  | [] => Unit
  | t :: ts => t.S F × Rec F ts

/-- The fields of the native struct. -/
def RecV (F : Type) : List Ty → Type
  | [] => Unit
  | t :: ts => t.V F × RecV F ts

/-- `Some(Self::Value { f: self.f.get_value()?, … })` (fawkes-crypto_derive/src/signal.rs:118-120, 176-178;
src/core/signal.rs:118-120): the first `None` is returned at once. -/
def getValue : (ts : List Ty) → Rec F ts → Except Panic (Option (RecV F ts))
  | [], _ => .ok (some ())
  | t :: ts, x =>
    match t.getValue x.1 with
    | .error e => .error e
    | .ok none => .ok none
    | .ok (some v) =>
      match getValue ts x.2 with
      | .error e => .error e
      | .ok none => .ok none
      | .ok (some vs) => .ok (some (v, vs))

/-- `as_const` (fawkes-crypto_derive/src/signal.rs:122-124, 180-182; src/core/signal.rs:134-136) -/
def asConst : (ts : List Ty) → Rec F ts → Except Panic (Option (RecV F ts))
  | [], _ => .ok (some ())
  | t :: ts, x =>
    match t.asConst x.1 with
    | .error e => .error e
    | .ok none => .ok none
    | .ok (some v) =>
      match asConst ts x.2 with
      | .error e => .error e
      | .ok none => .ok none
      | .ok (some vs) => .ok (some (v, vs))

/-- `switch` (fawkes-crypto_derive/src/signal.rs:126-128, 184-186; src/core/signal.rs:122-124) -/
def switch : (ts : List Ty) → Rec F ts → CBool F → Rec F ts → M F (Rec F ts)
  | [], _, _, _ => pure ()
  | t :: ts, x, b, y => do
    let a ← t.switch x.1 b y.1
    let as ← switch ts x.2 b y.2
    pure (a, as)

/-- `from_const` (fawkes-crypto_derive/src/signal.rs:134-136, 192-194; src/core/signal.rs:130-132) -/
def fromConst : (ts : List Ty) → RecV F ts → Rec F ts
  | [], _ => ()
  | t :: ts, v => (t.fromConst v.1, fromConst ts v.2)

/-- `assert_const` (fawkes-crypto_derive/src/signal.rs:138-140, 196-198; src/core/signal.rs:145-147) -/
def assertConst : (ts : List Ty) → Rec F ts → RecV F ts → M F Unit
  | [], _, _ => pure ()
  | t :: ts, x, v => do
    t.assertConst x.1 v.1
    assertConst ts x.2 v.2

/-- `inputize` (fawkes-crypto_derive/src/signal.rs:142-144, 200-202; src/core/signal.rs:149-151) -/
def inputize : (ts : List Ty) → Rec F ts → M F Unit
  | [], _ => pure ()
  | t :: ts, x => do
    t.inputize x.1
    inputize ts x.2

/-- `linearize_builder` (fawkes-crypto_derive/src/signal.rs:146-148, 204-206; src/core/signal.rs:163-165) -/
def linearizeBuilder : (ts : List Ty) → Rec F ts → List (CNum F) → List (CNum F)
  | [], _, acc => acc
  | t :: ts, x, acc => linearizeBuilder ts x.2 (acc ++ t.linearize x.1)

/-- `assert_eq` (fawkes-crypto_derive/src/signal.rs:150-152, 208-210; src/core/signal.rs:153-155) -/
def assertEq : (ts : List Ty) → Rec F ts → Rec F ts → M F Unit
  | [], _, _ => pure ()
  | t :: ts, x, y => do
    t.assertEq x.1 y.1
    assertEq ts x.2 y.2

/-- The statements `acc *= self.f.is_eq(&other.f).0;` (fawkes-crypto_derive/src/signal.rs:156, 214; src/core/signal.rs:159) -/
def isEqLoop : (ts : List Ty) → Rec F ts → Rec F ts → CNum F → M F (CNum F)
  | [], _, _, acc => pure acc
  | t :: ts, x, y, acc => do
    let e ← t.isEq x.1 y.1
    let acc ← CNum.mul acc e.num
    isEqLoop ts x.2 y.2 acc

/-- `is_eq` (fawkes-crypto_derive/src/signal.rs:154-158, 212-216; src/core/signal.rs:157-161); `get_cs` is that of the first field -/
def isEq (t : Ty) (ts : List Ty) (x y : Rec F (t :: ts)) : M F (CBool F) := do
  M.lift (t.getCs F x.1)
  let acc ← isEqLoop (t :: ts) x y CNum.one
  pure ⟨acc⟩

/-- `alloc` (fawkes-crypto_derive/src/signal.rs:160-162, 218-220; src/core/signal.rs:138-143) -/
def alloc : (ts : List Ty) → Option (RecV F ts) → M F (Rec F ts)
  | [], _ => pure ()
  | t :: ts, v => do
    let a ← t.alloc (v.map Prod.fst)
    let as ← alloc ts (v.map Prod.snd)
    pure (a, as)

/-! ### The macro itself -/

/-- A type as `syn` parses it: a path with its segments, or anything else (tuples, arrays, references, …). -/
inductive TypeExpr where
  | path (first : String) (rest : List String)
  | other (tokens : String)

/-- An attribute `name = literal`, with `none` for a literal that is no string; or one of another form; or one that is not parsed. -/
inductive Attr where
  | nameValue (name : String) (lit : Option String)
  | list (tokens : String)
  | unparsable

/-- The data of a `DeriveInput`. -/
inductive Data where
  | tupleStruct (fields : List TypeExpr)
  | namedStruct (fields : List (String × TypeExpr))
  | unitStruct
  | enumOrUnion

/-- What the macro is applied to: name, generics and where clause (handed on unchanged), attributes, data. -/
structure Input where
  ident : String
  generics : String
  attrs : List Attr
  data : Data

/-- The generated implementation: for which type, with which `Value`, and for every field how it is accessed and whose `alloc` and
`from_const` are called; `tuple` tells which of the two templates is used. -/
structure Impl where
  ident : String
  generics : String
  value : TypeExpr
  tuple : Bool
  fields : List (String × String)

/-- fawkes-crypto_derive/src/signal.rs:19-41: `fetch_attr` -/
def fetchAttr (name : String) : List Attr → Except Panic (Option String)
  | [] => .ok none
  | .nameValue n lit :: as =>
    if n = name then
      match lit with
      | some s => .ok (some s)
      | none => .error .assertion
    else fetchAttr name as
  | .list _ :: _ => .error .assertion
  | .unparsable :: as => fetchAttr name as

/-- fawkes-crypto_derive/src/signal.rs:92-106: `get_typename` -/
def getTypename : TypeExpr → Except Panic String
  | .path first _ => .ok first
  | .other _ => .error .assertion

/-- `iter().map(get_typename).collect()` -/
def getTypenames : List TypeExpr → Except Panic (List String)
  | [] => .ok []
  | t :: ts =>
    match getTypename t with
    | .error e => .error e
    | .ok n =>
      match getTypenames ts with
      | .error e => .error e
      | .ok ns => .ok (n :: ns)

/-- fawkes-crypto_derive/src/signal.rs:108-117: the fields of `tuple_impl` -/
def tupleImpl (fields : List TypeExpr) : Except Panic (List (String × String)) := do
  let names ← getTypenames fields
  .ok (((List.range fields.length).map toString).zip names)

/-- fawkes-crypto_derive/src/signal.rs:166-175: the fields of `struct_impl`; the first one is taken for `get_cs` -/
def structImpl (fields : List (String × TypeExpr)) : Except Panic (List (String × String)) :=
  match fields with
  | [] => .error .outOfBounds
  | _ :: _ => do
    let names ← getTypenames (fields.map Prod.snd)
    .ok ((fields.map Prod.fst).zip names)

/-- fawkes-crypto_derive/src/signal.rs:51-82: `expand`; `parse` is `syn::parse_str` -/
def expand (parse : String → Option TypeExpr) (input : Input) : Except Panic Impl := do
  let attr ← fetchAttr "Value" input.attrs
  match attr with
  | none => .error .unwrap
  | some s =>
    match parse s with
    | none => .error .unwrap
    | some value =>
      match input.data with
      | .tupleStruct fields => do
        let fs ← tupleImpl fields
        .ok ⟨input.ident, input.generics, value, true, fs⟩
      | .namedStruct fields => do
        let fs ← structImpl fields
        .ok ⟨input.ident, input.generics, value, false, fs⟩
      | .unitStruct => do
        let fs ← structImpl []
        .ok ⟨input.ident, input.generics, value, false, fs⟩
      | .enumOrUnion => .error .assertion

end Derive

end Fawkes
