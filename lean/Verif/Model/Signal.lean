import Verif.Model.CNum

/-!
# Compound signals (src/core/signal.rs, src/core/sizedvec.rs, fawkes-crypto_derive/src/signal.rs)

Tuples of arity `n` and derived structs with `n` fields are modelled as left-nested pairs: every
method of the `for_tuples!` / derive expansions processes the components from left to right, and
`((a, b), c).is_eq` multiplies the component results in exactly the order of the flat loop.
-/

namespace Fawkes

/-- src/core/signal.rs:8-46: trait `Signal`. `get_value`/`as_const` may panic (booleans that are
not 0/1). `get_cs`, `derive_const` and `derive_alloc` only pass the constraint-system handle and are
not needed in the model; `linearize_builder(acc)` appends `linearize` to `acc`. -/
class Signal (F : Type) [Field F] [DecidableEq F] (S : Type) (V : outParam Type) where
  fromConst : V → S
  getValue : S → Except Panic (Option V)
  asConst : S → Except Panic (Option V)
  alloc : Option V → M F S
  switch : S → CBool F → S → M F S
  assertConst : S → V → M F Unit
  assertEq : S → S → M F Unit
  isEq : S → S → M F (CBool F)
  inputize : S → M F Unit
  linearize : S → List (CNum F)

variable {F : Type} [Field F] [DecidableEq F]

/-- src/circuit/num.rs:40-145 -/
instance : Signal F (CNum F) F where
  fromConst := CNum.fromConst
  getValue a := .ok a.value
  asConst a := .ok a.asConst
  alloc := CNum.alloc
  switch := CNum.switch
  assertConst := CNum.assertConst
  assertEq := CNum.assertEq
  isEq := CNum.isEq
  inputize := CNum.inputize
  linearize a := [a]

/-- src/circuit/bool.rs:38-42: `switch` -/
def CBool.switch (t b f : CBool F) : M F (CBool F) := do
  let n ← CNum.switch t.num b f.num
  pure ⟨n⟩

/-- src/circuit/bool.rs:8-53 -/
instance : Signal F (CBool F) Bool where
  fromConst := CBool.fromConst
  getValue := CBool.getValue
  asConst := CBool.asConst
  alloc := CBool.alloc
  switch := CBool.switch
  assertConst := CBool.assertConst
  assertEq a b := CNum.assertEq a.num b.num
  isEq a b := CNum.isEq a.num b.num
  inputize a := CNum.inputize a.num
  linearize a := [a.num]

/-- `Some((a?, b?))`: src/core/signal.rs:119, 135. The second component is not looked at when the
first is `None`. -/
def optPair {A B : Type} (x : Except Panic (Option A)) (y : Except Panic (Option B)) :
    Except Panic (Option (A × B)) :=
  match x with
  | .error e => .error e
  | .ok none => .ok none
  | .ok (some a) =>
    match y with
    | .error e => .error e
    | .ok none => .ok none
    | .ok (some b) => .ok (some (a, b))

/-- src/core/signal.rs:114-166 (tuples), fawkes-crypto_derive/src/signal.rs:99-219 (structs). -/
instance {S T V W : Type} [Signal F S V] [Signal F T W] : Signal F (S × T) (V × W) where
  fromConst v := (Signal.fromConst (F := F) v.1, Signal.fromConst (F := F) v.2)
  getValue a := optPair (Signal.getValue (F := F) a.1) (Signal.getValue (F := F) a.2)
  asConst a := optPair (Signal.asConst (F := F) a.1) (Signal.asConst (F := F) a.2)
  alloc v := do
    let a ← Signal.alloc (v.map Prod.fst)
    let b ← Signal.alloc (v.map Prod.snd)
    pure (a, b)
  switch t b f := do
    let x ← Signal.switch t.1 b f.1
    let y ← Signal.switch t.2 b f.2
    pure (x, y)
  assertConst a v := do
    Signal.assertConst (F := F) a.1 v.1
    Signal.assertConst (F := F) a.2 v.2
  assertEq a b := do
    Signal.assertEq (F := F) a.1 b.1
    Signal.assertEq (F := F) a.2 b.2
  isEq a b := do
    let e ← Signal.isEq (F := F) a.1 b.1
    let acc ← CNum.mul CNum.one e.num
    let e' ← Signal.isEq (F := F) a.2 b.2
    let acc' ← CNum.mul acc e'.num
    pure ⟨acc'⟩
  inputize a := do
    Signal.inputize (F := F) a.1
    Signal.inputize (F := F) a.2
  linearize a := Signal.linearize (F := F) a.1 ++ Signal.linearize (F := F) a.2

/-- src/core/sizedvec.rs:15-16: `SizedVec<T, L>`; the length is a type parameter but nothing in the type
forces the inner vector to have it. -/
structure SizedVec (T : Type) (n : Nat) where
  items : List T

namespace SizedVec

variable {T : Type} {n : Nat}

/-- src/core/sizedvec.rs:41-48: `FromIterator`, i.e. `collect()`. -/
def collect (l : List T) : Except Panic (SizedVec T n) :=
  if l.length = n then .ok ⟨l⟩ else .error .assertion

/-- src/core/sizedvec.rs:34-38: `Deserialize`: whatever `Vec<T>` was decoded is wrapped. -/
def deserialize (l : List T) : SizedVec T n := ⟨l⟩

/-- `iter().map(f).collect::<Option<SizedVec<_,_>>>()` (src/core/signal.rs:56, 76).  The standard
library stops at the first `None` and hands the *truncated* sequence to `SizedVec::from_iter`, whose
length assertion runs before the `None` is returned. -/
def collectOption (acc : List T) : List (Except Panic (Option T)) → Except Panic (Option (SizedVec T n))
  | [] => (collect acc).map some
  | .error e :: _ => .error e
  | .ok none :: _ => (collect acc : Except Panic (SizedVec T n)).map fun _ => none
  | .ok (some a) :: rest => collectOption (acc ++ [a]) rest

end SizedVec

/-- `a.iter().zip(b.iter()).for_each(f)` -/
def zipForM {A B : Type} (f : A → B → M F Unit) : List A → List B → M F Unit
  | a :: as, b :: bs => do f a b; zipForM f as bs
  | _, _ => pure ()

/-- `a.iter().zip(b.iter()).map(f)` collected into a vector -/
def zipMapM {A B C : Type} (f : A → B → M F C) : List A → List B → M F (List C)
  | a :: as, b :: bs => do
    let c ← f a b
    let cs ← zipMapM f as bs
    pure (c :: cs)
  | _, _ => pure []

/-- `a.iter().map(f)` collected into a vector -/
def listMapM {A C : Type} (f : A → M F C) : List A → M F (List C)
  | [] => pure []
  | a :: as => do
    let c ← f a
    let cs ← listMapM f as
    pure (c :: cs)

/-- `a.iter().for_each(f)` -/
def listForM {A : Type} (f : A → M F Unit) : List A → M F Unit
  | [] => pure ()
  | a :: as => do f a; listForM f as

/-- src/core/signal.rs:101-107: the loop of `SizedVec::is_eq`. -/
def isEqLoop {S : Type} (f : S → S → M F (CBool F)) : Nat → List S → List S → CNum F → M F (CNum F)
  | 0, _, _, acc => pure acc
  | n + 1, a :: as, b :: bs, acc => do
    let e ← f a b
    let acc' ← CNum.mul acc e.num
    isEqLoop f n as bs acc'
  | _ + 1, _, _, _ => M.panic .outOfBounds

/-- src/core/signal.rs:100-109: `SizedVec::is_eq`; `self.get_cs()` indexes element 0. -/
def vecIsEq {S : Type} (f : S → S → M F (CBool F)) (n : Nat) (as bs : List S) : M F (CBool F) :=
  match as with
  | [] => M.panic .outOfBounds
  | _ :: _ => do
    let acc ← isEqLoop f n as bs CNum.one
    pure ⟨acc⟩

/-- src/core/signal.rs:48-112. `is_eq` starts with `self.get_cs()`, which indexes element 0.
Simplification: `from_const` also runs the length assertion of `collect`, which a constant of the declared
length passes; the model leaves it out. -/
instance {S V : Type} {n : Nat} [Signal F S V] : Signal F (SizedVec S n) (SizedVec V n) where
  fromConst v := ⟨v.items.map (Signal.fromConst (F := F))⟩
  getValue a := SizedVec.collectOption [] (a.items.map (Signal.getValue (F := F)))
  asConst a := SizedVec.collectOption [] (a.items.map (Signal.asConst (F := F)))
  alloc v := match v with
    | some v => do
      let l ← listMapM (fun x => Signal.alloc (some x)) v.items
      M.lift (SizedVec.collect l)
    | none => do
      let l ← listMapM (fun _ => Signal.alloc none) (List.range n)
      M.lift (SizedVec.collect l)
  switch t b f := do
    let l ← zipMapM (fun x y => Signal.switch x b y) t.items f.items
    M.lift (SizedVec.collect l)
  assertConst a v := zipForM (Signal.assertConst (F := F)) a.items v.items
  assertEq a b := zipForM (Signal.assertEq (F := F)) a.items b.items
  isEq a b := vecIsEq (Signal.isEq (F := F)) n a.items b.items
  inputize a := listForM (Signal.inputize (F := F)) a.items
  linearize a := a.items.flatMap (Signal.linearize (F := F))

/-- The signal types a user can write down: numbers, booleans, sized vectors, tuples and derived
structs (left-nested pairs). -/
inductive Ty where
  | num
  | bool
  | pair (a b : Ty)
  | vec (n : Nat) (a : Ty)

/-- The circuit type `Self` of a signal type. -/
def Ty.S (F : Type) : Ty → Type
  | .num => CNum F
  | .bool => CBool F
  | .pair a b => a.S F × b.S F
  | .vec n a => SizedVec (a.S F) n

/-- The native type `Self::Value` of a signal type. -/
def Ty.V (F : Type) : Ty → Type
  | .num => F
  | .bool => Bool
  | .pair a b => a.V F × b.V F
  | .vec n a => SizedVec (a.V F) n

/-- The `Signal` implementation of a signal type. -/
@[instance_reducible] def Ty.signal (F : Type) [Field F] [DecidableEq F] : (t : Ty) → Signal F (t.S F) (t.V F)
  | .num => inferInstanceAs (Signal F (CNum F) F)
  | .bool => inferInstanceAs (Signal F (CBool F) Bool)
  | .pair a b =>
    let _ := a.signal F
    let _ := b.signal F
    inferInstanceAs (Signal F (a.S F × b.S F) (a.V F × b.V F))
  | .vec n a =>
    let _ := a.signal F
    inferInstanceAs (Signal F (SizedVec (a.S F) n) (SizedVec (a.V F) n))

namespace Ty

/-- `T::from_const` -/
def fromConst (t : Ty) (v : t.V F) : t.S F := (t.signal F).fromConst v
/-- `get_value` -/
def getValue (t : Ty) (a : t.S F) : Except Panic (Option (t.V F)) := (t.signal F).getValue a
/-- `as_const` -/
def asConst (t : Ty) (a : t.S F) : Except Panic (Option (t.V F)) := (t.signal F).asConst a
/-- `T::alloc` -/
def alloc (t : Ty) (v : Option (t.V F)) : M F (t.S F) := (t.signal F).alloc v
/-- `switch` (and `CBool::if_else`, src/circuit/bool.rs:57-59) -/
def switch (t : Ty) (a : t.S F) (b : CBool F) (f : t.S F) : M F (t.S F) := (t.signal F).switch a b f
/-- `assert_const` -/
def assertConst (t : Ty) (a : t.S F) (v : t.V F) : M F Unit := (t.signal F).assertConst a v
/-- `assert_eq` -/
def assertEq (t : Ty) (a b : t.S F) : M F Unit := (t.signal F).assertEq a b
/-- `is_eq` -/
def isEq (t : Ty) (a b : t.S F) : M F (CBool F) := (t.signal F).isEq a b
/-- `inputize` -/
def inputize (t : Ty) (a : t.S F) : M F Unit := (t.signal F).inputize a
/-- `linearize` -/
def linearize (t : Ty) (a : t.S F) : List (CNum F) := (t.signal F).linearize a

end Ty

/-- src/macros.rs:333-347 (and the copies at 578-592, 816-830, 1056-1070): `CircuitObject::synthesize` of the
circuit generated by the macros: allocate public and secret data, run the user's circuit, publish.
Simplification: returns the public signal so that statements can mention it. -/
def synthesize (P Q : Ty) (main : P.S F → Q.S F → M F Unit) (p : Option (P.V F)) (q : Option (Q.V F)) :
    M F (P.S F) := do
  let a ← P.alloc p
  let b ← Q.alloc q
  main a b
  P.inputize a
  pure a

/-- src/macros.rs:348-353: `CircuitObject::get_inputs`. -/
def getInputs (P : Ty) (p : Option (P.V F)) : Except Panic (Option (List F)) :=
  match (P.alloc p).run (CS.new .test) with
  | .error e => .error e
  | .ok (a, _) => .ok ((P.linearize a).mapM fun x => x.value)

end Fawkes
