import Verif.Model.Gadgets

/-!
# Several constraint systems in one program

A `CNum` holds a reference `cs` to the constraint system it belongs to (src/circuit/num.rs:33-38), and every function of src/circuit takes
the system it works on from its arguments.  The other modules drop the reference.  Here it is kept: `HNum` is a `CNum` with its reference,
a `Store` holds all constraint systems of the program, and the functions of src/circuit are written down once more with the reference that
the code uses at each place.  `C108` compares the two.

Simplification: references are numbers; the operator variants for owned and borrowed operands are one function, as in `Model/CNum` (C83).
-/

namespace Fawkes.Handle

variable {F : Type}

/-- The constraint systems of the program. -/
abbrev Store (F : Type) := Nat → CS F

/-- A computation in a program with several constraint systems. -/
def H (F : Type) (α : Type) : Type := Store F → Except Panic (α × Store F)

instance : Monad (H F) where
  pure a := fun σ => .ok (a, σ)
  bind m f := fun σ =>
    match m σ with
    | .error e => .error e
    | .ok (a, σ) => f a σ

/-- `panic!` -/
def H.panic {α : Type} (e : Panic) : H F α := fun _ => .error e

/-- Native code, which may panic. -/
def H.lift {α : Type} (x : Except Panic α) : H F α := fun σ =>
  match x with
  | .error e => .error e
  | .ok a => .ok (a, σ)

/-- `assert!(b)` -/
def H.assert (b : Bool) (e : Panic := .assertion) : H F Unit := if b then pure () else H.panic e

/-- A method of the constraint system `h`. -/
def on {α : Type} (h : Nat) (m : M F α) : H F α := fun σ =>
  match m.run (σ h) with
  | .error e => .error e
  | .ok (a, s) => .ok (a, fun k => if k = h then s else σ k)

/-- src/circuit/num.rs:33-38: `CNum`, with the field `cs` -/
structure HNum (F : Type) where
  cs : Nat
  num : CNum F

/-- src/circuit/bool.rs:5-6 -/
structure HBool (F : Type) where
  num : HNum F

section numbers

variable [Field F] [DecidableEq F]

/-- `cs.alloc(v)` -/
def csAlloc (h : Nat) (v : Option F) : H F Index := on h (CS.alloc v)

/-- `cs.alloc_input(v)` -/
def csAllocInput (h : Nat) (v : Option F) : H F Index := on h (CS.allocInput v)

/-- `cs.enforce(a, b, c)`: values and linear combinations of the arguments are looked at, their references are not (src/core/cs.rs:79-87,
src/helpers/groth16/mod.rs:322-342). -/
def csEnforce (h : Nat) (a b c : HNum F) : H F Unit := on h (CS.enforce a.num b.num c.num)

namespace HNum

/-- src/circuit/num.rs:148-151 -/
def capacity (a : HNum F) : Nat := a.num.lc.length

/-- src/circuit/num.rs:42-45 -/
def value (a : HNum F) : Option F := a.num.value

/-- src/circuit/num.rs:97-110 -/
def asConst (a : HNum F) : Option F := a.num.asConst

/-- src/circuit/num.rs:112-118 -/
def fromConst (h : Nat) (v : F) : HNum F := ⟨h, CNum.fromConst v⟩

/-- src/circuit/num.rs:153-158 -/
def fromVar (h : Nat) (v : Option F) (i : Index) : HNum F := ⟨h, CNum.fromVar v i⟩

/-- src/circuit/num.rs:160-163: `derive_var` -/
def deriveVar (a : HNum F) (v : Option F) (i : Index) : HNum F := fromVar a.cs v i

/-- src/core/signal.rs:39-42: `derive_const` -/
def deriveConst (a : HNum F) (v : F) : HNum F := fromConst a.cs v

/-- src/circuit/num.rs:165-168 -/
def zero (h : Nat) : HNum F := fromConst h 0

/-- src/circuit/num.rs:170-173 -/
def one (h : Nat) : HNum F := fromConst h 1

/-- src/circuit/num.rs:258-268 -/
def neg (a : HNum F) : HNum F := ⟨a.cs, CNum.neg a.num⟩

/-- src/circuit/num.rs:297-319: `a += b` leaves `a.cs`. -/
def addAssign (a b : HNum F) : HNum F := ⟨a.cs, CNum.addAssign a.num b.num⟩

/-- src/circuit/num.rs:459 with src/macros.rs:26-42, 58-74: the reference is that of the operand with more terms. -/
def add (a b : HNum F) : HNum F := if b.capacity ≤ a.capacity then addAssign a b else addAssign b a

/-- src/circuit/num.rs:328-350: `a -= b` leaves `a.cs`. -/
def sub (a b : HNum F) : HNum F := ⟨a.cs, CNum.sub a.num b.num⟩

/-- src/circuit/num.rs:321-326, 410-418 -/
def addConst (a : HNum F) (k : F) : HNum F := addAssign a (fromConst a.cs k)

/-- src/circuit/num.rs:352-357, 420-428 -/
def subConst (a : HNum F) (k : F) : HNum F := sub a (fromConst a.cs k)

/-- src/circuit/num.rs:430-437 -/
def constSub (k : F) (a : HNum F) : HNum F := sub (fromConst a.cs k) a

/-- src/circuit/num.rs:359-371: for zero `derive_zero()`, otherwise in place. -/
def mulConst (a : HNum F) (k : F) : HNum F := if k = 0 then zero a.cs else ⟨a.cs, CNum.mulConst a.num k⟩

/-- src/circuit/num.rs:373-381: in place. -/
def divConst (a : HNum F) (k : F) : H F (HNum F) := do
  let q ← on a.cs (CNum.divConst a.num k)
  pure ⟨a.cs, q⟩

/-- src/circuit/num.rs:120-124 -/
def alloc (h : Nat) (v : Option F) : H F (HNum F) := do
  let i ← csAlloc h v
  pure (fromVar h v i)

/-- src/circuit/num.rs:471-493: a product with a constant belongs to the system of the other factor, another product to that of the first
one. -/
def mul (a b : HNum F) : H F (HNum F) :=
  match a.asConst, b.asConst with
  | some x, _ => pure (mulConst b x)
  | _, some y => pure (mulConst a y)
  | none, none => do
    let c ← alloc a.cs (CNum.value₂ (· * ·) a.value b.value)
    csEnforce a.cs a b c
    pure c

/-- src/circuit/num.rs:504-507 -/
def divValue (a b : Option F) : H F (Option F) :=
  match a, b with
  | some x, some y => if y = 0 then H.panic .divByZero else pure (some (x / y))
  | _, _ => pure none

/-- src/circuit/num.rs:495-515 -/
def div (a b : HNum F) : H F (HNum F) :=
  match a.asConst, b.asConst with
  | some x, _ => divConst b x
  | _, some y => divConst a y
  | none, none => do
    let v ← divValue a.value b.value
    let q ← alloc a.cs v
    csEnforce a.cs q b a
    pure q

/-- src/circuit/num.rs:185-188 -/
def square (a : HNum F) : H F (HNum F) := mul a a

/-- src/circuit/num.rs:126-136 -/
def assertConst (a : HNum F) (c : F) : H F Unit :=
  match a.asConst with
  | some v => H.assert (v = c)
  | none => csEnforce a.cs a (one a.cs) (a.deriveConst c)

/-- src/circuit/num.rs:190-192 -/
def assertZero (a : HNum F) : H F Unit := assertConst a 0

/-- src/circuit/num.rs:138-140 -/
def assertEq (a b : HNum F) : H F Unit := assertZero (sub a b)

/-- src/circuit/num.rs:194-214 -/
def assertNonzero (a : HNum F) : H F Unit :=
  match a.asConst with
  | some v => H.assert (v ≠ 0)
  | none => do
    let inv ← alloc a.cs (CNum.invValue a.value)
    csEnforce a.cs a inv (one a.cs)

/-- src/circuit/num.rs:220-230 -/
def assertBit (a : HNum F) : H F Unit :=
  match a.asConst with
  | some c => H.assert (c = 1 ∨ c = 0)
  | none => csEnforce a.cs a (subConst a 1) (zero a.cs)

/-- src/circuit/num.rs:67-86 -/
def inputize (a : HNum F) : H F Unit :=
  match a.asConst with
  | some v => do
    let i ← csAllocInput a.cs (some v)
    csEnforce a.cs (a.deriveVar (some v) i) (one a.cs) (a.deriveConst v)
  | none => do
    let i ← csAllocInput a.cs a.value
    csEnforce a.cs (a.deriveVar a.value i) (one a.cs) a

/-- src/circuit/num.rs:232-255 -/
def isZero (a : HNum F) : H F (HBool F) :=
  match a.asConst with
  | some c => pure ⟨a.deriveConst (boolToF (decide (c = 0)))⟩
  | none => do
    let inv ← alloc a.cs (CNum.invValue a.value)
    assertNonzero inv
    let res ← mul inv a
    assertBit res
    pure ⟨sub (one a.cs) res⟩

/-- src/circuit/num.rs:142-144 -/
def isEq (a b : HNum F) : H F (HBool F) := isZero (sub a b)

end HNum

namespace HBool

/-- src/circuit/bool.rs:23-25 -/
def fromConst (h : Nat) (b : Bool) : HBool F := ⟨HNum.fromConst h (boolToF b)⟩

/-- src/circuit/bool.rs:31-33 -/
def asConst (b : HBool F) : Except Panic (Option Bool) := CBool.asConst ⟨b.num.num⟩

/-- src/circuit/bool.rs:35-37 -/
def alloc (h : Nat) (v : Option Bool) : H F (HBool F) := do
  let n ← HNum.alloc h (v.map boolToF)
  pure ⟨n⟩

/-- src/circuit/bool.rs:66-69 -/
def assert (b : HBool F) : H F Unit := HNum.assertBit b.num

/-- src/circuit/bool.rs:43-45, 71-74 -/
def assertFalse (b : HBool F) : H F Unit := HNum.assertConst b.num (boolToF false)

end HBool

/-- src/circuit/num.rs:48-65 -/
def HNum.switch (self : HNum F) (bit : HBool F) (ifElse : HNum F) : H F (HNum F) := do
  match ← H.lift bit.asConst with
  | some true => pure self
  | some false => pure ifElse
  | none =>
    if ifElse.capacity < self.capacity then do
      let p ← HNum.mul bit.num (HNum.sub self ifElse)
      pure (HNum.addAssign p ifElse)
    else do
      let p ← HNum.mul (HNum.constSub 1 bit.num) (HNum.sub ifElse self)
      pure (HNum.addAssign p self)

end numbers

/-! ## src/circuit/bitify.rs -/

section bitify

variable {p : Nat} [Fact p.Prime]

/-- src/circuit/bitify.rs:37-43 -/
def allocLoop (h : Nat) (vb : List (Option Bool)) : (n i : Nat) → (k : ZMod p) → (rem : HNum (ZMod p)) →
    H (ZMod p) (List (HBool (ZMod p)) × HNum (ZMod p))
  | 0, _, _, rem => pure ([], rem)
  | n + 1, i, k, rem =>
    match vb[i]? with
    | none => H.panic .outOfBounds
    | some v => do
      let s ← HBool.alloc h v
      s.assert
      let (bits, rem') ← allocLoop h vb n (i + 1) (2 * k) (HNum.sub rem (HNum.mulConst s.num (2 * k)))
      pure (s :: bits, rem')

/-- src/circuit/bitify.rs:6-50: the bits of a constant are `signal.derive_const(&bit)`, the others `signal.derive_alloc(…)`. -/
def intoBitsLE (signal : HNum (ZMod p)) (limit : Nat) : H (ZMod p) (List (HBool (ZMod p))) :=
  match signal.asConst with
  | some value => do
    let (bits, rem) ← H.lift (Bitify.constLoop (Num.iterbitLE value) limit 0 1 value)
    H.assert (rem = 0)
    pure (bits.map fun b => ⟨⟨signal.cs, b.num⟩⟩)
  | none => do
    let (bits, rem) ← allocLoop signal.cs (Bitify.witnessBits signal.value) (limit - 1) 1 1 signal
    HNum.assertBit rem
    if limit = 0 then H.panic .outOfBounds
    else pure (⟨rem⟩ :: bits)

/-- src/circuit/bitify.rs:81-87 -/
def compTerm (ctl ctu : Bool) (l u lu : HNum (ZMod p)) : HNum (ZMod p) :=
  match ctl, ctu with
  | false, false => HNum.sub (HNum.add l u) lu
  | true, false => HNum.subConst (HNum.sub (HNum.addAssign (HNum.mulConst u 2) l) lu) 1
  | false, true => HNum.subConst (HNum.addAssign lu u) 1
  | true, true => HNum.subConst lu 1

/-- src/circuit/bitify.rs:71-89 -/
def compLoop : (n : Nat) → (ct : List Bool) → (sig : List (HBool (ZMod p))) → (k : ZMod p) →
    (acc : HNum (ZMod p)) → H (ZMod p) (HNum (ZMod p) × ZMod p)
  | 0, _, _, k, acc => pure (acc, k)
  | n + 1, ctl :: ctu :: ct, l :: u :: sig, k, acc => do
    let lu ← HNum.mul l.num u.num
    compLoop n ct sig (2 * k) (HNum.add acc (HNum.mulConst (compTerm ctl ctu l.num u.num lu) k))
  | _ + 1, _, _, _, _ => H.panic .unwrap

/-- src/circuit/bitify.rs:52-97: `let cs = signal[0].get_cs()` -/
def compConstant (signal : List (HBool (ZMod p))) (ct : ZMod p) : H (ZMod p) (HBool (ZMod p)) :=
  match signal with
  | [] => H.panic .assertion
  | s0 :: _ => do
    let cs := s0.num.cs
    let nsteps := signal.length / 2 + signal.length % 2
    let sig := signal ++ if signal.length % 2 = 1 then [HBool.fromConst cs false] else []
    let (acc, k) ← compLoop nsteps (Num.iterbitLE ct) sig 1 (HNum.zero cs)
    let acc := HNum.addConst acc (k - 1)
    let bits ← intoBitsLE acc (nsteps + 1)
    match bits[nsteps]? with
    | none => H.panic .outOfBounds
    | some b => pure b

/-- src/circuit/bitify.rs:99-106 -/
def intoBitsLEStrict (signal : HNum (ZMod p)) : H (ZMod p) (List (HBool (ZMod p))) := do
  let bits ← intoBitsLE signal (numBits p)
  let cmp ← compConstant bits (-1)
  cmp.assertFalse
  pure bits

/-- src/circuit/bitify.rs:112-115 -/
def fromLoop : List (HBool (ZMod p)) → ZMod p → HNum (ZMod p) → HNum (ZMod p)
  | [], _, acc => acc
  | b :: bs, k, acc => fromLoop bs (2 * k) (HNum.addAssign acc (HNum.mulConst b.num (2 * k)))

/-- src/circuit/bitify.rs:108-117 -/
def fromBitsLE (bits : List (HBool (ZMod p))) : H (ZMod p) (HNum (ZMod p)) :=
  match bits with
  | [] => H.panic .assertion
  | b :: bs => pure (fromLoop bs 1 b.num)

end bitify

section gadgets

variable [Field F] [DecidableEq F]

/-! ## src/circuit/mux.rs -/

/-- src/circuit/mux.rs:20-31 -/
def column (s0 s1 s2 : HBool F) (s10 : HNum F) (c0 c1 c2 c3 c4 c5 c6 c7 : F) : H F (HNum F) := do
  let a210 := HNum.mulConst s10 (c7 - c6 - c5 + c4 - c3 + c2 + c1 - c0)
  let a21 := HNum.mulConst s1.num (c6 - c4 - c2 + c0)
  let a20 := HNum.mulConst s0.num (c5 - c4 - c1 + c0)
  let a2 := c4 - c0
  let a10 := HNum.mulConst s10 (c3 - c2 - c1 + c0)
  let a1 := HNum.mulConst s1.num (c2 - c0)
  let a0 := HNum.mulConst s0.num (c1 - c0)
  let t ← HNum.mul (HNum.addConst (HNum.add (HNum.add a210 a21) a20) a2) s2.num
  pure (HNum.addConst (HNum.add (HNum.add (HNum.add t a10) a1) a0) c0)

/-- src/circuit/mux.rs:19-32 -/
def columns (s0 s1 s2 : HBool F) (s10 : HNum F) : List (List F) → H F (List (HNum F))
  | [] => pure []
  | [c0, c1, c2, c3, c4, c5, c6, c7] :: cs => do
    let r ← column s0 s1 s2 s10 c0 c1 c2 c3 c4 c5 c6 c7
    let rs ← columns s0 s1 s2 s10 cs
    pure (r :: rs)
  | _ :: _ => H.panic .outOfBounds

/-- src/circuit/mux.rs:7-34 -/
def mux3 (s : List (HBool F)) (c : List (List F)) : H F (List (HNum F)) := do
  H.assert (s.length = 3)
  H.assert (c.all fun col => col.length = 8)
  match s with
  | [s0, s1, s2] => do
    let s10 ← HNum.mul s0.num s1.num
    columns s0 s1 s2 s10 c
  | _ => H.panic .outOfBounds

/-! ## src/circuit/poseidon.rs -/

/-- src/circuit/poseidon.rs:21-23 -/
def ark (state : List (HNum F)) (c : F) : List (HNum F) := state.map fun e => HNum.addConst e c

/-- src/circuit/poseidon.rs:25-29 -/
def sigma (a : HNum F) : H F (HNum F) := do
  let aSq ← HNum.mul a a
  let aQuad ← HNum.mul aSq aSq
  HNum.mul aQuad a

/-- src/circuit/poseidon.rs:62-64 -/
def sigmaAll : List (HNum F) → H F (List (HNum F))
  | [] => pure []
  | x :: xs => do
    let y ← sigma x
    let ys ← sigmaAll xs
    pure (y :: ys)

/-- src/circuit/poseidon.rs:36-38 -/
def mixRow : (state : List (HNum F)) → (row : List F) → (acc : HNum F) → Except Panic (HNum F)
  | [], _, acc => .ok acc
  | _ :: _, [], _ => .error .outOfBounds
  | x :: state, r :: row, acc => mixRow state row (HNum.addAssign acc (HNum.mulConst x r))

/-- src/circuit/poseidon.rs:34-39 -/
def mixRows (cs : Nat) (state : List (HNum F)) : (rows : List (List F)) → (n : Nat) → Except Panic (List (HNum F))
  | _, 0 => .ok []
  | [], _ + 1 => .error .outOfBounds
  | row :: rows, n + 1 => do
    let x ← mixRow state row (HNum.zero cs)
    let xs ← mixRows cs state rows n
    pure (x :: xs)

/-- src/circuit/poseidon.rs:31-41: `let cs = state[0].cs`.  (Simplification: the function is private and its argument is never empty, so
the first case does not matter.) -/
def mix (state : List (HNum F)) (P : PoseidonParams F) : Except Panic (List (HNum F)) :=
  match state with
  | [] => .ok []
  | x :: _ => mixRows x.cs state P.m state.length

/-- src/circuit/poseidon.rs:61-67 -/
def layer (P : PoseidonParams F) (i : Nat) (state : List (HNum F)) : H F (List (HNum F)) :=
  if i < P.f / 2 ∨ P.f / 2 + P.p ≤ i then sigmaAll state
  else match state with
    | [] => H.panic .outOfBounds
    | x :: xs => do
      let y ← sigma x
      pure (y :: xs)

/-- src/circuit/poseidon.rs:59-69 -/
def rounds (P : PoseidonParams F) : (n i : Nat) → List (HNum F) → H F (List (HNum F))
  | 0, _, state => pure state
  | n + 1, i, state => do
    let c ← H.lift (getIdx P.c i)
    let state ← layer P i (ark state c)
    let state ← H.lift (mix state P)
    rounds P n (i + 1) state

/-- src/circuit/poseidon.rs:43-71: `let cs = inputs[0].cs` -/
def poseidon (inputs : List (HNum F)) (P : PoseidonParams F) : H F (HNum F) :=
  if ¬ inputs.length ≤ P.t then H.panic .assertion
  else match inputs with
    | [] => H.panic .assertion
    | x :: _ => do
      let state ← rounds P (P.f + P.p) 0 (inputs ++ List.replicate (P.t - inputs.length) (HNum.zero x.cs))
      H.lift (getIdx state 0)

/-- src/circuit/poseidon.rs:73-88: `let cs = inputs[0].cs` -/
def poseidonWithSalt (inputs : List (HNum F)) (seed : F) (P : PoseidonParams F) : H F (HNum F) :=
  match inputs with
  | [] => H.panic .assertion
  | x :: _ =>
    if ¬ inputs.length < P.t then H.panic .assertion
    else poseidon (inputs ++ [HNum.fromConst x.cs seed]) P

/-- src/circuit/poseidon.rs:96-100 -/
def proofLoop (P : PoseidonParams F) : (root : HNum F) → List (HBool F × HNum F) → H F (HNum F)
  | root, [] => pure root
  | root, (b, s) :: rest => do
    let first ← HNum.switch s b root
    let second := HNum.sub (HNum.add root s) first
    let root ← poseidon [first, second] P
    proofLoop P root rest

/-- src/circuit/poseidon.rs:90-102 -/
def merkleProofRoot (leaf : HNum F) (sibling : List (HNum F)) (path : List (HBool F)) (P : PoseidonParams F) : H F (HNum F) :=
  proofLoop P leaf (path.zip sibling)

/-- src/circuit/poseidon.rs:116-118 -/
def treeInner (P : PoseidonParams F) : (n i : Nat) → List (HNum F) → H F (List (HNum F))
  | 0, _, state => pure state
  | n + 1, i, state => do
    let a ← H.lift (getIdx state (2 * i))
    let b ← H.lift (getIdx state (2 * i + 1))
    let r ← poseidon [a, b] P
    treeInner P n (i + 1) (state.set i r)

/-- src/circuit/poseidon.rs:115-119 -/
def treeLevels (P : PoseidonParams F) (total : Nat) : (n j : Nat) → List (HNum F) → H F (List (HNum F))
  | 0, _, state => pure state
  | n + 1, j, state => do
    let state ← treeInner P (total / 2 ^ (j + 1)) 0 state
    treeLevels P total n (j + 1) state

/-- src/circuit/poseidon.rs:104-121: `let cs = leaf[0].cs` -/
def merkleTreeRoot (leaf : List (HNum F)) (P : PoseidonParams F) : H F (HNum F) :=
  match leaf with
  | [] => H.panic .assertion
  | x :: _ => do
    let proofSz := Nat.size (leaf.length - 1)
    let total := 2 ^ proofSz
    let state ← treeLevels P total proofSz 0 (leaf ++ List.replicate (total - leaf.length) (HNum.zero x.cs))
    H.lift (getIdx state 0)

/-! ## src/circuit/ecc.rs -/

/-- src/circuit/ecc.rs:15-20; `get_cs` is that of the first field (fawkes-crypto_derive/src/signal.rs) -/
structure HEdwards (F : Type) where
  x : HNum F
  y : HNum F

/-- src/circuit/ecc.rs:22-27 -/
structure HMontgomery (F : Type) where
  x : HNum F
  y : HNum F

namespace HMontgomery

/-- `from_const` -/
def fromConst (h : Nat) (p : MontgomeryPoint F) : HMontgomery F := ⟨HNum.fromConst h p.x, HNum.fromConst h p.y⟩

/-- `switch` -/
def switch (t : HMontgomery F) (b : HBool F) (f : HMontgomery F) : H F (HMontgomery F) := do
  let x ← HNum.switch t.x b f.x
  let y ← HNum.switch t.y b f.y
  pure ⟨x, y⟩

/-- src/circuit/ecc.rs:250-262 -/
def double (p : HMontgomery F) (J : JubJubParams F) : H F (HMontgomery F) := do
  let x2 ← HNum.square p.x
  let l ← HNum.div
    (HNum.addConst (HNum.add (HNum.mulConst x2 3) (HNum.mulConst p.x (2 * J.a))) 1)
    (HNum.mulConst p.y (2 * J.b))
  let l2 ← HNum.square l
  let bl2 := HNum.mulConst l2 J.b
  let t ← HNum.mul l (HNum.sub (HNum.addConst (HNum.mulConst p.x 3) J.a) bl2)
  pure ⟨HNum.sub (HNum.subConst bl2 J.a) (HNum.mulConst p.x 2), HNum.sub t p.y⟩

/-- src/circuit/ecc.rs:264-274 -/
def add (p q : HMontgomery F) (J : JubJubParams F) : H F (HMontgomery F) := do
  let l ← HNum.div (HNum.sub q.y p.y) (HNum.sub q.x p.x)
  let l2 ← HNum.square l
  let bl2 := HNum.mulConst l2 J.b
  let t ← HNum.mul l (HNum.sub (HNum.addConst (HNum.addAssign (HNum.mulConst p.x 2) q.x) J.a) bl2)
  pure ⟨HNum.sub (HNum.sub (HNum.subConst bl2 J.a) p.x) q.x, HNum.sub t p.y⟩

/-- src/circuit/ecc.rs:276-283 -/
def intoEdwards (p : HMontgomery F) : H F (HEdwards F) := do
  let z ← HNum.isZero p.y
  let x ← HNum.div p.x (HNum.addAssign z.num p.y)
  let y ← HNum.div (HNum.subConst p.x 1) (HNum.addConst p.x 1)
  pure ⟨x, y⟩

end HMontgomery

namespace HEdwards

/-- `get_cs`: that of the first field -/
def cs (p : HEdwards F) : Nat := p.x.cs

/-- `from_const` -/
def fromConst (h : Nat) (p : EdwardsPoint F) : HEdwards F := ⟨HNum.fromConst h p.x, HNum.fromConst h p.y⟩

/-- `get_value` -/
def getValue (p : HEdwards F) : Option (EdwardsPoint F) := CEdwardsPoint.getValue ⟨p.x.num, p.y.num⟩

/-- `as_const` -/
def asConst (p : HEdwards F) : Option (EdwardsPoint F) := CEdwardsPoint.asConst ⟨p.x.num, p.y.num⟩

/-- `switch` -/
def switch (t : HEdwards F) (b : HBool F) (f : HEdwards F) : H F (HEdwards F) := do
  let x ← HNum.switch t.x b f.x
  let y ← HNum.switch t.y b f.y
  pure ⟨x, y⟩

/-- `alloc` -/
def alloc (h : Nat) (v : Option (EdwardsPoint F)) : H F (HEdwards F) := do
  let x ← HNum.alloc h (v.map EdwardsPoint.x)
  let y ← HNum.alloc h (v.map EdwardsPoint.y)
  pure ⟨x, y⟩

/-- src/circuit/ecc.rs:30-38 -/
def double (p : HEdwards F) (J : JubJubParams F) : H F (HEdwards F) := do
  let v ← HNum.mul p.x p.y
  let v2 ← HNum.square v
  let u ← HNum.square (HNum.add p.x p.y)
  let x ← HNum.div (HNum.mulConst v 2) (HNum.addConst (HNum.mulConst v2 J.d) 1)
  let y ← HNum.div (HNum.sub u (HNum.mulConst v 2)) (HNum.constSub 1 (HNum.mulConst v2 J.d))
  pure ⟨x, y⟩

/-- src/circuit/ecc.rs:40-42 -/
def mulByCofactor (p : HEdwards F) (J : JubJubParams F) : H F (HEdwards F) := do
  let p2 ← p.double J
  let p4 ← p2.double J
  p4.double J

/-- src/circuit/ecc.rs:44-53 -/
def add (p q : HEdwards F) (J : JubJubParams F) : H F (HEdwards F) := do
  let v1 ← HNum.mul p.x q.y
  let v2 ← HNum.mul q.x p.y
  let v12 ← HNum.mul v1 v2
  let u ← HNum.mul (HNum.add p.x p.y) (HNum.add q.x q.y)
  let x ← HNum.div (HNum.add v1 v2) (HNum.addConst (HNum.mulConst v12 J.d) 1)
  let y ← HNum.div (HNum.sub (HNum.sub u v1) v2) (HNum.constSub 1 (HNum.mulConst v12 J.d))
  pure ⟨x, y⟩

/-- src/circuit/ecc.rs:55-60: `x2.cs.enforce(…)` -/
def assertInCurve (p : HEdwards F) (J : JubJubParams F) : H F Unit := do
  let x2 ← HNum.square p.x
  let y2 ← HNum.square p.y
  csEnforce x2.cs (HNum.mulConst x2 J.d) y2 (HNum.subConst (HNum.sub y2 x2) 1)

/-- src/circuit/ecc.rs:62-70: `self.derive_alloc(…)` -/
def assertInSubgroup (p : HEdwards F) (J : JubJubParams F) [Fact J.l.Prime] : H F Unit := do
  let v ← H.lift (CEdwardsPoint.mapValue (fun q => CEdwardsPoint.eighth q J) p.getValue)
  let preimage ← alloc p.cs v
  preimage.assertInCurve J
  let preimage8 ← preimage.mulByCofactor J
  HNum.assertZero (HNum.sub p.x preimage8.x)
  HNum.assertZero (HNum.sub p.y preimage8.y)

/-- src/circuit/ecc.rs:72-83: `x.get_cs()` -/
def subgroupDecompress (sqrt : F → Option F) (x : HNum F) (J : JubJubParams F) [Fact J.l.Prime] : H F (HEdwards F) := do
  let v ← H.lift (CEdwardsPoint.mapValue (CEdwardsPoint.decompressValue sqrt J) x.value)
  let preimage ← alloc x.cs v
  preimage.assertInCurve J
  let preimage8 ← preimage.mulByCofactor J
  HNum.assertZero (HNum.sub x preimage8.x)
  pure preimage8

/-- src/circuit/ecc.rs:85-90 -/
def intoMontgomery (p : HEdwards F) : H F (HMontgomery F) := do
  let x ← HNum.div (HNum.addConst p.y 1) (HNum.constSub 1 p.y)
  let y ← HNum.div x p.x
  pure ⟨x, y⟩

/-- src/circuit/ecc.rs:144-153 -/
def windowLoop (J : JubJubParams F) : (bits : List (HBool F)) → (acc : HMontgomery F) → (base : EdwardsPointEx F) → H F (HMontgomery F)
  | b0 :: b1 :: b2 :: bits, acc, base => do
    let table ← H.lift (CEdwardsPoint.genTable base J)
    let res ← mux3 [b0, b1, b2] table
    match res with
    | [x, y] => do
      let acc ← acc.add ⟨x, y⟩ J
      windowLoop J bits acc base.double.double.double
    | _ => H.panic .outOfBounds
  | _, acc, _ => pure acc

/-- src/circuit/ecc.rs:155-159, 187-191 -/
def finish (acc : HMontgomery F) : H F (HEdwards F) := do
  let res ← acc.intoEdwards
  pure ⟨HNum.neg res.x, HNum.neg res.y⟩

/-- src/circuit/ecc.rs:113-160; `h` is the `cs` of line 109. -/
def mulConstBase (h : Nat) (c : EdwardsPoint F) (bits : List (HBool F)) (J : JubJubParams F) : H F (HEdwards F) :=
  let base := c.intoExtended
  if base.isZero then pure (fromConst h EdwardsPoint.zero)
  else do
    let all := bits ++ List.replicate ((3 - bits.length % 3) % 3) (HBool.fromConst h false)
    let m ← H.lift (CEdwardsPoint.startPoint (all.length / 3) base J)
    let acc ← windowLoop J all (HMontgomery.fromConst h m) base
    finish acc

/-- src/circuit/ecc.rs:170-173 -/
def doublings (J : JubJubParams F) : (n : Nat) → (p : HMontgomery F) → H F (List (HMontgomery F))
  | 0, _ => pure []
  | n + 1, p => do
    let q ← p.double J
    let rest ← doublings J n q
    pure (q :: rest)

/-- src/circuit/ecc.rs:181-184 -/
def addLoop (J : JubJubParams F) : (bits : List (HBool F)) → (exps : List (HMontgomery F)) → (acc : HMontgomery F) → H F (HMontgomery F)
  | b :: bits, e :: exps, acc => do
    let inc ← acc.add e J
    let acc ← inc.switch b acc
    addLoop J bits exps acc
  | [], _, acc => pure acc
  | _ :: _, [], _ => H.panic .outOfBounds

/-- src/circuit/ecc.rs:161-192; `h` is the `cs` of line 109. -/
def mulVarBase (h : Nat) (p : HEdwards F) (bits : List (HBool F)) (J : JubJubParams F) : H F (HEdwards F) := do
  let z ← HNum.isZero p.x
  let base ← (fromConst h J.g).switch z p
  let base ← base.intoMontgomery
  let exps ← doublings J (bits.length - 1) base
  let acc ← addLoop J bits (base :: exps) ⟨HNum.zero h, HNum.zero h⟩
  let acc ← HMontgomery.switch ⟨HNum.zero h, HNum.zero h⟩ z acc
  finish acc

/-- src/circuit/ecc.rs:92-194: `let cs = self.get_cs()` -/
def mul (p : HEdwards F) (bits : List (HBool F)) (J : JubJubParams F) : H F (HEdwards F) :=
  match p.asConst with
  | some c => mulConstBase p.cs c bits J
  | none => mulVarBase p.cs p bits J

end HEdwards

end gadgets

section scalar

variable {r : Nat} [Fact r.Prime]

namespace HEdwards

/-- src/circuit/ecc.rs:205-227: `x.derive_alloc(…)` -/
def checkAndGetY (sqrt : ZMod r → Option (ZMod r)) (x : HNum (ZMod r)) (J : JubJubParams (ZMod r)) :
    H (ZMod r) (HBool (ZMod r) × HNum (ZMod r)) := do
  let x2 ← HNum.square x
  let x3 ← HNum.mul x2 (HNum.addConst x J.a)
  let g ← HNum.divConst (HNum.addAssign x3 x) J.b
  let v ← H.lift (CEdwardsPoint.mapValue (CEdwardsPoint.rootValue sqrt J) g.value)
  let preimage ← HNum.alloc x.cs v
  let bits ← intoBitsLEStrict preimage
  match bits with
  | [] => H.panic .outOfBounds
  | b :: _ => do
    b.assertFalse
    let sq ← HNum.square preimage
    let isSquare ← HNum.isZero (HNum.sub g sq)
    let isNotSquare ← HNum.isZero (HNum.sub (HNum.mulConst g J.u) sq)
    HNum.assertZero (HNum.subConst (HNum.addAssign isNotSquare.num isSquare.num) 1)
    pure (isSquare, preimage)

/-- src/circuit/ecc.rs:196-246 -/
def fromScalar (sqrt : ZMod r → Option (ZMod r)) (t : HNum (ZMod r)) (J : JubJubParams (ZMod r)) : H (ZMod r) (HEdwards (ZMod r)) := do
  let t := HNum.addConst t 1
  let t2 ← HNum.square t
  let t2g1 := HNum.mulConst t2 J.u
  let i ← H.lift (Num.div (-1) J.a)
  let x3 := HNum.mulConst (HNum.addConst t2g1 1) i
  let x2 ← HNum.div x3 t2g1
  let (isValid, y2) ← checkAndGetY sqrt x2 J
  let (_, y3) ← checkAndGetY sqrt x3 J
  let x ← HNum.switch x2 isValid x3
  let y ← HNum.switch y2 isValid y3
  let m : HMontgomery (ZMod r) := ⟨x, y⟩
  let q ← m.intoEdwards
  q.mulByCofactor J

end HEdwards

/-- src/circuit/eddsaposeidon.rs:15-45: `let cs = s.cs` for the generator -/
def eddsaVerify (sqrt : ZMod r → Option (ZMod r)) (J : JubJubParams (ZMod r)) [Fact J.l.Prime] (s rx a m : HNum (ZMod r))
    (P : PoseidonParams (ZMod r)) : H (ZMod r) (HBool (ZMod r)) := do
  H.assert (decide (numBits r > numBits J.l)) .assertion
  let pa ← HEdwards.subgroupDecompress sqrt a J
  let pr ← HEdwards.subgroupDecompress sqrt rx J
  let seed ← H.lift (Num.fromSeed r seedEddsaPoseidon)
  let h ← poseidonWithSalt [rx, a, m] seed P
  let hBits ← intoBitsLEStrict h
  let ha ← pa.mul hBits J
  let sBits ← intoBitsLE s (numBits J.l)
  let sb ← (HEdwards.fromConst s.cs J.g).mul sBits J
  let haR ← ha.add pr J
  HNum.isZero (HNum.sub haR.x sb.x)

/-! ## Clients -/

/-- Read a register. -/
def reg {F : Type} (q : List (HNum F)) (i : Nat) : H F (HNum F) :=
  match q[i]? with
  | some x => pure x
  | none => H.panic .outOfBounds

/-- Read several registers. -/
def regs {F : Type} (q : List (HNum F)) : List Nat → H F (List (HNum F))
  | [] => pure []
  | i :: is => do
    let x ← reg q i
    let xs ← regs q is
    pure (x :: xs)

/-- Read several registers as booleans. -/
def regBits {F : Type} (q : List (HNum F)) (is : List Nat) : H F (List (HBool F)) := do
  let xs ← regs q is
  pure (xs.map HBool.mk)

/-- Read a point. -/
def regPoint {F : Type} (q : List (HNum F)) (x y : Nat) : H F (HEdwards F) := do
  let a ← reg q x
  let b ← reg q y
  pure ⟨a, b⟩

/-- Read a point in Montgomery form. -/
def regMont {F : Type} (q : List (HNum F)) (x y : Nat) : H F (HMontgomery F) := do
  let a ← reg q x
  let b ← reg q y
  pure ⟨a, b⟩

/-- `Op.exec`, for a client that hands the constraint system `h` to the functions that ask for one. -/
def execOp {F : Type} [Field F] [DecidableEq F] (h : Nat) (q : List (HNum F)) : Op F → H F (List (HNum F))
  | .const v => pure (q ++ [HNum.fromConst h v])
  | .alloc v => do let x ← HNum.alloc h v; pure (q ++ [x])
  | .allocInput v => do let i ← csAllocInput h v; pure (q ++ [HNum.fromVar h v i])
  | .add i j => do let a ← reg q i; let b ← reg q j; pure (q ++ [HNum.add a b])
  | .sub i j => do let a ← reg q i; let b ← reg q j; pure (q ++ [HNum.sub a b])
  | .neg i => do let a ← reg q i; pure (q ++ [HNum.neg a])
  | .mulConst i k => do let a ← reg q i; pure (q ++ [HNum.mulConst a k])
  | .divConst i k => do let a ← reg q i; let x ← HNum.divConst a k; pure (q ++ [x])
  | .mul i j => do let a ← reg q i; let b ← reg q j; let c ← HNum.mul a b; pure (q ++ [c])
  | .div i j => do let a ← reg q i; let b ← reg q j; let c ← HNum.div a b; pure (q ++ [c])
  | .enforce i j k => do let a ← reg q i; let b ← reg q j; let c ← reg q k; csEnforce h a b c; pure q
  | .assertConst i v => do let a ← reg q i; HNum.assertConst a v; pure q
  | .assertEq i j => do let a ← reg q i; let b ← reg q j; HNum.assertEq a b; pure q
  | .assertNonzero i => do let a ← reg q i; HNum.assertNonzero a; pure q
  | .assertBit i => do let a ← reg q i; HNum.assertBit a; pure q
  | .inputize i => do let a ← reg q i; HNum.inputize a; pure q
  | .isZero i => do let a ← reg q i; let b ← HNum.isZero a; pure (q ++ [b.num])
  | .isEq i j => do let a ← reg q i; let b ← reg q j; let e ← HNum.isEq a b; pure (q ++ [e.num])
  | .switch i b j => do
    let t ← reg q i; let c ← reg q b; let f ← reg q j
    let x ← HNum.switch t ⟨c⟩ f; pure (q ++ [x])

variable {W : Type}

/-- `Call.exec`, for a client that hands the constraint system `h` to the functions that ask for one. -/
def execCall (h : Nat) (w : Option W) (q : List (HNum (ZMod r))) : Call r W → H (ZMod r) (List (HNum (ZMod r)))
  | .prim o => execOp h q o
  | .alloc is hint => do
    let xs ← regs q is
    let v ← H.lift (hintValue hint w (xs.map HNum.value))
    let x ← HNum.alloc h v
    pure (q ++ [x])
  | .allocInput is hint => do
    let xs ← regs q is
    let v ← H.lift (hintValue hint w (xs.map HNum.value))
    let i ← csAllocInput h v
    pure (q ++ [HNum.fromVar h v i])
  | .intoBits i limit => do
    let a ← reg q i
    let bs ← intoBitsLE a limit
    pure (q ++ bs.map HBool.num)
  | .intoBitsStrict i => do
    let a ← reg q i
    let bs ← intoBitsLEStrict a
    pure (q ++ bs.map HBool.num)
  | .compConstant is c => do
    let bs ← regBits q is
    let b ← compConstant bs c
    pure (q ++ [b.num])
  | .fromBits is => do
    let bs ← regBits q is
    let x ← fromBitsLE bs
    pure (q ++ [x])
  | .mux3 is table => do
    let bs ← regBits q is
    let xs ← mux3 bs table
    pure (q ++ xs)
  | .poseidon is P => do
    let xs ← regs q is
    let x ← poseidon xs P
    pure (q ++ [x])
  | .poseidonWithSalt is seed P => do
    let xs ← regs q is
    let x ← poseidonWithSalt xs seed P
    pure (q ++ [x])
  | .merkleProofRoot leaf sibling path P => do
    let l ← reg q leaf
    let ss ← regs q sibling
    let ps ← regBits q path
    let x ← merkleProofRoot l ss ps P
    pure (q ++ [x])
  | .merkleTreeRoot leaf P => do
    let xs ← regs q leaf
    let x ← merkleTreeRoot xs P
    pure (q ++ [x])
  | .edDouble x y J => do
    let p ← regPoint q x y
    let z ← p.double J
    pure (q ++ [z.x, z.y])
  | .edMulByCofactor x y J => do
    let p ← regPoint q x y
    let z ← p.mulByCofactor J
    pure (q ++ [z.x, z.y])
  | .edAdd x1 y1 x2 y2 J => do
    let p ← regPoint q x1 y1
    let p' ← regPoint q x2 y2
    let z ← p.add p' J
    pure (q ++ [z.x, z.y])
  | .assertInCurve x y J => do
    let p ← regPoint q x y
    p.assertInCurve J
    pure q
  | .assertInSubgroup x y J _ => do
    let p ← regPoint q x y
    p.assertInSubgroup J
    pure q
  | .subgroupDecompress sqrt x J _ => do
    let a ← reg q x
    let z ← HEdwards.subgroupDecompress sqrt a J
    pure (q ++ [z.x, z.y])
  | .intoMontgomery x y => do
    let p ← regPoint q x y
    let z ← p.intoMontgomery
    pure (q ++ [z.x, z.y])
  | .edMul x y bits J => do
    let p ← regPoint q x y
    let bs ← regBits q bits
    let z ← p.mul bs J
    pure (q ++ [z.x, z.y])
  | .fromScalar sqrt t J => do
    let a ← reg q t
    let z ← HEdwards.fromScalar sqrt a J
    pure (q ++ [z.x, z.y])
  | .montDouble x y J => do
    let p ← regMont q x y
    let z ← p.double J
    pure (q ++ [z.x, z.y])
  | .montAdd x1 y1 x2 y2 J => do
    let p ← regMont q x1 y1
    let p' ← regMont q x2 y2
    let z ← p.add p' J
    pure (q ++ [z.x, z.y])
  | .intoEdwards x y => do
    let p ← regMont q x y
    let z ← p.intoEdwards
    pure (q ++ [z.x, z.y])
  | .eddsaVerify sqrt s rx a m P J _ => do
    let s ← reg q s
    let rx ← reg q rx
    let a ← reg q a
    let m ← reg q m
    let b ← eddsaVerify sqrt J s rx a m P
    pure (q ++ [b.num])

/-! ## Circuits that are built side by side -/

/-- A program that builds several circuits, each in its own constraint system: what is left of their code, and their signals.  (Different
constraint systems may be of different kinds: `Store` says which.) -/
structure Builders (r : Nat) [Fact r.Prime] (W : Type) where
  code : Nat → Code r W
  signals : Nat → List (HNum (ZMod r))

/-- The next call of circuit `h`; `w h` is its private data. -/
def step (w : Nat → Option W) (h : Nat) (B : Builders r W) : H (ZMod r) (Builders r W) :=
  match B.code h with
  | .done => pure B
  | .call c next => do
    let q ← execCall h (w h) (B.signals h) c
    pure ⟨fun k => if k = h then next (q.map fun x => x.num.lc) else B.code k, fun k => if k = h then q else B.signals k⟩

/-- The calls are made in the order of the list: each entry is the circuit whose turn it is. -/
def interleave (w : Nat → Option W) : List Nat → Builders r W → H (ZMod r) (Builders r W)
  | [], B => pure B
  | h :: hs, B => do
    let B ← step w h B
    interleave w hs B

end scalar

end Fawkes.Handle
