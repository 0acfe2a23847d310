import Verif.Model.Num

/-!
# Field elements as machine words

The operators of `Num` (src/native/num.rs:336-426) call the field operations that `ff_derive_ce` generates from the
declarations of the fields.  The other modules take them for the operations of `ZMod p`; this module writes them out on
64-bit words in Montgomery form.  The functions follow the generated code of `ff_derive_ce` 0.5.1 and the carry functions of
`ff_ce` 0.7.1 (`arith_impl`), whose source is not in /repo.  A loop over the words is a recursion over the list, least
significant word first; variables `r0, r1, ...` of the unrolled code are a list.  `u128` values are natural numbers;
`Props/Limbs` shows that they stay below `2^128`.
-/

namespace Fawkes.Limbs

/-- The fixed-size array of words in a field element or its `Repr`, least significant word first. -/
abbrev Words := List UInt64

/-! ## Carries (`ff_ce`, `arith_impl`) -/

/-- `adc`: sum and carry. -/
def adc (a b carry : UInt64) : UInt64 × UInt64 :=
  let tmp := a.toNat + b.toNat + carry.toNat
  (UInt64.ofNat tmp, UInt64.ofNat (tmp / 2 ^ 64))

/-- `sbb`: difference and borrow. -/
def sbb (a b borrow : UInt64) : UInt64 × UInt64 :=
  let tmp := 2 ^ 64 + a.toNat - b.toNat - borrow.toNat
  (UInt64.ofNat tmp, if tmp / 2 ^ 64 = 0 then 1 else 0)

/-- `mac_with_carry`: `a + b * c + carry`. -/
def mac (a b c carry : UInt64) : UInt64 × UInt64 :=
  let tmp := a.toNat + b.toNat * c.toNat + carry.toNat
  (UInt64.ofNat tmp, UInt64.ofNat (tmp / 2 ^ 64))

/-! ## The integers (`PrimeFieldRepr`) -/

/-- The loop of `add_nocarry`. -/
def addLoop : Words → Words → UInt64 → Words × UInt64
  | a :: as, b :: bs, carry =>
    let (x, carry) := adc a b carry
    let (xs, carry) := addLoop as bs carry
    (x :: xs, carry)
  | as, _, carry => (as, carry)

/-- `add_nocarry` -/
def addNocarry (a b : Words) : Words := (addLoop a b 0).1

/-- The loop of `sub_noborrow`. -/
def subLoop : Words → Words → UInt64 → Words × UInt64
  | a :: as, b :: bs, borrow =>
    let (x, borrow) := sbb a b borrow
    let (xs, borrow) := subLoop as bs borrow
    (x :: xs, borrow)
  | as, _, borrow => (as, borrow)

/-- `sub_noborrow` -/
def subNoborrow (a b : Words) : Words := (subLoop a b 0).1

/-- The loop of `Ord::cmp` of the integers, most significant word first: is the first less? -/
def lessLoop : Words → Words → Bool
  | a :: as, b :: bs => if a < b then true else if b < a then false else lessLoop as bs
  | _, _ => false

/-- `a < b` of the integers. -/
def less (a b : Words) : Bool := lessLoop a.reverse b.reverse

/-- The loop of `div2`, most significant word first. -/
def div2Loop : Words → UInt64 → Words
  | [], _ => []
  | i :: is, t => ((i >>> 1) ||| t) :: div2Loop is (i <<< 63)

/-- `div2` -/
def div2 (a : Words) : Words := (div2Loop a.reverse 0).reverse

/-- The loop of `mul2`, with the bit that is shifted out. -/
def mul2Loop : Words → UInt64 → Words × UInt64
  | [], last => ([], last)
  | i :: is, last =>
    let (xs, out) := mul2Loop is (i >>> 63)
    (((i <<< 1) ||| last) :: xs, out)

/-- `mul2` -/
def mul2 (a : Words) : Words := (mul2Loop a 0).1

/-- `is_odd` -/
def isOdd (a : Words) : Bool := (a.getD 0 0) &&& 1 = 1

/-- `is_even` -/
def isEven (a : Words) : Bool := !isOdd a

/-- `is_zero` -/
def isZero (a : Words) : Bool := a.all fun w => w = 0

/-! ## The constants of a field -/

/-- `MODULUS` -/
def modulus (p : Nat) : Words := limbsOf (nLimbs p) p

/-- `R`, the element one: `2^(64 limbs) mod p`. -/
def constR (p : Nat) : Words := limbsOf (nLimbs p) (2 ^ (64 * nLimbs p) % p)

/-- `R2`: the square of `R`. -/
def constR2 (p : Nat) : Words := limbsOf (nLimbs p) ((2 ^ (64 * nLimbs p) % p) * (2 ^ (64 * nLimbs p) % p) % p)

/-- The loop that computes `INV`. -/
def invLoop (m0 : UInt64) : Nat → UInt64 → UInt64
  | 0, inv => inv
  | k + 1, inv => invLoop m0 k (inv * inv * m0)

/-- `INV`: minus the inverse of the lowest word of the modulus. -/
def constINV (p : Nat) : UInt64 := -(invLoop ((modulus p).getD 0 0) 63 1)

/-- `Repr::from(1)` -/
def reprOne (p : Nat) : Words := Num.lowRepr p 1

/-! ## Field operations -/

/-- `is_valid` -/
def isValid (p : Nat) (a : Words) : Bool := less a (modulus p)

/-- `reduce` -/
def reduce (p : Nat) (a : Words) : Words := if isValid p a then a else subNoborrow a (modulus p)

/-- `add_assign` -/
def add (p : Nat) (a b : Words) : Words := reduce p (addNocarry a b)

/-- `double` -/
def double (p : Nat) (a : Words) : Words := reduce p (mul2 a)

/-- `sub_assign` -/
def sub (p : Nat) (a b : Words) : Words :=
  let a := if less a b then addNocarry a (modulus p) else a
  subNoborrow a b

/-- `negate` -/
def neg (p : Nat) (a : Words) : Words := if isZero a then a else subNoborrow (modulus p) a

/-- One row of a product: `r[j] = mac_with_carry(r[j], k, m[j], &mut carry)` for all `j`. -/
def macRow : Words → UInt64 → Words → UInt64 → Words × UInt64
  | r :: rs, k, m :: ms, carry =>
    let (x, carry) := mac r k m carry
    let (xs, carry) := macRow rs k ms carry
    (x :: xs, carry)
  | rs, _, _, carry => (rs, carry)

/-- The rows of `mul_assign`.  `window` is `r[i], ..., r[i + limbs - 1]` before row `i`. -/
def mulRows : Words → Words → Words → Words
  | [], _, window => window
  | a :: as, b, window =>
    let (o, carry) := macRow window a b 0
    o.getD 0 0 :: mulRows as b (o.tail ++ [carry])

/-- The product in `mul_assign`, twice as many words. -/
def mulFull (a b : Words) : Words := mulRows a b (List.replicate a.length 0)

/-- The steps of `mont_reduce`.  `window` is `r[i], ..., r[i + limbs - 1]` before step `i`, the next argument the words
above it. -/
def montLoop (p : Nat) : Words → Words → UInt64 → Words
  | window, [], _ => window
  | window, h :: rest, carry2 =>
    let k := window.getD 0 0 * constINV p
    let (o, carry) := macRow window k (modulus p) 0
    let (h, carry2) := adc h carry2 carry
    montLoop p (o.tail ++ [h]) rest carry2

/-- `mont_reduce` -/
def montReduce (p : Nat) (r : Words) : Words :=
  reduce p (montLoop p (r.take (nLimbs p)) (r.drop (nLimbs p)) 0)

/-- `mul_assign` -/
def mul (p : Nat) (a b : Words) : Words := montReduce p (mulFull a b)

/-- The products of different words in `square`.  `window` is `r[2 i + 1], ..., r[i + limbs - 1]` before row `i`. -/
def offDiagonal : Words → Words → Words
  | [], window => window
  | [_], window => window
  | a :: as, window =>
    let (o, carry) := macRow window a as 0
    let r := o ++ [carry]
    r.getD 0 0 :: r.getD 1 0 :: offDiagonal as (r.drop 2)

/-- The squares of words in `square`, added to the doubled products. -/
def diagonal : Words → Words → UInt64 → Words
  | a :: as, r0 :: r1 :: rs, carry =>
    let (x, carry) := mac r0 a a carry
    let (y, carry) := adc r1 0 carry
    x :: y :: diagonal as rs carry
  | _, rs, _ => rs

/-- The square in `square`, twice as many words: products of different words, doubled by a shift, and the squares. -/
def squareFull (a : Words) : Words :=
  let (r, top) := mul2Loop (offDiagonal a (List.replicate (a.length - 1) 0)) 0
  diagonal a (0 :: r ++ [top]) 0

/-- `square` -/
def square (p : Nat) (a : Words) : Words := montReduce p (squareFull a)

/-- The halving of a coefficient in `inverse`. -/
def halve (p : Nat) (b : Words) : Words := if isEven b then div2 b else div2 (addNocarry b (modulus p))

/-- `while u.is_even()` in `inverse`.  `none`: it does not end within the fuel. -/
def evenLoop (p : Nat) : Nat → Words → Words → Option (Words × Words)
  | 0, _, _ => none
  | fuel + 1, u, b => if isEven u then evenLoop p fuel (div2 u) (halve p b) else some (u, b)

/-- `while u != one && v != one` in `inverse`. -/
def inverseLoop (p : Nat) : Nat → Words → Words → Words → Words → Option Words
  | 0, _, _, _, _ => none
  | fuel + 1, u, v, b, c =>
    if u ≠ reprOne p ∧ v ≠ reprOne p then
      match evenLoop p (64 * nLimbs p) u b with
      | none => none
      | some (u, b) =>
        match evenLoop p (64 * nLimbs p) v c with
        | none => none
        | some (v, c) =>
          if less v u then inverseLoop p fuel (subNoborrow u v) v (sub p b c) c
          else inverseLoop p fuel u (subNoborrow v u) b (sub p c b)
    else some (if u = reprOne p then b else c)

/-- `inverse`.  The outer option is `none` if a loop does not end. -/
def inverse (p : Nat) (a : Words) : Option (Option Words) :=
  if isZero a then some none
  else
    match inverseLoop p (128 * nLimbs p + 1) a (modulus p) (constR2 p) (List.replicate (nLimbs p) 0) with
    | some b => some (some b)
    | none => none

/-- `from_repr` -/
def fromRepr (p : Nat) (r : Words) : Option Words := if isValid p r then some (mul p r (constR2 p)) else none

/-- `into_repr` -/
def intoRepr (p : Nat) (a : Words) : Words := montReduce p (a ++ List.replicate (nLimbs p) 0)

/-! ## Client code -/

/-- A computation with the operators of `Num` and `from_repr` on constants. -/
inductive Expr where
  | input (i : Nat)
  | constant (r : Words)
  | add (a b : Expr)
  | sub (a b : Expr)
  | mul (a b : Expr)
  | div (a b : Expr)
  | neg (a : Expr)
  | double (a : Expr)
  | square (a : Expr)
  deriving DecidableEq

/-- What can go wrong: a panic, or a loop that does not end. -/
inductive Fault where
  | panic
  | endless
  deriving DecidableEq

/-- `Num::inverse`, src/native/num.rs:163-166: panics on zero. -/
def checkedInverse (p : Nat) (a : Words) : Except Fault Words :=
  match Limbs.inverse p a with
  | some (some b) => .ok b
  | some none => .error .panic
  | none => .error .endless

/-- The operators of `Num` on words, src/native/num.rs:336-426, with `double` and `square`, src/native/num.rs:177-187.  A
constant is `from_repr(r).unwrap()`. -/
def Expr.run (p : Nat) (env : Nat → Words) : Expr → Except Fault Words
  | .input i => .ok (env i)
  | .constant r =>
    match Limbs.fromRepr p r with
    | some a => .ok a
    | none => .error .panic
  | .add a b => do return Limbs.add p (← a.run p env) (← b.run p env)
  | .sub a b => do return Limbs.sub p (← a.run p env) (← b.run p env)
  | .mul a b => do return Limbs.mul p (← a.run p env) (← b.run p env)
  | .div a b => do
    let x ← a.run p env
    let y ← b.run p env
    return Limbs.mul p x (← checkedInverse p y)
  | .neg a => do return Limbs.neg p (← a.run p env)
  | .double a => do return Limbs.double p (← a.run p env)
  | .square a => do return Limbs.square p (← a.run p env)

end Fawkes.Limbs
