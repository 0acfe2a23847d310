import Verif.Model.WordSign
import Verif.Model.CEcc

/-!
# Circuits on machine words

The circuit functions of src/circuit that look at the bits of an element, and those that compute witnesses in the scalar field, with
the arrays of Model/WordField as the field.  All other circuit functions (Model/CNum, Model/Poseidon, Model/CEcc, `Mux`) are written for
any field and need no second version.
-/

namespace Fawkes.Limbs

variable {r : Nat} [Fact r.Prime] [Fact (r % 2 = 1)]

namespace Elem

/-- src/native/num.rs:132-134, 196-225: all items of `iterbit_le()`. -/
def iterbitLE (a : Elem r) : List Bool :=
  let w := Limbs.intoRepr r a.words
  (List.range (w.length * 64)).map (Num.bitAt w)

/-- src/native/num.rs:91-94: `is_even` -/
def isEven (a : Elem r) : Bool := Limbs.isEven (Limbs.intoRepr r a.words)

/-- src/native/ecc.rs:109-115 -/
def filterEven (a : Elem r) : Elem r := if isEven a then a else -a

end Elem

namespace Bitify

/-- src/circuit/bitify.rs:13-24: the loop over `i` of the constant case. -/
def constLoop (vb : List Bool) : (n i : Nat) → (k rem : Elem r) → Except Panic (List (CBool (Elem r)) × Elem r)
  | 0, _, _, rem => .ok ([], rem)
  | n + 1, i, k, rem =>
    match vb[i]? with
    | none => .error .outOfBounds
    | some bit =>
      match constLoop vb n (i + 1) (2 * k) (if bit then rem - k else rem) with
      | .error e => .error e
      | .ok (bits, rem') => .ok (CBool.fromConst bit :: bits, rem')

/-- src/circuit/bitify.rs:32-35: the witness bits: those of the value, or `NUM_BITS` times `None`. -/
def witnessBits (v : Option (Elem r)) : List (Option Bool) :=
  match v with
  | some x => x.iterbitLE.map some
  | none => List.replicate (numBits r) none

/-- src/circuit/bitify.rs:37-43: the loop over `i` of the non-constant case. -/
def allocLoop (vb : List (Option Bool)) : (n i : Nat) → (k : Elem r) → (rem : CNum (Elem r)) →
    M (Elem r) (List (CBool (Elem r)) × CNum (Elem r))
  | 0, _, _, rem => pure ([], rem)
  | n + 1, i, k, rem =>
    match vb[i]? with
    | none => M.panic .outOfBounds
    | some v => do
      let s ← CBool.alloc v
      s.assert
      let (bits, rem') ← allocLoop vb n (i + 1) (2 * k) (CNum.sub rem (CNum.mulConst s.num (2 * k)))
      pure (s :: bits, rem')

/-- src/circuit/bitify.rs:6-50: `c_into_bits_le` -/
def intoBitsLE (signal : CNum (Elem r)) (limit : Nat) : M (Elem r) (List (CBool (Elem r))) :=
  match signal.asConst with
  | some value => do
    let (bits, rem) ← M.lift (constLoop value.iterbitLE limit 0 1 value)
    M.assert (rem = 0)
    pure bits
  | none => do
    let (bits, rem) ← allocLoop (witnessBits signal.value) (limit - 1) 1 1 signal
    CNum.assertBit rem
    if limit = 0 then M.panic .outOfBounds
    else pure (⟨rem⟩ :: bits)

/-- src/circuit/bitify.rs:81-87: the term of one step, from the two bits of the constant. -/
def compTerm (ctl ctu : Bool) (l u lu : CNum (Elem r)) : CNum (Elem r) :=
  match ctl, ctu with
  | false, false => CNum.sub (CNum.add l u) lu
  | true, false => CNum.subConst (CNum.sub (CNum.addAssign (CNum.mulConst u 2) l) lu) 1
  | false, true => CNum.subConst (CNum.addAssign lu u) 1
  | true, true => CNum.subConst lu 1

/-- src/circuit/bitify.rs:71-89: the loop over the bit pairs; returns `acc` and `k`. -/
def compLoop : (n : Nat) → (ct : List Bool) → (sig : List (CBool (Elem r))) → (k : Elem r) →
    (acc : CNum (Elem r)) → M (Elem r) (CNum (Elem r) × Elem r)
  | 0, _, _, k, acc => pure (acc, k)
  | n + 1, ctl :: ctu :: ct, l :: u :: sig, k, acc => do
    let lu ← CNum.mul l.num u.num
    compLoop n ct sig (2 * k) (CNum.add acc (CNum.mulConst (compTerm ctl ctu l.num u.num lu) k))
  | _ + 1, _, _, _, _ => M.panic .unwrap

/-- src/circuit/bitify.rs:52-97: `c_comp_constant` -/
def compConstant (signal : List (CBool (Elem r))) (ct : Elem r) : M (Elem r) (CBool (Elem r)) := do
  M.assert (0 < signal.length)
  let nsteps := signal.length / 2 + signal.length % 2
  let sig := signal ++ if signal.length % 2 = 1 then [CBool.fromConst false] else []
  let (acc, k) ← compLoop nsteps ct.iterbitLE sig 1 CNum.zero
  let acc := CNum.addConst acc (k - 1)
  let bits ← intoBitsLE acc (nsteps + 1)
  match bits[nsteps]? with
  | none => M.panic .outOfBounds
  | some b => pure b

/-- src/circuit/bitify.rs:99-106: `c_into_bits_le_strict` -/
def intoBitsLEStrict (signal : CNum (Elem r)) : M (Elem r) (List (CBool (Elem r))) := do
  let bits ← intoBitsLE signal (numBits r)
  let cmp ← compConstant bits (-1)
  cmp.assertFalse
  pure bits

/-- src/circuit/bitify.rs:112-115: the loop of `c_from_bits_le`; `k = 2^(i-1)` on entry. -/
def fromLoop : List (CBool (Elem r)) → Elem r → CNum (Elem r) → CNum (Elem r)
  | [], _, acc => acc
  | b :: bs, k, acc => fromLoop bs (2 * k) (CNum.addAssign acc (CNum.mulConst b.num (2 * k)))

/-- src/circuit/bitify.rs:108-117: `c_from_bits_le` -/
def fromBitsLE (bits : List (CBool (Elem r))) : M (Elem r) (CNum (Elem r)) :=
  match bits with
  | [] => M.panic .assertion
  | b :: bs => pure (fromLoop bs 1 b.num)

end Bitify

namespace CPoint

/-- src/circuit/ecc.rs:63, 77: `p.mul(num!(8).inverse(), params)` -/
def eighth (p : EdwardsPoint (Elem r)) (J : JubJubParams (Elem r)) [Fact J.l.Prime] [Fact (J.l % 2 = 1)] :
    Except Panic (EdwardsPoint (Elem r)) := do
  let k ← Num.inverse (8 : Elem J.l)
  mulPoint p k J

/-- src/circuit/ecc.rs:62-70 -/
def assertInSubgroup (p : CEdwardsPoint (Elem r)) (J : JubJubParams (Elem r)) [Fact J.l.Prime] [Fact (J.l % 2 = 1)] :
    M (Elem r) Unit := do
  let v ← M.lift (CEdwardsPoint.mapValue (fun q => eighth q J) p.getValue)
  let preimage ← CEdwardsPoint.alloc v
  preimage.assertInCurve J
  let preimage8 ← preimage.mulByCofactor J
  CNum.assertZero (CNum.sub p.x preimage8.x)
  CNum.assertZero (CNum.sub p.y preimage8.y)

/-- src/circuit/ecc.rs:73-77: the witness of `subgroup_decompress` -/
def decompressValue (sqrt : Elem r → Option (Elem r)) (J : JubJubParams (Elem r)) [Fact J.l.Prime] [Fact (J.l % 2 = 1)] (x : Elem r) :
    Except Panic (EdwardsPoint (Elem r)) := do
  let q ← EdwardsPoint.subgroupDecompress sqrt x J
  eighth (q.getD J.g) J

/-- src/circuit/ecc.rs:72-83 -/
def subgroupDecompress (sqrt : Elem r → Option (Elem r)) (x : CNum (Elem r)) (J : JubJubParams (Elem r)) [Fact J.l.Prime]
    [Fact (J.l % 2 = 1)] : M (Elem r) (CEdwardsPoint (Elem r)) := do
  let v ← M.lift (CEdwardsPoint.mapValue (decompressValue sqrt J) x.value)
  let preimage ← CEdwardsPoint.alloc v
  preimage.assertInCurve J
  let preimage8 ← preimage.mulByCofactor J
  CNum.assertZero (CNum.sub x preimage8.x)
  pure preimage8

/-- src/circuit/ecc.rs:211-214: the witness for the square root. -/
def rootValue (sqrt : Elem r → Option (Elem r)) (J : JubJubParams (Elem r)) (g : Elem r) : Except Panic (Elem r) :=
  match sqrt g with
  | some y => .ok y.filterEven
  | none =>
    match sqrt (g * J.u) with
    | some y => .ok y.filterEven
    | none => .error .unwrap

/-- src/circuit/ecc.rs:205-227: `check_and_get_y` -/
def checkAndGetY (sqrt : Elem r → Option (Elem r)) (x : CNum (Elem r)) (J : JubJubParams (Elem r)) :
    M (Elem r) (CBool (Elem r) × CNum (Elem r)) := do
  let x2 ← CNum.square x
  let x3 ← CNum.mul x2 (CNum.addConst x J.a)
  let g ← CNum.divConst (CNum.addAssign x3 x) J.b
  let v ← M.lift (CEdwardsPoint.mapValue (rootValue sqrt J) g.value)
  let preimage ← CNum.alloc v
  let bits ← Bitify.intoBitsLEStrict preimage
  match bits with
  | [] => M.panic .outOfBounds
  | b :: _ => do
    b.assertFalse
    let sq ← CNum.square preimage
    let isSquare ← CNum.isZero (CNum.sub g sq)
    let isNotSquare ← CNum.isZero (CNum.sub (CNum.mulConst g J.u) sq)
    CNum.assertZero (CNum.subConst (CNum.addAssign isNotSquare.num isSquare.num) 1)
    pure (isSquare, preimage)

/-- src/circuit/ecc.rs:196-246: `from_scalar` -/
def fromScalar (sqrt : Elem r → Option (Elem r)) (t : CNum (Elem r)) (J : JubJubParams (Elem r)) :
    M (Elem r) (CEdwardsPoint (Elem r)) := do
  let t := CNum.addConst t 1
  let t2 ← CNum.square t
  let t2g1 := CNum.mulConst t2 J.u
  let i ← M.lift (Num.div (-1) J.a)
  let x3 := CNum.mulConst (CNum.addConst t2g1 1) i
  let x2 ← CNum.div x3 t2g1
  let (isValid, y2) ← checkAndGetY sqrt x2 J
  let (_, y3) ← checkAndGetY sqrt x3 J
  let x ← CNum.switch x2 isValid x3
  let y ← CNum.switch y2 isValid y3
  let m : CMontgomeryPoint (Elem r) := ⟨x, y⟩
  let q ← m.intoEdwards
  q.mulByCofactor J

end CPoint

/-- src/circuit/eddsaposeidon.rs:15-45: `c_eddsaposeidon_verify` -/
def cVerify (sqrt : Elem r → Option (Elem r)) (J : JubJubParams (Elem r)) [Fact J.l.Prime] [Fact (J.l % 2 = 1)]
    (s rx a m : CNum (Elem r)) (P : PoseidonParams (Elem r)) : M (Elem r) (CBool (Elem r)) := do
  M.assert (decide (numBits r > numBits J.l)) .assertion
  let pa ← CPoint.subgroupDecompress sqrt a J
  let pr ← CPoint.subgroupDecompress sqrt rx J
  let seed ← M.lift (Elem.fromSeed r seedEddsaPoseidon)
  let h ← CPoseidon.poseidonWithSalt [rx, a, m] seed P
  let hBits ← Bitify.intoBitsLEStrict h
  let ha ← pa.mul hBits J
  let sBits ← Bitify.intoBitsLE s (numBits J.l)
  let sb ← (CEdwardsPoint.fromConst J.g).mul sBits J
  let haR ← ha.add pr J
  CNum.isZero (CNum.sub haR.x sb.x)

end Fawkes.Limbs
