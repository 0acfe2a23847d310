import Verif.Model.CNum
import Verif.Model.Num

/-!
# Bit decomposition and comparison (src/circuit/bitify.rs), multiplexer (src/circuit/mux.rs)
-/

namespace Fawkes

namespace Bitify

variable {p : Nat} [Fact p.Prime]

/-- src/circuit/bitify.rs:13-24: the loop over `i` of the constant case. `n` iterations are left, `k = 2^i`;
returns the pushed bits and `remained_value`. -/
def constLoop (vb : List Bool) : (n i : Nat) → (k rem : ZMod p) → Except Panic (List (CBool (ZMod p)) × ZMod p)
  | 0, _, _, rem => .ok ([], rem)
  | n + 1, i, k, rem =>
    match vb[i]? with
    | none => .error .outOfBounds
    | some bit =>
      match constLoop vb n (i + 1) (2 * k) (if bit then rem - k else rem) with
      | .error e => .error e
      | .ok (bits, rem') => .ok (CBool.fromConst bit :: bits, rem')

/-- src/circuit/bitify.rs:32-35: the witness bits: those of the value, or `NUM_BITS` times `None`. -/
def witnessBits (v : Option (ZMod p)) : List (Option Bool) :=
  match v with
  | some x => (Num.iterbitLE x).map some
  | none => List.replicate (numBits p) none

/-- src/circuit/bitify.rs:37-43: the loop over `i` of the non-constant case. `n` iterations are left,
`k = 2^(i-1)` on entry; returns `bits[i..]` and `remained_signal`. -/
def allocLoop (vb : List (Option Bool)) : (n i : Nat) → (k : ZMod p) → (rem : CNum (ZMod p)) →
    M (ZMod p) (List (CBool (ZMod p)) × CNum (ZMod p))
  | 0, _, _, rem => pure ([], rem)
  | n + 1, i, k, rem =>
    match vb[i]? with
    | none => M.panic .outOfBounds
    | some v => do
      let s ← CBool.alloc v
      s.assert
      let (bits, rem') ← allocLoop vb n (i + 1) (2 * k) (CNum.sub rem (CNum.mulConst s.num (2 * k)))
      pure (s :: bits, rem')

/-- src/circuit/bitify.rs:6-50: `c_into_bits_le` -/
def intoBitsLE (signal : CNum (ZMod p)) (limit : Nat) : M (ZMod p) (List (CBool (ZMod p))) :=
  match signal.asConst with
  | some value => do
    let (bits, rem) ← M.lift (constLoop (Num.iterbitLE value) limit 0 1 value)
    M.assert (rem = 0)
    pure bits
  | none => do
    let (bits, rem) ← allocLoop (witnessBits signal.value) (limit - 1) 1 1 signal
    CNum.assertBit rem
    if limit = 0 then M.panic .outOfBounds
    else pure (⟨rem⟩ :: bits)

/-- src/circuit/bitify.rs:81-87: the term of one step, from the two bits of the constant. -/
def compTerm (ctl ctu : Bool) (l u lu : CNum (ZMod p)) : CNum (ZMod p) :=
  match ctl, ctu with
  | false, false => CNum.sub (CNum.add l u) lu
  | true, false => CNum.subConst (CNum.sub (CNum.addAssign (CNum.mulConst u 2) l) lu) 1
  | false, true => CNum.subConst (CNum.addAssign lu u) 1
  | true, true => CNum.subConst lu 1

/-- src/circuit/bitify.rs:71-89: the loop over the bit pairs; returns `acc` and `k`. -/
def compLoop : (n : Nat) → (ct : List Bool) → (sig : List (CBool (ZMod p))) → (k : ZMod p) →
    (acc : CNum (ZMod p)) → M (ZMod p) (CNum (ZMod p) × ZMod p)
  | 0, _, _, k, acc => pure (acc, k)
  | n + 1, ctl :: ctu :: ct, l :: u :: sig, k, acc => do
    let lu ← CNum.mul l.num u.num
    compLoop n ct sig (2 * k) (CNum.add acc (CNum.mulConst (compTerm ctl ctu l.num u.num lu) k))
  | _ + 1, _, _, _, _ => M.panic .unwrap

/-- src/circuit/bitify.rs:52-97: `c_comp_constant` -/
def compConstant (signal : List (CBool (ZMod p))) (ct : ZMod p) : M (ZMod p) (CBool (ZMod p)) := do
  M.assert (0 < signal.length)
  let nsteps := signal.length / 2 + signal.length % 2
  let sig := signal ++ if signal.length % 2 = 1 then [CBool.fromConst false] else []
  let (acc, k) ← compLoop nsteps (Num.iterbitLE ct) sig 1 CNum.zero
  let acc := CNum.addConst acc (k - 1)
  let bits ← intoBitsLE acc (nsteps + 1)
  match bits[nsteps]? with
  | none => M.panic .outOfBounds
  | some b => pure b

/-- src/circuit/bitify.rs:99-106: `c_into_bits_le_strict` -/
def intoBitsLEStrict (signal : CNum (ZMod p)) : M (ZMod p) (List (CBool (ZMod p))) := do
  let bits ← intoBitsLE signal (numBits p)
  let cmp ← compConstant bits (-1)
  cmp.assertFalse
  pure bits

/-- src/circuit/bitify.rs:112-115: the loop of `c_from_bits_le`; `k = 2^(i-1)` on entry. -/
def fromLoop : List (CBool (ZMod p)) → ZMod p → CNum (ZMod p) → CNum (ZMod p)
  | [], _, acc => acc
  | b :: bs, k, acc => fromLoop bs (2 * k) (CNum.addAssign acc (CNum.mulConst b.num (2 * k)))

/-- src/circuit/bitify.rs:108-117: `c_from_bits_le` -/
def fromBitsLE (bits : List (CBool (ZMod p))) : M (ZMod p) (CNum (ZMod p)) :=
  match bits with
  | [] => M.panic .assertion
  | b :: bs => pure (fromLoop bs 1 b.num)

end Bitify

namespace Mux

variable {F : Type} [Field F] [DecidableEq F]

/-- src/circuit/mux.rs:20-31: one column `c[i]` of eight constants. -/
def column (s0 s1 s2 : CBool F) (s10 : CNum F) (c0 c1 c2 c3 c4 c5 c6 c7 : F) : M F (CNum F) := do
  let a210 := CNum.mulConst s10 (c7 - c6 - c5 + c4 - c3 + c2 + c1 - c0)
  let a21 := CNum.mulConst s1.num (c6 - c4 - c2 + c0)
  let a20 := CNum.mulConst s0.num (c5 - c4 - c1 + c0)
  let a2 := c4 - c0
  let a10 := CNum.mulConst s10 (c3 - c2 - c1 + c0)
  let a1 := CNum.mulConst s1.num (c2 - c0)
  let a0 := CNum.mulConst s0.num (c1 - c0)
  let t ← CNum.mul (CNum.addConst (CNum.add (CNum.add a210 a21) a20) a2) s2.num
  pure (CNum.addConst (CNum.add (CNum.add (CNum.add t a10) a1) a0) c0)

/-- src/circuit/mux.rs:19-32: the loop over the columns (all of length 8, see `mux3`). -/
def columns (s0 s1 s2 : CBool F) (s10 : CNum F) : List (List F) → M F (List (CNum F))
  | [] => pure []
  | [c0, c1, c2, c3, c4, c5, c6, c7] :: cs => do
    let r ← column s0 s1 s2 s10 c0 c1 c2 c3 c4 c5 c6 c7
    let rs ← columns s0 s1 s2 s10 cs
    pure (r :: rs)
  | _ :: _ => M.panic .outOfBounds

/-- src/circuit/mux.rs:7-34: `c_mux3` -/
def mux3 (s : List (CBool F)) (c : List (List F)) : M F (List (CNum F)) := do
  M.assert (s.length = 3)
  M.assert (c.all fun col => col.length = 8)
  match s with
  | [s0, s1, s2] => do
    let s10 ← CNum.mul s0.num s1.num
    columns s0 s1 s2 s10 c
  | _ => M.panic .outOfBounds

end Mux

end Fawkes
