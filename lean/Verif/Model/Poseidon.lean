import Verif.Model.CNum
import Verif.Model.Num

/-!
# Poseidon and Merkle trees (src/native/poseidon.rs, src/circuit/poseidon.rs)

Slices and vectors are lists; every index that the code checks at run time is a lookup that can fail.
-/

namespace Fawkes

/-- src/native/poseidon.rs:9-16. All fields are public. -/
structure PoseidonParams (F : Type) where
  c : List F
  m : List (List F)
  t : Nat
  f : Nat
  p : Nat

/-- `v[i]` -/
def getIdx {α : Type} (l : List α) (i : Nat) : Except Panic α :=
  match l[i]? with
  | some x => .ok x
  | none => .error .outOfBounds

namespace Poseidon

variable {F : Type} [Field F] [DecidableEq F]

/-- src/native/poseidon.rs:24: `(0..n).map(|_| seedbox.gen()).collect()`.  The random stream is a parameter: `gen`
produces one field element and the next state of the generator, or stops. -/
def genVec {σ E : Type} (gen : σ → Except E (F × σ)) : Nat → σ → Except E (List F × σ)
  | 0, s => .ok ([], s)
  | n + 1, s => do
    let (x, s) ← gen s
    let (xs, s) ← genVec gen n s
    pure (x :: xs, s)

/-- src/native/poseidon.rs:25-27: the rows of `m`. -/
def genRows {σ E : Type} (gen : σ → Except E (F × σ)) (t : Nat) : Nat → σ → Except E (List (List F) × σ)
  | 0, s => .ok ([], s)
  | n + 1, s => do
    let (x, s) ← genVec gen t s
    let (xs, s) ← genRows gen t n s
    pure (x :: xs, s)

/-- src/native/poseidon.rs:20-22: the salt, `format!("fawkes_poseidon(t={},f={},p={})", t, f, p)`. -/
def salt (t f p : Nat) : List Char :=
  "fawkes_poseidon(t=".toList ++ Nat.toDigits 10 t ++ ",f=".toList ++ Nat.toDigits 10 f ++ ",p=".toList ++
    Nat.toDigits 10 p ++ ")".toList

/-- src/native/poseidon.rs:19-29; `init salt` is `SeedboxBlake2::new_with_salt` (see `Verif.Model.Rand`). -/
def newParams {σ E : Type} (init : List Char → σ) (gen : σ → Except E (F × σ)) (t f p : Nat) :
    Except E (PoseidonParams F) := do
  let (c, s) ← genVec gen (f + p) (init (salt t f p))
  let (m, _) ← genRows gen t t s
  pure ⟨c, m, t, f, p⟩

/-- src/native/poseidon.rs:32-34 -/
def ark (state : List F) (c : F) : List F := state.map (· + c)

/-- src/native/poseidon.rs:36-38: `a.square().square() * a` -/
def sigma (a : F) : F := (a * a) * (a * a) * a

/-- src/native/poseidon.rs:44-46: the inner loop over `j` for one row `params.m[i]`. -/
def mixRow : (state row : List F) → (acc : F) → Except Panic F
  | [], _, acc => .ok acc
  | _ :: _, [], _ => .error .outOfBounds
  | x :: state, r :: row, acc => mixRow state row (acc + r * x)

/-- src/native/poseidon.rs:43-47: the loop over the `n` remaining rows. -/
def mixRows (state : List F) : (rows : List (List F)) → (n : Nat) → Except Panic (List F)
  | _, 0 => .ok []
  | [], _ + 1 => .error .outOfBounds
  | row :: rows, n + 1 => do
    let x ← mixRow state row 0
    let xs ← mixRows state rows n
    pure (x :: xs)

/-- src/native/poseidon.rs:40-49 -/
def mix (state : List F) (P : PoseidonParams F) : Except Panic (List F) := mixRows state P.m state.length

/-- src/native/poseidon.rs:65-71: the nonlinear layer of round `i`. -/
def layer (P : PoseidonParams F) (i : Nat) (state : List F) : Except Panic (List F) :=
  if i < P.f / 2 ∨ P.f / 2 + P.p ≤ i then .ok (state.map sigma)
  else match state with
    | [] => .error .outOfBounds
    | x :: xs => .ok (sigma x :: xs)

/-- src/native/poseidon.rs:63-73: rounds `i, …, i+n-1`. -/
def rounds (P : PoseidonParams F) : (n i : Nat) → List F → Except Panic (List F)
  | 0, _, state => .ok state
  | n + 1, i, state => do
    let c ← getIdx P.c i
    let state ← layer P i (ark state c)
    let state ← mix state P
    rounds P n (i + 1) state

/-- src/native/poseidon.rs:51-75: `poseidon` -/
def poseidon (inputs : List F) (P : PoseidonParams F) : Except Panic F :=
  if ¬ inputs.length ≤ P.t then .error .assertion
  else if ¬ 0 < inputs.length then .error .assertion
  else do
    let state ← rounds P (P.f + P.p) 0 (inputs ++ List.replicate (P.t - inputs.length) 0)
    getIdx state 0

/-- src/native/poseidon.rs:77-91: `poseidon_with_salt`; `seed` is the element `Num::from_seed(seed)`
(`Num.fromSeed` in `Verif.Model.Seedbox`). -/
def poseidonWithSalt (inputs : List F) (seed : F) (P : PoseidonParams F) : Except Panic F :=
  if ¬ 0 < inputs.length then .error .assertion
  else if ¬ inputs.length < P.t then .error .assertion
  else poseidon (inputs ++ [seed]) P

/-- src/native/poseidon.rs:104-109: the loop over `path.zip(sibling)`. -/
def proofLoop (P : PoseidonParams F) : (root : F) → List (Bool × F) → Except Panic F
  | root, [] => .ok root
  | root, (b, s) :: rest => do
    let root ← poseidon (if b then [s, root] else [root, s]) P
    proofLoop P root rest

/-- src/native/poseidon.rs:100-111: `poseidon_merkle_proof_root`; a `MerkleProof` (93-98) is its two vectors. -/
def merkleProofRoot (leaf : F) (sibling : List F) (path : List Bool) (P : PoseidonParams F) : Except Panic F :=
  proofLoop P leaf (path.zip sibling)

/-- src/native/poseidon.rs:121-123: the in-place loop over `i` of one level, `n` iterations left. -/
def treeInner (P : PoseidonParams F) : (n i : Nat) → List F → Except Panic (List F)
  | 0, _, state => .ok state
  | n + 1, i, state => do
    let a ← getIdx state (2 * i)
    let b ← getIdx state (2 * i + 1)
    let r ← poseidon [a, b] P
    treeInner P n (i + 1) (state.set i r)

/-- src/native/poseidon.rs:120-124: the loop over the levels `j`, `n` levels left. -/
def treeLevels (P : PoseidonParams F) (total : Nat) : (n j : Nat) → List F → Except Panic (List F)
  | 0, _, state => .ok state
  | n + 1, j, state => do
    let state ← treeInner P (total / 2 ^ (j + 1)) 0 state
    treeLevels P total n (j + 1) state

/-- src/native/poseidon.rs:113-126: `poseidon_merkle_tree_root`; `64 - (leaf_sz - 1).leading_zeros()` is the bit
length of `leaf_sz - 1` (`usize` has 64 bits and vectors are shorter than 2^63). -/
def merkleTreeRoot (leaf : List F) (P : PoseidonParams F) : Except Panic F :=
  if ¬ 0 < leaf.length then .error .assertion
  else do
    let proofSz := Nat.size (leaf.length - 1)
    let total := 2 ^ proofSz
    let state ← treeLevels P total proofSz 0 (leaf ++ List.replicate (total - leaf.length) 0)
    getIdx state 0

end Poseidon

namespace CPoseidon

variable {F : Type} [Field F] [DecidableEq F]

/-- src/circuit/poseidon.rs:21-23 -/
def ark (state : List (CNum F)) (c : F) : List (CNum F) := state.map fun e => CNum.addConst e c

/-- src/circuit/poseidon.rs:25-29 -/
def sigma (a : CNum F) : M F (CNum F) := do
  let aSq ← CNum.mul a a
  let aQuad ← CNum.mul aSq aSq
  CNum.mul aQuad a

/-- The loop `for j in 0..params.t { state[j] = sigma(&state[j]) }`, src/circuit/poseidon.rs:62-64. -/
def sigmaAll : List (CNum F) → M F (List (CNum F))
  | [] => pure []
  | x :: xs => do
    let y ← sigma x
    let ys ← sigmaAll xs
    pure (y :: ys)

/-- src/circuit/poseidon.rs:36-38: the inner loop over `j` for one row. -/
def mixRow : (state : List (CNum F)) → (row : List F) → (acc : CNum F) → Except Panic (CNum F)
  | [], _, acc => .ok acc
  | _ :: _, [], _ => .error .outOfBounds
  | x :: state, r :: row, acc => mixRow state row (CNum.addAssign acc (CNum.mulConst x r))

/-- src/circuit/poseidon.rs:35-39: the loop over the `n` remaining rows. -/
def mixRows (state : List (CNum F)) : (rows : List (List F)) → (n : Nat) → Except Panic (List (CNum F))
  | _, 0 => .ok []
  | [], _ + 1 => .error .outOfBounds
  | row :: rows, n + 1 => do
    let x ← mixRow state row CNum.zero
    let xs ← mixRows state rows n
    pure (x :: xs)

/-- src/circuit/poseidon.rs:31-41 -/
def mix (state : List (CNum F)) (P : PoseidonParams F) : Except Panic (List (CNum F)) :=
  mixRows state P.m state.length

/-- src/circuit/poseidon.rs:61-67: the nonlinear layer of round `i`. -/
def layer (P : PoseidonParams F) (i : Nat) (state : List (CNum F)) : M F (List (CNum F)) :=
  if i < P.f / 2 ∨ P.f / 2 + P.p ≤ i then sigmaAll state
  else match state with
    | [] => M.panic .outOfBounds
    | x :: xs => do
      let y ← sigma x
      pure (y :: xs)

/-- src/circuit/poseidon.rs:59-69: rounds `i, …, i+n-1`. -/
def rounds (P : PoseidonParams F) : (n i : Nat) → List (CNum F) → M F (List (CNum F))
  | 0, _, state => pure state
  | n + 1, i, state => do
    let c ← M.lift (getIdx P.c i)
    let state ← layer P i (ark state c)
    let state ← M.lift (mix state P)
    rounds P n (i + 1) state

/-- src/circuit/poseidon.rs:43-71: `c_poseidon` -/
def poseidon (inputs : List (CNum F)) (P : PoseidonParams F) : M F (CNum F) :=
  if ¬ inputs.length ≤ P.t then M.panic .assertion
  else if ¬ 0 < inputs.length then M.panic .assertion
  else do
    let state ← rounds P (P.f + P.p) 0 (inputs ++ List.replicate (P.t - inputs.length) CNum.zero)
    M.lift (getIdx state 0)

/-- src/circuit/poseidon.rs:73-88: `c_poseidon_with_salt`; `seed` is the element `Num::from_seed(seed)`. -/
def poseidonWithSalt (inputs : List (CNum F)) (seed : F) (P : PoseidonParams F) : M F (CNum F) :=
  if ¬ 0 < inputs.length then M.panic .assertion
  else if ¬ inputs.length < P.t then M.panic .assertion
  else poseidon (inputs ++ [CNum.fromConst seed]) P

/-- src/circuit/poseidon.rs:96-100: the loop over `path.zip(sibling)`. -/
def proofLoop (P : PoseidonParams F) : (root : CNum F) → List (CBool F × CNum F) → M F (CNum F)
  | root, [] => pure root
  | root, (b, s) :: rest => do
    let first ← CNum.switch s b root
    let second := CNum.sub (CNum.add root s) first
    let root ← poseidon [first, second] P
    proofLoop P root rest

/-- src/circuit/poseidon.rs:90-102: `c_poseidon_merkle_proof_root`; a `CMerkleProof` (14-19) is its two vectors. -/
def merkleProofRoot (leaf : CNum F) (sibling : List (CNum F)) (path : List (CBool F)) (P : PoseidonParams F) :
    M F (CNum F) := proofLoop P leaf (path.zip sibling)

/-- src/circuit/poseidon.rs:116-118: the in-place loop over `i` of one level. -/
def treeInner (P : PoseidonParams F) : (n i : Nat) → List (CNum F) → M F (List (CNum F))
  | 0, _, state => pure state
  | n + 1, i, state => do
    let a ← M.lift (getIdx state (2 * i))
    let b ← M.lift (getIdx state (2 * i + 1))
    let r ← poseidon [a, b] P
    treeInner P n (i + 1) (state.set i r)

/-- src/circuit/poseidon.rs:115-119: the loop over the levels `j`. -/
def treeLevels (P : PoseidonParams F) (total : Nat) : (n j : Nat) → List (CNum F) → M F (List (CNum F))
  | 0, _, state => pure state
  | n + 1, j, state => do
    let state ← treeInner P (total / 2 ^ (j + 1)) 0 state
    treeLevels P total n (j + 1) state

/-- src/circuit/poseidon.rs:104-121: `c_poseidon_merkle_tree_root` -/
def merkleTreeRoot (leaf : List (CNum F)) (P : PoseidonParams F) : M F (CNum F) :=
  if ¬ 0 < leaf.length then M.panic .assertion
  else do
    let proofSz := Nat.size (leaf.length - 1)
    let total := 2 ^ proofSz
    let state ← treeLevels P total proofSz 0 (leaf ++ List.replicate (total - leaf.length) CNum.zero)
    M.lift (getIdx state 0)

end CPoseidon

end Fawkes
