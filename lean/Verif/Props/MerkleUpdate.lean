import Verif.Props.MerkleBinding

/-!
# C102: a Merkle proof is enough to update the tree
-/

namespace Fawkes.Props

open PoseidonSpec

variable {F : Type} [Field F] [DecidableEq F]

theorem up_congr (h : F → F → F) (n : Nat) {l l' : List F} (hl : l.length = 2 * n) (hl' : l'.length = 2 * n) (k : Nat)
    (h0 : l[2 * k]? = l'[2 * k]?) (h1 : l[2 * k + 1]? = l'[2 * k + 1]?) : (up h l)[k]? = (up h l')[k]? := by
  induction n generalizing l l' k with
  | zero =>
    rw [Nat.mul_zero, List.length_eq_zero_iff] at hl hl'
    rw [hl, hl']
  | succ n ih =>
    match l, l', hl, hl' with
    | a :: b :: l, a' :: b' :: l', hl, hl' =>
      cases k with
      | zero =>
        simp only [Nat.mul_zero, Nat.zero_add, List.getElem?_cons_zero, List.getElem?_cons_succ, Option.some.injEq] at h0 h1
        simp [up, h0, h1]
      | succ k =>
        simp only [up, List.getElem?_cons_succ]
        exact ih (by simp at hl; omega) (by simp at hl'; omega) k (by simpa [Nat.mul_add] using h0) (by simpa [Nat.mul_add] using h1)

/-- Replacing leaf `i` changes at height `j` at most the node above it. -/
theorem level_set (h : F → F → F) (d : Nat) (l : List F) (hl : l.length = 2 ^ d) (i : Nat) (v : F) (j : Nat) (hj : j ≤ d) (k : Nat)
    (hk : k ≠ i / 2 ^ j) : (level h (l.set i v) j)[k]? = (level h l j)[k]? := by
  induction j generalizing k with
  | zero =>
    rw [pow_zero, Nat.div_one] at hk
    exact List.getElem?_set_ne (fun e => hk e.symm)
  | succ j ih =>
    have hp : 2 ^ (d - j) = 2 * 2 ^ (d - (j + 1)) := by rw [show d - j = d - (j + 1) + 1 by omega, pow_succ]; ring
    have hdiv : i / 2 ^ (j + 1) = i / 2 ^ j / 2 := by rw [pow_succ, Nat.div_div_eq_div_mul]
    rw [hdiv] at hk
    refine up_congr h (2 ^ (d - (j + 1))) ((Poseidon.level_length h _ d j (by simpa using hl) (by omega)).trans hp)
      ((Poseidon.level_length h l d j hl (by omega)).trans hp) k (ih (by omega) _ ?_) (ih (by omega) _ ?_) <;> omega

theorem xor_one_ne (n : Nat) : n ^^^ 1 ≠ n := by
  intro h
  have := congrArg (fun x => n ^^^ x) h
  simp [← Nat.xor_assoc] at this

theorem siblings_set (h : F → F → F) (d : Nat) (l : List F) (hl : l.length = 2 ^ d) (i : Nat) (v : F) :
    siblings h d (l.set i v) i = siblings h d l i := by
  unfold siblings
  refine List.map_congr_left fun j hj => ?_
  have hpad : ∀ l : List F, l.length = 2 ^ d → padded d l = l := fun l hl => by unfold padded; rw [hl]; simp
  rw [hpad _ hl, hpad _ (by simpa using hl), List.getD_eq_getElem?_getD, List.getD_eq_getElem?_getD,
    level_set h d l hl i v j (List.mem_range.1 hj).le _ (xor_one_ne _)]

theorem siblings_padded (h : F → F → F) (d : Nat) (l : List F) (hl : l.length ≤ 2 ^ d) (i : Nat) :
    siblings h d (padded d l) i = siblings h d l i := by
  unfold siblings; rw [padded_padded d l hl]

/-- The authentic proof for position `i`, used with another leaf, gives the root of the padded leaves with that leaf at position `i`. -/
theorem root_set (P : PoseidonParams F) (hP : Shaped P) (ht : 2 ≤ P.t) (leaves : List F) (d : Nat) (hle : leaves.length ≤ 2 ^ d) (i : Nat)
    (hi : i < 2 ^ d) (v : F) :
    Poseidon.merkleProofRoot v (siblings (fun a b => PoseidonSpec.hash P [a, b]) d leaves i) (directions d i) P =
      .ok (root (fun a b => PoseidonSpec.hash P [a, b]) d ((padded d leaves).set i v)) := by
  have hpl := Poseidon.padded_length d leaves hle
  rw [← siblings_padded _ d leaves hle, ← siblings_set _ d _ hpl i v]
  exact Poseidon.merkleProofRoot_ok P _ (fun a b => Poseidon.poseidon_ok hP [a, b] (by simp) (by simpa using ht)) _ d i (by simp [hpl]) v
    (by rw [List.getElem?_set_self (by omega)])

theorem root_padded (h : F → F → F) (d : Nat) (l : List F) (hl : l.length ≤ 2 ^ d) : root h d (padded d l) = root h d l := by
  unfold root; rw [padded_padded d l hl]

/-- C102 (replacing): the proof of the leaf at position `i`, used with another leaf, gives the root of the tree in which this leaf is replaced
and nothing else.  For every number of leaves and every position. -/
theorem C102_replace (P : PoseidonParams F) (hP : Shaped P) (ht : 2 ≤ P.t) (leaves : List F) (i : Nat) (hi : i < leaves.length) (v : F) :
    Poseidon.merkleProofRoot v (siblings (fun a b => PoseidonSpec.hash P [a, b]) (Nat.size (leaves.length - 1)) leaves i)
      (directions (Nat.size (leaves.length - 1)) i) P = Poseidon.merkleTreeRoot (leaves.set i v) P := by
  have hle := Poseidon.length_le_size leaves.length (by omega)
  have h0 : leaves.set i v ≠ [] := by
    intro e
    have := congrArg List.length e
    simp at this
    simp [this] at hi
  rw [root_set P hP ht leaves _ hle i (by omega), C23_root P hP ht _ h0, List.length_set]
  have hs : (padded (Nat.size (leaves.length - 1)) leaves).set i v = padded (Nat.size (leaves.length - 1)) (leaves.set i v) := by
    unfold padded; rw [List.set_append_left _ _ hi, List.length_set]
  rw [hs, root_padded _ _ _ (by simpa using hle)]

/-- C102 (appending): while the tree is not full, the proof for the first free position proves the leaf zero, and used with a leaf
it gives the root of the tree with that leaf appended. -/
theorem C102_append (P : PoseidonParams F) (hP : Shaped P) (ht : 2 ≤ P.t) (leaves : List F) (h0 : leaves ≠ [])
    (hfree : leaves.length < 2 ^ Nat.size (leaves.length - 1)) (v : F) :
    Poseidon.merkleProofRoot 0 (siblings (fun a b => PoseidonSpec.hash P [a, b]) (Nat.size (leaves.length - 1)) leaves leaves.length)
      (directions (Nat.size (leaves.length - 1)) leaves.length) P = Poseidon.merkleTreeRoot leaves P ∧
    Poseidon.merkleProofRoot v (siblings (fun a b => PoseidonSpec.hash P [a, b]) (Nat.size (leaves.length - 1)) leaves leaves.length)
      (directions (Nat.size (leaves.length - 1)) leaves.length) P = Poseidon.merkleTreeRoot (leaves ++ [v]) P := by
  have hpos := List.length_pos_iff.2 h0
  have hsz : Nat.size (leaves.length + 1 - 1) = Nat.size (leaves.length - 1) :=
    le_antisymm (Nat.size_le.2 (by omega)) (Nat.size_le_size (by omega))
  have hset : ∀ x : F, (padded (Nat.size (leaves.length - 1)) leaves).set leaves.length x = padded (Nat.size (leaves.length - 1)) (leaves ++ [x]) := by
    intro x
    unfold padded
    rw [List.set_append_right _ _ le_rfl, Nat.sub_self, List.append_assoc, List.length_append, List.length_singleton]
    congr 1
    rw [show 2 ^ Nat.size (leaves.length - 1) - leaves.length = (2 ^ Nat.size (leaves.length - 1) - (leaves.length + 1)) + 1 by omega]
    rfl
  have key : ∀ x : F, Poseidon.merkleProofRoot x
      (siblings (fun a b => PoseidonSpec.hash P [a, b]) (Nat.size (leaves.length - 1)) leaves leaves.length)
      (directions (Nat.size (leaves.length - 1)) leaves.length) P = Poseidon.merkleTreeRoot (leaves ++ [x]) P := by
    intro x
    rw [root_set P hP ht leaves _ hfree.le _ hfree, C23_root P hP ht _ (by simp), List.length_append, List.length_singleton, hsz, hset,
      root_padded _ _ _ (by simp; omega)]
  refine ⟨?_, key v⟩
  rw [key 0]
  exact C96_trailing_zeros P leaves h0 1 hfree

/-- C102 (any proof): whatever proof for position `i` somebody presents, if it leads from some leaf to the root of the tree, then with any
other leaf it leads to the root of the tree in which the leaf at position `i` is replaced - or the presented proof and the authentic one
hash different pairs to the same value. -/
theorem C102_any_proof (P : PoseidonParams F) (hP : Shaped P) (ht : 2 ≤ P.t) (leaves : List F) (i : Nat) (hi : i < leaves.length)
    (x : F) (sibling : List F) (hl : sibling.length = Nat.size (leaves.length - 1))
    (h : Poseidon.merkleProofRoot x sibling (directions (Nat.size (leaves.length - 1)) i) P = Poseidon.merkleTreeRoot leaves P) :
    (∀ v, Poseidon.merkleProofRoot v sibling (directions (Nat.size (leaves.length - 1)) i) P = Poseidon.merkleTreeRoot (leaves.set i v) P) ∨
      ∃ k < Nat.size (leaves.length - 1), CollideAt P (directions (Nat.size (leaves.length - 1)) i) x leaves[i] sibling
        (siblings (fun a b => PoseidonSpec.hash P [a, b]) (Nat.size (leaves.length - 1)) leaves i) k := by
  have hauth := C23_proofs_verify P hP ht leaves i leaves[i] (List.getElem?_eq_getElem hi)
  rw [C23_root P hP ht leaves (List.length_pos_iff.1 (by omega))] at h hauth
  rcases C96_proofs P _ x leaves[i] sibling _ (by simpa [directions] using hl) (by simp [siblings, directions]) _ h hauth with ⟨-, e⟩ | ⟨k, hk, hc⟩
  · left
    intro v
    rw [e]
    exact C102_replace P hP ht leaves i hi v
  · exact .inr ⟨k, by simpa [directions] using hk, hc⟩

/-- C102 (two roots): if one proof leads from `x` to the root of one tree and from `y` to the root of another of the same height, then
the second tree is the first one with `x` replaced by `y` at this position - or the presented and the authentic proof, or the two trees at some
node, hash different pairs to the same value.  This is what a circuit shows that checks an update. -/
theorem C102_two_roots (P : PoseidonParams F) (hP : Shaped P) (ht : 2 ≤ P.t) (leaves leaves' : List F) (h0' : leaves' ≠ [])
    (hsz : Nat.size (leaves.length - 1) = Nat.size (leaves'.length - 1)) (i : Nat) (hi : i < leaves.length) (x y : F) (sibling : List F)
    (hl : sibling.length = Nat.size (leaves.length - 1))
    (h : Poseidon.merkleProofRoot x sibling (directions (Nat.size (leaves.length - 1)) i) P = Poseidon.merkleTreeRoot leaves P)
    (h' : Poseidon.merkleProofRoot y sibling (directions (Nat.size (leaves.length - 1)) i) P = Poseidon.merkleTreeRoot leaves' P) :
    (leaves.getD i 0 = x ∧ leaves'.getD i 0 = y ∧ ∀ k ≠ i, leaves'.getD k 0 = leaves.getD k 0) ∨
      (∃ k < Nat.size (leaves.length - 1), CollideAt P (directions (Nat.size (leaves.length - 1)) i) x leaves[i] sibling
        (siblings (fun a b => PoseidonSpec.hash P [a, b]) (Nat.size (leaves.length - 1)) leaves i) k) ∨
      ∃ j < Nat.size (leaves.length - 1), ∃ k, TreesCollideAt P (Nat.size (leaves.length - 1)) (leaves.set i y) leaves' j k := by
  rcases C102_any_proof P hP ht leaves i hi x sibling hl h with hv | hc
  swap
  · exact .inr (.inl hc)
  have hne : leaves.set i y ≠ [] := by
    intro e
    have := congrArg List.length e
    simp at this
    simp [this] at hi
  have hx : x = leaves.getD i 0 ∨ _ := C96_membership P hP ht leaves (List.length_pos_iff.1 (by omega)) i
    (by have := Poseidon.length_le_size leaves.length (by omega); omega) x sibling hl h
  have hgi : leaves.getD i 0 = leaves[i] := List.getD_eq_getElem _ _ hi
  rcases hx with rfl | ⟨k, hk, hc⟩
  swap
  · rw [hgi] at hc
    exact .inr (.inl ⟨k, hk, hc⟩)
  rcases C96_trees P hP ht (leaves.set i y) leaves' hne h0' (by rw [List.length_set]; exact hsz) ((hv y).symm.trans h') with he | hc
  · refine .inl ⟨rfl, ?_, fun k hk => ?_⟩
    · rw [← he, List.getD_eq_getElem _ _ (by simpa using hi), List.getElem_set_self]
    · rw [← he, List.getD_eq_getElem?_getD, List.getD_eq_getElem?_getD, List.getElem?_set_ne (fun e => hk e.symm)]
  · rw [List.length_set] at hc
    exact .inr (.inr hc)

/-- Concrete: three leaves; the proof of leaf 1 with the leaf 6, and the proof of the free position 3 with the leaf 4. -/
example : Poseidon.merkleProofRoot 6 (siblings (fun a b => PoseidonSpec.hash toyP [a, b]) 2 [3, 5, 1] 1) [true, false] toyP =
      Poseidon.merkleTreeRoot [3, 6, 1] toyP ∧
    Poseidon.merkleProofRoot 4 (siblings (fun a b => PoseidonSpec.hash toyP [a, b]) 2 [3, 5, 1] 3) [true, true] toyP =
      Poseidon.merkleTreeRoot [3, 5, 1, 4] toyP :=
  ⟨C102_replace toyP toyP_shaped (by decide) [3, 5, 1] 1 (by decide) 6,
    (C102_append toyP toyP_shaped (by decide) [3, 5, 1] (by decide) (by decide) 4).2⟩

/-- Concrete: the hypotheses of `C102_two_roots` are met by the proof of leaf 1 of three leaves. -/
example : ([3, 5, 1] : List (ZMod 7)).getD 1 0 = 5 ∧ Nat.size (3 - 1) = 2 ∧
    Poseidon.merkleProofRoot 5 [3, 6] [true, false] toyP = Poseidon.merkleTreeRoot [3, 5, 1] toyP ∧
    Poseidon.merkleProofRoot 6 [3, 6] [true, false] toyP = Poseidon.merkleTreeRoot [3, 6, 1] toyP := by decide +kernel

end Fawkes.Props
