import Verif.Props.Poseidon

/-!
# C96: a Merkle root commits to its leaves

Collisions of a hash with short outputs always exist, so "there is a collision" would say nothing.  The theorems name the
collision: it is among the pairs which the two computations at hand hash.
-/

namespace Fawkes.Props

open PoseidonSpec

variable {F : Type} [Field F] [DecidableEq F]

/-- What is hashed at a node with value `x` and sibling `s`, for the direction `b`: `true` puts the sibling first. -/
def nodeInputs (b : Bool) (x s : F) : List F := if b then [s, x] else [x, s]

/-- At level `k` of two proofs with the same directions the two computations hash different inputs to the same value: `x` and
`x'` are the values reached after the first `k` levels. -/
def CollideAt (P : PoseidonParams F) (path : List Bool) (leaf leaf' : F) (sibling sibling' : List F) (k : Nat) : Prop :=
  ∃ b x x' s s' h, path[k]? = some b ∧ sibling[k]? = some s ∧ sibling'[k]? = some s' ∧
    Poseidon.merkleProofRoot leaf (sibling.take k) (path.take k) P = .ok x ∧
    Poseidon.merkleProofRoot leaf' (sibling'.take k) (path.take k) P = .ok x' ∧
    nodeInputs b x s ≠ nodeInputs b x' s' ∧
    Poseidon.poseidon (nodeInputs b x s) P = .ok h ∧ Poseidon.poseidon (nodeInputs b x' s') P = .ok h

theorem merkleProofRoot_cons (P : PoseidonParams F) (leaf s : F) (sibling : List F) (b : Bool) (path : List Bool) :
    Poseidon.merkleProofRoot leaf (s :: sibling) (b :: path) P =
      (Poseidon.poseidon (nodeInputs b leaf s) P).bind fun x => Poseidon.merkleProofRoot x sibling path P := rfl

theorem nodeInputs_inj {b : Bool} {x x' s s' : F} (h : nodeInputs b x s = nodeInputs b x' s') : x = x' ∧ s = s' := by
  unfold nodeInputs at h
  cases b <;> simp at h <;> tauto

/-- C96 (proofs): two Merkle proofs with the same directions that give the same root have the same leaf and the same siblings, or
at some level the two computations hash different pairs to the same value.  For every parameter set and every depth. -/
theorem C96_proofs (P : PoseidonParams F) (path : List Bool) (leaf leaf' : F) (sibling sibling' : List F)
    (hl : sibling.length = path.length) (hl' : sibling'.length = path.length) (root : F)
    (h : Poseidon.merkleProofRoot leaf sibling path P = .ok root)
    (h' : Poseidon.merkleProofRoot leaf' sibling' path P = .ok root) :
    (leaf = leaf' ∧ sibling = sibling') ∨ ∃ k < path.length, CollideAt P path leaf leaf' sibling sibling' k := by
  induction path generalizing leaf leaf' sibling sibling' with
  | nil =>
    rw [List.length_nil, List.length_eq_zero_iff] at hl hl'
    subst hl hl'
    have e : leaf = root := Except.ok.inj h
    have e' : leaf' = root := Except.ok.inj h'
    exact .inl ⟨e.trans e'.symm, rfl⟩
  | cons b path ih =>
    obtain ⟨s, sibling, rfl⟩ := List.exists_cons_of_length_eq_add_one hl
    obtain ⟨s', sibling', rfl⟩ := List.exists_cons_of_length_eq_add_one hl'
    rw [merkleProofRoot_cons] at h h'
    cases hx : Poseidon.poseidon (nodeInputs b leaf s) P with
    | error e => rw [hx] at h; cases h
    | ok x =>
      cases hx' : Poseidon.poseidon (nodeInputs b leaf' s') P with
      | error e => rw [hx'] at h'; cases h'
      | ok x' =>
        rw [hx] at h; rw [hx'] at h'
        rcases ih x x' sibling sibling' (by simpa using hl) (by simpa using hl') h h' with ⟨rfl, rfl⟩ | ⟨k, hk, hc⟩
        · by_cases he : nodeInputs b leaf s = nodeInputs b leaf' s'
          · obtain ⟨rfl, rfl⟩ := nodeInputs_inj he
            exact .inl ⟨rfl, rfl⟩
          · exact .inr ⟨0, by simp, b, leaf, leaf', s, s', x, rfl, rfl, rfl, rfl, rfl, he, hx, hx'⟩
        · obtain ⟨b1, y, y', t, t', g, h1, h2, h3, h4, h5, h6, h7, h8⟩ := hc
          refine .inr ⟨k + 1, by simpa using hk, b1, y, y', t, t', g, h1, h2, h3, ?_, ?_, h6, h7, h8⟩
          · rw [List.take_succ_cons, List.take_succ_cons, merkleProofRoot_cons, hx]; exact h4
          · rw [List.take_succ_cons, List.take_succ_cons, merkleProofRoot_cons, hx']; exact h5

theorem padded_padded (d : Nat) (leaves : List F) (h : leaves.length ≤ 2 ^ d) : padded d (padded d leaves) = padded d leaves := by
  have : (padded d leaves).length = 2 ^ d := Poseidon.padded_length d leaves h
  conv_lhs => unfold padded
  rw [show leaves ++ List.replicate (2 ^ d - leaves.length) 0 = padded d leaves from rfl, this]
  simp

/-- C96 (membership): whatever proof for position `i` gives the root of a tree, its leaf is the leaf at position `i` of the tree (zero
beyond the given leaves), or at some level the given proof and the authentic one hash different pairs to the same value. -/
theorem C96_membership (P : PoseidonParams F) (hP : Shaped P) (ht : 2 ≤ P.t) (leaves : List F) (h0 : leaves ≠ []) (i : Nat)
    (hi : i < 2 ^ Nat.size (leaves.length - 1)) (x : F) (sibling : List F) (hl : sibling.length = Nat.size (leaves.length - 1))
    (h : Poseidon.merkleProofRoot x sibling (directions (Nat.size (leaves.length - 1)) i) P = Poseidon.merkleTreeRoot leaves P) :
    x = leaves.getD i 0 ∨ ∃ k < Nat.size (leaves.length - 1),
      CollideAt P (directions (Nat.size (leaves.length - 1)) i) x (leaves.getD i 0) sibling
        (siblings (fun a b => PoseidonSpec.hash P [a, b]) (Nat.size (leaves.length - 1)) leaves i) k := by
  have hpos := List.length_pos_iff.2 h0
  have hle := Poseidon.length_le_size _ hpos
  set d := Nat.size (leaves.length - 1) with hd
  have hpl := Poseidon.padded_length d leaves hle
  have hget : (padded d leaves)[i]? = some (leaves.getD i 0) := by
    unfold padded
    by_cases hil : i < leaves.length
    · rw [List.getElem?_append_left hil, List.getD_eq_getElem?_getD, List.getElem?_eq_getElem hil]; rfl
    · rw [List.getElem?_append_right (by omega), List.getElem?_replicate, if_pos (by omega), List.getD_eq_default _ _ (by omega)]
  have hauth := Poseidon.merkleProofRoot_ok P _ (fun a b => Poseidon.poseidon_ok hP [a, b] (by simp) (by simpa using ht))
    (padded d leaves) d i hpl.le _ hget
  have hs : siblings (fun a b => PoseidonSpec.hash P [a, b]) d (padded d leaves) i =
      siblings (fun a b => PoseidonSpec.hash P [a, b]) d leaves i := by
    unfold siblings; rw [padded_padded d leaves hle]
  have hr : root (fun a b => PoseidonSpec.hash P [a, b]) d (padded d leaves) =
      root (fun a b => PoseidonSpec.hash P [a, b]) d leaves := by
    unfold root; rw [padded_padded d leaves hle]
  rw [hs, hr] at hauth
  rw [C23_root P hP ht leaves h0] at h
  have hdl : (directions d i).length = d := by simp [directions]
  rcases C96_proofs P (directions d i) x (leaves.getD i 0) sibling _ (hl.trans hdl.symm) (by simp [siblings, directions]) _ h hauth with
    ⟨e, -⟩ | ⟨k, hk, hc⟩
  · exact .inl e
  · exact .inr ⟨k, by rwa [hdl] at hk, hc⟩

/-- At height `j` and position `i` two trees hash different pairs to the same value. -/
def TreesCollideAt (P : PoseidonParams F) (d : Nat) (leaves leaves' : List F) (j i : Nat) : Prop :=
  let h := fun a b => PoseidonSpec.hash P [a, b]
  ∃ a b a' b', (level h (padded d leaves) j)[2 * i]? = some a ∧ (level h (padded d leaves) j)[2 * i + 1]? = some b ∧
    (level h (padded d leaves') j)[2 * i]? = some a' ∧ (level h (padded d leaves') j)[2 * i + 1]? = some b' ∧
    (a, b) ≠ (a', b') ∧ Poseidon.poseidon [a, b] P = Poseidon.poseidon [a', b'] P

theorem up_inj (h : F → F → F) {l l' : List F} (n : Nat) (hl : l.length = 2 * n) (hl' : l'.length = 2 * n) (he : up h l = up h l') :
    l = l' ∨ ∃ i a b a' b', l[2 * i]? = some a ∧ l[2 * i + 1]? = some b ∧ l'[2 * i]? = some a' ∧ l'[2 * i + 1]? = some b' ∧
      (a, b) ≠ (a', b') ∧ h a b = h a' b' := by
  induction n generalizing l l' with
  | zero =>
    rw [Nat.mul_zero, List.length_eq_zero_iff] at hl hl'
    exact .inl (hl.trans hl'.symm)
  | succ n ih =>
    match l, l', hl, hl' with
    | a :: b :: l, a' :: b' :: l', hl, hl' =>
      simp only [up, List.cons.injEq] at he
      rcases ih (l := l) (l' := l') (by simp at hl; omega) (by simp at hl'; omega) he.2 with rfl | ⟨i, hi⟩
      · by_cases hab : (a, b) = (a', b')
        · rw [Prod.mk.injEq] at hab
          exact .inl (by rw [hab.1, hab.2])
        · exact .inr ⟨0, a, b, a', b', rfl, rfl, rfl, rfl, hab, he.1⟩
      · refine .inr ⟨i + 1, ?_⟩
        simpa [Nat.mul_add] using hi

theorem level_inj (h : F → F → F) (d : Nat) {l l' : List F} (hl : l.length = 2 ^ d) (hl' : l'.length = 2 ^ d) (j : Nat) (hj : j ≤ d)
    (he : level h l j = level h l' j) :
    l = l' ∨ ∃ k < j, ∃ i a b a' b', (level h l k)[2 * i]? = some a ∧ (level h l k)[2 * i + 1]? = some b ∧
      (level h l' k)[2 * i]? = some a' ∧ (level h l' k)[2 * i + 1]? = some b' ∧ (a, b) ≠ (a', b') ∧ h a b = h a' b' := by
  induction j with
  | zero => exact .inl he
  | succ j ih =>
    have hp : 2 ^ (d - j) = 2 * 2 ^ (d - (j + 1)) := by rw [show d - j = d - (j + 1) + 1 by omega, pow_succ]; ring
    rcases up_inj h (2 ^ (d - (j + 1))) ((Poseidon.level_length h l d j hl (by omega)).trans hp)
      ((Poseidon.level_length h l' d j hl' (by omega)).trans hp) he with e | hc
    · rcases ih (by omega) e with e | ⟨k, hk, hc⟩
      · exact .inl e
      · exact .inr ⟨k, by omega, hc⟩
    · exact .inr ⟨j, by omega, hc⟩

/-- C96 (trees): two lists of leaves with trees of the same height and the same root are the same up to trailing zeros, or at some
node the two trees hash different pairs to the same value. -/
theorem C96_trees (P : PoseidonParams F) (hP : Shaped P) (ht : 2 ≤ P.t) (leaves leaves' : List F) (h0 : leaves ≠ []) (h0' : leaves' ≠ [])
    (hsz : Nat.size (leaves.length - 1) = Nat.size (leaves'.length - 1))
    (h : Poseidon.merkleTreeRoot leaves P = Poseidon.merkleTreeRoot leaves' P) :
    (∀ i, leaves.getD i 0 = leaves'.getD i 0) ∨
      ∃ j < Nat.size (leaves.length - 1), ∃ i, TreesCollideAt P (Nat.size (leaves.length - 1)) leaves leaves' j i := by
  have hle := Poseidon.length_le_size _ (List.length_pos_iff.2 h0)
  have hle' := Poseidon.length_le_size _ (List.length_pos_iff.2 h0')
  rw [C23_root P hP ht leaves h0, C23_root P hP ht leaves' h0', ← hsz] at h
  rw [← hsz] at hle'
  set d := Nat.size (leaves.length - 1) with hd
  have hr : root (fun a b => PoseidonSpec.hash P [a, b]) d leaves = root (fun a b => PoseidonSpec.hash P [a, b]) d leaves' :=
    Except.ok.inj h
  have hpl := Poseidon.padded_length d leaves hle
  have hpl' := Poseidon.padded_length d leaves' hle'
  have h1 := Poseidon.level_length (fun a b => PoseidonSpec.hash P [a, b]) _ d d hpl le_rfl
  have h1' := Poseidon.level_length (fun a b => PoseidonSpec.hash P [a, b]) _ d d hpl' le_rfl
  rw [Nat.sub_self, pow_zero] at h1 h1'
  obtain ⟨y, hy⟩ := List.length_eq_one_iff.1 h1
  obtain ⟨y', hy'⟩ := List.length_eq_one_iff.1 h1'
  unfold root at hr
  rw [hy, hy'] at hr
  have hyy : y = y' := hr
  rcases level_inj _ d hpl hpl' d le_rfl (by rw [hy, hy', hyy]) with e | ⟨j, hj, i, a, b, a', b', c1, c2, c3, c4, c5, c6⟩
  · left
    intro i
    have hg : ∀ l : List F, (padded d l).getD i 0 = l.getD i 0 := by
      intro l
      unfold padded
      by_cases hil : i < l.length
      · rw [List.getD_append _ _ _ _ hil]
      · rw [List.getD_append_right _ _ _ _ (by omega), List.getD_eq_default l _ (by omega), List.getD_eq_getElem?_getD,
          List.getElem?_replicate]
        split <;> rfl
    rw [← hg leaves, ← hg leaves', e]
  · refine .inr ⟨j, hj, i, a, b, a', b', c1, c2, c3, c4, c5, ?_⟩
    have hh : ∀ a b, Poseidon.poseidon [a, b] P = .ok (PoseidonSpec.hash P [a, b]) := fun a b =>
      Poseidon.poseidon_ok hP [a, b] (by simp) (by simpa using ht)
    rw [hh, hh, show PoseidonSpec.hash P [a, b] = PoseidonSpec.hash P [a', b'] from c6]

/-- C96 (limit): the root does not commit to the number of leaves: zeros may be appended as long as the height stays the same. -/
theorem C96_trailing_zeros (P : PoseidonParams F) (leaves : List F) (h0 : leaves ≠ []) (k : Nat)
    (hk : leaves.length + k ≤ 2 ^ Nat.size (leaves.length - 1)) :
    Poseidon.merkleTreeRoot (leaves ++ List.replicate k 0) P = Poseidon.merkleTreeRoot leaves P := by
  have hpos := List.length_pos_iff.2 h0
  have hsz : Nat.size (leaves.length + k - 1) = Nat.size (leaves.length - 1) := by
    refine le_antisymm ?_ (Nat.size_le_size (by omega))
    rw [Nat.size_le]
    omega
  unfold Poseidon.merkleTreeRoot
  rw [List.length_append, List.length_replicate, if_neg (by omega), if_neg (by omega), hsz]
  dsimp only
  rw [List.append_assoc, List.replicate_append_replicate, show k + (2 ^ Nat.size (leaves.length - 1) - (leaves.length + k)) =
      2 ^ Nat.size (leaves.length - 1) - leaves.length by omega]

/-- C96 (limit): nor to the height: a full tree has the same root as the tree over the hashes of the pairs of its leaves, so an
inner node passes for a leaf of the shorter tree. -/
theorem C96_height (P : PoseidonParams F) (hP : Shaped P) (ht : 2 ≤ P.t) (d : Nat) (leaves : List F) (hl : leaves.length = 2 ^ (d + 1)) :
    Poseidon.merkleTreeRoot leaves P = Poseidon.merkleTreeRoot (up (fun a b => PoseidonSpec.hash P [a, b]) leaves) P := by
  have hul : (up (fun a b => PoseidonSpec.hash P [a, b]) leaves).length = 2 ^ d := by
    rw [Poseidon.up_length, hl, pow_succ]; omega
  have hsz : ∀ n, Nat.size (2 ^ n - 1) = n := fun n => by
    refine le_antisymm ?_ ?_
    · rw [Nat.size_le]; have := Nat.two_pow_pos n; omega
    · by_contra hc
      have h1 : Nat.size (2 ^ n - 1) ≤ n - 1 := by omega
      rw [Nat.size_le] at h1
      have h2 : 2 ^ n = 2 * 2 ^ (n - 1) := by rw [mul_comm, ← pow_succ]; congr 1; omega
      have := Nat.two_pow_pos (n - 1)
      omega
  have hne : leaves ≠ [] := by
    rintro rfl; have := Nat.two_pow_pos (d + 1); rw [List.length_nil] at hl; omega
  have hne' : up (fun a b => PoseidonSpec.hash P [a, b]) leaves ≠ [] := by
    intro h; rw [h, List.length_nil] at hul; have := Nat.two_pow_pos d; omega
  rw [C23_root P hP ht _ hne, C23_root P hP ht _ hne', hul, hl, hsz, hsz]
  have hp : ∀ (n : Nat) (l : List F), l.length = 2 ^ n → padded n l = l := fun n l h => by unfold padded; rw [h]; simp
  have hlev : ∀ (l : List F) (j : Nat), level (fun a b => PoseidonSpec.hash P [a, b]) l (j + 1) =
      level (fun a b => PoseidonSpec.hash P [a, b]) (up (fun a b => PoseidonSpec.hash P [a, b]) l) j := by
    intro l j
    induction j with
    | zero => rfl
    | succ j ih => rw [level, ih]; rfl
  unfold root
  rw [hp _ _ hl, hp _ _ hul, hlev]

/-! ### Concrete cases, over the small parameters `toyP`, whose hash has collisions -/

/-- Different siblings with the same root: the hypotheses of `C96_proofs` hold and it finds the collision. -/
example : ∃ k < 1, CollideAt toyP [false] 0 0 [0] [4] k :=
  (C96_proofs toyP [false] 0 0 [0] [4] rfl rfl 5 (by decide +kernel) (by decide +kernel)).resolve_left (by decide +kernel)

/-- The leaf 3 "proved" at position 2 of the tree over 3, 5, 1. -/
example : ∃ k < 2, CollideAt toyP [false, true] 3 1 [0, 5] [0, 5] k := by
  have h := (C96_membership toyP toyP_shaped (by decide) [3, 5, 1] (by simp) 2 (by decide) 3 [0, 5] (by decide)
    (by decide +kernel)).resolve_left (by decide +kernel)
  rwa [show siblings (fun a b => PoseidonSpec.hash toyP [a, b]) (Nat.size (List.length [(3 : ZMod 7), 5, 1] - 1)) [3, 5, 1] 2 = [0, 5]
    by decide +kernel] at h

/-- An authentic proof. -/
example : Poseidon.merkleProofRoot 1 [0, 5] (directions 2 2) toyP = Poseidon.merkleTreeRoot [3, 5, 1] toyP := by decide +kernel

/-- Two trees with the same root. -/
example : ∃ j < 1, ∃ i, TreesCollideAt toyP 1 [0, 0] [1, 4] j i :=
  (C96_trees toyP toyP_shaped (by decide) [0, 0] [1, 4] (by simp) (by simp) rfl (by decide +kernel)).resolve_left
    fun h => absurd (h 0) (by decide +kernel)

example : Poseidon.merkleTreeRoot [3, 5, 1, 0] toyP = Poseidon.merkleTreeRoot [3, 5, 1] toyP :=
  C96_trailing_zeros toyP [3, 5, 1] (by simp) 1 (by decide)

example : Poseidon.merkleTreeRoot [3, 5, 1, 2] toyP = Poseidon.merkleTreeRoot [5, 1] toyP :=
  (C96_height toyP toyP_shaped (by decide) 1 [3, 5, 1, 2] rfl).trans (by decide +kernel)

end Fawkes.Props
