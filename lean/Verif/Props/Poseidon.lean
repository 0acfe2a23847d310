import Verif.Lemmas.Poseidon
import Verif.Props.Bitify

/-!
# Properties C19–C24, C60, C61 and C64: Poseidon and Merkle trees

Conventions as in `Verif.Props.Num`.  `Poseidon.*` are the native functions, `CPoseidon.*` the gadgets,
`PoseidonSpec.*` the independent definitions of the HADES permutation and of binary hash trees.
-/

set_option linter.unusedSectionVars false

namespace Fawkes.Props

open Fawkes PoseidonSpec

variable {F : Type} [Field F] [DecidableEq F]

/-- Small parameters for the examples. -/
def toyP : PoseidonParams (ZMod 7) := ⟨[1, 2, 3, 4, 5], [[1, 2, 3], [3, 4, 1], [2, 6, 4]], 3, 3, 2⟩

theorem toyP_shaped : Shaped toyP := ⟨rfl, rfl, by decide⟩

/-! ## C19 -/

/-- C19 (sound): for every parameter set, in every satisfying assignment the output is the native hash of the
inputs' values (which in particular does not panic). -/
theorem C19_sound (P : PoseidonParams F) (inputs : List (CNum F)) (s s' : CS F) (r : CNum F) (w : Index → F)
    (hw : IsAssignment w) (h : (CPoseidon.poseidon inputs P).run s = .ok (r, s')) (hs : s'.Sat w) :
    Poseidon.poseidon (inputs.map fun x => x.lc.eval w) P = .ok (r.lc.eval w) :=
  CPoseidon.spec_poseidon hw inputs P s r s' h hs

/-- C19 (complete): whenever the native hash of the values exists, the honest prover is not rejected and the
output carries it. -/
theorem C19_complete (P : PoseidonParams F) (inputs : List (CNum F)) (vs : List F) (s : CS F) (hs : s.Honest)
    (hv : List.Forall₂ (Has s) inputs vs) (v : F) (h : Poseidon.poseidon vs P = .ok v) :
    ∃ r s', (CPoseidon.poseidon inputs P).run s = .ok (r, s') ∧ s'.Honest ∧ Has s' r v := by
  obtain ⟨r, s', hr, _, hh, hq⟩ := CPoseidon.runs_poseidon P hs hv h
  exact ⟨r, s', hr, hh, hq⟩

/-- C19 (arities): for parameters of the declared shape both sides panic exactly when the number of inputs is 0 or
exceeds `t`, and then with a failed assertion. -/
theorem C19_arity (P : PoseidonParams F) (hP : Shaped P) (inputs : List (CNum F)) (vs : List F) (s : CS F)
    (hs : s.Honest) (hv : List.Forall₂ (Has s) inputs vs) :
    ((inputs.length = 0 ∨ P.t < inputs.length) →
      (CPoseidon.poseidon inputs P).run s = .error .assertion ∧ Poseidon.poseidon vs P = .error .assertion) ∧
    (¬ (inputs.length = 0 ∨ P.t < inputs.length) →
      (∃ r, (CPoseidon.poseidon inputs P).run s = .ok r) ∧ ∃ v, Poseidon.poseidon vs P = .ok v) := by
  have hl : inputs.length = vs.length := List.Forall₂.length_eq hv
  refine ⟨fun h => ⟨CPoseidon.poseidon_arity inputs P h s, Poseidon.poseidon_arity vs P (hl ▸ h)⟩, fun h => ?_⟩
  have hok := Poseidon.poseidon_ok hP vs (by omega) (by omega)
  obtain ⟨r, s', hr, _⟩ := C19_complete P inputs vs s hs hv _ hok
  exact ⟨⟨_, hr⟩, _, hok⟩

/-- Concrete: a two-input hash over the field of order 7, natively and in a circuit with two allocated inputs. -/
example : Poseidon.poseidon [3, 5] toyP = .ok 5 := by decide +kernel
example : ∃ r s', (do let x ← CNum.alloc (some 3); let y ← CNum.alloc (some 5); CPoseidon.poseidon [x, y] toyP :
    M (ZMod 7) _).run (CS.new .test) = .ok (r, s') ∧ s'.Honest ∧ Has s' r 5 := by
  obtain ⟨r, s', hr, -, hh, hv⟩ : Runs (CS.new .test) (do
      let x ← CNum.alloc (some 3); let y ← CNum.alloc (some 5); CPoseidon.poseidon [x, y] toyP : M (ZMod 7) _)
      (fun r s' => Has s' r 5) :=
    Runs.bind (runs_alloc (CS.honest_new .test) 3) fun x s1 _ hs1 hx =>
      Runs.bind (runs_alloc hs1 5) fun y s2 e2 hs2 hy =>
        CPoseidon.runs_poseidon toyP hs2 (.cons (hx.1.mono e2) (.cons hy.1 .nil)) (by decide +kernel)
  exact ⟨r, s', hr, hh, hv⟩
example : ((do let x ← CNum.alloc (some 3); CPoseidon.poseidon [x] ⟨[1], [[2]], 1, 1, 0⟩ : M (ZMod 7) _).run
    (CS.new .test)).map (fun r => (r.1.value, r.2.cons.length)) = .ok (some 4, 3) := by decide +kernel

/-! ## C20 -/

/-- C20: the salted hash is the hash of the inputs followed by the seed element; it needs at least one input and
room for the seed. -/
theorem C20_native (P : PoseidonParams F) (inputs : List F) (seed : F) :
    (0 < inputs.length ∧ inputs.length < P.t →
      Poseidon.poseidonWithSalt inputs seed P = Poseidon.poseidon (inputs ++ [seed]) P) ∧
    (¬ (0 < inputs.length ∧ inputs.length < P.t) →
      Poseidon.poseidonWithSalt inputs seed P = .error .assertion) := by
  unfold Poseidon.poseidonWithSalt
  refine ⟨fun h => by rw [if_neg (not_not.2 h.1), if_neg (not_not.2 h.2)], fun h => ?_⟩
  by_cases h1 : 0 < inputs.length
  · rw [if_neg (not_not.2 h1), if_pos (fun h2 => h ⟨h1, h2⟩)]
  · rw [if_pos h1]

/-- C20 (sound): the salted gadget equals the salted native hash in every satisfying assignment. -/
theorem C20_sound (P : PoseidonParams F) (inputs : List (CNum F)) (seed : F) (s s' : CS F) (r : CNum F)
    (w : Index → F) (hw : IsAssignment w) (h : (CPoseidon.poseidonWithSalt inputs seed P).run s = .ok (r, s'))
    (hs : s'.Sat w) :
    Poseidon.poseidonWithSalt (inputs.map fun x => x.lc.eval w) seed P = .ok (r.lc.eval w) :=
  CPoseidon.spec_poseidonWithSalt hw inputs seed P s r s' h hs

/-- C20 (complete) -/
theorem C20_complete (P : PoseidonParams F) (inputs : List (CNum F)) (seed : F) (vs : List F) (s : CS F)
    (hs : s.Honest) (hv : List.Forall₂ (Has s) inputs vs) (v : F)
    (h : Poseidon.poseidonWithSalt vs seed P = .ok v) :
    ∃ r s', (CPoseidon.poseidonWithSalt inputs seed P).run s = .ok (r, s') ∧ s'.Honest ∧ Has s' r v := by
  obtain ⟨r, s', hr, _, hh, hq⟩ := CPoseidon.runs_poseidonWithSalt seed P hs hv h
  exact ⟨r, s', hr, hh, hq⟩

/-- C20 (arities): the salted gadget panics when there is no input or no room for the seed. -/
theorem C20_arity (P : PoseidonParams F) (inputs : List (CNum F)) (seed : F) (s : CS F)
    (h : ¬ (0 < inputs.length ∧ inputs.length < P.t)) :
    (CPoseidon.poseidonWithSalt inputs seed P).run s = .error .assertion := by
  unfold CPoseidon.poseidonWithSalt
  by_cases h1 : 0 < inputs.length
  · rw [if_neg (not_not.2 h1), if_pos (fun h2 => h ⟨h1, h2⟩)]; rfl
  · rw [if_pos h1]; rfl

/-- Concrete: the salted hash of `[3]` with seed element 5 is the hash of `[3, 5]`; with three inputs it panics. -/
example : Poseidon.poseidonWithSalt [3] 5 toyP = .ok 5 ∧
    Poseidon.poseidonWithSalt [3, 1, 1] 5 toyP = .error .assertion := by decide +kernel

/-! ## C21 -/

/-- C21 (sound): if the path signals are boolean (`path` spells the booleans `bs`), then in every satisfying
assignment the result is the native proof root on the values, for proofs of every length. -/
theorem C21_sound (P : PoseidonParams F) (leaf : CNum F) (sibling : List (CNum F)) (path : List (CBool F))
    (bs : List Bool) (s s' : CS F) (r : CNum F) (w : Index → F) (hw : IsAssignment w)
    (hlen : path.length = sibling.length)
    (hb : List.Forall₂ (fun (c : CBool F) b => c.num.lc.eval w = if b = true then 1 else 0) path bs)
    (h : (CPoseidon.merkleProofRoot leaf sibling path P).run s = .ok (r, s')) (hs : s'.Sat w) :
    Poseidon.merkleProofRoot (leaf.lc.eval w) (sibling.map fun x => x.lc.eval w) bs P = .ok (r.lc.eval w) := by
  have hz : List.Forall₂ (fun (c : CBool F × CNum F) b => c.1.num.eval w = if b = true then 1 else 0)
      (path.zip sibling) bs := by
    clear h
    induction hb generalizing sibling with
    | nil => exact .nil
    | cons hc _ ih =>
      cases sibling with
      | nil => simp at hlen
      | cons x sibling => exact .cons hc (ih sibling (by simpa using hlen))
  have h2 : (path.zip sibling).map (fun x => x.2.eval w) = sibling.map fun x => x.lc.eval w := by
    rw [show (fun x : CBool F × CNum F => x.2.eval w) = (fun x => x.lc.eval w) ∘ Prod.snd from rfl,
      ← List.map_map, List.map_snd_zip (by omega)]
  have := CPoseidon.spec_proofLoop hw P (path.zip sibling) bs hz leaf s r s' h hs
  rw [h2] at this
  exact this

/-- C21 (complete) -/
theorem C21_complete (P : PoseidonParams F) (leaf : CNum F) (sibling : List (CNum F)) (path : List (CBool F))
    (x : F) (vs : List F) (bs : List Bool) (s : CS F) (hs : s.Honest) (hx : Has s leaf x)
    (hv : List.Forall₂ (Has s) sibling vs)
    (hb : List.Forall₂ (fun (c : CBool F) b => Has s c.num (if b = true then 1 else 0)) path bs)
    (v : F) (h : Poseidon.merkleProofRoot x vs bs P = .ok v) :
    ∃ r s', (CPoseidon.merkleProofRoot leaf sibling path P).run s = .ok (r, s') ∧ s'.Honest ∧ Has s' r v := by
  have hz : List.Forall₂ (fun (c : CBool F × CNum F) v => Has s c.1.num (if v.1 = true then 1 else 0) ∧ Has s c.2 v.2)
      (path.zip sibling) (bs.zip vs) := by
    clear h
    induction hb generalizing sibling vs with
    | nil => exact .nil
    | cons hc _ ih =>
      cases hv with
      | nil => exact .nil
      | cons h1 hv => exact .cons ⟨hc, h1⟩ (ih _ _ hv)
  obtain ⟨r, s', hr, _, hh, hq⟩ := CPoseidon.runs_proofLoop P _ _ hs hz hx h
  exact ⟨r, s', hr, hh, hq⟩

/-- C21 (limit): the hypothesis that the path is boolean is needed.  Allocating a `CBool` does not constrain it to a
bit, and for a direction signal of any value `d` the honest-prover run is accepted and returns the hash of
`x + d (v - x)` and `v - d (v - x)`. -/
theorem C21_any_direction (P : PoseidonParams F) (leaf sib : CNum F) (dir : CNum F) (x v d h : F) (s : CS F)
    (hs : s.Honest) (hx : Has s leaf x) (hv : Has s sib v) (hd : Has s dir d) (hc : dir.asConst = none)
    (hh : Poseidon.poseidon [x + d * (v - x), x + v - (x + d * (v - x))] P = .ok h) :
    ∃ r s', (CPoseidon.merkleProofRoot leaf [sib] [⟨dir⟩] P).run s = .ok (r, s') ∧ s'.Honest ∧ Has s' r h := by
  obtain ⟨r, s', hr, -, hq, hw⟩ : Runs s (CPoseidon.merkleProofRoot leaf [sib] [⟨dir⟩] P) (fun r s' => Has s' r h) := by
    refine Runs.bind (runs_switch_gen hs hv hx hd fun h => absurd hc h) fun first s1 e1 hs1 hf => ?_
    have h2 := has_sub (has_add (hx.mono e1) (hv.mono e1)) hf
    exact Runs.bind (CPoseidon.runs_poseidon P hs1 (.cons hf (.cons h2 .nil)) hh) fun q s2 e2 hs2 hq => Runs.pure hs2 hq
  exact ⟨r, s', hr, hq, hw⟩

/-- Concrete: with leaf 3, sibling 5 and "direction" 2 the circuit returns 3, while the native root is 5 for both
directions. -/
example : Poseidon.poseidon [3 + 2 * (5 - 3), 3 + 5 - (3 + 2 * (5 - 3))] toyP = .ok 3 ∧
    Poseidon.merkleProofRoot 3 [5] [false] toyP = .ok 5 ∧ Poseidon.merkleProofRoot 3 [5] [true] toyP = .ok 5 := by
  decide +kernel
example : ∃ (s : CS (ZMod 7)) (a b d : CNum (ZMod 7)), s.Honest ∧ Has s a 3 ∧ Has s b 5 ∧ Has s d 2 ∧
    d.asConst = none := by
  obtain ⟨a, s1, _, _, hs1, ha, _⟩ := runs_alloc (CS.honest_new (F := ZMod 7) .test) 3
  obtain ⟨b, s2, _, e2, hs2, hb, _⟩ := runs_alloc hs1 5
  obtain ⟨d, s3, _, e3, hs3, hd, hf⟩ := runs_alloc hs2 2
  exact ⟨s3, a, b, d, hs3, (ha.mono e2).mono e3, hb.mono e3, hd, hf.asConst⟩

/-! ## C22 -/

/-- C22 (sound): for every number of leaves, in every satisfying assignment the gadget's root is the native root of
the values. -/
theorem C22_sound (P : PoseidonParams F) (leaves : List (CNum F)) (s s' : CS F) (r : CNum F) (w : Index → F)
    (hw : IsAssignment w) (h : (CPoseidon.merkleTreeRoot leaves P).run s = .ok (r, s')) (hs : s'.Sat w) :
    Poseidon.merkleTreeRoot (leaves.map fun x => x.lc.eval w) P = .ok (r.lc.eval w) :=
  CPoseidon.spec_merkleTreeRoot hw leaves P s r s' h hs

/-- C22 (complete) -/
theorem C22_complete (P : PoseidonParams F) (leaves : List (CNum F)) (vs : List F) (s : CS F) (hs : s.Honest)
    (hv : List.Forall₂ (Has s) leaves vs) (v : F) (h : Poseidon.merkleTreeRoot vs P = .ok v) :
    ∃ r s', (CPoseidon.merkleTreeRoot leaves P).run s = .ok (r, s') ∧ s'.Honest ∧ Has s' r v := by
  obtain ⟨r, s', hr, _, hh, hq⟩ := CPoseidon.runs_merkleTreeRoot P hs hv h
  exact ⟨r, s', hr, hh, hq⟩

/-- Concrete: three leaves; the root of one hashing circuit. -/
example : (Poseidon.merkleTreeRoot [3, 5, 1] toyP).toOption = some 2 := by
  have h2 : Nat.size 2 = 2 := by decide +kernel
  have h : (Poseidon.merkleTreeRoot [3, 5, 1] toyP) =
    (Poseidon.treeLevels toyP (2 ^ Nat.size 2) (Nat.size 2) 0 ([3, 5, 1] ++ List.replicate (2 ^ Nat.size 2 - 3) 0)
      >>= fun st => getIdx st 0) := by unfold Poseidon.merkleTreeRoot; rw [if_neg (by simp)]; rfl
  rw [h, h2]; decide +kernel
example : ∃ (s : CS (ZMod 7)) (l : List (CNum (ZMod 7))), s.Honest ∧ List.Forall₂ (Has s) l [3, 5, 1] := by
  obtain ⟨a, s1, _, _, hs1, ha, _⟩ := runs_alloc (CS.honest_new (F := ZMod 7) .test) 3
  obtain ⟨b, s2, _, e2, hs2, hb, _⟩ := runs_alloc hs1 5
  obtain ⟨d, s3, _, e3, hs3, hd, hf⟩ := runs_alloc hs2 1
  exact ⟨s3, [a, b, d], hs3, .cons ((ha.mono e2).mono e3) (.cons (hb.mono e3) (.cons hd .nil))⟩

/-! ## C23 -/

/-- C23: for well-shaped parameters with `t ≥ 2` the tree root is the root of the perfect binary tree over the leaves
padded with zeros to the next power of two, with the two-input hash at the inner nodes; the tree has
`Nat.size (n - 1)` levels: the smallest `d` with `n ≤ 2^d`. -/
theorem C23_root (P : PoseidonParams F) (hP : Shaped P) (ht : 2 ≤ P.t) (leaves : List F) (h0 : leaves ≠ []) :
    Poseidon.merkleTreeRoot leaves P =
      .ok (root (fun a b => PoseidonSpec.hash P [a, b]) (Nat.size (leaves.length - 1)) leaves) :=
  Poseidon.merkleTreeRoot_ok P _ (fun a b => Poseidon.poseidon_ok hP [a, b] (by simp) (by simpa using ht)) leaves
    (List.length_pos_iff.2 h0)

/-- C23: the height used is the least one that fits. -/
theorem C23_height (n : Nat) (hn : 0 < n) : n ≤ 2 ^ Nat.size (n - 1) ∧ ∀ d, n ≤ 2 ^ d → Nat.size (n - 1) ≤ d := by
  refine ⟨Poseidon.length_le_size n hn, fun d hd => Nat.size_le.2 (by omega)⟩

/-- C23: every leaf has a proof: for every position `i` the siblings on the path from leaf `i` with the binary digits
of `i` as directions verify against the tree root. -/
theorem C23_proofs_verify (P : PoseidonParams F) (hP : Shaped P) (ht : 2 ≤ P.t) (leaves : List F) (i : Nat) (x : F)
    (hx : leaves[i]? = some x) :
    Poseidon.merkleProofRoot x
        (siblings (fun a b => PoseidonSpec.hash P [a, b]) (Nat.size (leaves.length - 1)) leaves i)
        (directions (Nat.size (leaves.length - 1)) i) P = Poseidon.merkleTreeRoot leaves P := by
  have hpos : 0 < leaves.length := (Nat.zero_le _).trans_lt (List.getElem?_eq_some_iff.1 hx).1
  rw [C23_root P hP ht leaves (List.length_pos_iff.1 hpos)]
  exact Poseidon.merkleProofRoot_ok P _ (fun a b => Poseidon.poseidon_ok hP [a, b] (by simp) (by simpa using ht))
    leaves _ i (Poseidon.length_le_size _ hpos) x hx

/-- C23: an empty list of leaves panics. -/
theorem C23_empty (P : PoseidonParams F) : Poseidon.merkleTreeRoot [] P = .error .assertion := rfl

/-- C23: one leaf is its own root, without any hashing. -/
theorem C23_single (P : PoseidonParams F) (x : F) : Poseidon.merkleTreeRoot [x] P = .ok x := rfl

/-- Concrete: the proof of leaf 2 of 3. -/
example : siblings (fun a b => PoseidonSpec.hash toyP [a, b]) 2 [3, 5, 1] 2 = [0, 5] ∧ directions 2 2 = [false, true] ∧
    Poseidon.merkleProofRoot 1 [0, 5] [false, true] toyP = .ok 2 := by decide +kernel

/-! ## C24 -/

/-- C24: for well-shaped parameters, `poseidon` panics iff there are no inputs or more than `t`. -/
theorem C24_panics_iff (P : PoseidonParams F) (hP : Shaped P) (inputs : List F) :
    (∃ e, Poseidon.poseidon inputs P = .error e) ↔ inputs.length = 0 ∨ P.t < inputs.length := by
  constructor
  · rintro ⟨e, he⟩
    by_contra h
    rw [Poseidon.poseidon_ok hP inputs (by omega) (by omega)] at he
    cases he
  · exact fun h => ⟨_, Poseidon.poseidon_arity inputs P h⟩

/-- C24: no length separation: trailing zeros do not change the hash, as long as they fit; for every parameter set. -/
theorem C24_zero_padding (P : PoseidonParams F) (inputs : List F) (k : Nat) (h0 : inputs ≠ [])
    (hk : inputs.length + k ≤ P.t) :
    Poseidon.poseidon (inputs ++ List.replicate k 0) P = Poseidon.poseidon inputs P := by
  have hpos := List.length_pos_iff.2 h0
  unfold Poseidon.poseidon
  rw [List.length_append, List.length_replicate, if_neg (not_not.2 hk), if_neg (by omega), if_neg (by omega),
    if_neg (by omega), List.append_assoc, List.replicate_append_replicate,
    show k + (P.t - (inputs.length + k)) = P.t - inputs.length by omega]

example : Poseidon.poseidon [3, 5, 0] toyP = Poseidon.poseidon [3, 5] toyP ∧
    Poseidon.poseidon [] toyP = .error .assertion ∧ Poseidon.poseidon [1, 1, 1, 1] toyP = .error .assertion := by
  decide +kernel

/-! ## C60 -/

theorem genVec_length {σ E : Type} (gen : σ → Except E (F × σ)) (n : Nat) (s : σ) (l : List F) (s' : σ)
    (h : Poseidon.genVec gen n s = .ok (l, s')) : l.length = n := by
  induction n generalizing s l with
  | zero => cases h; rfl
  | succ n ih =>
    rw [Poseidon.genVec] at h
    cases h1 : gen s with
    | error e => rw [h1] at h; cases h
    | ok x =>
      cases h2 : Poseidon.genVec gen n x.2 with
      | error e => rw [h1] at h; simp only [bind, Except.bind] at h; rw [h2] at h; cases h
      | ok xs =>
        rw [h1] at h; simp only [bind, Except.bind] at h; rw [h2] at h
        cases h
        simp [ih x.2 xs.1 h2]

theorem genRows_shape {σ E : Type} (gen : σ → Except E (F × σ)) (t n : Nat) (s : σ) (l : List (List F)) (s' : σ)
    (h : Poseidon.genRows gen t n s = .ok (l, s')) : l.length = n ∧ ∀ row ∈ l, row.length = t := by
  induction n generalizing s l with
  | zero => cases h; simp
  | succ n ih =>
    rw [Poseidon.genRows] at h
    cases h1 : Poseidon.genVec gen t s with
    | error e => rw [h1] at h; cases h
    | ok x =>
      cases h2 : Poseidon.genRows gen t n x.2 with
      | error e => rw [h1] at h; simp only [bind, Except.bind] at h; rw [h2] at h; cases h
      | ok xs =>
        rw [h1] at h; simp only [bind, Except.bind] at h; rw [h2] at h
        cases h
        have := ih x.2 xs.1 h2
        refine ⟨by simp [this.1], fun row hrow => ?_⟩
        rcases List.mem_cons.1 hrow with rfl | hrow
        · exact genVec_length gen t s x.1 x.2 h1
        · exact this.2 row hrow

theorem newParams_ok {σ E : Type} {init : List Char → σ} {gen : σ → Except E (F × σ)} {t f p : Nat}
    {P : PoseidonParams F} (h : Poseidon.newParams init gen t f p = .ok P) :
    ∃ s s', Poseidon.genVec gen (f + p) (init (Poseidon.salt t f p)) = .ok (P.c, s) ∧
      Poseidon.genRows gen t t s = .ok (P.m, s') ∧ P.t = t ∧ P.f = f ∧ P.p = p := by
  unfold Poseidon.newParams at h
  cases h1 : Poseidon.genVec gen (f + p) (init (Poseidon.salt t f p)) with
  | error e => rw [h1] at h; cases h
  | ok x =>
    cases h2 : Poseidon.genRows gen t t x.2 with
    | error e => rw [h1] at h; simp only [bind, Except.bind] at h; rw [h2] at h; cases h
    | ok xs =>
      rw [h1] at h; simp only [bind, Except.bind] at h; rw [h2] at h
      cases h
      exact ⟨x.2, xs.2, rfl, h2, rfl, rfl, rfl⟩

/-- C60: whatever the random stream, generated parameters have `f + p` round constants and a `t × t` matrix, and
record `t`, `f`, `p`. -/
theorem C60_shape {σ E : Type} (init : List Char → σ) (gen : σ → Except E (F × σ)) (t f p : Nat)
    (P : PoseidonParams F) (h : Poseidon.newParams init gen t f p = .ok P) :
    Shaped P ∧ P.t = t ∧ P.f = f ∧ P.p = p := by
  obtain ⟨s, s', h1, h2, h3, h4, h5⟩ := newParams_ok h
  have hr := genRows_shape _ _ _ _ _ _ h2
  exact ⟨⟨by rw [genVec_length _ _ _ _ _ h1, h4, h5], by rw [hr.1, h3], by rw [h3]; exact hr.2⟩, h3, h4, h5⟩

/-- C60: hence hashing between 1 and `t` inputs with generated parameters never panics, natively or (for an honest
prover) in a circuit. -/
theorem C60_no_panic {σ E : Type} (init : List Char → σ) (gen : σ → Except E (F × σ)) (t f p : Nat)
    (P : PoseidonParams F) (h : Poseidon.newParams init gen t f p = .ok P) (vs : List F)
    (h0 : 0 < vs.length) (ht : vs.length ≤ t) :
    (∃ v, Poseidon.poseidon vs P = .ok v) ∧
    ∀ (s : CS F) (inputs : List (CNum F)), s.Honest → List.Forall₂ (Has s) inputs vs →
      ∃ r, (CPoseidon.poseidon inputs P).run s = .ok r := by
  obtain ⟨hP, hPt, -⟩ := C60_shape init gen t f p P h
  have hok := Poseidon.poseidon_ok hP vs h0 (hPt ▸ ht)
  refine ⟨⟨_, hok⟩, fun s inputs hs hv => ?_⟩
  obtain ⟨r, s', hr, _⟩ := C19_complete _ inputs vs s hs hv _ hok
  exact ⟨_, hr⟩

/-- Concrete: a counter as stream. -/
example : Poseidon.newParams (F := ZMod 7) (E := Panic) (fun _ => (0 : Nat)) (fun n => .ok ((n : ZMod 7), n + 1)) 2 2 1 =
    .ok ⟨[0, 1, 2], [[3, 4], [5, 6]], 2, 2, 1⟩ := by rfl

/-! ## C61 -/

/-- C61: one Poseidon hash adds at most `3 (t f + p)` constraints, on every back end and for all inputs. -/
theorem C61_poseidon_count (P : PoseidonParams F) (inputs : List (CNum F)) (s s' : CS F) (r : CNum F)
    (h : (CPoseidon.poseidon inputs P).run s = .ok (r, s')) :
    s'.cons.length ≤ s.cons.length + 3 * (P.t * P.f + P.p) := (CPoseidon.cost_poseidon inputs P s r s' h).1

/-- C61: a Merkle proof of depth `d` adds at most `d (3 (t f + p) + 1)` constraints. -/
theorem C61_merkle_count (P : PoseidonParams F) (leaf : CNum F) (sibling : List (CNum F)) (path : List (CBool F))
    (s s' : CS F) (r : CNum F) (h : (CPoseidon.merkleProofRoot leaf sibling path P).run s = .ok (r, s')) :
    s'.cons.length ≤ s.cons.length + sibling.length * (3 * (P.t * P.f + P.p) + 1) := by
  refine (CPoseidon.cost_proofLoop P _ leaf s r s' h).1.trans ?_
  gcongr
  simp

/-- C61: `is_zero` adds at most 3 constraints. -/
theorem C61_isZero_count (a : CNum F) (s s' : CS F) (r : CBool F) (h : (CNum.isZero a).run s = .ok (r, s')) :
    s'.cons.length ≤ s.cons.length + 3 := (cost_isZero a s r s' h).1

/-- C61: two runs of the hash on inputs with equal linear combinations (whatever the witness values, on back ends
that agree on checking) add the same number of constraints. -/
theorem C61_poseidon_shape (P : PoseidonParams F) (a b : List (CNum F))
    (hab : List.Forall₂ (fun x y => x.lc = y.lc) a b) (s t s' t' : CS F) (hst : s.SameShape t) (r q : CNum F)
    (h1 : (CPoseidon.poseidon a P).run s = .ok (r, s')) (h2 : (CPoseidon.poseidon b P).run t = .ok (q, t')) :
    s'.SameShape t' ∧ s'.cons.length = t'.cons.length := by
  obtain ⟨h, -⟩ := CPoseidon.rel_poseidon P hab s t hst _ _ _ _ h1 h2
  refine ⟨h, ?_⟩
  have := congrArg List.length h.cons
  simpa using this

/-- Concrete: the bound is met by one non-constant input with `t = f = 1`, `p = 0`. -/
example : ((do let x ← CNum.alloc (some 3); CPoseidon.poseidon [x] ⟨[1], [[2]], 1, 1, 0⟩ : M (ZMod 7) _).run
    (CS.new .test)).map (fun r => r.2.cons.length) = .ok (3 * (1 * 1 + 0)) := by decide +kernel

/-! ## C64 -/

/-- C64: for well-shaped parameters and between 1 and `t` inputs, `poseidon` computes the HADES permutation of the
zero-padded inputs and returns its first element. -/
theorem C64_hades (P : PoseidonParams F) (hP : Shaped P) (inputs : List F) (h0 : 0 < inputs.length)
    (ht : inputs.length ≤ P.t) : Poseidon.poseidon inputs P = .ok (PoseidonSpec.hash P inputs) :=
  Poseidon.poseidon_ok hP inputs h0 ht

/-- Concrete: with one full round and the identity matrix the hash of `[x]` is `(x + c)^5`. -/
example (x c : F) : PoseidonSpec.hash ⟨[c], [[1]], 1, 1, 0⟩ [x] = (x + c) ^ 5 := by
  simp [PoseidonSpec.hash, permute, schedule, round, mulVec]

end Fawkes.Props
