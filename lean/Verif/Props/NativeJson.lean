import Verif.Model.NativeJson
import Verif.Spec.NativeJson
import Verif.Spec.Edwards
import Verif.Props.FileLayout
import Verif.Lemmas.LinkSignal

/-!
# C119: points and Merkle proofs from files

What is read has the right form, but neither the curve nor the lengths are looked at.
-/

namespace Fawkes.Props

open Serde Files Json Json.Grammar Json.Data

variable {p : Nat} [Fact p.Prime]

/-! ### Points -/

theorem pointLayout_to (ha : Aligned p) (x y : ZMod p) : pointLayout.to (p := p) (x, y) = .ok (jsonPoint x y) := by
  show (do
    let u ← (do let j ← numTo x; pure (Json.obj [(chars! "x", j)]) : Except Panic Json)
    let j ← numTo y
    match u with
    | Json.obj l => pure (Json.obj (l ++ [(chars! "y", j)]))
    | _ => Except.error Panic.unwrap : Except Panic Json) = _
  rw [numTo_eq ha, numTo_eq ha]
  rfl

theorem pointLayout_is (j : Json) (x y : ZMod p) : Is pointLayout j (x, y) ↔ IsPoint j x y := by
  show (∃ b, IsNum b y ∧ ((∃ l, j = .obj l ∧ Member (chars! "y") l b ∧ ∃ a, ((∃ l, j = .obj l ∧ Member (chars! "x") l a) ∨ j = .arr [a]) ∧
    IsNum a x) ∨ ∃ l, j = .arr (l ++ [b]) ∧ ∃ a, ((∃ l', Json.arr l = .obj l' ∧ Member (chars! "x") l' a) ∨ Json.arr l = .arr [a]) ∧ IsNum a x)) ↔ _
  constructor
  · rintro ⟨b, hb, ⟨l, rfl, h1, a, ⟨l', e, h2⟩ | e, ha⟩ | ⟨l, rfl, a, ⟨l', e, h2⟩ | e, ha⟩⟩
    · cases e; exact ⟨a, b, .inl ⟨_, rfl, h2, h1⟩, ha, hb⟩
    · cases e
    · cases e
    · cases e; exact ⟨a, b, .inr rfl, ha, hb⟩
  · rintro ⟨a, b, ⟨l, rfl, h1, h2⟩ | rfl, ha, hb⟩
    · exact ⟨b, hb, .inl ⟨l, rfl, h2, a, .inl ⟨l, rfl, h1⟩, ha⟩⟩
    · exact ⟨b, hb, .inr ⟨[a], rfl, a, .inr rfl, ha⟩⟩

theorem pointLayout_named : Layout.Named pointLayout ∧ Layout.depth pointLayout ≤ 126 := by
  simp [pointLayout, Layout.Named, Layout.names, Layout.depth]

/-- C119: a point is written as its two coordinates and read back. -/
theorem C119_point_text (ha : Aligned p) (P : EdwardsPoint (ZMod p)) (Q : MontgomeryPoint (ZMod p)) :
    (∃ t, toText edwardsTo P = .ok t ∧ Text t (jsonPoint P.x P.y) ∧ ofText (edwardsOf p) t = some P) ∧
    ∃ t, toText montgomeryTo Q = .ok t ∧ Text t (jsonPoint Q.x Q.y) ∧ ofText (montgomeryOf p) t = some Q := by
  have hf := layout_faithful' (p := p) ha pointLayout pointLayout_named.1
  have key : ∀ x y : ZMod p, ∃ t, toText (pointLayout.to (p := p)) (x, y) = .ok t ∧ Text t (jsonPoint x y) ∧
      ofText (pointLayout.of p) t = some (x, y) := fun x y => by
    obtain ⟨t, h1, h2⟩ := spelled hf (pointLayout_named.2.trans (by omega)) (x, y) (pointLayout_to ha x y)
    obtain ⟨t', h3, h4⟩ := text_round_trip hf (pointLayout_named.2.trans (by omega)) (x, y)
    rw [h1] at h3; injection h3 with h3; subst h3
    exact ⟨t, h1, h2, h4⟩
  have lift : ∀ {B : Type} (f : pointLayout.ty.V (ZMod p) → B) t v, ofText (pointLayout.of p) t = some v →
      ofText (fun j => (pointLayout.of p j).map f) t = some (f v) := by
    intro B f t v h
    unfold ofText at h ⊢
    cases hj : Json.parse t with
    | none => rw [hj] at h; cases h
    | some j => rw [hj] at h; simp only at h ⊢; rw [h]; rfl
  obtain ⟨t, h1, h2, h3⟩ := key P.x P.y
  obtain ⟨t', h1', h2', h3'⟩ := key Q.x Q.y
  exact ⟨⟨t, h1, h2, lift _ t _ h3⟩, ⟨t', h1', h2', lift _ t' _ h3'⟩⟩

/-- C119: which texts are read as points, and as which. -/
theorem C119_point_read (ha : Aligned p) (t : List Char) (P : EdwardsPoint (ZMod p)) :
    ofText (edwardsOf p) t = some P ↔ ∃ j, Text t j ∧ depth j ≤ 127 ∧ IsPoint j P.x P.y := by
  refine ofText_iff (R := fun j (P : EdwardsPoint (ZMod p)) => IsPoint j P.x P.y) (fun j P => ?_) t P
  refine Iff.trans ?_ (pointLayout_is j P.x P.y)
  refine Iff.trans ?_ (layoutOf_iff ha pointLayout j ((P.x, P.y) : ZMod p × ZMod p))
  unfold edwardsOf
  rw [Option.map_eq_some_iff]
  constructor
  · rintro ⟨v, h, rfl⟩; exact h
  · exact fun h => ⟨_, h, rfl⟩

/-- C119: the curve is not looked at: for every curve there is a text that is read as a point outside it. -/
theorem C119_point_unchecked (ha : Aligned p) (hp : 3 < p) (d : ZMod p) :
    ∃ t P, ofText (edwardsOf p) t = some P ∧ ¬ OnCurve d P.x P.y := by
  obtain ⟨⟨t, -, -, h⟩, -⟩ := C119_point_text ha (⟨0, 2⟩ : EdwardsPoint (ZMod p)) ⟨0, 0⟩
  refine ⟨t, _, h, fun hc => ?_⟩
  have h3 : ((3 : Nat) : ZMod p) = 0 := by
    unfold OnCurve at hc
    push_cast
    linear_combination hc
  exact absurd (Nat.le_of_dvd (by omega) ((ZMod.natCast_eq_zero_iff _ _).1 h3)) (by omega)

/-! ### Merkle proofs -/

theorem merkleLayout_to (ha : Aligned p) (n : Nat) (m : SizedVec (ZMod p) n × SizedVec Bool n) :
    merkleProofTo n m = .ok (jsonMerkleProof m.1.items m.2.items) := by
  show (do
    let u ← (do let j ← vecTo numTo m.1.items; pure (Json.obj [(chars! "sibling", j)]) : Except Panic Json)
    let j ← vecTo (fun v : Bool => Except.ok (Json.bool v)) m.2.items
    match u with
    | Json.obj l => pure (Json.obj (l ++ [(chars! "path", j)]))
    | _ => Except.error Panic.unwrap : Except Panic Json) = _
  unfold vecTo
  rw [mapE_total (numTo_eq ha), mapE_total (g := Json.bool) (fun _ => rfl)]
  rfl

theorem merkleLayout_is (n : Nat) (j : Json) (m : SizedVec (ZMod p) n × SizedVec Bool n) :
    Is (merkleProofLayout n) j m ↔ IsMerkleProof j m.1.items m.2.items := by
  have hb : ∀ b, IsVec (fun (j : Json) (v : Bool) => j = .bool v) b m.2.items ↔ b = .arr (m.2.items.map .bool) := fun b => by
    constructor
    · rintro ⟨js, rfl, h⟩
      congr 1
      generalize m.2.items = l at h
      induction h with
      | nil => rfl
      | cons h _ ih => rw [h, ih]; rfl
    · rintro rfl
      exact ⟨_, rfl, List.forall₂_map_left_iff.2 (List.forall₂_same.2 fun _ _ => rfl)⟩
  show (∃ b, IsVec (fun (j : Json) (v : Bool) => j = .bool v) b m.2.items ∧ ((∃ l, j = .obj l ∧ Member (chars! "path") l b ∧
      ∃ a, ((∃ l, j = .obj l ∧ Member (chars! "sibling") l a) ∨ j = .arr [a]) ∧ IsVec IsNum a m.1.items) ∨
    ∃ l, j = .arr (l ++ [b]) ∧ ∃ a, ((∃ l', Json.arr l = .obj l' ∧ Member (chars! "sibling") l' a) ∨ Json.arr l = .arr [a]) ∧
      IsVec IsNum a m.1.items)) ↔ _
  simp only [hb]
  constructor
  · rintro ⟨b, hb, ⟨l, rfl, h1, a, ⟨l', e, h2⟩ | e, ha⟩ | ⟨l, rfl, a, ⟨l', e, h2⟩ | e, ha⟩⟩
    · cases e; exact ⟨a, b, .inl ⟨_, rfl, h2, h1⟩, ha, hb⟩
    · cases e
    · cases e
    · cases e; exact ⟨a, b, .inr rfl, ha, hb⟩
  · rintro ⟨a, b, ⟨l, rfl, h1, h2⟩ | rfl, ha, hb⟩
    · exact ⟨b, hb, .inl ⟨l, rfl, h2, a, .inl ⟨l, rfl, h1⟩, ha⟩⟩
    · exact ⟨b, hb, .inr ⟨[a], rfl, a, .inr rfl, ha⟩⟩

theorem merkleLayout_named (n : Nat) : Layout.Named (merkleProofLayout n) ∧ Layout.depth (merkleProofLayout n) ≤ 126 := by
  simp [merkleProofLayout, Layout.Named, Layout.names, Layout.depth]

/-- C119: a Merkle proof is written as its two lists and read back. -/
theorem C119_merkle_text (ha : Aligned p) (n : Nat) (m : SizedVec (ZMod p) n × SizedVec Bool n) :
    ∃ t, toText (merkleProofTo n) m = .ok t ∧ Text t (jsonMerkleProof m.1.items m.2.items) ∧ ofText (merkleProofOf p n) t = some m := by
  have hf := layout_faithful' (p := p) ha (merkleProofLayout n) (merkleLayout_named n).1
  obtain ⟨t, h1, h2⟩ := spelled hf ((merkleLayout_named n).2.trans (by omega)) m (merkleLayout_to ha n m)
  obtain ⟨t', h3, h4⟩ := text_round_trip hf ((merkleLayout_named n).2.trans (by omega)) m
  rw [h1] at h3; injection h3 with h3; subst h3
  exact ⟨t, h1, h2, h4⟩

/-- C119: which texts are read as Merkle proofs, and as which.  The length `n` of the type plays no part. -/
theorem C119_merkle_read (ha : Aligned p) (n : Nat) (t : List Char) (m : SizedVec (ZMod p) n × SizedVec Bool n) :
    ofText (merkleProofOf p n) t = some m ↔ ∃ j, Text t j ∧ depth j ≤ 127 ∧ IsMerkleProof j m.1.items m.2.items := by
  refine ofText_iff (R := fun j (m : SizedVec (ZMod p) n × SizedVec Bool n) => IsMerkleProof j m.1.items m.2.items) (fun j m => ?_) t m
  rw [← merkleLayout_is]
  exact layoutOf_iff ha (merkleProofLayout n) j m

/-- C119: so the native check of a Merkle proof that was read proves nothing unless the lengths are checked as well: for every length of
the type there is a text that is read as a proof with which every value is its own root, and for every list of siblings one with which
only the first `k` of them count. -/
theorem C119_merkle_unchecked (ha : Aligned p) (n : Nat) (Q : PoseidonParams (ZMod p)) :
    (∃ t m, ofText (merkleProofOf p n) t = some m ∧ ∀ x, Poseidon.merkleProofRoot x m.1.items m.2.items Q = .ok x) ∧
    ∀ (sibling : List (ZMod p)) (path : List Bool) (k : Nat), ∃ t m, ofText (merkleProofOf p n) t = some m ∧
      m.1.items = sibling ∧ ∀ x, Poseidon.merkleProofRoot x m.1.items m.2.items Q =
        Poseidon.merkleProofRoot x (sibling.take k) (path.take k) Q := by
  constructor
  · obtain ⟨t, -, -, h⟩ := C119_merkle_text ha n (⟨[]⟩, ⟨[]⟩)
    exact ⟨t, _, h, fun x => rfl⟩
  · intro sibling path k
    obtain ⟨t, -, -, h⟩ := C119_merkle_text ha n (⟨sibling⟩, ⟨path.take k⟩)
    refine ⟨t, _, h, rfl, fun x => ?_⟩
    show Poseidon.proofLoop Q x ((path.take k).zip sibling) = Poseidon.proofLoop Q x ((path.take k).zip (sibling.take k))
    have hz : ∀ (k : Nat) (a : List Bool) (b : List (ZMod p)), (a.take k).zip b = (a.take k).zip (b.take k) := by
      intro k
      induction k with
      | zero => intro a b; rfl
      | succ k ih =>
        intro a b
        cases a with
        | nil => rfl
        | cons x a =>
          cases b with
          | nil => rfl
          | cons y b => simp only [List.take_succ_cons, List.zip_cons_cons, ih a b]
    rw [hz]

/-! ### Circuits -/

/-- C119: data with a vector of another length than that of its type never come into a circuit: `alloc` panics. -/
theorem C119_alloc {F : Type} [Field F] [DecidableEq F] (t : Ty) (v : t.V F) (s s' : CS F) (a : t.S F)
    (h : (t.alloc (some v)).run s = .ok (a, s')) : t.okV F v := by
  have key : ∀ s, Post s (t.alloc (some v)) fun _ _ => t.okV F v := by
    clear h a
    induction t with
    | num => exact fun s a s' _ => trivial
    | bool => exact fun s a s' _ => trivial
    | pair t u iht ihu =>
      intro s
      refine Post.bind (iht v.1 s) fun a s1 _ h1 => ?_
      exact Post.bind (ihu v.2 s1) fun b s2 _ h2 => Post.pure ⟨h1, h2⟩
    | vec n t ih =>
      intro s
      have hall : ∀ (l : List (t.V F)) (s : CS F), Post s (listMapM (fun x => t.alloc (some x)) l) fun _ _ => ∀ x ∈ l, t.okV F x := by
        intro l
        induction l with
        | nil => intro s; exact Post.pure (by simp)
        | cons x l ihl =>
          intro s
          refine Post.bind (ih x s) fun a s1 _ h1 => Post.bind (ihl s1) fun b s2 _ h2 => Post.pure ?_
          exact List.forall_mem_cons.2 ⟨h1, h2⟩
      refine Post.bind (Q := fun l _ => l.length = v.items.length ∧ ∀ x ∈ v.items, t.okV F x)
        (fun l s1 h => ⟨post_listMapM_length _ _ s l s1 h, hall _ s l s1 h⟩) fun l s1 _ h1 => Post.lift ?_
      intro r hr
      unfold SizedVec.collect at hr
      split at hr
      · next hlen => exact ⟨h1.1.symm.trans hlen, h1.2⟩
      · cases hr
  exact key s a s' h

/-- C119: so a Merkle proof that a circuit takes has the length of its type, wherever it comes from. -/
theorem C119_merkle_circuit (n : Nat) (m : SizedVec (ZMod p) n × SizedVec Bool n) (s s' : CS (ZMod p))
    (a : (merkleProofLayout n).ty.S (ZMod p)) (h : (Ty.alloc (F := ZMod p) (merkleProofLayout n).ty (some m)).run s = .ok (a, s')) :
    m.1.items.length = n ∧ m.2.items.length = n := by
  have := C119_alloc (F := ZMod p) (merkleProofLayout n).ty m s s' a h
  exact ⟨this.1.1, this.2.1⟩

/-! ### Examples -/

/-- A proof for a tree of height 20, as the type says, with one level. -/
example : (match ofText (merkleProofOf bnR 20) (chars! "{\"sibling\": [\"7\"], \"path\": [true]}") with
    | some m => (m.1.items, m.2.items)
    | none => ([], [])) = ([7], [true]) := by decide +kernel

/-- A point outside every curve. -/
example : (match ofText (edwardsOf bnR) (chars! "{\"y\": \"2\", \"x\": \"0\"}") with
    | some P => [P.x, P.y]
    | none => []) = [0, 2] := by decide +kernel

/-- Proofs of the right length are taken. -/
example : ((merkleProofLayout 2).ty.okV (ZMod bnR) ((⟨[3, 5]⟩, ⟨[true, false]⟩) : SizedVec (ZMod bnR) 2 × SizedVec Bool 2)) ∧
    ∃ a s', (Ty.alloc (F := ZMod bnR) (merkleProofLayout 2).ty (some ((⟨[3, 5]⟩, ⟨[true, false]⟩) : SizedVec (ZMod bnR) 2 × SizedVec Bool 2))).run
      (CS.new .prove) = .ok (a, s') := by
  have hv : (merkleProofLayout 2).ty.okV (ZMod bnR) ((⟨[3, 5]⟩, ⟨[true, false]⟩) : SizedVec (ZMod bnR) 2 × SizedVec Bool 2) :=
    ⟨⟨rfl, fun _ _ => trivial⟩, ⟨rfl, fun _ _ => trivial⟩⟩
  obtain ⟨a, s', h, -⟩ := (merkleProofLayout 2).ty.runs_alloc (CS.honest_new .prove) _ hv
  exact ⟨hv, a, s', h⟩

end Fawkes.Props
