import Verif.Model.Contract
import Verif.Props.Groth16

/-!
# Property C66: what the generated contract accepts
-/

namespace Fawkes.Props

open Groth16 Groth16.Contract

/-! ### Specification: the points words and data stand for -/

/-- Two words are the coordinates of the point `P` of `G1`: both are reduced, two zeros are infinity. -/
def IsG1 (x y : Word) (P : E1) : Prop :=
  x.toNat < bnQ ∧ y.toNat < bnQ ∧ coords P = if x = 0 ∧ y = 0 then none else some ((x.toNat : ZMod bnQ), (y.toNat : ZMod bnQ))

/-- Four words are the coordinates of the point `P` of `G2`, imaginary parts first. -/
def IsG2 (x0 x1 y0 y1 : Word) (P : E2) : Prop :=
  (x0.toNat < bnQ ∧ x1.toNat < bnQ ∧ y0.toNat < bnQ ∧ y1.toNat < bnQ) ∧
  coords P = (if x0 = 0 ∧ x1 = 0 ∧ y0 = 0 ∧ y1 = 0 then none else
    some ((⟨x1.toNat, x0.toNat⟩ : Fq2 (ZMod bnQ)), (⟨y1.toNat, y0.toNat⟩ : Fq2 (ZMod bnQ)))) ∧
  bnR • P = 0

theorem coords_inj {L : Type} [CommRing L] {b : L} {P Q : (curve b).Point} (h : coords P = coords Q) : P = Q := by
  cases P <;> cases Q <;> simp [coords] at h
  · rfl
  · obtain ⟨rfl, rfl⟩ := h; rfl

theorem coords_eq_none {L : Type} [CommRing L] {b : L} {P : (curve b).Point} : coords P = none ↔ P = .zero := by
  cases P <;> simp [coords]

theorem coords_eq_some {L : Type} [CommRing L] {b : L} {P : (curve b).Point} {x y : L} :
    coords P = some (x, y) ↔ ∃ h, P = .some x y h := by
  cases P with
  | zero => simp [coords]
  | some x' y' h =>
    simp only [coords, Option.some.injEq, Prod.mk.injEq, WeierstrassCurve.Affine.Point.some.injEq]
    constructor
    · rintro ⟨rfl, rfl⟩; exact ⟨h, rfl, rfl⟩
    · rintro ⟨_, h1, h2⟩; exact ⟨h1, h2⟩

theorem decodeG1_iff (x y : Word) (P : E1) : decodeG1 x y = some P ↔ IsG1 x y P := by
  unfold decodeG1 IsG1
  by_cases hr : bnQ ≤ x.toNat ∨ bnQ ≤ y.toNat
  · rw [if_pos hr]
    constructor
    · intro h; cases h
    · rintro ⟨h1, h2, -⟩; omega
  rw [if_neg hr]
  push Not at hr
  by_cases hz : x = 0 ∧ y = 0
  · rw [if_pos hz, if_pos hz, coords_eq_none]
    simp only [hr.1, hr.2, true_and, Option.some.injEq]
    exact eq_comm
  rw [if_neg hz, if_neg hz, coords_eq_some]
  simp only [hr.1, hr.2, true_and]
  split
  · next h => simp [eq_comm, h]
  · next h => simp [h]

theorem decodeG2_iff (x0 x1 y0 y1 : Word) (P : E2) : decodeG2 x0 x1 y0 y1 = some P ↔ IsG2 x0 x1 y0 y1 P := by
  unfold decodeG2 IsG2
  by_cases hr : bnQ ≤ x0.toNat ∨ bnQ ≤ x1.toNat ∨ bnQ ≤ y0.toNat ∨ bnQ ≤ y1.toNat
  · rw [if_pos hr]
    constructor
    · intro h; cases h
    · rintro ⟨⟨h1, h2, h3, h4⟩, -⟩; omega
  rw [if_neg hr]
  push Not at hr
  by_cases hz : x0 = 0 ∧ x1 = 0 ∧ y0 = 0 ∧ y1 = 0
  · rw [if_pos hz, if_pos hz, coords_eq_none]
    simp only [hr, true_and, Option.some.injEq, and_self]
    constructor
    · rintro rfl; refine ⟨rfl, ?_⟩; rw [smul_zero]
    · rintro ⟨h, -⟩; exact h.symm
  rw [if_neg hz, if_neg hz, coords_eq_some]
  simp only [hr, true_and, and_self]
  split
  · next h =>
    split
    · next h' =>
      simp only [Option.some.injEq]
      constructor
      · rintro rfl; exact ⟨⟨h, rfl⟩, h'⟩
      · rintro ⟨⟨_, rfl⟩, _⟩; rfl
    · next h' =>
      simp only [reduceCtorEq, false_iff]
      rintro ⟨⟨_, rfl⟩, hh⟩
      exact h' hh
  · next h => simp [h]

theorem bnQ_lt : bnQ < 2 ^ 256 := by decide

theorem ofNat_toNat {n : Nat} (h : n < bnQ) : (BitVec.ofNat 256 n).toNat = n := by
  rw [BitVec.toNat_ofNat, Nat.mod_eq_of_lt (lt_trans h bnQ_lt)]

theorem ofNat_eq_zero {n : Nat} (h : n < bnQ) : (BitVec.ofNat 256 n : Word) = 0 ↔ n = 0 := by
  constructor
  · intro h'
    have := congrArg BitVec.toNat h'
    rw [ofNat_toNat h] at this
    simpa using this
  · rintro rfl; rfl

/-- The numbers of a field element, as words. -/
theorem word_cast (x : ZMod bnQ) : (((BitVec.ofNat 256 x.val : Word).toNat : Nat) : ZMod bnQ) = x := by
  rw [ofNat_toNat (ZMod.val_lt x), ZMod.natCast_zmod_val]

theorem word_eq_zero (x : ZMod bnQ) : (BitVec.ofNat 256 x.val : Word) = 0 ↔ x = 0 := by
  rw [ofNat_eq_zero (ZMod.val_lt x), ZMod.val_eq_zero]

theorem three_ne_zero_bnQ : (3 : ZMod bnQ) ≠ 0 := by decide +kernel

theorem two_ne_zero_bnQ : (2 : ZMod bnQ) ≠ 0 := by decide +kernel

/-- The points of the curve do not have two zero coordinates. -/
theorem not_nonsingular_zero : ¬ (curve bnB).Nonsingular 0 0 := by
  rw [nonsingular_iff two_ne_zero_bnQ three_ne_zero_bnQ bnB_ne_zero]
  intro h
  apply bnB_ne_zero
  rw [zero_pow two_ne_zero, zero_pow three_ne_zero, zero_add] at h
  exact h.symm

/-- The words of a point, read again, are the point. -/
theorem encodeG1_isG1 (P : E1) (r : G1Point) : IsG1 (r.write 3 (encodeG1 P)).X (r.write 3 (encodeG1 P)).Y P := by
  cases P with
  | zero =>
    change IsG1 0 0 _
    exact ⟨by decide, by decide, rfl⟩
  | some x y h =>
    refine ⟨(ofNat_toNat (ZMod.val_lt x)).trans_lt (ZMod.val_lt x), (ofNat_toNat (ZMod.val_lt y)).trans_lt (ZMod.val_lt y), ?_⟩
    change some (x, y) = if (BitVec.ofNat 256 x.val : Word) = 0 ∧ (BitVec.ofNat 256 y.val : Word) = 0 then none
      else some ((((BitVec.ofNat 256 x.val : Word).toNat : Nat) : ZMod bnQ), (((BitVec.ofNat 256 y.val : Word).toNat : Nat) : ZMod bnQ))
    have hz : ¬ ((BitVec.ofNat 256 x.val : Word) = 0 ∧ (BitVec.ofNat 256 y.val : Word) = 0) := by
      rw [word_eq_zero, word_eq_zero]
      rintro ⟨rfl, rfl⟩
      exact not_nonsingular_zero h
    rw [word_cast, word_cast, if_neg hz]

theorem IsG1.unique {x y : Word} {P Q : E1} (h : IsG1 x y P) (h' : IsG1 x y Q) : P = Q :=
  coords_inj (h.2.2.trans h'.2.2.symm)

theorem IsG2.unique {x0 x1 y0 y1 : Word} {P Q : E2} (h : IsG2 x0 x1 y0 y1 P) (h' : IsG2 x0 x1 y0 y1 Q) : P = Q :=
  coords_inj (h.2.1.trans h'.2.1.symm)

/-! ### The functions of the library -/

theorem plus_ok (mem : List Word) (p1 p2 r : G1Point) (h : plus mem p1 p2 = .ok r) :
    ∃ P Q, IsG1 p1.X p1.Y P ∧ IsG1 p2.X p2.Y Q ∧ IsG1 r.X r.Y (P + Q) := by
  unfold plus ecAdd at h
  cases h1 : decodeG1 p1.X p1.Y with
  | none => simp [h1] at h
  | some P =>
    cases h2 : decodeG1 p2.X p2.Y with
    | none => simp [h1, h2] at h
    | some Q =>
      simp only [List.cons_append, List.nil_append, List.take_succ_cons, List.getD_cons_zero, List.getD_cons_succ, h1, h2,
        Option.bind_eq_bind, Option.bind_some, Option.pure_def, Except.ok.injEq] at h
      subst h
      exact ⟨P, Q, (decodeG1_iff _ _ _).1 h1, (decodeG1_iff _ _ _).1 h2, encodeG1_isG1 _ _⟩

theorem plus_of (mem : List Word) {p1 p2 : G1Point} {P Q : E1} (h1 : IsG1 p1.X p1.Y P) (h2 : IsG1 p2.X p2.Y Q) :
    ∃ r, plus mem p1 p2 = .ok r ∧ IsG1 r.X r.Y (P + Q) := by
  rw [← decodeG1_iff] at h1 h2
  refine ⟨_, ?_, encodeG1_isG1 _ ⟨0, 0⟩⟩
  unfold plus ecAdd
  simp [h1, h2]

theorem scalarMul_ok (mem : List Word) (p r : G1Point) (s : Word) (h : scalarMul mem p s = .ok r) :
    ∃ P, IsG1 p.X p.Y P ∧ IsG1 r.X r.Y (s.toNat • P) := by
  unfold scalarMul ecMul at h
  cases h1 : decodeG1 p.X p.Y with
  | none => simp [h1] at h
  | some P =>
    simp only [List.cons_append, List.nil_append, List.take_succ_cons, List.getD_cons_zero, List.getD_cons_succ, h1,
      Option.bind_eq_bind, Option.bind_some, Option.pure_def, Except.ok.injEq] at h
    subst h
    exact ⟨P, (decodeG1_iff _ _ _).1 h1, encodeG1_isG1 _ _⟩

theorem scalarMul_of (mem : List Word) {p : G1Point} (s : Word) {P : E1} (h1 : IsG1 p.X p.Y P) :
    ∃ r, scalarMul mem p s = .ok r ∧ IsG1 r.X r.Y (s.toNat • P) := by
  rw [← decodeG1_iff] at h1
  refine ⟨_, ?_, encodeG1_isG1 _ ⟨0, 0⟩⟩
  unfold scalarMul ecMul
  simp [h1]

/-- No point of the curve has the second coordinate zero: `-3` is not a cube. -/
theorem no_two_torsion (x : ZMod bnQ) : ¬ (curve bnB).Nonsingular x 0 := by
  rw [nonsingular_iff two_ne_zero_bnQ three_ne_zero_bnQ bnB_ne_zero, C52_constants.1]
  intro h
  have h3 : x ^ 3 = ((bnQ - 3 : Nat) : ZMod bnQ) := by
    have : ((bnQ - 3 : Nat) : ZMod bnQ) = -3 := by decide +kernel
    rw [this]; linear_combination -h
  have hx : x ≠ 0 := by
    rintro rfl
    rw [zero_pow two_ne_zero, zero_pow three_ne_zero] at h
    exact three_ne_zero_bnQ (by linear_combination -h)
  have h4 : (((bnQ - 3 : Nat) : ZMod bnQ)) ^ ((bnQ - 1) / 3) = 1 := by
    rw [← h3, ← pow_mul, show 3 * ((bnQ - 1) / 3) = bnQ - 1 by decide]
    exact ZMod.pow_card_sub_one_eq_one hx
  have h5 : ((powMod bnQ 254 (bnQ - 3) ((bnQ - 1) / 3) : Nat) : ZMod bnQ) = 1 := by
    rw [powMod_eq _ _ _ _ (by decide), ZMod.natCast_mod, Nat.cast_pow, h4]
  revert h5
  decide +kernel

theorem negate_iff (p : G1Point) (hX : p.X.toNat < bnQ) (hY : p.Y.toNat < bnQ) (P : E1) :
    IsG1 (negate p).X (negate p).Y (-P) ↔ IsG1 p.X p.Y P := by
  have hq : PRIME_Q.toNat = bnQ := by decide
  unfold negate
  by_cases hz : p.X = 0 ∧ p.Y = 0
  · rw [if_pos hz]
    unfold IsG1
    simp only [if_pos hz, coords_eq_none, and_self, if_true]
    have : -P = .zero ↔ P = .zero := neg_eq_zero
    rw [this]
    simp [hX, hY, show 0 < bnQ by decide]
  rw [if_neg hz]
  have hm : (PRIME_Q - p.Y % PRIME_Q).toNat = bnQ - p.Y.toNat := by
    rw [BitVec.toNat_sub, BitVec.toNat_umod, hq, Nat.mod_eq_of_lt hY]
    have := bnQ_lt
    omega
  by_cases hy : p.Y = 0
  · -- neither pair of words is a point
    constructor
    · rintro ⟨-, h, -⟩
      change (PRIME_Q - p.Y % PRIME_Q).toNat < bnQ at h
      rw [hm, hy] at h
      exact absurd h (by decide)
    · rintro ⟨-, -, h⟩
      rw [if_neg hz, hy, coords_eq_some] at h
      obtain ⟨h, -⟩ := h
      have h0 : (((0 : Word).toNat : Nat) : ZMod bnQ) = 0 := by simp
      rw [h0] at h
      exact absurd h (no_two_torsion _)
  have hy' : p.Y.toNat ≠ 0 := fun h => hy (BitVec.eq_of_toNat_eq (by simpa using h))
  have hne : ¬ (p.X = 0 ∧ PRIME_Q - p.Y % PRIME_Q = 0) := by
    rintro ⟨-, h⟩
    have := congrArg BitVec.toNat h
    rw [hm] at this
    simp at this
    omega
  have hc : (((PRIME_Q - p.Y % PRIME_Q).toNat : Nat) : ZMod bnQ) = -((p.Y.toNat : Nat) : ZMod bnQ) := by
    rw [hm, Nat.cast_sub hY.le]; simp
  unfold IsG1
  simp only [if_neg hz, if_neg hne, hc]
  simp only [hm, hX, hY, true_and, show bnQ - p.Y.toNat < bnQ by omega]
  have hn : ∀ x y : ZMod bnQ, (curve bnB).negY x y = -y := by
    intro x y; simp [WeierstrassCurve.Affine.negY, curve]
  cases P with
  | zero =>
    have : -(WeierstrassCurve.Affine.Point.zero : E1) = .zero := rfl
    rw [this]; simp [coords]
  | some x y h =>
    rw [WeierstrassCurve.Affine.Point.neg_some]
    simp only [coords, hn, Option.some.injEq, Prod.mk.injEq, neg_inj]

/-- The words of the contract's constants for `G1` data. -/
theorem constantG1_iff (d : G1PointData (ZMod bnQ)) (P : E1) :
    IsG1 (constantG1 d).X (constantG1 d).Y P ↔ coords P = g1Point d := by
  unfold IsG1 constantG1 constant g1Point
  simp only [word_eq_zero, word_cast]
  simp only [ofNat_toNat (ZMod.val_lt _), ZMod.val_lt, true_and]
  have : d = ⟨0, 0⟩ ↔ d.p0 = 0 ∧ d.p1 = 0 := by cases d; simp
  simp only [this]

/-- The words of the contract's constants for `G2` data. -/
theorem constantG2_iff (d : G2PointData (ZMod bnQ)) (P : E2) :
    IsG2 (constantG2 d).X.1 (constantG2 d).X.2 (constantG2 d).Y.1 (constantG2 d).Y.2 P ↔ coords P = g2Point d ∧ bnR • P = 0 := by
  unfold IsG2 constantG2 constant g2Point
  simp only [word_eq_zero, word_cast]
  simp only [ofNat_toNat (ZMod.val_lt _), ZMod.val_lt, true_and, and_self]
  have : d = ⟨(0, 0), (0, 0)⟩ ↔ d.p0.1 = 0 ∧ d.p0.2 = 0 ∧ d.p1.1 = 0 ∧ d.p1.2 = 0 := by
    obtain ⟨⟨a, b⟩, ⟨c, d⟩⟩ := d; simp [and_assoc]
  simp only [this]

/-! ### The loop over the inputs -/

/-- The words of a `G1Point` of the contract are the coordinates of `P`. -/
abbrev Holds (g : G1Point) (P : E1) : Prop := IsG1 g.X g.Y P

theorem scalarField_le (x : Word) : SNARK_SCALAR_FIELD ≤ x ↔ bnR ≤ x.toNat := by
  rw [BitVec.le_def, show SNARK_SCALAR_FIELD.toNat = bnR by decide]

theorem inputLoop_ok (IC : List G1Point) (mem : Nat → List Word) (xs : List Word) :
    ∀ (i : Nat) (vkX r : G1Point) (V : E1), IC.length = i + 1 + xs.length → Holds vkX V →
      inputLoop IC mem i xs vkX = .ok r →
      ∃ Ps, List.Forall₂ Holds (IC.drop (i + 1)) Ps ∧ (∀ x ∈ xs, x.toNat < bnR) ∧
        Holds r (V + (List.zipWith (fun x P => x.toNat • P) xs Ps).sum) := by
  induction xs with
  | nil =>
    intro i vkX r V hl hV h
    rw [List.length_nil] at hl
    have hd : IC.drop (i + 1) = [] := List.drop_eq_nil_of_le (by omega)
    simp only [inputLoop, Except.ok.injEq] at h
    subst h
    exact ⟨[], by rw [hd]; exact .nil, by simp, by simpa using hV⟩
  | cons x xs ih =>
    intro i vkX r V hl hV h
    rw [List.length_cons] at hl
    unfold inputLoop at h
    by_cases hx : SNARK_SCALAR_FIELD ≤ x
    · rw [if_pos hx] at h; cases h
    rw [if_neg hx] at h
    rw [scalarField_le, not_le] at hx
    have hi : i + 1 < IC.length := by omega
    rw [List.getElem?_eq_getElem hi] at h
    dsimp only at h
    cases h1 : scalarMul (mem (2 * i + 1)) IC[i + 1] x with
    | error a => rw [h1] at h; cases h
    | ok t =>
      cases h2 : plus (mem (2 * i + 2)) vkX t with
      | error a => simp only [h1, h2, Bind.bind, Except.bind] at h; cases h
      | ok vkX' =>
        simp only [h1, h2, Bind.bind, Except.bind] at h
        obtain ⟨P, hP, ht⟩ := scalarMul_ok _ _ _ _ h1
        obtain ⟨V', T', hV', hT', hs⟩ := plus_ok _ _ _ _ h2
        rw [hV'.unique hV, hT'.unique ht] at hs
        obtain ⟨Ps, hPs, hxs, hr⟩ := ih (i + 1) vkX' r _ (by omega) hs h
        refine ⟨P :: Ps, ?_, ?_, ?_⟩
        · rw [List.drop_eq_getElem_cons hi]; exact .cons hP hPs
        · intro y hy
          rcases List.mem_cons.1 hy with rfl | hy
          · exact hx
          · exact hxs y hy
        · simpa [add_assoc] using hr

theorem inputLoop_of (IC : List G1Point) (mem : Nat → List Word) (xs : List Word) :
    ∀ (i : Nat) (vkX : G1Point) (V : E1) (Ps : List E1), IC.length = i + 1 + xs.length → Holds vkX V →
      List.Forall₂ Holds (IC.drop (i + 1)) Ps → (∀ x ∈ xs, x.toNat < bnR) →
      ∃ r, inputLoop IC mem i xs vkX = .ok r ∧ Holds r (V + (List.zipWith (fun x P => x.toNat • P) xs Ps).sum) := by
  induction xs with
  | nil => intro i vkX V Ps _ hV _ _; exact ⟨vkX, rfl, by simpa using hV⟩
  | cons x xs ih =>
    intro i vkX V Ps hl hV hPs hxs
    rw [List.length_cons] at hl
    have hi : i + 1 < IC.length := by omega
    rw [List.drop_eq_getElem_cons hi] at hPs
    cases hPs with
    | @cons _ P _ Ps hP hPs =>
      obtain ⟨t, h1, ht⟩ := scalarMul_of (mem (2 * i + 1)) x hP
      obtain ⟨vkX', h2, hs⟩ := plus_of (mem (2 * i + 2)) hV ht
      obtain ⟨r, hr, hr'⟩ := ih (i + 1) vkX' _ Ps (by omega) hs hPs fun y hy => hxs y (List.mem_cons_of_mem _ hy)
      refine ⟨r, ?_, by simpa [add_assoc] using hr'⟩
      unfold inputLoop
      rw [if_neg (by rw [scalarField_le, not_le]; exact hxs x List.mem_cons_self), List.getElem?_eq_getElem hi]
      simp only [h1, h2, Bind.bind, Except.bind, hr]

/-! ### The pairing -/

/-- The words of a `G2Point` of the contract are the coordinates of `P`. -/
abbrev Holds2 (g : G2Point) (P : E2) : Prop := IsG2 g.X.1 g.X.2 g.Y.1 g.Y.2 P

theorem pairing_iff {T : Type} [CommGroup T] (e : E1 → E2 → T) (a1 : G1Point) (a2 : G2Point) (b1 : G1Point) (b2 : G2Point)
    (c1 : G1Point) (c2 : G2Point) (d1 : G1Point) (d2 : G2Point) (r : Bool) :
    pairing e a1 a2 b1 b2 c1 c2 d1 d2 = .ok r ↔ ∃ A1 A2 B1 B2 C1 C2 D1 D2, (Holds a1 A1 ∧ Holds2 a2 A2) ∧ (Holds b1 B1 ∧ Holds2 b2 B2) ∧
      (Holds c1 C1 ∧ Holds2 c2 C2) ∧ (Holds d1 D1 ∧ Holds2 d2 D2) ∧ (r = true ↔ e A1 A2 * e B1 B2 * e C1 C2 * e D1 D2 = 1) := by
  simp only [Holds, Holds2, ← decodeG1_iff, ← decodeG2_iff]
  unfold pairing ecPairing pairingInput
  constructor
  · intro h
    simp only [pairingInput, decodePairs] at h
    rcases ha1 : decodeG1 a1.X a1.Y with _ | A1 <;> simp only [ha1, Option.bind_eq_bind, Option.bind_none, Option.bind_some, Option.pure_def, reduceCtorEq] at h
    rcases ha2 : decodeG2 a2.X.1 a2.X.2 a2.Y.1 a2.Y.2 with _ | A2 <;> simp only [ha2, Option.bind_eq_bind, Option.bind_none, Option.bind_some, Option.pure_def, reduceCtorEq] at h
    rcases hb1 : decodeG1 b1.X b1.Y with _ | B1 <;> simp only [hb1, Option.bind_eq_bind, Option.bind_none, Option.bind_some, Option.pure_def, reduceCtorEq] at h
    rcases hb2 : decodeG2 b2.X.1 b2.X.2 b2.Y.1 b2.Y.2 with _ | B2 <;> simp only [hb2, Option.bind_eq_bind, Option.bind_none, Option.bind_some, Option.pure_def, reduceCtorEq] at h
    rcases hc1 : decodeG1 c1.X c1.Y with _ | C1 <;> simp only [hc1, Option.bind_eq_bind, Option.bind_none, Option.bind_some, Option.pure_def, reduceCtorEq] at h
    rcases hc2 : decodeG2 c2.X.1 c2.X.2 c2.Y.1 c2.Y.2 with _ | C2 <;> simp only [hc2, Option.bind_eq_bind, Option.bind_none, Option.bind_some, Option.pure_def, reduceCtorEq] at h
    rcases hd1 : decodeG1 d1.X d1.Y with _ | D1 <;> simp only [hd1, Option.bind_eq_bind, Option.bind_none, Option.bind_some, Option.pure_def, reduceCtorEq] at h
    rcases hd2 : decodeG2 d2.X.1 d2.X.2 d2.Y.1 d2.Y.2 with _ | D2 <;> simp only [hd2, Option.bind_eq_bind, Option.bind_none, Option.bind_some, Option.pure_def, reduceCtorEq] at h
    refine ⟨A1, A2, B1, B2, C1, C2, D1, D2, ⟨rfl, rfl⟩, ⟨rfl, rfl⟩, ⟨rfl, rfl⟩, ⟨rfl, rfl⟩, ?_⟩
    simp only [List.map_cons, List.map_nil, List.prod_cons, List.prod_nil, mul_one, Except.ok.injEq, ← mul_assoc] at h
    subst h
    have hprod : (List.map (fun q : E1 × E2 => e q.1 q.2) [(A1, A2), (B1, B2), (C1, C2), (D1, D2)]).prod =
        e A1 A2 * e B1 B2 * e C1 C2 * e D1 D2 := by simp [mul_assoc]
    rw [← hprod]
    clear hprod
    split
    · next h => exact iff_of_true rfl h
    · next h => exact iff_of_false (by decide) h
  · rintro ⟨A1, A2, B1, B2, C1, C2, D1, D2, ⟨ha1, ha2⟩, ⟨hb1, hb2⟩, ⟨hc1, hc2⟩, ⟨hd1, hd2⟩, hr⟩
    simp only [pairingInput, decodePairs, ha1, ha2, hb1, hb2, hc1, hc2, hd1, hd2, Option.bind_eq_bind, Option.bind_some,
      Option.pure_def, List.map_cons, List.map_nil, List.prod_cons, List.prod_nil, mul_one, Except.ok.injEq, ← mul_assoc]
    have hprod : (List.map (fun q : E1 × E2 => e q.1 q.2) [(A1, A2), (B1, B2), (C1, C2), (D1, D2)]).prod =
        e A1 A2 * e B1 B2 * e C1 C2 * e D1 D2 := by simp [mul_assoc]
    rw [Bool.eq_iff_iff, hr, ← hprod]
    clear hprod
    split
    · next h => exact iff_of_true rfl h
    · next h => exact iff_of_false (by decide) h

/-! ### C66 -/

/-- The points of a statement: the proof and the verifying key. -/
structure Statement where
  a : E1
  b : E2
  c : E1
  alpha : E1
  beta : E2
  gamma : E2
  delta : E2
  ic0 : E1
  ics : List E1

/-- The eight words of the proof and the data of the key are the coordinates of these points; all of them lie on their curve,
the ones of the twist in its subgroup. -/
structure Statement.Of (S : Statement) (vk : VKData (ZMod bnQ)) (p : Fin 8 → Word) : Prop where
  a : IsG1 (p 0) (p 1) S.a
  b : IsG2 (p 2) (p 3) (p 4) (p 5) S.b
  c : IsG1 (p 6) (p 7) S.c
  alpha : coords S.alpha = g1Point vk.alphaG1
  beta : coords S.beta = g2Point vk.betaG2 ∧ bnR • S.beta = 0
  gamma : coords S.gamma = g2Point vk.gammaG2 ∧ bnR • S.gamma = 0
  delta : coords S.delta = g2Point vk.deltaG2 ∧ bnR • S.delta = 0
  ic : List.Forall₂ (fun d P => coords P = g1Point d) vk.ic (S.ic0 :: S.ics)

section main

variable {T : Type} [CommGroup T] (e : E1 → E2 → T) (vk : VKData (ZMod bnQ)) (mem : Nat → List Word) (p : Fin 8 → Word)
  (input : List Word)

theorem primeQ_le (x : Word) : PRIME_Q ≤ x ↔ bnQ ≤ x.toNat := by
  rw [BitVec.le_def, show PRIME_Q.toNat = bnQ by decide]

theorem forall₂_constants (l : List (G1PointData (ZMod bnQ))) (Ps : List E1) :
    List.Forall₂ Holds (l.map constantG1) Ps ↔ List.Forall₂ (fun d P => coords P = g1Point d) l Ps := by
  rw [List.forall₂_map_left_iff]
  simp only [Holds, constantG1_iff]

theorem isG1_zero : IsG1 0 0 (0 : E1) := ⟨by decide, by decide, rfl⟩

/-- C66: the contract returns an answer exactly if all words are reduced, all points lie on their curve (those of the twist
in the subgroup) and all inputs are less than the order of the group; its answer is whether the Groth16 equation holds. -/
theorem C66_returns (hadd : ∀ a a' b, e (a + a') b = e a b * e a' b) (hlen : input.length + 1 = vk.ic.length) (r : Bool) :
    verifyProof e vk mem p input = .ok r ↔
      (∀ x ∈ input, x.toNat < bnR) ∧ ∃ S : Statement, S.Of vk p ∧
        (r = true ↔ Groth16Equation e S.alpha S.beta S.gamma S.delta S.ic0 S.ics S.a S.b S.c
          (input.map fun x => (x.toNat : ZMod bnR))) := by
  have heq : ∀ (S : Statement), (∀ x ∈ input, x.toNat < bnR) →
      (e (-S.a) S.b * e S.alpha S.beta * e (S.ic0 + (List.zipWith (fun x P => x.toNat • P) input S.ics).sum) S.gamma *
        e S.c S.delta = 1 ↔ Groth16Equation e S.alpha S.beta S.gamma S.delta S.ic0 S.ics S.a S.b S.c
          (input.map fun x => (x.toNat : ZMod bnR))) := by
    intro S hx
    have h0 : ∀ b, e 0 b = 1 := by
      intro b
      have := hadd 0 0 b
      rw [add_zero] at this
      exact mul_left_cancel (a := e 0 b) (by rw [← this, mul_one])
    have hneg : ∀ a b, e (-a) b = (e a b)⁻¹ := by
      intro a b
      rw [eq_inv_iff_mul_eq_one, ← hadd, neg_add_cancel, h0]
    have hz : List.zipWith (fun (x : ZMod bnR) P => x.val • P) (input.map fun x => (x.toNat : ZMod bnR)) S.ics =
        List.zipWith (fun x P => x.toNat • P) input S.ics := by
      rw [List.zipWith_map_left]
      generalize S.ics = l
      clear hlen
      induction input generalizing l with
      | nil => rfl
      | cons x xs ih =>
        cases l with
        | nil => rfl
        | cons P l =>
          rw [List.zipWith_cons_cons, List.zipWith_cons_cons, ih (fun y hy => hx y (List.mem_cons_of_mem _ hy)),
            ZMod.val_natCast_of_lt (hx x List.mem_cons_self)]
    unfold Groth16Equation
    rw [hz, hneg, mul_assoc, mul_assoc, inv_mul_eq_one, ← mul_assoc]
  unfold verifyProof
  constructor
  · intro h
    split at h
    · cases h
    next hp =>
    push Not at hp
    have hp' : ∀ i, (p i).toNat < bnQ := fun i => by
      have := hp i
      rwa [primeQ_le, not_le] at this
    simp only [verifyingKey] at h
    cases hic : vk.ic with
    | nil => rw [hic] at hlen; simp at hlen
    | cons d0 ds =>
      rw [hic] at h hlen
      simp only [List.map_cons, List.getElem?_cons_zero] at h
      cases h1 : plus (mem 0) ⟨0, 0⟩ (constantG1 d0) with
      | error a => rw [h1] at h; cases h
      | ok v0 =>
        simp only [h1, Bind.bind, Except.bind] at h
        cases h2 : inputLoop (constantG1 d0 :: ds.map constantG1) mem 0 input v0 with
        | error a => rw [h2] at h; cases h
        | ok vx =>
          simp only [h2] at h
          obtain ⟨Z, I0, hZ, hI0, hv0⟩ := plus_ok _ _ _ _ h1
          rw [hZ.unique isG1_zero, zero_add] at hv0
          obtain ⟨Ps, hPs, hx, hvx⟩ := inputLoop_ok _ _ _ _ _ _ _ (by simpa [add_comm] using hlen.symm) hv0 h2
          obtain ⟨A, B, Al, Be, V, Ga, C, De, ⟨hA, hB⟩, ⟨hAl, hBe⟩, ⟨hV, hGa⟩, ⟨hC, hDe⟩, hr⟩ := (pairing_iff e _ _ _ _ _ _ _ _ r).1 h
          rw [hV.unique hvx] at hr
          refine ⟨hx, ⟨⟨-A, B, C, Al, Be, Ga, De, I0, Ps⟩, ?_, ?_⟩⟩
          · refine ⟨?_, hB, hC, (constantG1_iff _ _).1 hAl, (constantG2_iff _ _).1 hBe, (constantG2_iff _ _).1 hGa,
              (constantG2_iff _ _).1 hDe, ?_⟩
            · exact (negate_iff ⟨p 0, p 1⟩ (hp' 0) (hp' 1) (-A)).1 (by rw [neg_neg]; exact hA)
            · rw [hic]
              refine .cons ((constantG1_iff _ _).1 hI0) ?_
              rw [← forall₂_constants]
              simpa using hPs
          · have := heq ⟨-A, B, C, Al, Be, Ga, De, I0, Ps⟩ hx
            simp only [neg_neg] at this
            rw [hr, this]
  · rintro ⟨hx, S, hS, hr⟩
    have hp : ¬ ∃ i, PRIME_Q ≤ p i := by
      rintro ⟨i, hi⟩
      rw [primeQ_le] at hi
      have h1 := hS.a.1
      have h2 := hS.a.2.1
      obtain ⟨h3, h4, h5, h6⟩ := hS.b.1
      have h7 := hS.c.1
      have h8 := hS.c.2.1
      fin_cases i <;> simp only [Fin.reduceFinMk, Fin.isValue, Fin.zero_eta, Fin.mk_one] at hi <;> omega
    rw [if_neg hp]
    have hA : Holds (negate ⟨p 0, p 1⟩) (-S.a) := (negate_iff ⟨p 0, p 1⟩ hS.a.1 hS.a.2.1 S.a).2 hS.a
    simp only [verifyingKey]
    have hic := hS.ic
    cases hvk : vk.ic with
    | nil => rw [hvk] at hlen; simp at hlen
    | cons d0 ds =>
      rw [hvk] at hic hlen
      cases hic with
      | cons h0 hs =>
        simp only [List.map_cons, List.getElem?_cons_zero]
        rw [← constantG1_iff] at h0
        obtain ⟨v0, h1, hv0⟩ := plus_of (mem 0) (p1 := ⟨0, 0⟩) isG1_zero h0
        rw [zero_add] at hv0
        rw [← forall₂_constants] at hs
        obtain ⟨vx, h2, hvx⟩ := inputLoop_of (constantG1 d0 :: ds.map constantG1) mem input 0 v0 S.ic0 S.ics
          (by simpa [add_comm] using hlen.symm) hv0 (by simpa using hs) hx
        simp only [h1, h2, Bind.bind, Except.bind]
        refine (pairing_iff e _ _ _ _ _ _ _ _ r).2 ⟨_, _, _, _, _, _, _, _, ⟨hA, hS.b⟩,
          ⟨(constantG1_iff _ _).2 hS.alpha, (constantG2_iff _ _).2 hS.beta⟩, ⟨hvx, (constantG2_iff _ _).2 hS.gamma⟩,
          ⟨hS.c, (constantG2_iff _ _).2 hS.delta⟩, ?_⟩
        rw [hr, ← heq S hx]

/-- C66: the points of a statement are determined by the data. -/
theorem C66_unique (S S' : Statement) (h : S.Of vk p) (h' : S'.Of vk p) : S = S' := by
  obtain ⟨a, b, c, al, be, ga, de, i0, is⟩ := S
  obtain ⟨a', b', c', al', be', ga', de', i0', is'⟩ := S'
  obtain ⟨h1, h2, h3, h4, h5, h6, h7, h8⟩ := h
  obtain ⟨g1, g2, g3, g4, g5, g6, g7, g8⟩ := h'
  have key : ∀ (l : List (G1PointData (ZMod bnQ))) (m m' : List E1), List.Forall₂ (fun d P => coords P = g1Point d) l m →
      List.Forall₂ (fun d P => coords P = g1Point d) l m' → m = m' := by
    intro l m m' hm
    induction hm generalizing m' with
    | nil => intro h; cases h; rfl
    | cons h _ ih =>
      intro h'
      cases h' with
      | cons g gs => rw [coords_inj (h.trans g.symm), ih _ gs]
  have hi := key _ _ _ h8 g8
  simp only [List.cons.injEq] at hi
  simp only at *
  rw [h1.unique g1, h2.unique g2, h3.unique g3, coords_inj (h4.trans g4.symm), coords_inj (h5.1.trans g5.1.symm),
    coords_inj (h6.1.trans g6.1.symm), coords_inj (h7.1.trans g7.1.symm), hi.1, hi.2]

/-- C66: `verifyProof` returns `true` exactly for a valid statement that satisfies the Groth16 equation. -/
theorem C66_accepts (hadd : ∀ a a' b, e (a + a') b = e a b * e a' b) (hlen : input.length + 1 = vk.ic.length) :
    verifyProof e vk mem p input = .ok true ↔
      (∀ x ∈ input, x.toNat < bnR) ∧ ∃ S : Statement, S.Of vk p ∧
        Groth16Equation e S.alpha S.beta S.gamma S.delta S.ic0 S.ics S.a S.b S.c (input.map fun x => (x.toNat : ZMod bnR)) := by
  rw [C66_returns e vk mem p input hadd hlen]
  simp

/-- C66: what the memory behind the arrays holds, which is passed to the precompiled contracts too, has no influence. -/
theorem C66_memory (mem' : Nat → List Word) : verifyProof e vk mem p input = verifyProof e vk mem' p input := by
  have hplus : ∀ m m' a b, plus m a b = plus m' a b := by intro m m' a b; simp [plus, ecAdd]
  have hmul : ∀ m m' a b, scalarMul m a b = scalarMul m' a b := by intro m m' a b; simp [scalarMul, ecMul]
  have hloop : ∀ (IC : List G1Point) (xs : List Word) (i : Nat) (v : G1Point),
      inputLoop IC mem i xs v = inputLoop IC mem' i xs v := by
    intro IC xs
    induction xs with
    | nil => intro i v; rfl
    | cons x xs ih =>
      intro i v
      unfold inputLoop
      simp only [hplus _ (mem' (2 * i + 2)), hmul _ (mem' (2 * i + 1)), ih]
  unfold verifyProof
  simp only [hplus _ (mem' 0), hloop]

/-- C66: a word of the proof that is not reduced is answered with the error for it. -/
theorem C66_proof_element (i : Fin 8) (h : bnQ ≤ (p i).toNat) : verifyProof e vk mem p input = .error .proofElement := by
  unfold verifyProof
  rw [if_pos ⟨i, (primeQ_le _).2 h⟩]

end main

/-! ### Agreement with the library -/

section native

open Classical in
/-- The element of the group a triple of the pairing library stands for. -/
noncomputable def toGroup {L : Type} [Field L] (b : L) (p : Affine L) : PointsOf b :=
  if h : p.infinity = false ∧ (curve b).Nonsingular p.x p.y then .some p.x p.y h.2 else .zero

theorem coords_toGroup {L : Type} [Field L] {b : L} (h2 : (2 : L) ≠ 0) (h3 : (3 : L) ≠ 0) (hb : b ≠ 0) (p : Affine L)
    (h : Groth16.OnCurve b (affinePoint p)) : coords (toGroup b p) = affinePoint p := by
  obtain ⟨x, y, i⟩ := p
  unfold toGroup affinePoint at *
  cases i with
  | true => simp [coords]
  | false =>
    have := (nonsingular_iff h2 h3 hb x y).2 h
    simp [this, coords]

/-- The key as elements of the groups. -/
noncomputable def vkPoints (v : VK (Affine (ZMod bnQ)) (Affine (Fq2 (ZMod bnQ)))) : VK E1 E2 :=
  ⟨toGroup bnB v.alphaG1, toGroup bnB2 v.betaG2, toGroup bnB2 v.gammaG2, toGroup bnB2 v.deltaG2, v.ic.map (toGroup bnB)⟩

/-- The proof as elements of the groups. -/
noncomputable def proofPoints (v : Proof (Affine (ZMod bnQ)) (Affine (Fq2 (ZMod bnQ)))) : Proof E1 E2 :=
  ⟨toGroup bnB v.a, toGroup bnB2 v.b, toGroup bnB v.c⟩

/-- The eight words of proof data: the order in which a caller of the contract passes them. -/
def proofWords (d : ProofData (ZMod bnQ)) : Fin 8 → Word :=
  ![constant d.a.p0, constant d.a.p1, constant d.b.p0.1, constant d.b.p0.2, constant d.b.p1.1, constant d.b.p1.2,
    constant d.c.p0, constant d.c.p1]

/-- The word of a public input. -/
def inputWord (x : ZMod bnR) : Word := BitVec.ofNat 256 x.val

theorem inputWord_toNat (x : ZMod bnR) : (inputWord x).toNat = x.val := by
  unfold inputWord
  rw [BitVec.toNat_ofNat, Nat.mod_eq_of_lt (lt_trans (ZMod.val_lt x) (by decide))]

theorem two_ne_zero_fq2 : (2 : Fq2 (ZMod bnQ)) ≠ 0 := by
  intro h
  exact two_ne_zero_bnQ (congrArg QuadraticAlgebra.re h)

theorem three_ne_zero_fq2 : (3 : Fq2 (ZMod bnQ)) ≠ 0 := by
  intro h
  exact three_ne_zero_bnQ (congrArg QuadraticAlgebra.re h)

theorem g1Into_iff (d : G1PointData (ZMod bnQ)) (P : E1) :
    (∃ a, g1Into bnB d = .ok a ∧ toGroup bnB a = P) ↔ coords P = g1Point d := by
  constructor
  · rintro ⟨a, ha, rfl⟩
    obtain ⟨h1, h2⟩ := C52_g1_into_point bnB d a ha
    rw [coords_toGroup two_ne_zero_bnQ three_ne_zero_bnQ bnB_ne_zero a h2, h1]
  · intro h
    have hon : Groth16.OnCurve bnB (g1Point d) := by
      rw [← h]
      cases P with
      | zero => trivial
      | some x y hxy => exact (nonsingular_iff two_ne_zero_bnQ three_ne_zero_bnQ bnB_ne_zero x y).1 hxy
    have ha := (C52_g1_into bnB d _).2 ⟨hon, rfl⟩
    refine ⟨_, ha, coords_inj ?_⟩
    obtain ⟨h1, h2⟩ := C52_g1_into_point bnB d _ ha
    rw [coords_toGroup two_ne_zero_bnQ three_ne_zero_bnQ bnB_ne_zero _ h2, h1, h]

theorem g2Into_iff (d : G2PointData (ZMod bnQ)) (P : E2) :
    (∃ a, g2Into bnB2 d = .ok a ∧ toGroup bnB2 a = P) ↔ coords P = g2Point d := by
  constructor
  · rintro ⟨a, ha, rfl⟩
    obtain ⟨h1, h2⟩ := C52_g2_into_point bnB2 d a ha
    rw [coords_toGroup two_ne_zero_fq2 three_ne_zero_fq2 bnB2_ne_zero a h2, h1]
  · intro h
    have hon : Groth16.OnCurve bnB2 (g2Point d) := by
      rw [← h]
      cases P with
      | zero => trivial
      | some x y hxy => exact (nonsingular_iff two_ne_zero_fq2 three_ne_zero_fq2 bnB2_ne_zero x y).1 hxy
    have ha := (C52_g2_into bnB2 d _).2 ⟨hon, rfl⟩
    refine ⟨_, ha, coords_inj ?_⟩
    obtain ⟨h1, h2⟩ := C52_g2_into_point bnB2 d _ ha
    rw [coords_toGroup two_ne_zero_fq2 three_ne_zero_fq2 bnB2_ne_zero _ h2, h1, h]

theorem mapE_iff (l : List (G1PointData (ZMod bnQ))) (Ps : List E1) :
    (∃ as, mapE (g1Into bnB) l = .ok as ∧ as.map (toGroup bnB) = Ps) ↔
      List.Forall₂ (fun d P => coords P = g1Point d) l Ps := by
  induction l generalizing Ps with
  | nil =>
    constructor
    · rintro ⟨as, h, rfl⟩; cases h; exact .nil
    · intro h; cases h; exact ⟨[], rfl, rfl⟩
  | cons d l ih =>
    constructor
    · rintro ⟨as, h, rfl⟩
      obtain ⟨a, ha, h⟩ := bind_ok h
      obtain ⟨as', has, h⟩ := bind_ok h
      cases h
      exact .cons ((g1Into_iff d _).1 ⟨a, ha, rfl⟩) ((ih _).1 ⟨as', has, rfl⟩)
    · intro h
      cases h with
      | cons h hs =>
        obtain ⟨a, ha, rfl⟩ := (g1Into_iff d _).2 h
        obtain ⟨as, has, rfl⟩ := (ih _).2 hs
        refine ⟨a :: as, ?_, rfl⟩
        unfold mapE
        simp only [ha, has, Bind.bind, Except.bind, Pure.pure, Except.pure]

variable {T : Type} [CommMonoid T] [DecidableEq T] {E : Engine E1 E2 T} {e : E1 → E2 → Tˣ}

/-- C66: if the contract answers, the library, given the same key, proof and inputs, accepts the data as points and gives
the same answer. -/
theorem C66_contract_then_library (h : PairingEngine E e) (vk : VKData (ZMod bnQ)) (mem : Nat → List Word)
    (d : ProofData (ZMod bnQ)) (inputs : List (ZMod bnR)) (hlen : inputs.length + 1 = vk.ic.length) (r : Bool)
    (hc : verifyProof e vk mem (proofWords d) (inputs.map inputWord) = .ok r) :
    ∃ v p, vkFromData (g1Into bnB) (g2Into bnB2) vk = .ok v ∧ proofFromData (g1Into bnB) (g2Into bnB2) d = .ok p ∧
      verify E (vkPoints v) (proofPoints p) inputs = .ok (.ok r) := by
  rw [C66_returns e vk mem _ _ h.add_left (by simpa using hlen)] at hc
  obtain ⟨-, S, hS, hr⟩ := hc
  obtain ⟨a, ha, ha'⟩ := (g1Into_iff d.a _).2 ((constantG1_iff d.a _).1 hS.a)
  obtain ⟨b, hb, hb'⟩ := (g2Into_iff d.b _).2 ((constantG2_iff d.b _).1 hS.b).1
  obtain ⟨c, hc, hc'⟩ := (g1Into_iff d.c _).2 ((constantG1_iff d.c _).1 hS.c)
  obtain ⟨al, hal, hal'⟩ := (g1Into_iff _ _).2 hS.alpha
  obtain ⟨be, hbe, hbe'⟩ := (g2Into_iff _ _).2 hS.beta.1
  obtain ⟨ga, hga, hga'⟩ := (g2Into_iff _ _).2 hS.gamma.1
  obtain ⟨de, hde, hde'⟩ := (g2Into_iff _ _).2 hS.delta.1
  obtain ⟨ic, hic, hic'⟩ := (mapE_iff _ _).2 hS.ic
  refine ⟨⟨al, be, ga, de, ic⟩, ⟨a, b, c⟩, ?_, ?_, ?_⟩
  · unfold vkFromData
    simp only [hal, hbe, hga, hde, hic, Bind.bind, Except.bind, Pure.pure, Except.pure]
  · unfold proofFromData
    simp only [ha, hb, hc, Bind.bind, Except.bind, Pure.pure, Except.pure]
  · have hl := hS.ic.length_eq
    obtain ⟨r', hr1, hr2⟩ := verify_groth16_eq h (vkPoints ⟨al, be, ga, de, ic⟩) (proofPoints ⟨a, b, c⟩) inputs S.ic0 S.ics hic'
      (by rw [← hlen] at hl; simpa using hl)
    rw [hr1]
    have hm : (inputs.map inputWord).map (fun x => (x.toNat : ZMod bnR)) = inputs := by
      rw [List.map_map]
      conv_rhs => rw [← List.map_id inputs]
      refine List.map_congr_left fun x _ => ?_
      simp [inputWord_toNat]
    rw [hm] at hr
    simp only [vkPoints, proofPoints, ha', hb', hc', hal', hbe', hga', hde'] at hr2
    rw [← hr] at hr2
    rw [Bool.eq_iff_iff.2 hr2]

/-- C66: if the library takes key and proof as points and answers, and the points of the twist lie in the subgroup (the library
does not check this for BN256), the contract gives the same answer. -/
theorem C66_library_then_contract (h : PairingEngine E e) (vk : VKData (ZMod bnQ)) (mem : Nat → List Word)
    (d : ProofData (ZMod bnQ)) (inputs : List (ZMod bnR)) (r : Bool)
    (v : VK (Affine (ZMod bnQ)) (Affine (Fq2 (ZMod bnQ)))) (p : Proof (Affine (ZMod bnQ)) (Affine (Fq2 (ZMod bnQ))))
    (hv : vkFromData (g1Into bnB) (g2Into bnB2) vk = .ok v) (hp : proofFromData (g1Into bnB) (g2Into bnB2) d = .ok p)
    (hr : verify E (vkPoints v) (proofPoints p) inputs = .ok (.ok r))
    (hsub : ∀ g ∈ [d.b, vk.betaG2, vk.gammaG2, vk.deltaG2], Groth16.InSubgroup bnB2 bnR (g2Point g)) :
    verifyProof e vk mem (proofWords d) (inputs.map inputWord) = .ok r := by
  obtain ⟨ha, hb, hc⟩ := (proofFromData_ok _ _).1 hp
  obtain ⟨hal, hbe, hga, hde, hic⟩ := (vkFromData_ok _ _).1 hv
  have hsub' : ∀ g ∈ [d.b, vk.betaG2, vk.gammaG2, vk.deltaG2], ∀ a, g2Into bnB2 g = .ok a →
      coords (toGroup bnB2 a) = g2Point g ∧ bnR • toGroup bnB2 a = 0 := by
    intro g hg a hga
    have h1 := (g2Into_iff g _).1 ⟨a, hga, rfl⟩
    obtain ⟨P, hP, hP0⟩ := hsub g hg
    refine ⟨h1, ?_⟩
    rwa [← coords_inj (hP.trans h1.symm)]
  have hic' := (mapE_iff _ _).1 ⟨v.ic, (mapE_ok _ _).2 hic, rfl⟩
  have hlen : inputs.length + 1 = (vkPoints v).ic.length := by
    by_contra hl
    rw [((C55_error h (vkPoints v) (proofPoints p) inputs).2).2 hl] at hr
    cases hr
  cases hvic : v.ic with
  | nil => simp [vkPoints, hvic] at hlen
  | cons i0 is =>
    rw [hvic] at hic'
    have hl := hic'.length_eq
    have hlen' : inputs.length = (is.map (toGroup bnB)).length := by simpa [vkPoints, hvic] using hlen
    obtain ⟨r', hr1, hr2⟩ := verify_groth16_eq h (vkPoints v) (proofPoints p) inputs (toGroup bnB i0) (is.map (toGroup bnB))
      (by simp [vkPoints, hvic]) hlen'
    rw [hr1] at hr
    cases hr
    rw [C66_returns e vk mem _ _ h.add_left (by simp at hl hlen'; simp; omega)]
    refine ⟨?_, ⟨toGroup bnB p.a, toGroup bnB2 p.b, toGroup bnB p.c, toGroup bnB v.alphaG1, toGroup bnB2 v.betaG2,
      toGroup bnB2 v.gammaG2, toGroup bnB2 v.deltaG2, toGroup bnB i0, is.map (toGroup bnB)⟩, ?_, ?_⟩
    · intro x hx
      obtain ⟨y, -, rfl⟩ := List.mem_map.1 hx
      rw [inputWord_toNat]
      exact ZMod.val_lt y
    · exact ⟨(constantG1_iff d.a _).2 ((g1Into_iff _ _).1 ⟨_, ha, rfl⟩), (constantG2_iff d.b _).2 (hsub' _ (by simp) _ hb),
        (constantG1_iff d.c _).2 ((g1Into_iff _ _).1 ⟨_, hc, rfl⟩), (g1Into_iff _ _).1 ⟨_, hal, rfl⟩, hsub' _ (by simp) _ hbe,
        hsub' _ (by simp) _ hga, hsub' _ (by simp) _ hde, hic'⟩
    · have hm : (inputs.map inputWord).map (fun x => (x.toNat : ZMod bnR)) = inputs := by
        rw [List.map_map]
        conv_rhs => rw [← List.map_id inputs]
        refine List.map_congr_left fun x _ => ?_
        simp [inputWord_toNat]
      rw [hm]
      exact hr2

end native

end Fawkes.Props
