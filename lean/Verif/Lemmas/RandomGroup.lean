import Verif.Lemmas.RandomPoint
import Verif.Lemmas.TwistCount

/-!
# Lemmas: random points are free
-/

namespace Fawkes.Props

open Groth16 Groth16.Contract Fawkes

section

variable {K : Type} [Field K] [DecidableEq K] {b : K} {c : CoordBytes K} {num : K → Nat} {sqrt : K → Option K}

/-- The points of which the multiple by `n` is not zero. -/
abbrev Live (b : K) (n : Nat) : Type := {P : PointsOf b // n • P ≠ 0}

open Classical in
/-- What a round makes of an abscissa and a bit. -/
noncomputable def accept (c : CoordBytes K) (sqrt : K → Option K) (b : K) (n : Nat) (z : K × Bool) : Option (Live b n) :=
  match pointFromX c sqrt b z.1 z.2 with
  | none => none
  | some p => if h : n • toGroup b p ≠ 0 then some ⟨toGroup b p, h⟩ else none

/-- The abscissa and the bit of a point. -/
def pick (num : K → Nat) {n : Nat} (P : Live b n) : K × Bool := ((affineOf P.1).x, decide (num (-(affineOf P.1).y) < num (affineOf P.1).y))

theorem affineOf_live {n : Nat} (G : GoodCurve b) (P : Live b n) : (affineOf P.1).infinity = false ∧
    (affineOf P.1).y ^ 2 = (affineOf P.1).x ^ 3 + b := by
  obtain ⟨P, hP⟩ := P
  cases P with
  | zero => exact absurd (smul_zero n) hP
  | some x y h => exact ⟨rfl, (nonsingular_iff G.two G.three G.coeff x y).1 h⟩

theorem accept_pick (L : LawfulBytes c num) (G : GoodCurve b) (hs : IsSqrt sqrt) (n : Nat) (P : Live b n) :
    accept c sqrt b n (pick num P) = some P := by
  obtain ⟨h1, h2⟩ := affineOf_live G P
  have h : pointFromX c sqrt b (pick num P).1 (pick num P).2 = some (affineOf P.1) :=
    (pointFromX_iff L G.two hs b _ _ _).2 ⟨rfl, h1, h2, Or.inr (by simp [pick])⟩
  unfold accept
  rw [h]
  dsimp only
  have e := toGroup_affineOf P.1
  rw [dif_pos (by rw [e]; exact P.2)]
  exact congrArg some (Subtype.ext e)

theorem pick_accept (L : LawfulBytes c num) (G : GoodCurve b) (hs : IsSqrt sqrt) (n : Nat) (z : K × Bool) (P : Live b n)
    (h : accept c sqrt b n z = some P) : z = pick num P := by
  unfold accept at h
  rcases e : pointFromX c sqrt b z.1 z.2 with _ | p
  · rw [e] at h; cases h
  · rw [e] at h
    dsimp only at h
    split at h
    · cases h
      obtain ⟨h1, h2, h3, h4⟩ := (pointFromX_iff L G.two hs b _ _ _).1 e
      have ha : affineOf (toGroup b p) = p := affineOf_toGroup G (Or.inr ⟨h2, by rw [h1]; exact h3⟩)
      have hy : p.y ≠ 0 := y_ne_zero G (x := z.1) h3
      unfold pick
      dsimp only
      rw [ha, h1]
      have h5 := h4.resolve_left hy
      refine Prod.ext rfl ?_
      show z.2 = decide _
      rw [Bool.eq_iff_iff, h5, decide_eq_true_iff]
    · cases h

variable {coord : Sampler K}

/-- The points before they are multiplied. -/
noncomputable def livePoint (c : CoordBytes K) (sqrt : K → Option K) (b : K) (coord : Sampler K) (n : Nat) : Sampler (Live b n) :=
  retry (Sampler.seq coord randBool) (accept c sqrt b n)

theorem livePoint_free (L : LawfulBytes c num) (G : GoodCurve b) (hs : IsSqrt sqrt) (n : Nat) (hf : Free coord) (hc : Consumes coord) :
    Free (livePoint c sqrt b coord n) :=
  (hf.seq randBool_free).retry (hc.seq randBool_consumes) (emb := pick num) (accept_pick L G hs n) (pick_accept L G hs n)

open Classical in
/-- A random point of the curve, multiplied by the cofactor `n`. -/
noncomputable def curvePoint (c : CoordBytes K) (sqrt : K → Option K) (b : K) (coord : Sampler K) (n : Nat) : Sampler (PointsOf b) :=
  randPoint c sqrt b coord fun p => n • toGroup b p

theorem curvePoint_eq (n : Nat) (s : Entropy) :
    curvePoint c sqrt b coord n s = (livePoint c sqrt b coord n s).map fun q => (n • q.1.1, q.2) := by
  show randPointLoop c sqrt b coord _ (s.length + 1) s = (retryLoop _ _ (s.length + 1) s).map _
  generalize s.length + 1 = fuel
  induction fuel generalizing s with
  | zero => rfl
  | succ fuel ih =>
    unfold randPointLoop retryLoop Sampler.seq
    rcases coord s with e | ⟨x, s⟩
    · rfl
    · show (randBool s >>= _) = _
      dsimp only
      rcases randBool s with e | ⟨g, s⟩
      · rfl
      · show (match pointFromX c sqrt b x g with
          | none => _
          | some p => _) = _
        dsimp only
        unfold accept
        dsimp only
        rcases pointFromX c sqrt b x g with _ | p
        · exact ih s
        · dsimp only
          by_cases h : n • toGroup b p = 0
          · rw [if_pos h, dif_neg (not_not.2 h)]
            exact ih s
          · rw [if_neg h, dif_pos h]
            rfl

theorem curvePoint_reads (L : LawfulBytes c num) (G : GoodCurve b) (hs : IsSqrt sqrt) (n : Nat) (hf : Free coord) (hc : Consumes coord) :
    Reads (curvePoint c sqrt b coord n) :=
  (livePoint_free L G hs n hf hc).reads.map (fun P : Live b n => n • P.1) _ (curvePoint_eq n)

theorem curvePoint_image (n : Nat) (s rest : Entropy) (g : PointsOf b) (h : curvePoint c sqrt b coord n s = .ok (g, rest)) :
    g ≠ 0 ∧ ∃ P : PointsOf b, g = n • P := by
  rw [curvePoint_eq] at h
  rcases e : livePoint c sqrt b coord n s with k | ⟨P, t⟩
  · rw [e] at h; cases h
  · rw [e] at h
    cases h
    exact ⟨P.2, P.1, rfl⟩

/-- As many points lead to one multiple of `n` as to another. -/
theorem fibre_equiv (n : Nat) {P0 P1 : PointsOf b} (h0 : n • P0 ≠ 0) (h1 : n • P1 ≠ 0) :
    Nonempty ({P : Live b n // n • P.1 = n • P0} ≃ {P : Live b n // n • P.1 = n • P1}) := by
  refine ⟨⟨fun P => ⟨⟨P.1.1 - P0 + P1, ?_⟩, ?_⟩, fun P => ⟨⟨P.1.1 - P1 + P0, ?_⟩, ?_⟩, ?_, ?_⟩⟩
  · rw [smul_add, smul_sub, P.2, sub_self, zero_add]; exact h1
  · show n • (P.1.1 - P0 + P1) = _
    rw [smul_add, smul_sub, P.2, sub_self, zero_add]
  · rw [smul_add, smul_sub, P.2, sub_self, zero_add]; exact h0
  · show n • (P.1.1 - P1 + P0) = _
    rw [smul_add, smul_sub, P.2, sub_self, zero_add]
  · intro P
    apply Subtype.ext; apply Subtype.ext
    show P.1.1 - P0 + P1 - P1 + P0 = P.1.1
    abel
  · intro P
    apply Subtype.ext; apply Subtype.ext
    show P.1.1 - P1 + P0 - P0 + P1 = P.1.1
    abel

end

end Fawkes.Props
