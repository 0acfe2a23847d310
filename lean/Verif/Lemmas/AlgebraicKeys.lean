import Verif.Lemmas.Algebraic

/-!
# Algebraic provers: from points to polynomials
-/

namespace Fawkes.Groth16

open Polynomial Finset
open Fawkes.Props

section few

variable {F : Type} [Field F] [Fintype F] [DecidableEq F]

/-- The prover's polynomials satisfy the equation of the circuit, or few secrets satisfy the equation of the verifier. -/
theorem few_or_eq {a : Part F} {b : Part2 F} {c : Part F} {U V W : F[X]} {m : Nat} (ha : a.Small m) (hb : b.p.natDegree ≤ m)
    (hc : c.Small m) (hU : U.natDegree ≤ m) (hV : V.natDegree ≤ m) (hW : W.natDegree ≤ m)
    (hne : (U + c.x) * (V + c.y) ≠ W + c.z) :
    ∃ bad : Finset (Secrets F), bad.card ≤ (8 + 3 * m) * Fintype.card F ^ 4 ∧ ∀ al be ga de t, ga ≠ 0 → de ≠ 0 →
      a.at (al, be, ga, de, t) * b.at (al, be, ga, de, t) = al * be + (be * U.eval t + al * V.eval t + W.eval t) +
        c.at (al, be, ga, de, t) * de → (al, be, ga, de, t) ∈ bad := by
  refine ⟨univ.filter fun q : Secrets F => valueOf (table a b c U V W) q = 0, ?_, fun al be ga de t hg hd h => ?_⟩
  · by_contra hcard
    apply hne
    have key : ∀ i ≤ 1, ∀ j ≤ 2, ∀ k ≤ 2, ∀ l ≤ 3, table a b c U V W i j k l = 0 := by
      intro i hi j hj k hk l hl
      by_contra h0
      exact hcard (few_zeros _ i j k l hi hj hk hl h0 _ (table_degree ha hb hc hU hV hW i j k l))
    exact table_zero (fun i hi j hj k hk l hl => key i hi j hj k (by omega) l (by omega)) (key 1 (by omega) 0 (by omega) 2 (by omega) 1
      (by omega))
  · exact Finset.mem_filter.2 ⟨Finset.mem_univ _, table_value a b c U V W al be ga de t hg hd h⟩

end few

section keys

variable {G1 G2 : Type} [AddCommGroup G1] [AddCommGroup G2] [DecidableEq G1] [DecidableEq G2] {r : Nat} [Fact r.Prime]

theorem zip_range {α : Type} (cs : List (ZMod r)) (n : Nat) (g : Nat → α) (f : α → ZMod r) :
    (List.zipWith (fun x k => x * f k) cs ((List.range n).map g)).sum = ((List.range n).map fun i => cs.getD i 0 * f (g i)).sum := by
  induction n generalizing cs g with
  | zero => simp
  | succ n ih =>
    cases cs with
    | nil => simp
    | cons c cs =>
      rw [List.range_succ_eq_map, List.map_cons, List.zipWith_cons_cons, List.sum_cons, List.map_map, ih cs (g ∘ Nat.succ), List.map_cons,
        List.sum_cons, List.map_map]
      rfl

/-- Weights of the public inputs. -/
def onInputs (cs : List (ZMod r)) : Index → ZMod r
  | .input i => cs.getD i 0
  | .aux _ => 0

/-- Weights of the other variables. -/
def onAux (cs : List (ZMod r)) : Index → ZMod r
  | .input _ => 0
  | .aux j => cs.getD j 0

theorem zip_inputs (s : CS (ZMod r)) (cs : List (ZMod r)) (f : Index → ZMod r) :
    (List.zipWith (fun x k => x * f k) cs (inputVars s)).sum = ((inputVars s ++ auxVars s).map fun k => onInputs cs k * f k).sum := by
  unfold inputVars auxVars
  rw [zip_range, List.map_append, List.sum_append, List.map_map, List.map_map]
  have : (((fun k => onInputs cs k * f k) ∘ Index.aux) : Nat → ZMod r) = fun _ => 0 := by
    funext j; simp [onInputs]
  rw [this]
  simp [Function.comp_def, onInputs]

theorem zip_aux (s : CS (ZMod r)) (cs : List (ZMod r)) (f : Index → ZMod r) :
    (List.zipWith (fun x k => x * f k) cs (auxVars s)).sum = ((inputVars s ++ auxVars s).map fun k => onAux cs k * f k).sum := by
  unfold inputVars auxVars
  rw [zip_range, List.map_append, List.sum_append, List.map_map, List.map_map]
  have : (((fun k => onAux cs k * f k) ∘ Index.input) : Nat → ZMod r) = fun _ => 0 := by
    funext j; simp [onAux]
  rw [this]
  simp [Function.comp_def, onAux]

/-- The polynomial of one side of the constraints for given values of the variables. -/
noncomputable def sidePoly (D : Domain (ZMod r)) (s : CS (ZMod r)) (f : Side r) (w : Index → ZMod r) : (ZMod r)[X] :=
  Domain.poly D.m (D.ifft (valueAt w ((rows s).map f)))

theorem sum_ext {D : Domain (ZMod r)} {s : CS (ZMod r)} (hm : (rows s).length ≤ D.m) (hrange : rowsInRange s = true)
    (t : Toxic G1 G2 r) (inv : ZMod r) (w : Index → ZMod r) :
    ((inputVars s ++ auxVars s).map fun k => w k * ext D t s inv k).sum =
      inv * (t.beta * (sidePoly D s (fun q => q.1) w).eval t.tau + t.alpha * (sidePoly D s (fun q => q.2.1) w).eval t.tau +
        (sidePoly D s (fun q => q.2.2) w).eval t.tau) := by
  have hrv := rows_in_vars s hrange
  unfold sidePoly
  rw [← side_sum' t.tau hm (fun q => q.1) (fun q h => (hrv q h).1), ← side_sum' t.tau hm (fun q => q.2.1) (fun q h => (hrv q h).2.1),
    ← side_sum' t.tau hm (fun q => q.2.2) (fun q h => (hrv q h).2.2)]
  rw [← List.sum_map_mul_left, ← List.sum_map_mul_left, ← List.sum_map_add, ← List.sum_map_add, ← List.sum_map_mul_left]
  congr 1
  refine List.map_congr_left fun k _ => ?_
  unfold ext
  ring

open Classical in
/-- The variables that are in a query, for a clean secret point. -/
noncomputable def inQuery (s : CS (ZMod r)) (f : Side r) : List Index :=
  (inputVars s ++ auxVars s).filter fun k => present s f k

theorem query_eq {G : Type} [AddCommGroup G] [DecidableEq G] {g : G} (h1 : r • g = 0) (n1 : g ≠ 0) {D : Domain (ZMod r)}
    {tau : ZMod r} {s : CS (ZMod r)} {f : Side r}
    (hcl : ∀ k ∈ inputVars s ++ auxVars s, present s f k → columnAt D tau s f k ≠ 0) :
    ((inputVars s ++ auxVars s).map fun k => (columnAt D tau s f k).val • g).filter (· ≠ 0) =
      (inQuery s f).map fun k => (columnAt D tau s f k).val • g := by
  unfold inQuery
  rw [List.filter_map]
  congr 1
  refine List.filter_congr fun k hk => ?_
  have := column_point h1 n1 (hcl k hk)
  simp only [Function.comp_apply, decide_eq_decide, ne_eq]
  exact this

/-- A combination of columns. -/
noncomputable def zipPoly (D : Domain (ZMod r)) (s : CS (ZMod r)) (f : Side r) (cs : List (ZMod r)) : (ZMod r)[X] :=
  (List.zipWith (fun x k => C x * columnPoly D s f k) cs (inQuery s f)).sum

theorem zipPoly_eval {D : Domain (ZMod r)} {s : CS (ZMod r)} (hm : (rows s).length ≤ D.m) (f : Side r) (cs : List (ZMod r))
    (tau : ZMod r) : (zipPoly D s f cs).eval tau = (List.zipWith (fun x k => x * columnAt D tau s f k) cs (inQuery s f)).sum := by
  unfold zipPoly
  generalize inQuery s f = l
  induction cs generalizing l with
  | nil => simp
  | cons c cs ih =>
    cases l with
    | nil => simp
    | cons k l => simp [ih, columnPoly_eval hm]

theorem zipPoly_degree {D : Domain (ZMod r)} {s : CS (ZMod r)} (f : Side r) (cs : List (ZMod r)) :
    (zipPoly D s f cs).natDegree ≤ D.m := by
  unfold zipPoly
  generalize inQuery s f = l
  induction cs generalizing l with
  | nil => simp
  | cons c cs ih =>
    cases l with
    | nil => simp
    | cons k l =>
      rw [List.zipWith_cons_cons, List.sum_cons]
      refine natDegree_add_le_of_degree_le ((natDegree_C_mul_le _ _).trans ?_) (ih l)
      exact (Domain.degree_poly _ _).trans (by omega)

/-- The polynomials of a combination of points of the first group. -/
noncomputable def Combination.part (D : Domain (ZMod r)) (s : CS (ZMod r)) (c : Combination r) : Part (ZMod r) where
  alpha := c.alpha
  beta := c.beta
  delta := c.delta
  p := C c.one + zipPoly D s (fun q => q.1) c.a + zipPoly D s (fun q => q.2.1) c.b
  u := sidePoly D s (fun q => q.1) (onInputs c.ic)
  v := sidePoly D s (fun q => q.2.1) (onInputs c.ic)
  w := sidePoly D s (fun q => q.2.2) (onInputs c.ic)
  x := sidePoly D s (fun q => q.1) (onAux c.l)
  y := sidePoly D s (fun q => q.2.1) (onAux c.l)
  z := sidePoly D s (fun q => q.2.2) (onAux c.l) + Domain.poly (D.m - 1) (fun i => c.h.getD i 0) * D.vanishing

noncomputable def Combination2.part (D : Domain (ZMod r)) (s : CS (ZMod r)) (c : Combination2 r) : Part2 (ZMod r) where
  beta := c.beta
  gamma := c.gamma
  delta := c.delta
  p := C c.one + zipPoly D s (fun q => q.2.1) c.b

theorem sidePoly_degree (D : Domain (ZMod r)) (s : CS (ZMod r)) (f : Side r) (w : Index → ZMod r) :
    (sidePoly D s f w).natDegree ≤ D.m := (Domain.degree_poly _ _).trans (by omega)

theorem Combination.part_small (D : Domain (ZMod r)) (s : CS (ZMod r)) (c : Combination r) : (c.part D s).Small D.m where
  p := natDegree_add_le_of_degree_le (natDegree_add_le_of_degree_le (by rw [natDegree_C]; omega) (zipPoly_degree _ _))
    (zipPoly_degree _ _)
  u := sidePoly_degree ..
  v := sidePoly_degree ..
  w := sidePoly_degree ..
  x := sidePoly_degree ..
  y := sidePoly_degree ..
  z := by
    refine natDegree_add_le_of_degree_le ((sidePoly_degree ..).trans (by omega)) (natDegree_mul_le.trans ?_)
    have h1 := Domain.degree_poly (D.m - 1) (fun i => c.h.getD i 0)
    rw [Domain.vanishing_natDegree]
    omega

theorem Combination2.part_degree (D : Domain (ZMod r)) (s : CS (ZMod r)) (c : Combination2 r) : (c.part D s).p.natDegree ≤ D.m :=
  natDegree_add_le_of_degree_le (by rw [natDegree_C]; omega) (zipPoly_degree _ _)

/-- The secrets of the key generator. -/
def Toxic.secrets (t : Toxic G1 G2 r) : Secrets (ZMod r) := (t.alpha, t.beta, t.gamma, t.delta, t.tau)

theorem Combination.point_eq {D : Domain (ZMod r)} {s : CS (ZMod r)} (hm : (rows s).length ≤ D.m) (hrange : rowsInRange s = true)
    {t : Toxic G1 G2 r} (h1 : r • t.g1 = 0) (n1 : t.g1 ≠ 0) (hcl : Clean D t.tau s) (c : Combination r) :
    c.point t.g1 (keysOf D t s) = ((c.part D s).at t.secrets).val • t.g1 := by
  have hz : ∀ (cs : List (ZMod r)) (ps : List G1), combine cs ps = sumexp cs ps := fun _ _ => rfl
  unfold Combination.point
  simp only [hz, keysOf]
  rw [query_eq h1 n1 hcl.colA, query_eq h1 n1 hcl.colB]
  simp only [sumexp_zip h1, val_mul_smul h1, ← val_add_smul h1]
  congr 2
  rw [zip_inputs, zip_aux, sum_ext hm hrange, sum_ext hm hrange, ← zipPoly_eval hm, ← zipPoly_eval hm]
  have eh := zip_range c.h (D.m - 1) id fun i => t.tau ^ i * (D.z t.tau * t.delta⁻¹)
  rw [List.map_id] at eh
  rw [eh]
  have eh' : ((List.range (D.m - 1)).map fun i => c.h.getD i 0 * (t.tau ^ (id i) * (D.z t.tau * t.delta⁻¹))).sum =
      t.delta⁻¹ * ((Domain.poly (D.m - 1) fun i => c.h.getD i 0).eval t.tau * D.z t.tau) := by
    rw [Domain.eval_poly, ← List.sum_toFinset _ List.nodup_range, List.toFinset_range, Finset.sum_mul, Finset.mul_sum]
    refine Finset.sum_congr rfl fun i _ => ?_
    simp only [id]
    ring
  rw [eh']
  simp only [Part.at, Toxic.secrets, Combination.part, eval_add, eval_mul, eval_C, Domain.eval_vanishing]
  ring

theorem Combination2.point_eq {D : Domain (ZMod r)} {s : CS (ZMod r)} (hm : (rows s).length ≤ D.m)
    {t : Toxic G1 G2 r} (h2 : r • t.g2 = 0) (n2 : t.g2 ≠ 0) (hcl : Clean D t.tau s) (c : Combination2 r) :
    c.point t.g2 (keysOf D t s) = ((c.part D s).at t.secrets).val • t.g2 := by
  have hz : ∀ (cs : List (ZMod r)) (ps : List G2), combine cs ps = sumexp cs ps := fun _ _ => rfl
  unfold Combination2.point
  simp only [hz, keysOf]
  rw [query_eq h2 n2 hcl.colB]
  simp only [sumexp_zip h2, val_mul_smul h2, ← val_add_smul h2]
  congr 2
  rw [← zipPoly_eval hm]
  simp only [Part2.at, Toxic.secrets, Combination2.part, eval_add, eval_C]
  ring

/-- The public inputs with the constant one in front. -/
theorem inputs_eq {D : Domain (ZMod r)} {s : CS (ZMod r)} (hm : (rows s).length ≤ D.m) (hrange : rowsInRange s = true)
    {t : Toxic G1 G2 r} (h1 : r • t.g1 = 0) {ic0 : G1} {ics : List G1} (hic : (keysOf D t s).vk.ic = ic0 :: ics)
    (inputs : List (ZMod r)) :
    ic0 + (List.zipWith (fun x P => x.val • P) inputs ics).sum = (t.gamma⁻¹ * (t.beta * (sidePoly D s (fun q => q.1)
      (onInputs (1 :: inputs))).eval t.tau + t.alpha * (sidePoly D s (fun q => q.2.1) (onInputs (1 :: inputs))).eval t.tau +
        (sidePoly D s (fun q => q.2.2) (onInputs (1 :: inputs))).eval t.tau)).val • t.g1 := by
  rw [← sum_ext hm hrange, ← zip_inputs, ← sumexp_zip h1]
  have e : ((inputVars s).map fun k => (ext D t s t.gamma⁻¹ k).val • t.g1) = ic0 :: ics := hic
  have : Fact (1 < r) := ⟨(Fact.out : r.Prime).one_lt⟩
  rw [e]
  unfold sumexp
  rw [List.zipWith_cons_cons, List.sum_cons, ZMod.val_one, one_smul]

theorem eval_add_assign (w w' : Index → ZMod r) (l : LC (ZMod r)) : l.eval (fun k => w k + w' k) = l.eval w + l.eval w' := by
  induction l with
  | nil => simp [LC.eval]
  | cons t l ih =>
    have : ∀ w : Index → ZMod r, LC.eval w (t :: l) = t.2 * w t.1 + LC.eval w l := fun w => by simp [LC.eval]
    rw [this, this, this, ih]
    ring

theorem witness_split (S : AlgebraicProver r) (inputs : List (ZMod r)) :
    S.witness inputs = fun k => onInputs (1 :: inputs) k + onAux S.c.l k := by
  funext k
  match k with
  | .input 0 => simp [AlgebraicProver.witness, onInputs, onAux]
  | .input (i + 1) => simp [AlgebraicProver.witness, onInputs, onAux]
  | .aux j => simp [AlgebraicProver.witness, onInputs, onAux]

/-- The equation of polynomials says that the extracted values satisfy the constraints. -/
theorem sat_of_eq {D : Domain (ZMod r)} (hD : D.Lawful) {s : CS (ZMod r)} (hm : (rows s).length ≤ D.m) (S : AlgebraicProver r)
    (inputs : List (ZMod r))
    (h : (sidePoly D s (fun q => q.1) (onInputs (1 :: inputs)) + (S.c.part D s).x) *
      (sidePoly D s (fun q => q.2.1) (onInputs (1 :: inputs)) + (S.c.part D s).y) =
        sidePoly D s (fun q => q.2.2) (onInputs (1 :: inputs)) + (S.c.part D s).z) : s.Sat (S.witness inputs) := by
  intro c hc
  have hq : c.shape ∈ rows s := List.mem_append_left _ (List.mem_map_of_mem hc)
  obtain ⟨k, hk, hq⟩ := List.mem_iff_getElem.1 hq
  have hkm : k < D.m := by omega
  have h := congrArg (eval (D.omega ^ k)) h
  have hz : D.vanishing.eval (D.omega ^ k) = 0 := by
    rw [Domain.eval_vanishing]
    unfold Domain.z
    rw [← pow_mul, mul_comm, pow_mul, hD.prim.pow_eq_one, one_pow, sub_self]
  have hv : ∀ (f : Side r) (w : Index → ZMod r), (sidePoly D s f w).eval (D.omega ^ k) = (f c.shape).eval w := by
    intro f w
    unfold sidePoly
    rw [Domain.eval_ifft hD _ hkm]
    unfold valueAt
    rw [List.getElem?_map, List.getElem?_eq_getElem hk, hq]
    rfl
  simp only [Combination.part, eval_mul, eval_add, hz, hv, mul_zero, add_zero] at h
  rw [← eval_add_assign, ← eval_add_assign, ← eval_add_assign, ← witness_split] at h
  exact h

end keys

/-! ### The honest prover -/

section honest

variable {G1 G2 : Type} [AddCommGroup G1] [AddCommGroup G2] [DecidableEq G1] [DecidableEq G2] {r : Nat} [Fact r.Prime]

/-- The coefficients of the honest prover with the random choices `x` and `y`. -/
noncomputable def honestProver (D : Domain (ZMod r)) (s : CS (ZMod r)) (x y : ZMod r) : AlgebraicProver r where
  a := { one := 0, alpha := 1, beta := 0, delta := x, ic := [], h := [], l := [], a := (inQuery s fun q => q.1).map s.assign, b := [] }
  b := { one := 0, beta := 1, gamma := 0, delta := y, b := (inQuery s fun q => q.2.1).map s.assign }
  c := {
    one := 0
    alpha := y
    beta := x
    delta := x * y
    ic := []
    h := D.quotient (side s fun q => q.1) (side s fun q => q.2.1) (side s fun q => q.2.2)
    l := (auxVars s).map s.assign
    a := (inQuery s fun q => q.1).map fun k => y * s.assign k
    b := (inQuery s fun q => q.2.1).map fun k => x * s.assign k }

theorem sum_inQuery (D : Domain (ZMod r)) (tau : ZMod r) (s : CS (ZMod r)) (f : Side r) (w : Index → ZMod r) :
    ((inQuery s f).map fun k => w k * columnAt D tau s f k).sum =
      ((inputVars s ++ auxVars s).map fun k => w k * columnAt D tau s f k).sum := by
  unfold inQuery
  induction inputVars s ++ auxVars s with
  | nil => rfl
  | cons k l ih =>
    rw [List.map_cons, List.sum_cons, ← ih]
    by_cases hp : present s f k
    · rw [List.filter_cons_of_pos (by simpa using hp), List.map_cons, List.sum_cons]
    · rw [List.filter_cons_of_neg (by simpa using hp), columnAt_eq_zero D tau hp, mul_zero, zero_add]

/-- The honest proof is a combination of the points of the keys with these coefficients. -/
theorem honest_proof {D : Domain (ZMod r)} {s : CS (ZMod r)} {t : Toxic G1 G2 r} (h1 : r • t.g1 = 0) (h2 : r • t.g2 = 0)
    (n1 : t.g1 ≠ 0) (n2 : t.g2 ≠ 0) (hcl : Clean D t.tau s) (x y : ZMod r) :
    (honestProver D s x y).proof t.g1 t.g2 (keysOf D t s) = denseProof D (denseKeys D t s) x y s := by
  have hz : ∀ {G : Type} [AddCommGroup G] (cs : List (ZMod r)) (ps : List G), combine cs ps = sumexp cs ps := fun _ _ => rfl
  have h0 : ∀ {G : Type} [AddCommGroup G] (ps : List G), sumexp ([] : List (ZMod r)) ps = 0 := fun _ => rfl
  have e1 : ∀ (z : ZMod r) (f : Side r), ((inQuery s f).map fun k => z * s.assign k * columnAt D t.tau s f k).sum =
      z * ((inputVars s ++ auxVars s).map fun k => s.assign k * columnAt D t.tau s f k).sum := by
    intro z f
    rw [← sum_inQuery, ← List.sum_map_mul_left]
    congr 1
    exact List.map_congr_left fun k _ => by ring
  have : Fact (1 < r) := ⟨(Fact.out : r.Prime).one_lt⟩
  unfold AlgebraicProver.proof Combination.point Combination2.point honestProver denseProof denseKeys
  simp only [hz, h0, keysOf]
  rw [query_eq h1 n1 hcl.colA, query_eq h1 n1 hcl.colB, query_eq h2 n2 hcl.colB]
  simp only [sumexp_eq h1, sumexp_eq h2, sumexp_zip h1, sum_inQuery, e1, val_mul_smul h1, val_mul_smul h2, ← val_add_smul h1,
    ← val_add_smul h2, ZMod.val_zero, zero_smul, add_zero, zero_add]
  congr 1
  · congr 2
    ring
  · congr 2
    ring
  · congr 2
    ring

/-- The extractor gives back the values of the honest prover. -/
theorem honest_witness (D : Domain (ZMod r)) (s : CS (ZMod r)) (x y : ZMod r) (k : Index) (hk : inRange s k = true) :
    (honestProver D s x y).witness (publicInputs s) k = s.assign k := by
  match k, hk with
  | .input 0, _ => exact (CS.assign_isAssignment s).symm
  | .input (i + 1), hk =>
    have : i + 1 < s.ninputs := by simpa [inRange] using hk
    have hi : i < s.ninputs - 1 := by omega
    simp [AlgebraicProver.witness, publicInputs, hi, add_comm]
  | .aux j, hk =>
    have : j < s.naux := by simpa [inRange] using hk
    simp [AlgebraicProver.witness, honestProver, auxVars, this]

end honest

end Fawkes.Groth16
