import Verif.Lemmas.Queries
import Verif.Lemmas.TestCode
import Verif.Props.Setup
import Verif.Props.Signal

/-!
# Properties of key generation, proving and verification taken together: C67
-/

namespace Fawkes.Props

open Groth16 Polynomial Finset

/-! ### What is assumed of the field constants -/

/-- `root_of_unity()` has order `2^S`, and the generator of the coset is not in the group of these roots of unity. -/
structure LawfulTwoAdic {F : Type} [Field F] (K : TwoAdic F) : Prop where
  root : IsPrimitiveRoot K.rootOfUnity (2 ^ K.S)
  two : (2 : F) ≠ 0
  gen : K.generator ≠ 0
  coset : K.generator ^ 2 ^ K.S ≠ 1

theorem LawfulTwoAdic.domain {F : Type} [Field F] {K : TwoAdic F} (h : LawfulTwoAdic K) {n : Nat} {D : Domain F}
    (hD : Domain.ofLength K n = some D) : D.Lawful ∧ n ≤ D.m := by
  unfold Domain.ofLength at hD
  simp only at hD
  split_ifs at hD with hc
  injection hD with hD
  have hle : Nat.clog 2 n ≤ K.S := by
    by_cases h0 : 0 < Nat.clog 2 n
    · have : ¬ K.S ≤ Nat.clog 2 n := fun h => hc ⟨h0, h⟩
      omega
    · omega
  have hpow : 2 ^ K.S = 2 ^ (K.S - Nat.clog 2 n) * 2 ^ Nat.clog 2 n := by
    rw [← pow_add]
    congr 1
    omega
  subst hD
  refine ⟨⟨by positivity, ?_, ?_, h.gen, ?_⟩, Nat.le_pow_clog (by decide) _⟩
  · exact h.root.pow (by positivity) hpow
  · push_cast
    exact pow_ne_zero _ h.two
  · intro h1
    apply h.coset
    rw [hpow, mul_comm, pow_mul]
    simp only at h1
    rw [h1, one_pow]

variable {G1 G2 T : Type} [AddCommGroup G1] [AddCommGroup G2] [DecidableEq G1] [DecidableEq G2] [CommMonoid T] [DecidableEq T]
  {r : Nat} [Fact r.Prime]

/-- The public inputs recorded by the prover, without the constant one. -/
def publicInputs (s : CS (ZMod r)) : List (ZMod r) := (List.range (s.ninputs - 1)).map fun i => s.assign (.input (1 + i))

/-! ### The verification equation in the exponent -/

section exponent

variable (D : Domain (ZMod r)) (s : CS (ZMod r)) (tau : ZMod r)

theorem side_eq (f : LC (ZMod r) × LC (ZMod r) × LC (ZMod r) → LC (ZMod r)) :
    side s f = valueAt s.assign ((rows s).map f) := by
  funext j
  unfold side valueAt
  rw [List.getElem?_map]
  cases (rows s)[j]? <;> rfl

variable {D s}

/-- The columns, weighted with the values of the variables, add up to the interpolation polynomial of the side. -/
theorem side_sum' (hm : (rows s).length ≤ D.m) (f : LC (ZMod r) × LC (ZMod r) × LC (ZMod r) → LC (ZMod r))
    (hf : ∀ q ∈ rows s, ∀ t ∈ f q, t.1 ∈ inputVars s ++ auxVars s) (w : Index → ZMod r) :
    ((inputVars s ++ auxVars s).map fun k => w k * columnAt D tau s f k).sum =
      (Domain.poly D.m (D.ifft (valueAt w ((rows s).map f)))).eval tau := by
  unfold columnAt
  rw [column_sum _ _ _ (vars_nodup s), colValue_eq _ _ _ _ D.m (by simpa using hm)]
  · rw [← Domain.lagrange_sum]
    simp
  · intro l hl
    obtain ⟨q, hq, rfl⟩ := List.mem_map.1 hl
    exact hf q hq

theorem side_sum (hm : (rows s).length ≤ D.m) (f : LC (ZMod r) × LC (ZMod r) × LC (ZMod r) → LC (ZMod r))
    (hf : ∀ q ∈ rows s, ∀ t ∈ f q, t.1 ∈ inputVars s ++ auxVars s) :
    ((inputVars s ++ auxVars s).map fun k => s.assign k * columnAt D tau s f k).sum =
      (Domain.poly D.m (D.ifft (side s f))).eval tau := by
  rw [side_sum' tau hm f hf, side_eq]

end exponent

/-- The interpolation polynomial of one side of the constraints, at `tau`. -/
noncomputable def sideAt (D : Domain (ZMod r)) (tau : ZMod r) (s : CS (ZMod r))
    (f : LC (ZMod r) × LC (ZMod r) × LC (ZMod r) → LC (ZMod r)) : ZMod r := (Domain.poly D.m (D.ifft (side s f))).eval tau

/-- The polynomial the prover takes for the quotient. -/
noncomputable def quotientPoly (D : Domain (ZMod r)) (s : CS (ZMod r)) : (ZMod r)[X] :=
  Domain.poly (D.m - 1) fun i => (D.quotient (side s fun q => q.1) (side s fun q => q.2.1) (side s fun q => q.2.2)).getD i 0

/-- What the quotient should be one of. -/
noncomputable def defectPoly (D : Domain (ZMod r)) (s : CS (ZMod r)) : (ZMod r)[X] :=
  D.defect (side s fun q => q.1) (side s fun q => q.2.1) (side s fun q => q.2.2)

/-- The combination of the public inputs. -/
def inputSum (D : Domain (ZMod r)) (t : Toxic G1 G2 r) (s : CS (ZMod r)) (w : Index → ZMod r := s.assign) : ZMod r :=
  ((inputVars s).map fun k => w k * Groth16.ext D t s t.gamma⁻¹ k).sum

/-- The three points of a proof as multiples of the generators. -/
theorem proof_in_exponent (D : Domain (ZMod r)) (t : Toxic G1 G2 r)
    (h1 : r • t.g1 = 0) (h2 : r • t.g2 = 0) (hg : t.gamma ≠ 0) (hd : t.delta ≠ 0) (s : CS (ZMod r))
    (hrange : rowsInRange s = true) (hDm : (rows s).length ≤ D.m) (x y : ZMod r) :
    (denseProof D (denseKeys D t s) x y s).a = (x * t.delta + t.alpha + sideAt D t.tau s fun q => q.1).val • t.g1 ∧
    (denseProof D (denseKeys D t s) x y s).b = (y * t.delta + t.beta + sideAt D t.tau s fun q => q.2.1).val • t.g2 ∧
    ∃ c, (denseProof D (denseKeys D t s) x y s).c = c.val • t.g1 ∧
      c * t.delta = (x * t.delta + t.alpha + sideAt D t.tau s fun q => q.1) *
        (y * t.delta + t.beta + sideAt D t.tau s fun q => q.2.1) - t.alpha * t.beta - inputSum D t s * t.gamma -
        ((defectPoly D s).eval t.tau - (quotientPoly D s).eval t.tau * D.z t.tau) := by
  have hrv := rows_in_vars s hrange
  have hA := side_sum t.tau hDm (fun q => q.1) fun q h => (hrv q h).1
  have hB := side_sum t.tau hDm (fun q => q.2.1) fun q h => (hrv q h).2.1
  have hC := side_sum t.tau hDm (fun q => q.2.2) fun q h => (hrv q h).2.2
  have hQ := Domain.sum_quotient D (side s fun q => q.1) (side s fun q => q.2.1) (side s fun q => q.2.2) t.tau
  unfold defectPoly quotientPoly Domain.defect sideAt
  rw [eval_sub, eval_mul]
  generalize (Domain.poly D.m (D.ifft (side s fun q => q.1))).eval t.tau = SA at hA ⊢
  generalize (Domain.poly D.m (D.ifft (side s fun q => q.2.1))).eval t.tau = SB at hB ⊢
  generalize (Domain.poly D.m (D.ifft (side s fun q => q.2.2))).eval t.tau = SC at hC ⊢
  generalize (Domain.poly (D.m - 1) fun i => (D.quotient (side s fun q => q.1) (side s fun q => q.2.1)
          (side s fun q => q.2.2)).getD i 0).eval t.tau = H at hQ ⊢
  have hsplit : inputSum D t s * t.gamma +
      ((auxVars s).map fun k => s.assign k * Groth16.ext D t s t.delta⁻¹ k).sum * t.delta =
        SA * t.beta + SB * t.alpha + SC := by
    have e0 : ∀ (l : List Index) (c : ZMod r), c ≠ 0 →
        (l.map fun k => s.assign k * Groth16.ext D t s c⁻¹ k).sum * c =
        (l.map fun k => s.assign k * columnAt D t.tau s (fun q => q.1) k).sum * t.beta +
        (l.map fun k => s.assign k * columnAt D t.tau s (fun q => q.2.1) k).sum * t.alpha +
        (l.map fun k => s.assign k * columnAt D t.tau s (fun q => q.2.2) k).sum := by
      intro l c hc
      simp only [← List.sum_map_mul_right, ← List.sum_map_add]
      congr 1
      refine List.map_congr_left fun k _ => ?_
      unfold Groth16.ext
      field_simp
    unfold inputSum
    rw [e0 _ _ hg, e0 _ _ hd, ← hA, ← hB, ← hC]
    simp only [List.map_append, List.sum_append]
    ring
  have eh : (List.zipWith (fun a i => a * (t.tau ^ i * (D.z t.tau * t.delta⁻¹)))
      (D.quotient (side s fun q => q.1) (side s fun q => q.2.1) (side s fun q => q.2.2)) (List.range (D.m - 1))).sum =
        H * (D.z t.tau * t.delta⁻¹) := by
    rw [← hQ, ← List.map_id (List.zipWith (fun h i => h * t.tau ^ i) _ _), ← List.sum_map_mul_right, List.map_zipWith]
    simp only [id, mul_assoc]
  refine ⟨?_, ?_, x * y * t.delta + y * t.alpha + x * t.beta + y * SA + x * SB +
      H * (D.z t.tau * t.delta⁻¹) + ((auxVars s).map fun k => s.assign k * Groth16.ext D t s t.delta⁻¹ k).sum, ?_, ?_⟩
  · simp only [denseProof, denseKeys, keysOf, sumexp_eq h1, hA, val_mul_smul h1, val_add_smul h1]
  · simp only [denseProof, denseKeys, keysOf, sumexp_eq h2, hB, val_mul_smul h2, val_add_smul h2]
  · simp only [denseProof, denseKeys, keysOf, sumexp_eq h1, sumexp_zip h1, hA, hB, eh, val_mul_smul h1, val_add_smul h1]
  · generalize ((auxVars s).map fun k => s.assign k * Groth16.ext D t s t.delta⁻¹ k).sum = L at hsplit ⊢
    have k2 : H * (D.z t.tau * t.delta⁻¹) * t.delta = H * D.z t.tau := by field_simp
    linear_combination (1 : ZMod r) * hsplit + k2

/-- Keys and proof for one and the same constraint system, checked with any inputs: what the equation says. -/
theorem equation_inputs {e : G1 → G2 → Tˣ} (hl : ∀ a a' b, e (a + a') b = e a b * e a' b)
    (hr : ∀ a b b', e a (b + b') = e a b * e a b') (D : Domain (ZMod r)) (t : Toxic G1 G2 r)
    (h1 : r • t.g1 = 0) (h2 : r • t.g2 = 0) (hg : t.gamma ≠ 0) (hd : t.delta ≠ 0) (s : CS (ZMod r)) (hn : 1 ≤ s.ninputs)
    (hrange : rowsInRange s = true) (hDm : (rows s).length ≤ D.m) (x y : ZMod r) (w : Index → ZMod r) (hw : w (.input 0) = 1) :
    ∃ ic0 ics, (keysOf D t s).vk.ic = ic0 :: ics ∧ s.ninputs - 1 = ics.length ∧
      (Groth16Equation e (keysOf D t s).vk.alphaG1 (keysOf D t s).vk.betaG2 (keysOf D t s).vk.gammaG2
        (keysOf D t s).vk.deltaG2 ic0 ics (denseProof D (denseKeys D t s) x y s).a (denseProof D (denseKeys D t s) x y s).b
        (denseProof D (denseKeys D t s) x y s).c ((List.range (s.ninputs - 1)).map fun i => w (.input (1 + i))) ↔
        e t.g1 t.g2 ^ ((defectPoly D s).eval t.tau).val = e t.g1 t.g2 ^ ((quotientPoly D s).eval t.tau * D.z t.tau +
          (inputSum D t s w - inputSum D t s) * t.gamma).val) := by
  obtain ⟨n, hn⟩ : ∃ n, s.ninputs = n + 1 := ⟨s.ninputs - 1, by omega⟩
  have hin : inputVars s = .input 0 :: (List.range n).map fun i => .input (1 + i) := by
    unfold inputVars
    rw [hn, List.range_succ_eq_map, List.map_cons, List.map_map]
    congr 1
    exact List.map_congr_left fun i _ => by simp [Nat.succ_eq_add_one, add_comm]
  have hpub : ((List.range (s.ninputs - 1)).map fun i => w (.input (1 + i))) =
      ((List.range n).map fun i => .input (1 + i)).map w := by
    rw [hn, List.map_map]
    rfl
  obtain ⟨ea, eb, c, ec, hc⟩ := proof_in_exponent D t h1 h2 hg hd s hrange hDm x y
  refine ⟨(Groth16.ext D t s t.gamma⁻¹ (.input 0)).val • t.g1, ((List.range n).map fun i => .input (1 + i)).map
    fun k => (Groth16.ext D t s t.gamma⁻¹ k).val • t.g1, ?_, by simp [hn], ?_⟩
  · simp only [keysOf, hin, List.map_cons]
  · unfold Groth16Equation
    rw [ea, eb, ec]
    have eic : (Groth16.ext D t s t.gamma⁻¹ (.input 0)).val • t.g1 + (List.zipWith (fun x P => x.val • P)
        ((List.range (s.ninputs - 1)).map fun i => w (.input (1 + i)))
        (((List.range n).map fun i => Index.input (1 + i)).map fun k => (Groth16.ext D t s t.gamma⁻¹ k).val • t.g1)).sum =
        (inputSum D t s w).val • t.g1 := by
      rw [hpub]
      have := sumexp_eq h1 ((List.range n).map fun i => Index.input (1 + i)) w (Groth16.ext D t s t.gamma⁻¹)
      unfold sumexp at this
      unfold inputSum
      rw [this, hin, List.map_cons, List.sum_cons, val_add_smul h1]
      congr 3
      rw [hw, one_mul]
    rw [eic]
    simp only [keysOf, pair_val hl hr h1]
    have ho := pair_order (g2 := t.g2) hl h1
    rw [← pow_val_add ho, ← pow_val_add ho]
    generalize sideAt D t.tau s (fun q => q.1) = SA at hc ⊢
    generalize sideAt D t.tau s (fun q => q.2.1) = SB at hc ⊢
    generalize (defectPoly D s).eval t.tau = Df at hc ⊢
    have k1 : (x * t.delta + t.alpha + SA) * (y * t.delta + t.beta + SB) = Df + ((x * t.delta + t.alpha + SA) *
        (y * t.delta + t.beta + SB) - Df) := by ring
    have k2 : t.alpha * t.beta + inputSum D t s w * t.gamma + c * t.delta = ((quotientPoly D s).eval t.tau * D.z t.tau +
        (inputSum D t s w - inputSum D t s) * t.gamma) +
        ((x * t.delta + t.alpha + SA) * (y * t.delta + t.beta + SB) - Df) := by
      rw [hc]; ring
    rw [k1, k2, pow_val_add ho Df, pow_val_add ho (_ + _)]
    exact mul_left_inj _

/-- Keys and proof for one and the same constraint system: the equation that `verify` checks says that the quotient
computed by the prover is one, at the point `tau`. -/
theorem equation_iff {e : G1 → G2 → Tˣ} (hl : ∀ a a' b, e (a + a') b = e a b * e a' b)
    (hr : ∀ a b b', e a (b + b') = e a b * e a b') (D : Domain (ZMod r)) (t : Toxic G1 G2 r)
    (h1 : r • t.g1 = 0) (h2 : r • t.g2 = 0) (hg : t.gamma ≠ 0) (hd : t.delta ≠ 0) (s : CS (ZMod r)) (hn : 1 ≤ s.ninputs)
    (hrange : rowsInRange s = true) (hDm : (rows s).length ≤ D.m) (x y : ZMod r) :
    ∃ ic0 ics, (keysOf D t s).vk.ic = ic0 :: ics ∧ (publicInputs s).length = ics.length ∧
      (Groth16Equation e (keysOf D t s).vk.alphaG1 (keysOf D t s).vk.betaG2 (keysOf D t s).vk.gammaG2
        (keysOf D t s).vk.deltaG2 ic0 ics (denseProof D (denseKeys D t s) x y s).a (denseProof D (denseKeys D t s) x y s).b
        (denseProof D (denseKeys D t s) x y s).c (publicInputs s) ↔
        e t.g1 t.g2 ^ ((defectPoly D s).eval t.tau).val = e t.g1 t.g2 ^ ((quotientPoly D s).eval t.tau * D.z t.tau).val) := by
  obtain ⟨ic0, ics, h3, h4, h5⟩ := equation_inputs hl hr D t h1 h2 hg hd s hn hrange hDm x y s.assign (CS.assign_isAssignment s)
  rw [sub_self, zero_mul, add_zero] at h5
  exact ⟨ic0, ics, h3, by simp [publicInputs, h4], h5⟩

/-! ### Constraint by constraint -/

/-- The values satisfy the circuit exactly if they satisfy every row of the extended system. -/
theorem sat_iff_rows (s : CS (ZMod r)) (m : Nat) (hm : (rows s).length ≤ m) :
    s.Sat s.assign ↔ ∀ k < m, side s (fun q => q.1) k * side s (fun q => q.2.1) k = side s (fun q => q.2.2) k := by
  constructor
  · intro h k _
    unfold side
    cases hq : (rows s)[k]? with
    | none => simp
    | some q =>
      have hq := List.mem_of_getElem? hq
      simp only
      rcases List.mem_append.1 hq with hq | hq
      · obtain ⟨c, hc, rfl⟩ := List.mem_map.1 hq
        exact h c hc
      · obtain ⟨i, -, rfl⟩ := List.mem_map.1 hq
        simp [LC.eval]
  · intro h c hc
    have hq : c.shape ∈ rows s := List.mem_append_left _ (List.mem_map_of_mem hc)
    obtain ⟨k, hk, hq⟩ := List.mem_iff_getElem.1 hq
    have := h k (by omega)
    unfold side at this
    rw [List.getElem?_eq_getElem hk, hq] at this
    exact this

/-! ### From `generateKeys` and `prove` to the equation -/

section

variable {K : TwoAdic (ZMod r)} {t : Toxic G1 G2 r} {params : Parameters G1 G2} {s s' : CS (ZMod r)}

theorem generateParameters_ok (h : generateParameters K t s = .ok params) :
    rowsInRange s = true ∧ t.gamma ≠ 0 ∧ t.delta ≠ 0 ∧
      ∃ D, Domain.ofLength K (rows s).length = some D ∧ params = keysOf D t s ∧ ∀ b ∈ params.l, b ≠ 0 := by
  unfold generateParameters at h
  by_cases h0 : rowsInRange s = false
  · rw [if_pos h0] at h; cases h
  rw [if_neg h0] at h
  cases hD : Domain.ofLength K (rows s).length with
  | none => rw [hD] at h; cases h
  | some D =>
    rw [hD] at h
    simp only at h
    by_cases h1 : t.gamma = 0 ∨ t.delta = 0
    · rw [if_pos h1] at h; cases h
    rw [if_neg h1] at h
    by_cases h2 : (keysOf D t s).l.any (· = 0) = true
    · rw [if_pos h2] at h; cases h
    rw [if_neg h2] at h
    injection h with h
    rw [not_or] at h1
    refine ⟨by simpa using h0, h1.1, h1.2, D, rfl, h.symm, fun b hb hz => h2 ?_⟩
    rw [List.any_eq_true]
    exact ⟨b, h ▸ hb, by simpa using hz⟩

theorem createProof_ok (hk : generateParameters K t s = .ok params) (h1 : r • t.g1 = 0) (h2 : r • t.g2 = 0)
    (n1 : t.g1 ≠ 0) (n2 : t.g2 ≠ 0) (x y : ZMod r) :
    rowsInRange s = true ∧ t.gamma ≠ 0 ∧ t.delta ≠ 0 ∧ ∃ D, Domain.ofLength K (rows s).length = some D ∧
      params = keysOf D t s ∧ (∀ b ∈ params.l, b ≠ 0) ∧ createProof K params x y s = proofOf D params x y s := by
  obtain ⟨h0, hg, hd, D, hD, hp, hl⟩ := generateParameters_ok hk
  refine ⟨h0, hg, hd, D, hD, hp, hl, ?_⟩
  unfold createProof
  rw [if_neg (by simp [h0]), hD]
  simp only
  have key : ∀ {G : Type} [AddCommGroup G] (g : G), r • g = 0 → g ≠ 0 → t.delta.val • g ≠ 0 := by
    intro G _ g ho hn h
    have ho' : addOrderOf g = r := addOrderOf_eq_prime ho hn
    have := addOrderOf_dvd_of_nsmul_eq_zero h
    rw [ho'] at this
    have h3 := Nat.eq_zero_of_dvd_of_lt this (ZMod.val_lt _)
    exact hd ((ZMod.val_eq_zero _).1 h3)
  rw [if_neg]
  rw [hp, not_or]
  exact ⟨key _ h1 n1, key _ h2 n2⟩

end

/-- A proof that the prover returns is the proof from complete queries, if the secret point is clean; it returns one exactly if
the constant one does not occur on the right with the coefficient zero only. -/
theorem createProof_clean {K : TwoAdic (ZMod r)} {t : Toxic G1 G2 r} (h1 : r • t.g1 = 0) (h2 : r • t.g2 = 0)
    (n1 : t.g1 ≠ 0) (n2 : t.g2 ≠ 0) {params : Parameters G1 G2} {s : CS (ZMod r)} (hn : 1 ≤ s.ninputs)
    (hc : ConsCanonical s) (hk : generateParameters K t s = .ok params) {D : Domain (ZMod r)}
    (hD : Domain.ofLength K (rows s).length = some D) (hcl : Clean D t.tau s) (x y : ZMod r) :
    (OneBalanced s → createProof K params x y s = .ok (denseProof D (denseKeys D t s) x y s)) ∧
    (¬ OneBalanced s → createProof K params x y s = .error .unexpectedEof) := by
  obtain ⟨-, -, hd, D', hD', hp, hl, hpr⟩ := createProof_ok hk h1 h2 n1 n2 x y
  rw [hD] at hD'; injection hD' with hD'; subst hD'
  subst hp
  rw [hpr]
  exact ⟨fun hb => proofOf_eq h1 h2 n1 n2 hd hl hc hcl hb x y, fun hb => proofOf_eof h1 n1 hn hc hcl hb x y⟩

/-- Any two runs of a circuit with the same shape, the first without values on the key generator, the second with values
on the prover: `verify` accepts a proof made with keys generated from the first, with the recorded public inputs, if the values
satisfy the constraints. -/
theorem proving_accepts {E : Engine G1 G2 T} {e : G1 → G2 → Tˣ} (hE : PairingEngine E e)
    (hr : ∀ a b b', e a (b + b') = e a b * e a b') {K : TwoAdic (ZMod r)} (hK : LawfulTwoAdic K) (t : Toxic G1 G2 r)
    (h1 : r • t.g1 = 0) (h2 : r • t.g2 = 0) {params : Parameters G1 G2}
    {s : CS (ZMod r)} (hn : 1 ≤ s.ninputs) (hk : generateParameters K t s = .ok params) {D : Domain (ZMod r)}
    (hD : Domain.ofLength K (rows s).length = some D) (x y : ZMod r)
    (hs : s.Sat s.assign) :
    verify E (truncate params.vk) (denseProof D (denseKeys D t s) x y s) (publicInputs s) = .ok (.ok true) := by
  obtain ⟨h0, hg, hd, D', hD', hp, -⟩ := generateParameters_ok hk
  rw [hD] at hD'; injection hD' with hD'; subst hD'
  obtain ⟨hDl, hDm⟩ := hK.domain hD
  refine (C55_accepts hE _ _ _).2 ?_
  subst hp
  obtain ⟨ic0, ics, hic, hlen, heq⟩ := equation_iff hE.add_left hr D t h1 h2 hg hd s hn h0 hDm x y
  refine ⟨ic0, ics, hic, hlen, heq.2 ?_⟩
  unfold defectPoly quotientPoly
  rw [Domain.quotient_eq hDl _ _ _ ((sat_iff_rows s D.m hDm).1 hs)]

theorem domain_le {K : TwoAdic (ZMod r)} {D : Domain (ZMod r)} {n : Nat} (hn : 0 < n) (hD : Domain.ofLength K n = some D) :
    D.m ≤ 2 * n := by
  unfold Domain.ofLength at hD
  simp only at hD
  split_ifs at hD
  injection hD with hD
  subst hD
  simp only
  rcases Nat.lt_or_ge 1 n with h | h
  · have := Nat.pow_pred_clog_lt_self (b := 2) (by decide) h
    have h3 : 0 < Nat.clog 2 n := Nat.clog_pos (by decide) h
    have : 2 ^ Nat.clog 2 n = 2 * 2 ^ (Nat.clog 2 n).pred := by
      rw [← pow_succ', ← Nat.succ_eq_add_one, Nat.succ_pred_eq_of_pos h3]
    omega
  · rw [Nat.clog_of_right_le_one h]; omega

/-- As before, if the values do not satisfy the constraints: `verify` rejects, except for few values of the secret point `tau` of
the key generator. -/
theorem proving_rejects {K : TwoAdic (ZMod r)} (hK : LawfulTwoAdic K) {s : CS (ZMod r)} (hn : 1 ≤ s.ninputs)
    {D : Domain (ZMod r)} (hD : Domain.ofLength K (rows s).length = some D)
    (hs : ¬ s.Sat s.assign) : ∃ bad : Finset (ZMod r), bad.card ≤ 2 * D.m ∧
      ∀ {G1 G2 T : Type} [AddCommGroup G1] [AddCommGroup G2] [DecidableEq G1] [DecidableEq G2] [CommMonoid T] [DecidableEq T]
        {E : Engine G1 G2 T} {e : G1 → G2 → Tˣ} (_ : PairingEngine E e) (_ : ∀ a b b', e a (b + b') = e a b * e a b')
        (t : Toxic G1 G2 r) (_ : r • t.g1 = 0) (_ : r • t.g2 = 0) (_ : e t.g1 t.g2 ≠ 1) (_ : t.tau ∉ bad)
        (params : Parameters G1 G2) (_ : generateParameters K t s = .ok params) (x y : ZMod r),
        verify E (truncate params.vk) (denseProof D (denseKeys D t s) x y s) (publicInputs s) = .ok (.ok false) := by
  obtain ⟨hDl, hDm⟩ := hK.domain hD
  have hs' := mt (sat_iff_rows s D.m hDm).2 hs
  push Not at hs'
  obtain ⟨k, hk, hbad⟩ := hs'
  obtain ⟨hne0, hdeg⟩ := Domain.no_quotient hDl (side s fun q => q.1) (side s fun q => q.2.1) (side s fun q => q.2.2) k hk hbad
    fun i => (D.quotient (side s fun q => q.1) (side s fun q => q.2.1) (side s fun q => q.2.2)).getD i 0
  refine ⟨(D.defect (side s fun q => q.1) (side s fun q => q.2.1) (side s fun q => q.2.2) -
    Domain.poly (D.m - 1) (fun i => (D.quotient (side s fun q => q.1) (side s fun q => q.2.1)
      (side s fun q => q.2.2)).getD i 0) * D.vanishing).roots.toFinset, ?_, ?_⟩
  · refine (Multiset.toFinset_card_le _).trans ((Polynomial.card_roots' _).trans (hdeg.trans ?_))
    omega
  · intro G1 G2 T _ _ _ _ _ _ E e hE hr t h1 h2 hne ht params hk x y
    obtain ⟨h0, hg, hd, D', hD', hp, -⟩ := generateParameters_ok hk
    rw [hD] at hD'; injection hD' with hD'; subst hD'
    subst hp
    refine (C55_rejects hE _ _ _).2 ?_
    obtain ⟨ic0, ics, hic, hlen, heq⟩ := equation_iff hE.add_left hr D t h1 h2 hg hd s hn h0 hDm x y
    refine ⟨ic0, ics, hic, hlen, ?_⟩
    rw [show truncate (keysOf D t s).vk = ⟨_, _, _, _, _⟩ from rfl]
    simp only
    rw [heq, pow_val_inj (pair_order hE.add_left h1) hne]
    intro he
    apply ht
    rw [Multiset.mem_toFinset, Polynomial.mem_roots hne0, Polynomial.IsRoot.def, eval_sub, eval_mul, Domain.eval_vanishing]
    exact sub_eq_zero.2 he

/-! ### Circuits with a public signal -/

theorem one_inputize (a : CNum (ZMod r)) (s : CS (ZMod r)) :
    Post s (CNum.inputize a) fun _ s' => ∃ c ∈ s'.cons, c.b.lc = (CNum.one : CNum (ZMod r)).lc := by
  have key : ∀ (v : Option (ZMod r)) (c : CNum (ZMod r)),
      Post s (CS.allocInput v >>= fun i => CS.enforce (CNum.fromVar v i) CNum.one c)
        fun _ s' => ∃ c ∈ s'.cons, c.b.lc = (CNum.one : CNum (ZMod r)).lc := by
    intro v c u s' h
    obtain ⟨i, s1, -, h⟩ := M.bind_ok h
    obtain ⟨rfl, -⟩ := post_enforce _ _ _ _ _ _ h
    exact ⟨_, List.mem_append_right _ List.mem_cons_self, rfl⟩
  unfold CNum.inputize
  split
  · exact key _ _
  · exact key _ _

/-- Publishing anything emits a constraint with the constant one on the right. -/
theorem one_publish (t : Ty) (a : t.S (ZMod r)) (s : CS (ZMod r)) :
    Post s (t.inputize a) fun _ s' => s.ninputs ≠ s'.ninputs → ∃ c ∈ s'.cons, c.b.lc = (CNum.one : CNum (ZMod r)).lc := by
  induction t generalizing s with
  | num => exact fun u s' h _ => one_inputize _ _ u s' h
  | bool => exact fun u s' h _ => one_inputize _ _ u s' h
  | pair t u iht ihu =>
    intro _ s' h hne
    obtain ⟨_, s1, h1, h2⟩ := M.bind_ok h
    by_cases e : s.ninputs = s1.ninputs
    · exact ihu _ _ _ _ h2 (e ▸ hne)
    · obtain ⟨c, hc, hb⟩ := iht _ _ _ _ h1 e
      exact ⟨c, (M.run_ext h2).cons.subset hc, hb⟩
  | vec n t ih =>
    have key : ∀ (l : List (t.S (ZMod r))) (s s' : CS (ZMod r)), (listForM t.inputize l).run s = .ok ((), s') →
        s.ninputs ≠ s'.ninputs → ∃ c ∈ s'.cons, c.b.lc = (CNum.one : CNum (ZMod r)).lc := by
      intro l
      induction l with
      | nil =>
        intro s s' h hne
        unfold listForM at h
        rw [M.run_pure] at h; injection h with h; injection h with _ h; subst h
        exact absurd rfl hne
      | cons a l ihl =>
        intro s s' h hne
        unfold listForM at h
        obtain ⟨_, s1, h1, h2⟩ := M.bind_ok h
        by_cases e : s.ninputs = s1.ninputs
        · exact ihl _ _ h2 (e ▸ hne)
        · obtain ⟨c, hc, hb⟩ := ih _ _ _ _ h1 e
          exact ⟨c, (M.run_ext h2).cons.subset hc, hb⟩
    exact fun _ s' h => key _ s s' h

theorem width_inputize (a : CNum (ZMod r)) (s : CS (ZMod r)) :
    Post s (CNum.inputize a) fun _ s' => s'.ninputs = s.ninputs + 1 := by
  have key : ∀ (v : Option (ZMod r)) (c : CNum (ZMod r)),
      Post s (CS.allocInput v >>= fun i => CS.enforce (CNum.fromVar v i) CNum.one c)
        fun _ s' => s'.ninputs = s.ninputs + 1 := by
    intro v c u s' h
    obtain ⟨i, s1, h1, h⟩ := M.bind_ok h
    obtain ⟨rfl, -⟩ := post_enforce _ _ _ _ _ _ h
    rw [run_csallocInput] at h1
    split at h1
    · cases h1
    · injection h1 with h1; injection h1 with _ h1; subst h1; rfl
  unfold CNum.inputize
  split
  · exact key _ _
  · exact key _ _

/-- Publishing adds as many public inputs as the signal has numbers. -/
theorem width_publish (t : Ty) (a : t.S (ZMod r)) (ha : t.ok (ZMod r) a) (s : CS (ZMod r)) :
    Post s (t.inputize a) fun _ s' => s'.ninputs = s.ninputs + t.width := by
  induction t generalizing s with
  | num => exact width_inputize _ _
  | bool => exact width_inputize _ _
  | pair t u iht ihu =>
    intro _ s' h
    obtain ⟨_, s1, h1, h2⟩ := M.bind_ok h
    rw [ihu _ ha.2 _ _ _ h2, iht _ ha.1 _ _ _ h1, add_assoc]
    rfl
  | vec n t ih =>
    have key : ∀ (l : List (t.S (ZMod r))) (_ : ∀ a ∈ l, t.ok (ZMod r) a) (s s' : CS (ZMod r)),
        (listForM t.inputize l).run s = .ok ((), s') → s'.ninputs = s.ninputs + l.length * t.width := by
      intro l
      induction l with
      | nil =>
        intro _ s s' h
        unfold listForM at h
        rw [M.run_pure] at h; injection h with h; injection h with _ h; subst h
        simp
      | cons a l ihl =>
        intro hl s s' h
        unfold listForM at h
        obtain ⟨_, s1, h1, h2⟩ := M.bind_ok h
        rw [ihl (fun a h => hl a (List.mem_cons_of_mem _ h)) _ _ h2, ih _ (hl a List.mem_cons_self) _ _ _ h1, List.length_cons]
        ring
    intro _ s' h
    rw [key _ ha.2 s s' h, ha.1]
    rfl

/-! ## C67 -/

section C67

variable {W : Type}

/-- A circuit generated by the macros (src/macros.rs) from client code over the circuit API; `w` is what the client
code has besides the public and the secret signal. -/
def generated (P Q : Ty) (code : Code r W) (w : Option W) (p : Option (P.V (ZMod r))) (q : Option (Q.V (ZMod r))) :
    M (ZMod r) (P.S (ZMod r)) :=
  synthesize P Q (fun a b => do let _ ← code.exec w (P.linearize a ++ Q.linearize b)) p q

/-- Keys of the generated circuit, seen from a run of the prover. -/
theorem keys_of_run {P Q : Ty} {code : Code r W} (hw : code.WidthsFit) (hc : code.Quiet) {w : W} {p : P.V (ZMod r)}
    (hp : P.okV (ZMod r) p) {q : Q.V (ZMod r)} {a : P.S (ZMod r)} {s : CS (ZMod r)}
    (h : (generated P Q code (some w) (some p) (some q)).run (CS.new .prove) = .ok (a, s)) :
    1 ≤ s.ninputs ∧ publicInputs s = P.flat (ZMod r) p ∧ getInputs P (some p) = .ok (some (P.flat (ZMod r) p)) ∧
    ∀ (K : TwoAdic (ZMod r)) (t : Toxic G1 G2 r),
      generateKeys K t (generated P Q code none none none) = generateParameters K t s := by
  obtain ⟨h1, h2, h3⟩ := C58_circuit_get_inputs P Q _ p hp (some q) (fun a b s s' h hs => by
    obtain ⟨q1, s1, h1, h⟩ := M.bind_ok h
    rw [M.run_pure] at h; injection h with h; injection h with _ h; subst h
    exact quiet_ninputs _ hc h1 hs) a s h
  obtain ⟨a', s', hrun, hi, ha, -, hcons⟩ := C12_circuit P Q code hw w p q a s h
  refine ⟨by omega, ?_, h3, fun K t => ?_⟩
  · unfold publicInputs
    rw [h1, show 1 + P.width - 1 = P.width by omega, h2]
  · unfold generateKeys generated
    rw [hrun]
    simp only
    exact (generateParameters_congr K t hi ha hcons).symm

/-- Key generator and prover see constraint systems of the same shape. -/
theorem shape_of_run {P Q : Ty} {code : Code r W} (hw : code.WidthsFit) {a0 : P.S (ZMod r)} {s0 : CS (ZMod r)}
    (hset : (generated P Q code none none none).run (CS.new .setup) = .ok (a0, s0)) {w : W} {p : P.V (ZMod r)}
    {q : Q.V (ZMod r)} {a : P.S (ZMod r)} {s : CS (ZMod r)}
    (h : (generated P Q code (some w) (some p) (some q)).run (CS.new .prove) = .ok (a, s)) :
    s.ninputs = s0.ninputs ∧ s.naux = s0.naux ∧ s.cons.map Constraint.shape = s0.cons.map Constraint.shape ∧
      rows s = rows s0 := by
  obtain ⟨a', s', hrun, hi, ha, -, hcons⟩ := C12_circuit P Q code hw w p q a s h
  unfold generated at hset
  rw [hrun] at hset; injection hset with hset; injection hset with _ hset; subst hset
  exact ⟨hi, ha, hcons, by unfold rows; rw [hcons, hi]⟩

theorem canonical_of_run {P Q : Ty} {code : Code r W} {w : Option W} {p : Option (P.V (ZMod r))} {q : Option (Q.V (ZMod r))}
    {b : Backend} {a : P.S (ZMod r)} {s : CS (ZMod r)} (h : (generated P Q code w p q).run (CS.new b) = .ok (a, s)) :
    ConsCanonical s := by
  have h1 := circuit_good false P Q code w p q (fun k => by cases k) b h
  exact fun c hc => ⟨(h1 c hc).1.canon, (h1 c hc).2.1.canon, (h1 c hc).2.2.1.canon⟩

theorem ninputs_pos {α : Type} {m : M (ZMod r) α} {b : Backend} {a : α} {s : CS (ZMod r)} (h : m.run (CS.new b) = .ok (a, s)) :
    1 ≤ s.ninputs := ((M.run_ext h).wf (wf_new _)).pos

theorem clean_congr {D : Domain (ZMod r)} {tau : ZMod r} {s s' : CS (ZMod r)} (hi : s.ninputs = s'.ninputs)
    (ha : s.naux = s'.naux) (hr : rows s = rows s') : Clean D tau s' → Clean D tau s := by
  intro h
  have h2 : inputVars s = inputVars s' := by unfold inputVars; rw [hi]
  have h3 : auxVars s = auxVars s' := by unfold auxVars; rw [ha]
  obtain ⟨hA, hB, h0, hz⟩ := h
  refine ⟨?_, ?_, h0, hz⟩
  · unfold present columnAt at hA ⊢
    rwa [hr, h2, h3]
  · unfold present columnAt at hB ⊢
    rwa [hr, h2, h3]

/-- If the constant one occurs on the right side of some constraint, then it has a coefficient other than zero on the right side
of some constraint. -/
def ConstantOnRight (s : CS (ZMod r)) : Prop :=
  (∃ c ∈ s.cons, Index.input 0 ∈ c.b.lc.keys) → ∃ c ∈ s.cons, ∃ v, v ≠ 0 ∧ (Index.input 0, v) ∈ c.b.lc

theorem balanced_iff {s : CS (ZMod r)} (hc : ConsCanonical s) : OneBalanced s ↔ ConstantOnRight s := by
  have h1 : occurs s (fun q => q.2.1) (.input 0) = true ↔ ∃ c ∈ s.cons, Index.input 0 ∈ c.b.lc.keys := by
    unfold occurs rows
    simp only [List.any_append, List.any_map, Bool.or_eq_true, List.any_eq_true, Function.comp_apply, Constraint.shape,
      List.any_nil, Bool.false_eq_true, and_false, exists_false, or_false, decide_eq_true_eq, LC.keys, List.mem_map]
  have h2 : present s (fun q => q.2.1) (.input 0) ↔ ∃ c ∈ s.cons, ∃ v, v ≠ 0 ∧ (Index.input 0, v) ∈ c.b.lc := by
    unfold present rows
    constructor
    · rintro ⟨q, hq, hne⟩
      rcases List.mem_append.1 hq with hq | hq
      · obtain ⟨c, hcm, rfl⟩ := List.mem_map.1 hq
        refine ⟨c, hcm, ?_⟩
        by_contra hno
        push Not at hno
        apply hne
        show coeff _ c.b.lc = 0
        by_cases hk : ∃ t ∈ c.b.lc, t.1 = Index.input 0
        · obtain ⟨t, ht, hk⟩ := hk
          rw [← hk, coeff_of_mem (hc c hcm).2.1.sorted ht]
          by_contra hv
          exact hno t.2 hv (hk ▸ ht)
        · push Not at hk
          exact coeff_eq_zero hk
      · obtain ⟨i, -, rfl⟩ := List.mem_map.1 hq
        exact absurd rfl hne
    · rintro ⟨c, hcm, v, hv, hm⟩
      refine ⟨c.shape, List.mem_append_left _ (List.mem_map_of_mem hcm), ?_⟩
      show coeff _ c.b.lc ≠ 0
      rw [show Index.input 0 = (Index.input 0, v).1 from rfl, coeff_of_mem (hc c hcm).2.1.sorted hm]
      exact hv
  unfold OneBalanced ConstantOnRight
  rw [h1, h2]

theorem balanced_congr {s s' : CS (ZMod r)} (hr : rows s = rows s') : OneBalanced s ↔ OneBalanced s' := by
  unfold OneBalanced occurs present
  rw [hr]

/-- Circuits with a public signal: the constant one is on the right side of the constraints that publish. -/
theorem constantOnRight_of_public {P Q : Ty} {code : Code r W} (hc : code.Quiet) (hP : 0 < P.width) {w : Option W}
    {p : Option (P.V (ZMod r))} {q : Option (Q.V (ZMod r))} {b : Backend} (hb : b ≠ .test) {a : P.S (ZMod r)} {s : CS (ZMod r)}
    (h : (generated P Q code w p q).run (CS.new b) = .ok (a, s)) : ConstantOnRight s := by
  intro _
  obtain ⟨s1, b1, s2, s3, h1, h2, h3, h4⟩ := synthesize_ok h
  obtain ⟨o, h3⟩ := main_ok h3
  obtain ⟨hok, hk1⟩ := P.post_alloc p _ _ _ h1
  obtain ⟨-, hk2⟩ := Q.post_alloc q _ _ _ h2
  have hbe : (CS.new b : CS (ZMod r)).backend ≠ .test := hb
  have hn : s3.ninputs = 1 := by
    rw [quiet_ninputs _ hc h3 (by rw [(M.run_ext h2).backend, (M.run_ext h1).backend]; exact hbe), (hk1.trans _ _ _ hk2).2 hbe]
    rfl
  have hn' : s.ninputs = 1 + P.width := by
    have := width_publish P a hok s3 _ _ h4
    rw [this, hn]
  obtain ⟨c, hc, hone⟩ := one_publish P a s3 _ _ h4 (by omega)
  exact ⟨c, hc, 1, one_ne_zero, by rw [hone]; exact List.mem_cons_self⟩

/-- The secret point is no accidental zero for the constraints of the key generator. -/
def CleanSetup (K : TwoAdic (ZMod r)) (s0 : CS (ZMod r)) (tau : ZMod r) : Prop :=
  ∀ D, Domain.ofLength K (rows s0).length = some D → Clean D tau s0

theorem cleanSetup_few {K : TwoAdic (ZMod r)} (hK : LawfulTwoAdic K) {s0 : CS (ZMod r)} (hn : 1 ≤ s0.ninputs) :
    ∃ bad : Finset (ZMod r), bad.card ≤ 2 * (s0.cons.length + s0.ninputs) * (2 * (s0.ninputs + s0.naux) + 1) ∧
      ∀ tau ∉ bad, CleanSetup K s0 tau := by
  cases hD : Domain.ofLength K (rows s0).length with
  | none => exact ⟨∅, by simp, fun tau _ D hD' => by rw [hD] at hD'; cases hD'⟩
  | some D =>
    obtain ⟨hDl, hDm⟩ := hK.domain hD
    obtain ⟨bad, hcard, hbad⟩ := clean_few hDl hn hDm
    have hlen : (rows s0).length = s0.cons.length + s0.ninputs := by simp [rows]
    have hm : D.m ≤ 2 * (rows s0).length := domain_le (by omega) hD
    rw [hlen] at hm
    refine ⟨bad, hcard.trans (Nat.mul_le_mul_right _ hm), fun tau ht D' hD' => ?_⟩
    rw [hD] at hD'; injection hD' with hD'; subst hD'
    exact hbad tau ht

/-- The outcome of `prove` for a given circuit and a clean secret point. -/
theorem prove_outcome_of_clean {K : TwoAdic (ZMod r)} {P Q : Ty} {code : Code r W} (hw : code.WidthsFit)
    (hc : code.Quiet) {a0 : P.S (ZMod r)} {s0 : CS (ZMod r)}
    (hset : (generated P Q code none none none).run (CS.new .setup) = .ok (a0, s0))
    {G1 G2 : Type} [AddCommGroup G1] [AddCommGroup G2] [DecidableEq G1] [DecidableEq G2] {t : Toxic G1 G2 r}
    (h1 : r • t.g1 = 0) (h2 : r • t.g2 = 0) (n1 : t.g1 ≠ 0) (n2 : t.g2 ≠ 0) (hcl : CleanSetup K s0 t.tau) {params : Parameters G1 G2}
    (hk : generateKeys K t (generated P Q code none none none) = .ok params) {w : W} {p : P.V (ZMod r)}
    (hp : P.okV (ZMod r) p) {q : Q.V (ZMod r)} {a : P.S (ZMod r)} {s : CS (ZMod r)}
    (h : (generated P Q code (some w) (some p) (some q)).run (CS.new .prove) = .ok (a, s)) :
    ∃ D, Domain.ofLength K (rows s).length = some D ∧ generateParameters K t s = .ok params ∧ ∀ x y,
      prove K params x y (generated P Q code (some w) (some p) (some q)) = createProof K params x y s ∧
      (ConstantOnRight s0 → createProof K params x y s = .ok (denseProof D (denseKeys D t s) x y s)) ∧
      (¬ ConstantOnRight s0 → createProof K params x y s = .error .unexpectedEof) := by
  obtain ⟨hn', -, -, hkeys⟩ := keys_of_run (G1 := G1) (G2 := G2) hw hc hp h
  rw [hkeys] at hk
  obtain ⟨hi, ha, -, hrows⟩ := shape_of_run hw hset h
  obtain ⟨-, -, -, D, hD, -⟩ := generateParameters_ok hk
  refine ⟨D, hD, hk, fun x y => ⟨?_, ?_⟩⟩
  · unfold prove
    rw [h]
  · have := createProof_clean h1 h2 n1 n2 hn' (canonical_of_run h) hk hD (clean_congr hi ha hrows (hcl _ (by rw [← hrows]; exact hD))) x y
    rwa [balanced_congr hrows, balanced_iff (canonical_of_run hset)] at this

/-- The outcome of `prove` for a given circuit, except for few secret points. -/
theorem prove_outcome {K : TwoAdic (ZMod r)} (hK : LawfulTwoAdic K) {P Q : Ty} {code : Code r W} (hw : code.WidthsFit)
    (hc : code.Quiet) {a0 : P.S (ZMod r)} {s0 : CS (ZMod r)}
    (hset : (generated P Q code none none none).run (CS.new .setup) = .ok (a0, s0)) :
    ∃ bad : Finset (ZMod r), bad.card ≤ 2 * (s0.cons.length + s0.ninputs) * (2 * (s0.ninputs + s0.naux) + 1) ∧
      ∀ {G1 G2 : Type} [AddCommGroup G1] [AddCommGroup G2] [DecidableEq G1] [DecidableEq G2] {t : Toxic G1 G2 r}
        (_ : r • t.g1 = 0) (_ : r • t.g2 = 0) (_ : t.g1 ≠ 0) (_ : t.g2 ≠ 0) (_ : t.tau ∉ bad) {params : Parameters G1 G2}
        (_ : generateKeys K t (generated P Q code none none none) = .ok params) {w : W} {p : P.V (ZMod r)}
        (_ : P.okV (ZMod r) p) {q : Q.V (ZMod r)} {a : P.S (ZMod r)} {s : CS (ZMod r)}
        (_ : (generated P Q code (some w) (some p) (some q)).run (CS.new .prove) = .ok (a, s)),
        ∃ D, Domain.ofLength K (rows s).length = some D ∧ generateParameters K t s = .ok params ∧ ∀ x y,
          prove K params x y (generated P Q code (some w) (some p) (some q)) = createProof K params x y s ∧
          (ConstantOnRight s0 → createProof K params x y s = .ok (denseProof D (denseKeys D t s) x y s)) ∧
          (¬ ConstantOnRight s0 → createProof K params x y s = .error .unexpectedEof) := by
  obtain ⟨bad, hcard, hbad⟩ := cleanSetup_few hK (ninputs_pos hset)
  refine ⟨bad, hcard, ?_⟩
  intro G1 G2 _ _ _ _ t h1 h2 n1 n2 ht params hk w p hp q a s h
  exact prove_outcome_of_clean hw hc hset h1 h2 n1 n2 (hbad _ ht) hk hp h

theorem generators_ne {e : G1 → G2 → Tˣ} (hl : ∀ a a' b, e (a + a') b = e a b * e a' b)
    (hr : ∀ a b b', e a (b + b') = e a b * e a b') {g1 : G1} {g2 : G2} (hne : e g1 g2 ≠ 1) : g1 ≠ 0 ∧ g2 ≠ 0 := by
  constructor
  · intro h0
    apply hne
    rw [h0]
    have := pair_smul_left hl 0 g1 g2
    rwa [zero_smul, pow_zero] at this
  · intro h0
    apply hne
    rw [h0]
    have := hr g1 0 0
    rw [add_zero] at this
    exact (left_eq_mul.1 this)

/-- Honest proofs are accepted, for a clean secret point. -/
theorem accepts_of_clean {K : TwoAdic (ZMod r)} (hK : LawfulTwoAdic K)
    {P Q : Ty} {code : Code r W} (hw : code.WidthsFit) (hc : code.Quiet) {a0 : P.S (ZMod r)} {s0 : CS (ZMod r)}
    (hset : (generated P Q code none none none).run (CS.new .setup) = .ok (a0, s0)) (hone : ConstantOnRight s0)
    {G1 G2 T : Type} [AddCommGroup G1] [AddCommGroup G2] [DecidableEq G1] [DecidableEq G2] [CommMonoid T] [DecidableEq T]
    {E : Engine G1 G2 T} {e : G1 → G2 → Tˣ} (hE : PairingEngine E e) (hr : ∀ a b b', e a (b + b') = e a b * e a b')
    {t : Toxic G1 G2 r} (h1 : r • t.g1 = 0) (h2 : r • t.g2 = 0) (n1 : t.g1 ≠ 0) (n2 : t.g2 ≠ 0) (hcl : CleanSetup K s0 t.tau)
    {params : Parameters G1 G2} (hk : generateKeys K t (generated P Q code none none none) = .ok params)
    {w : W} {p : P.V (ZMod r)} (hp : P.okV (ZMod r) p) {q : Q.V (ZMod r)} {a : P.S (ZMod r)} {s : CS (ZMod r)}
    (h : (generated P Q code (some w) (some p) (some q)).run (CS.new .prove) = .ok (a, s)) (hs : s.Sat s.assign) (x y : ZMod r) :
    ∃ proof inputs, prove K params x y (generated P Q code (some w) (some p) (some q)) = .ok proof ∧
      getInputs P (some p) = .ok (some inputs) ∧ verify E (truncate params.vk) proof inputs = .ok (.ok true) := by
  obtain ⟨D, hD, hk', hout⟩ := prove_outcome_of_clean hw hc hset h1 h2 n1 n2 hcl hk hp h
  obtain ⟨hn, hpub, hget, -⟩ := keys_of_run (G1 := G1) (G2 := G2) hw hc hp h
  refine ⟨_, _, ((hout x y).1.trans ((hout x y).2.1 hone)), hget, ?_⟩
  rw [← hpub]
  exact proving_accepts hE hr hK t h1 h2 hn hk' hD x y hs

/-- C67: keys generated from the circuit without data, a proof made with data that satisfy the circuit, and the public inputs
`get_inputs()` returns for the public data: `prove` returns a proof and `verify` accepts it, whatever the data and the other
random choices, unless the secret point of the key generator is one of few: the bound is the number of constraints and public
inputs times the number of variables, up to a factor. -/
theorem C67_accepts {K : TwoAdic (ZMod r)} (hK : LawfulTwoAdic K)
    (P Q : Ty) (code : Code r W) (hw : code.WidthsFit) (hc : code.Quiet) (a0 : P.S (ZMod r)) (s0 : CS (ZMod r))
    (hset : (generated P Q code none none none).run (CS.new .setup) = .ok (a0, s0)) (hone : ConstantOnRight s0) :
    ∃ bad : Finset (ZMod r), bad.card ≤ 2 * (s0.cons.length + s0.ninputs) * (2 * (s0.ninputs + s0.naux) + 1) ∧
      ∀ {G1 G2 T : Type} [AddCommGroup G1] [AddCommGroup G2] [DecidableEq G1] [DecidableEq G2] [CommMonoid T] [DecidableEq T]
        {E : Engine G1 G2 T} {e : G1 → G2 → Tˣ} (_ : PairingEngine E e) (_ : ∀ a b b', e a (b + b') = e a b * e a b')
        (t : Toxic G1 G2 r) (_ : r • t.g1 = 0) (_ : r • t.g2 = 0) (_ : t.g1 ≠ 0) (_ : t.g2 ≠ 0) (_ : t.tau ∉ bad)
        (params : Parameters G1 G2) (_ : generateKeys K t (generated P Q code none none none) = .ok params)
        (w : W) (p : P.V (ZMod r)) (_ : P.okV (ZMod r) p) (q : Q.V (ZMod r)) (a : P.S (ZMod r)) (s : CS (ZMod r))
        (_ : (generated P Q code (some w) (some p) (some q)).run (CS.new .prove) = .ok (a, s)) (_ : s.Sat s.assign)
        (x y : ZMod r),
        ∃ proof inputs, prove K params x y (generated P Q code (some w) (some p) (some q)) = .ok proof ∧
          getInputs P (some p) = .ok (some inputs) ∧ verify E (truncate params.vk) proof inputs = .ok (.ok true) := by
  obtain ⟨bad, hcard, hbad⟩ := cleanSetup_few hK (ninputs_pos hset)
  refine ⟨bad, hcard, ?_⟩
  intro G1 G2 T _ _ _ _ _ _ E e hE hr t h1 h2 n1 n2 ht params hk w p hp q a s h hs x y
  exact accepts_of_clean hK hw hc hset hone hE hr h1 h2 n1 n2 (hbad _ ht) hk hp h hs x y

/-- C67 for circuits with at least one public signal: nothing has to be known about their constraints. -/
theorem C67_accepts_public {K : TwoAdic (ZMod r)} (hK : LawfulTwoAdic K)
    (P Q : Ty) (hP : 0 < P.width) (code : Code r W) (hw : code.WidthsFit) (hc : code.Quiet) (a0 : P.S (ZMod r))
    (s0 : CS (ZMod r)) (hset : (generated P Q code none none none).run (CS.new .setup) = .ok (a0, s0)) :
    ∃ bad : Finset (ZMod r), bad.card ≤ 2 * (s0.cons.length + s0.ninputs) * (2 * (s0.ninputs + s0.naux) + 1) ∧
      ∀ {G1 G2 T : Type} [AddCommGroup G1] [AddCommGroup G2] [DecidableEq G1] [DecidableEq G2] [CommMonoid T] [DecidableEq T]
        {E : Engine G1 G2 T} {e : G1 → G2 → Tˣ} (_ : PairingEngine E e) (_ : ∀ a b b', e a (b + b') = e a b * e a b')
        (t : Toxic G1 G2 r) (_ : r • t.g1 = 0) (_ : r • t.g2 = 0) (_ : t.g1 ≠ 0) (_ : t.g2 ≠ 0) (_ : t.tau ∉ bad)
        (params : Parameters G1 G2) (_ : generateKeys K t (generated P Q code none none none) = .ok params)
        (w : W) (p : P.V (ZMod r)) (_ : P.okV (ZMod r) p) (q : Q.V (ZMod r)) (a : P.S (ZMod r)) (s : CS (ZMod r))
        (_ : (generated P Q code (some w) (some p) (some q)).run (CS.new .prove) = .ok (a, s)) (_ : s.Sat s.assign)
        (x y : ZMod r),
        ∃ proof inputs, prove K params x y (generated P Q code (some w) (some p) (some q)) = .ok proof ∧
          getInputs P (some p) = .ok (some inputs) ∧ verify E (truncate params.vk) proof inputs = .ok (.ok true) :=
  C67_accepts hK P Q code hw hc a0 s0 hset (constantOnRight_of_public hc hP (by simp) hset)

/-- C67: if the data do not satisfy the circuit, then `verify` rejects the proof that `prove` returns, unless the secret
point of the key generator is one of few. -/
theorem C67_rejects {K : TwoAdic (ZMod r)} (hK : LawfulTwoAdic K)
    (P Q : Ty) (code : Code r W) (hw : code.WidthsFit) (hc : code.Quiet) (w : W) (p : P.V (ZMod r))
    (hp : P.okV (ZMod r) p) (q : Q.V (ZMod r)) (a : P.S (ZMod r)) (s : CS (ZMod r))
    (h : (generated P Q code (some w) (some p) (some q)).run (CS.new .prove) = .ok (a, s)) (hs : ¬ s.Sat s.assign) :
    ∃ bad : Finset (ZMod r), bad.card ≤ 2 * (s.cons.length + s.ninputs) * (2 * (s.ninputs + s.naux) + 3) ∧
      ∀ {G1 G2 T : Type} [AddCommGroup G1] [AddCommGroup G2] [DecidableEq G1] [DecidableEq G2] [CommMonoid T] [DecidableEq T]
        {E : Engine G1 G2 T} {e : G1 → G2 → Tˣ} (_ : PairingEngine E e) (_ : ∀ a b b', e a (b + b') = e a b * e a b')
        (t : Toxic G1 G2 r) (_ : r • t.g1 = 0) (_ : r • t.g2 = 0) (_ : e t.g1 t.g2 ≠ 1) (_ : t.tau ∉ bad)
        (params : Parameters G1 G2) (_ : generateKeys K t (generated P Q code none none none) = .ok params) (x y : ZMod r)
        (proof : Proof G1 G2) (_ : prove K params x y (generated P Q code (some w) (some p) (some q)) = .ok proof),
        ∃ inputs, getInputs P (some p) = .ok (some inputs) ∧ verify E (truncate params.vk) proof inputs = .ok (.ok false) := by
  obtain ⟨a0, s0, hset, -⟩ := C12_circuit P Q code hw w p q a s h
  obtain ⟨hi, ha, hcons, hrows⟩ := shape_of_run hw hset h
  obtain ⟨hn, hpub, hget, -⟩ := keys_of_run (G1 := ZMod r) (G2 := ZMod r) hw hc hp h
  obtain ⟨bad1, hcard1, hbad1⟩ := prove_outcome hK hw hc hset
  have hl : s0.cons.length = s.cons.length := by simpa using (congrArg List.length hcons).symm
  rw [hl, ← hi, ← ha] at hcard1
  cases hD : Domain.ofLength K (rows s).length with
  | none =>
    refine ⟨∅, by simp, ?_⟩
    intro G1 G2 T _ _ _ _ _ _ E e hE hr t h1 h2 hne ht params hk
    obtain ⟨-, -, -, hkeys⟩ := keys_of_run (G1 := G1) (G2 := G2) hw hc hp h
    rw [hkeys] at hk
    obtain ⟨-, -, -, D, hD', -⟩ := generateParameters_ok hk
    rw [hD] at hD'; cases hD'
  | some D =>
    obtain ⟨bad2, hcard2, hbad2⟩ := proving_rejects hK hn hD hs
    have hlen : (rows s).length = s.cons.length + s.ninputs := by simp [rows]
    have hm : D.m ≤ 2 * (rows s).length := domain_le (by omega) hD
    rw [hlen] at hm
    refine ⟨bad1 ∪ bad2, ?_, ?_⟩
    · refine (Finset.card_union_le _ _).trans ?_
      have : 2 * (s.cons.length + s.ninputs) * (2 * (s.ninputs + s.naux) + 3) =
        2 * (s.cons.length + s.ninputs) * (2 * (s.ninputs + s.naux) + 1) + 4 * (s.cons.length + s.ninputs) := by ring
      rw [this]
      omega
    intro G1 G2 T _ _ _ _ _ _ E e hE hr t h1 h2 hne ht params hk x y proof hproof
    rw [Finset.mem_union, not_or] at ht
    obtain ⟨n1, n2⟩ := generators_ne hE.add_left hr hne
    obtain ⟨D', hD', hk', hout⟩ := hbad1 h1 h2 n1 n2 ht.1 hk hp h
    rw [hD] at hD'; injection hD' with hD'; subst hD'
    refine ⟨_, hget, ?_⟩
    rw [(hout x y).1] at hproof
    by_cases hone : ConstantOnRight s0
    · rw [(hout x y).2.1 hone] at hproof
      injection hproof with hproof
      rw [← hproof, ← hpub]
      exact hbad2 hE hr t h1 h2 hne ht.2 params hk' x y
    · rw [(hout x y).2.2 hone] at hproof
      cases hproof

/-- C67: a circuit with an allocated variable that no constraint uses has no keys: `generate_keys` panics, whatever the random
choices. -/
theorem C67_unconstrained {α : Type} {K : TwoAdic (ZMod r)} (t : Toxic G1 G2 r) (circuit : M (ZMod r) α) (a : α)
    (s : CS (ZMod r)) (h : circuit.run (CS.new .setup) = .ok (a, s)) (j : Nat) (hj : j < s.naux)
    (hfree : ∀ c ∈ s.cons, ∀ u ∈ c.a.lc ++ c.b.lc ++ c.c.lc, u.1 ≠ .aux j) (params : Parameters G1 G2) :
    generateKeys K t circuit ≠ .ok params := by
  intro hk
  unfold generateKeys at hk
  rw [h] at hk
  simp only at hk
  have h0 : ∀ l : LC (ZMod r), (∀ u ∈ l, u.1 ≠ .aux j) → coeff (.aux j) l = 0 := by
    intro l hl
    induction l with
    | nil => rfl
    | cons u l ih =>
      obtain ⟨k, v⟩ := u
      show (if k = .aux j then v + coeff (.aux j) l else coeff (.aux j) l) = 0
      rw [if_neg (hl _ List.mem_cons_self)]
      exact ih fun u hu => hl u (List.mem_cons_of_mem _ hu)
  have h1 : ∀ (lag : Nat → ZMod r) (ls : List (LC (ZMod r))) (i : Nat), (∀ l ∈ ls, coeff (.aux j) l = 0) →
      column lag (.aux j) i ls = 0 := by
    intro lag ls
    induction ls with
    | nil => intros; rfl
    | cons l ls ih =>
      intro i hl
      show lag i * coeff (.aux j) l + column lag (.aux j) (i + 1) ls = 0
      rw [hl l List.mem_cons_self, ih _ fun l h => hl l (List.mem_cons_of_mem _ h)]
      ring
  have hrow : ∀ u ∈ rows s, coeff (.aux j) u.1 = 0 ∧ coeff (.aux j) u.2.1 = 0 ∧ coeff (.aux j) u.2.2 = 0 := by
    intro u hu
    rcases List.mem_append.1 hu with hu | hu
    · obtain ⟨c, hc, rfl⟩ := List.mem_map.1 hu
      have := hfree c hc
      exact ⟨h0 _ fun u hu => this u (by simp [show u ∈ c.a.lc from hu]),
        h0 _ fun u hu => this u (by simp [show u ∈ c.b.lc from hu]), h0 _ fun u hu => this u (by simp [show u ∈ c.c.lc from hu])⟩
    · obtain ⟨i, -, rfl⟩ := List.mem_map.1 hu
      exact ⟨h0 _ (by simp), h0 _ (by simp), h0 _ (by simp)⟩
  unfold generateParameters at hk
  by_cases c0 : rowsInRange s = false
  · rw [if_pos c0] at hk; cases hk
  rw [if_neg c0] at hk
  cases hD : Domain.ofLength K (rows s).length with
  | none => rw [hD] at hk; cases hk
  | some D =>
    rw [hD] at hk
    simp only at hk
    by_cases c1 : t.gamma = 0 ∨ t.delta = 0
    · rw [if_pos c1] at hk; cases hk
    rw [if_neg c1, if_pos] at hk
    · cases hk
    · rw [List.any_eq_true]
      refine ⟨0, ?_, by simp⟩
      refine List.mem_map.2 ⟨.aux j, List.mem_map.2 ⟨j, List.mem_range.2 hj, rfl⟩, ?_⟩
      have e : Groth16.ext D t s t.delta⁻¹ (.aux j) = 0 := by
        unfold Groth16.ext columnAt
        rw [h1, h1, h1]
        · ring
        · intro l hl; obtain ⟨u, hu, rfl⟩ := List.mem_map.1 hl; exact (hrow u hu).2.2
        · intro l hl; obtain ⟨u, hu, rfl⟩ := List.mem_map.1 hl; exact (hrow u hu).2.1
        · intro l hl; obtain ⟨u, hu, rfl⟩ := List.mem_map.1 hl; exact (hrow u hu).1
      rw [e, ZMod.val_zero, zero_smul]

end C67

/-! ## C68 -/

section C68

variable {W : Type}

/-- The keys depend on the shape of the constraint system only. -/
theorem keysOf_congr (D : Domain (ZMod r)) (t : Toxic G1 G2 r) {s s' : CS (ZMod r)} (hi : s.ninputs = s'.ninputs)
    (ha : s.naux = s'.naux) (hc : s.cons.map Constraint.shape = s'.cons.map Constraint.shape) :
    keysOf D t s = keysOf D t s' ∧ ∀ inv k, Groth16.ext D t s inv k = Groth16.ext D t s' inv k := by
  have h1 : rows s = rows s' := by unfold rows; rw [hc, hi]
  have h2 : inputVars s = inputVars s' := by unfold inputVars; rw [hi]
  have h3 : auxVars s = auxVars s' := by unfold auxVars; rw [ha]
  unfold keysOf Groth16.ext columnAt
  rw [h1, h2, h3]
  exact ⟨rfl, fun _ _ => rfl⟩

/-- C68: proofs made with different secret data for the same public data, both satisfying the circuit, are equally
distributed: a bijection of the random choices of the prover turns the one into the other.  So a proof says nothing
about the secret data beyond what the public data say.  This holds unless the secret point of the key generator is one of few. -/
theorem C68_hides {K : TwoAdic (ZMod r)} (hK : LawfulTwoAdic K)
    (P Q : Ty) (code : Code r W) (hw : code.WidthsFit) (hc : code.Quiet) (a0 : P.S (ZMod r)) (s0 : CS (ZMod r))
    (hset : (generated P Q code none none none).run (CS.new .setup) = .ok (a0, s0)) :
    ∃ bad : Finset (ZMod r), bad.card ≤ 2 * (s0.cons.length + s0.ninputs) * (2 * (s0.ninputs + s0.naux) + 1) ∧
      ∀ {G1 G2 : Type} [AddCommGroup G1] [AddCommGroup G2] [DecidableEq G1] [DecidableEq G2] (t : Toxic G1 G2 r)
        (_ : r • t.g1 = 0) (_ : r • t.g2 = 0) (_ : t.g1 ≠ 0) (_ : t.g2 ≠ 0) (_ : t.tau ∉ bad)
        (params : Parameters G1 G2) (_ : generateKeys K t (generated P Q code none none none) = .ok params)
        (p : P.V (ZMod r)) (_ : P.okV (ZMod r) p) (w w' : W) (q q' : Q.V (ZMod r)) (a a' : P.S (ZMod r)) (s s' : CS (ZMod r))
        (_ : (generated P Q code (some w) (some p) (some q)).run (CS.new .prove) = .ok (a, s)) (_ : s.Sat s.assign)
        (_ : (generated P Q code (some w') (some p) (some q')).run (CS.new .prove) = .ok (a', s')) (_ : s'.Sat s'.assign),
        ∃ f : ZMod r × ZMod r ≃ ZMod r × ZMod r, ∀ x y,
          prove K params (f (x, y)).1 (f (x, y)).2 (generated P Q code (some w') (some p) (some q')) =
          prove K params x y (generated P Q code (some w) (some p) (some q)) := by
  obtain ⟨bad, hcard, hbad⟩ := prove_outcome hK hw hc hset
  refine ⟨bad, hcard, ?_⟩
  intro G1 G2 _ _ _ _ t h1 h2 n1 n2 ht params hk p hp w w' q q' a a' s s' h hs h' hs'
  obtain ⟨D, hD, hkp, hout⟩ := hbad h1 h2 n1 n2 ht hk hp h
  obtain ⟨D', hD', -, hout'⟩ := hbad h1 h2 n1 n2 ht hk hp h'
  obtain ⟨hn, hpub, -, -⟩ := keys_of_run (G1 := G1) (G2 := G2) hw hc hp h
  obtain ⟨-, hpub', -, -⟩ := keys_of_run (G1 := G1) (G2 := G2) hw hc hp h'
  obtain ⟨hi, ha, hcons, hrows⟩ := shape_of_run hw hset h
  obtain ⟨hi', ha', hcons', hrows'⟩ := shape_of_run hw hset h'
  have ei := hi.trans hi'.symm
  have ea := ha.trans ha'.symm
  have ec := hcons.trans hcons'.symm
  obtain ⟨h0, hg, hd, D1, hD1, -, -⟩ := generateParameters_ok hkp
  rw [hD] at hD1; injection hD1 with hD1; subst hD1
  rw [hrows', ← hrows, hD] at hD'; injection hD' with hD'; subst hD'
  obtain ⟨hDl, hDm⟩ := hK.domain hD
  have er : rows s = rows s' := by unfold rows; rw [ec, ei]
  obtain ⟨-, ex⟩ := keysOf_congr D t ei ea ec
  have hin : inputSum D t s = inputSum D t s' := by
    unfold inputSum
    have ev : inputVars s = inputVars s' := by unfold inputVars; rw [ei]
    rw [← ev]
    congr 1
    refine List.map_congr_left fun k hk => ?_
    rw [ex]
    congr 1
    obtain ⟨i, hi, rfl⟩ := List.mem_map.1 hk
    rw [List.mem_range] at hi
    cases i with
    | zero => rw [CS.assign_isAssignment s, CS.assign_isAssignment s']
    | succ i =>
      have e1 : (publicInputs s)[i]? = (publicInputs s')[i]? := by rw [hpub, hpub']
      unfold publicInputs at e1
      rw [← ei, List.getElem?_map, List.getElem?_map, List.getElem?_range (by omega)] at e1
      simp only [Option.map_some, Option.some.injEq] at e1
      rw [add_comm i 1]
      exact e1
  have key : ∀ s : CS (ZMod r), s.Sat s.assign → (rows s).length ≤ D.m →
      (defectPoly D s).eval t.tau - (quotientPoly D s).eval t.tau * D.z t.tau = 0 := by
    intro s hs hm
    unfold defectPoly quotientPoly
    rw [Domain.quotient_eq hDl _ _ _ ((sat_iff_rows s D.m hm).1 hs), sub_self]
  have k1 := key s hs hDm
  have k2 := key s' hs' (er ▸ hDm)
  by_cases hone : ConstantOnRight s0
  swap
  · refine ⟨Equiv.refl _, fun x y => ?_⟩
    rw [(hout' _ _).1, (hout _ _).1, (hout' _ _).2.2 hone, (hout _ _).2.2 hone]
  refine ⟨(Equiv.addRight ((sideAt D t.tau s (fun q => q.1) - sideAt D t.tau s' fun q => q.1) * t.delta⁻¹)).prodCongr
    (Equiv.addRight ((sideAt D t.tau s (fun q => q.2.1) - sideAt D t.tau s' fun q => q.2.1) * t.delta⁻¹)), fun x y => ?_⟩
  simp only [Equiv.prodCongr_apply, Prod.map_apply, Equiv.coe_addRight]
  rw [(hout' _ _).1, (hout _ _).1, (hout' _ _).2.1 hone, (hout _ _).2.1 hone]
  congr 1
  obtain ⟨pa, pb, c, pc, hcd⟩ := proof_in_exponent D t h1 h2 hg hd s h0 hDm x y
  obtain ⟨pa', pb', c', pc', hcd'⟩ := proof_in_exponent D t h1 h2 hg hd s' ((rowsInRange_congr ei ea ec) ▸ h0) (er ▸ hDm)
    (x + (sideAt D t.tau s (fun q => q.1) - sideAt D t.tau s' fun q => q.1) * t.delta⁻¹)
    (y + (sideAt D t.tau s (fun q => q.2.1) - sideAt D t.tau s' fun q => q.2.1) * t.delta⁻¹)
  have xa : (x + (sideAt D t.tau s (fun q => q.1) - sideAt D t.tau s' fun q => q.1) * t.delta⁻¹) * t.delta + t.alpha +
      sideAt D t.tau s' (fun q => q.1) = x * t.delta + t.alpha + sideAt D t.tau s fun q => q.1 := by
    field_simp
    ring
  have xb : (y + (sideAt D t.tau s (fun q => q.2.1) - sideAt D t.tau s' fun q => q.2.1) * t.delta⁻¹) * t.delta + t.beta +
      sideAt D t.tau s' (fun q => q.2.1) = y * t.delta + t.beta + sideAt D t.tau s fun q => q.2.1 := by
    field_simp
    ring
  rw [xa] at pa' hcd'
  rw [xb] at pb' hcd'
  rw [k2, ← hin] at hcd'
  rw [k1, ← hcd'] at hcd
  have hcc : c = c' := mul_right_cancel₀ hd hcd
  subst hcc
  cases hx : denseProof D (denseKeys D t s) x y s
  rw [hx] at pa pb pc
  cases hy : denseProof D (denseKeys D t s') (x + (sideAt D t.tau s (fun q => q.1) - sideAt D t.tau s' fun q => q.1) * t.delta⁻¹)
    (y + (sideAt D t.tau s (fun q => q.2.1) - sideAt D t.tau s' fun q => q.2.1) * t.delta⁻¹) s'
  rw [hy] at pa' pb' pc'
  simp only at pa pb pc pa' pb' pc'
  rw [pa, pb, pc, pa', pb', pc']

end C68

/-! ## C69 -/

section C69

variable {W : Type}

/-- The difference between given inputs and the recorded ones. -/
def inputDiff (s : CS (ZMod r)) (inputs : List (ZMod r)) : Index → ZMod r
  | .input 0 => 0
  | .input (i + 1) => inputs.getD i 0 - s.assign (.input (i + 1))
  | .aux _ => 0

/-- C69: a proof is bound to its public inputs: `verify` does not accept it with any other list of inputs, unless the secrets
of the key generator are special: for all but few points `tau` and every `alpha` there is at most one `beta` for which it does.
This holds whether or not the prover's data satisfy the circuit. -/
theorem C69_bound_to_inputs {K : TwoAdic (ZMod r)} (hK : LawfulTwoAdic K)
    (P Q : Ty) (code : Code r W) (hw : code.WidthsFit) (hc : code.Quiet) (w : W) (p : P.V (ZMod r))
    (hp : P.okV (ZMod r) p) (q : Q.V (ZMod r)) (a : P.S (ZMod r)) (s : CS (ZMod r))
    (h : (generated P Q code (some w) (some p) (some q)).run (CS.new .prove) = .ok (a, s))
    (inputs : List (ZMod r)) (hne : getInputs P (some p) ≠ .ok (some inputs)) :
    ∃ bad : Finset (ZMod r), bad.card ≤ 4 * (s.cons.length + s.ninputs) * (s.ninputs + s.naux + 1) ∧ ∀ tau ∉ bad, ∀ alpha, ∃ beta,
      ∀ {G1 G2 T : Type} [AddCommGroup G1] [AddCommGroup G2] [DecidableEq G1] [DecidableEq G2] [CommMonoid T] [DecidableEq T]
        {E : Engine G1 G2 T} {e : G1 → G2 → Tˣ} (_ : PairingEngine E e) (_ : ∀ a b b', e a (b + b') = e a b * e a b')
        (t : Toxic G1 G2 r) (_ : r • t.g1 = 0) (_ : r • t.g2 = 0) (_ : e t.g1 t.g2 ≠ 1)
        (_ : t.tau = tau) (_ : t.alpha = alpha) (_ : t.beta ≠ beta)
        (params : Parameters G1 G2) (_ : generateKeys K t (generated P Q code none none none) = .ok params) (x y : ZMod r)
        (proof : Proof G1 G2) (_ : prove K params x y (generated P Q code (some w) (some p) (some q)) = .ok proof),
        verify E (truncate params.vk) proof inputs =
          .ok (if inputs.length = P.width then .ok false else .error .malformedVerifyingKey) := by
  obtain ⟨a0, s0, hset, -⟩ := C12_circuit P Q code hw w p q a s h
  obtain ⟨hi, ha, hcons, hrows⟩ := shape_of_run hw hset h
  obtain ⟨bad1, hcard1, hbad1⟩ := prove_outcome hK hw hc hset
  have hl : s0.cons.length = s.cons.length := by simpa using (congrArg List.length hcons).symm
  rw [hl, ← hi, ← ha] at hcard1
  obtain ⟨hn, hpub, hget, -⟩ := keys_of_run (G1 := ZMod r) (G2 := ZMod r) hw hc hp h
  rw [hget] at hne
  have hne' : inputs ≠ publicInputs s := fun h => hne (by rw [h, hpub])
  have hwidth : s.ninputs = 1 + P.width := by
    have := (C58_circuit_get_inputs P Q _ p hp (some q) (fun a b s s' h hs => by
      obtain ⟨q1, s1, h1, h⟩ := M.bind_ok h
      rw [M.run_pure] at h; injection h with h; injection h with _ h; subst h
      exact quiet_ninputs _ hc h1 hs) a s h).1
    exact this
  cases hD : Domain.ofLength K (rows s).length with
  | none =>
    refine ⟨∅, by simp, fun tau _ alpha => ⟨0, ?_⟩⟩
    intro G1 G2 T _ _ _ _ _ _ E e hE hr t h1 h2 hne ht hal hbe params hk
    obtain ⟨-, -, -, hkeys⟩ := keys_of_run (G1 := G1) (G2 := G2) hw hc hp h
    rw [hkeys] at hk
    obtain ⟨-, -, -, D, hD', -⟩ := generateParameters_ok hk
    rw [hD] at hD'; cases hD'
  | some D =>
    obtain ⟨hDl, hDm⟩ := hK.domain hD
    have hlen : (rows s).length = s.cons.length + s.ninputs := by simp [rows]
    have hm : D.m ≤ 2 * (rows s).length := domain_le (by omega) hD
    by_cases hil : inputs.length = P.width
    swap
    · refine ⟨∅, by simp, fun tau _ alpha => ⟨0, ?_⟩⟩
      intro G1 G2 T _ _ _ _ _ _ E e hE hr t h1 h2 hne ht hal hbe params hk x y proof hpr
      obtain ⟨-, -, -, hkeys⟩ := keys_of_run (G1 := G1) (G2 := G2) hw hc hp h
      rw [hkeys] at hk
      obtain ⟨-, -, -, D', hD', hparams, -⟩ := generateParameters_ok hk
      rw [if_neg hil]
      refine ((C55_error hE _ _ _).2).2 ?_
      rw [hparams]
      simp only [truncate, keysOf, List.length_map, inputVars, List.length_range]
      omega
    -- the polynomials of the difference
    let d := inputDiff s inputs
    let poly (f : LC (ZMod r) × LC (ZMod r) × LC (ZMod r) → LC (ZMod r)) : (ZMod r)[X] :=
      Domain.poly D.m (D.ifft (valueAt d ((rows s).map f)))
    have hpne : poly (fun q => q.1) ≠ 0 := by
      intro h0
      apply hne'
      refine List.ext_getElem (by simp [publicInputs, hwidth, hil]) fun i h1 h2 => ?_
      have hi : i < P.width := hil ▸ h1
      have h3 := Domain.eval_ifft hDl (valueAt d ((rows s).map fun q => q.1)) (k := s.cons.length + (i + 1)) (by omega)
      rw [show Domain.poly D.m (D.ifft (valueAt d ((rows s).map fun q => q.1))) = 0 from h0, eval_zero] at h3
      unfold valueAt rows at h3
      rw [List.getElem?_map, List.getElem?_append_right (by simp)] at h3
      simp only [List.length_map, Nat.add_sub_cancel_left, List.getElem?_map] at h3
      rw [List.getElem?_range (by omega)] at h3
      simp only [Option.map_some, LC.eval, List.map_cons, List.map_nil, List.sum_cons, List.sum_nil, one_mul, add_zero] at h3
      have h4 : inputs.getD i 0 - s.assign (.input (i + 1)) = 0 := h3.symm
      rw [List.getD_eq_getElem _ _ h1] at h4
      rw [sub_eq_zero.1 h4]
      simp [publicInputs, add_comm]
    refine ⟨bad1 ∪ (poly fun q => q.1).roots.toFinset, ?_, fun tau htau alpha => ?_⟩
    · have h3 : (poly fun q => q.1).roots.toFinset.card ≤ D.m - 1 :=
        (Multiset.toFinset_card_le _).trans ((Polynomial.card_roots' _).trans (Domain.degree_poly _ _))
      refine (Finset.card_union_le _ _).trans ?_
      have : 4 * (s.cons.length + s.ninputs) * (s.ninputs + s.naux + 1) =
        2 * (s.cons.length + s.ninputs) * (2 * (s.ninputs + s.naux) + 1) + 2 * (s.cons.length + s.ninputs) := by ring
      omega
    rw [Finset.mem_union, not_or] at htau
    obtain ⟨htau1, htau⟩ := htau
    have hroot : (poly fun q => q.1).eval tau ≠ 0 := by
      intro h0
      apply htau
      rw [Multiset.mem_toFinset, Polynomial.mem_roots hpne]
      exact h0
    refine ⟨(((defectPoly D s).eval tau - (quotientPoly D s).eval tau * D.z tau) - (poly fun q => q.2.1).eval tau * alpha -
      (poly fun q => q.2.2).eval tau) / (poly fun q => q.1).eval tau, ?_⟩
    intro G1 G2 T _ _ _ _ _ _ E e hE hr t h1 h2 hne ht hal hbe params hk x y proof hpr
    obtain ⟨n1, n2⟩ := generators_ne hE.add_left hr hne
    obtain ⟨D', hD', hk', hout⟩ := hbad1 h1 h2 n1 n2 (ht ▸ htau1) hk hp h
    rw [hD] at hD'; injection hD' with hD'; subst hD'
    obtain ⟨h0, hg, hd, D', hD', hparams, -⟩ := generateParameters_ok hk'
    rw [hD] at hD'; injection hD' with hD'; subst hD'
    have hproof : proof = denseProof D (denseKeys D t s) x y s := by
      rw [(hout x y).1] at hpr
      by_cases hone : ConstantOnRight s0
      · rw [(hout x y).2.1 hone] at hpr
        injection hpr with hpr
        exact hpr.symm
      · rw [(hout x y).2.2 hone] at hpr
        cases hpr
    subst hparams hproof
    rw [if_pos hil]
    refine (C55_rejects hE _ _ _).2 ?_
    obtain ⟨ic0, ics, hic, hlen', heq⟩ := equation_inputs hE.add_left hr D t h1 h2 hg hd s hn h0 hDm x y
      (fun k => s.assign k + d k) (by
        show s.assign (.input 0) + 0 = 1
        rw [CS.assign_isAssignment s, add_zero])
    have hinp : ((List.range (s.ninputs - 1)).map fun i => s.assign (.input (1 + i)) + d (.input (1 + i))) = inputs := by
      refine List.ext_getElem (by simp [hwidth, hil]) fun i h1 h2 => ?_
      simp only [List.getElem_map, List.getElem_range]
      rw [add_comm 1 i]
      show s.assign (.input (i + 1)) + (inputs.getD i 0 - s.assign (.input (i + 1))) = inputs[i]
      rw [List.getD_eq_getElem _ _ h2]
      ring
    rw [hinp] at heq
    refine ⟨ic0, ics, hic, by omega, ?_⟩
    rw [show truncate (keysOf D t s).vk = ⟨_, _, _, _, _⟩ from rfl]
    simp only
    rw [heq, pow_val_inj (pair_order hE.add_left h1) hne]
    -- the difference of the combinations of the inputs
    have hrv := rows_in_vars s h0
    have hsum : (inputSum D t s (fun k => s.assign k + d k) - inputSum D t s) * t.gamma =
        (poly fun q => q.1).eval t.tau * t.beta + (poly fun q => q.2.1).eval t.tau * t.alpha +
          (poly fun q => q.2.2).eval t.tau := by
      have e1 : inputSum D t s (fun k => s.assign k + d k) - inputSum D t s =
          ((inputVars s).map fun k => d k * Groth16.ext D t s t.gamma⁻¹ k).sum := by
        unfold inputSum
        simp only [add_mul, List.sum_map_add]
        ring
      have e2 : ∀ f : LC (ZMod r) × LC (ZMod r) × LC (ZMod r) → LC (ZMod r),
          (∀ q ∈ rows s, ∀ t ∈ f q, t.1 ∈ inputVars s ++ auxVars s) →
          ((inputVars s).map fun k => d k * columnAt D t.tau s f k).sum = (poly f).eval t.tau := by
        intro f hf
        have := side_sum' t.tau hDm f hf d
        rw [← this, List.map_append, List.sum_append]
        have hz : ((auxVars s).map fun k => d k * columnAt D t.tau s f k).sum = 0 := by
          refine List.sum_eq_zero fun v hv => ?_
          obtain ⟨k, hk, rfl⟩ := List.mem_map.1 hv
          obtain ⟨i, -, rfl⟩ := List.mem_map.1 hk
          show 0 * _ = _
          rw [zero_mul]
        rw [hz, add_zero]
      rw [e1, ← e2 _ fun q h => (hrv q h).1, ← e2 _ fun q h => (hrv q h).2.1, ← e2 _ fun q h => (hrv q h).2.2]
      simp only [← List.sum_map_mul_right, ← List.sum_map_add]
      congr 1
      refine List.map_congr_left fun k _ => ?_
      unfold Groth16.ext
      field_simp
    rw [hsum]
    intro hcontra
    apply hbe
    rw [ht, hal] at hcontra
    rw [eq_div_iff hroot]
    linear_combination (-1 : ZMod r) * hcontra

end C69

/-! ### The field constants of the shipped curves -/

/-- A sufficient condition for the field constants, checked by computing with natural numbers. -/
theorem lawful_of_cert (S g f : Nat) (hS : 0 < S) (h2 : r ≠ 2) (hr : r < 2 ^ f) (hf : 2 ^ S < 2 ^ f) (hd : (r - 1) % 2 ^ S = 0)
    (hg : g % r ≠ 0) (h1 : powMod r f g (r / 2) = r - 1) (h3 : powMod r f g (2 ^ S) ≠ 1) :
    LawfulTwoAdic (⟨S, (g : ZMod r) ^ ((r - 1) / 2 ^ S), (g : ZMod r)⟩ : TwoAdic (ZMod r)) := by
  have hp := (Fact.out : r.Prime)
  have hodd : r % 2 = 1 := hp.eq_two_or_odd.resolve_left h2
  have hr2 := hp.two_le
  have hg0 : (g : ZMod r) ≠ 0 := by
    intro h0
    exact hg (Nat.mod_eq_zero_of_dvd ((ZMod.natCast_eq_zero_iff _ _).1 h0))
  have hpow : ∀ e, e < 2 ^ f → ((powMod r f g e : Nat) : ZMod r) = (g : ZMod r) ^ e := by
    intro e he
    rw [powMod_eq _ _ _ _ he, ZMod.natCast_mod, Nat.cast_pow]
  have two : (2 : ZMod r) ≠ 0 := by
    intro h0
    have : ((2 : Nat) : ZMod r) = 0 := by exact_mod_cast h0
    have := Nat.le_of_dvd (by decide) ((ZMod.natCast_eq_zero_iff _ _).1 this)
    omega
  refine ⟨?_, two, hg0, ?_⟩
  · simp only
    obtain ⟨k, rfl⟩ : ∃ k, S = k + 1 := ⟨S - 1, by omega⟩
    have e1 : (r - 1) / 2 ^ (k + 1) * 2 ^ (k + 1) = r - 1 := Nat.div_mul_cancel (Nat.dvd_of_mod_eq_zero hd)
    have e2 : (r - 1) / 2 ^ (k + 1) * 2 ^ k = r / 2 := by
      have : 2 * ((r - 1) / 2 ^ (k + 1) * 2 ^ k) = r - 1 := by rw [← e1]; rw [e1]; nth_rw 2 [← e1]; ring
      omega
    have ho : orderOf ((g : ZMod r) ^ ((r - 1) / 2 ^ (k + 1))) = 2 ^ (k + 1) := by
      refine orderOf_eq_prime_pow ?_ ?_
      · rw [← pow_mul, e2, ← hpow _ (lt_of_le_of_lt (Nat.div_le_self _ _) hr), h1]
        intro h
        rw [Nat.cast_sub (by omega), ZMod.natCast_self, Nat.cast_one, zero_sub, neg_eq_iff_add_eq_zero, one_add_one_eq_two] at h
        exact two h
      · rw [← pow_mul, e1]
        exact ZMod.pow_card_sub_one_eq_one hg0
    have := IsPrimitiveRoot.orderOf ((g : ZMod r) ^ ((r - 1) / 2 ^ (k + 1)))
    rwa [ho] at this
  · simp only
    rw [← hpow _ hf]
    intro h
    apply h3
    have h4 : powMod r f g (2 ^ S) < r := by rw [powMod_eq _ _ _ _ hf]; exact Nat.mod_lt _ (by omega)
    have h5 : ((powMod r f g (2 ^ S) : Nat) : ZMod r) = ((1 : Nat) : ZMod r) := by rw [h, Nat.cast_one]
    rw [ZMod.natCast_eq_natCast_iff', Nat.mod_eq_of_lt h4, Nat.mod_eq_of_lt (by omega)] at h5
    exact h5

/-- The scalar field of BN256: `S = 28`, generator 7. -/
example : LawfulTwoAdic (⟨28, ((7 : Nat) : ZMod bnR) ^ ((bnR - 1) / 2 ^ 28), ((7 : Nat) : ZMod bnR)⟩ : TwoAdic (ZMod bnR)) :=
  lawful_of_cert 28 7 256 (by decide) (by decide +kernel) (by decide +kernel) (by decide +kernel) (by decide +kernel)
    (by decide +kernel) (by decide +kernel) (by decide +kernel)

/-- The scalar field of BLS12-381: `S = 32`, generator 7. -/
example : LawfulTwoAdic (⟨32, ((7 : Nat) : ZMod blsR) ^ ((blsR - 1) / 2 ^ 32), ((7 : Nat) : ZMod blsR)⟩ : TwoAdic (ZMod blsR)) :=
  lawful_of_cert 32 7 256 (by decide) (by decide +kernel) (by decide +kernel) (by decide +kernel) (by decide +kernel)
    (by decide +kernel) (by decide +kernel) (by decide +kernel)

/-! ### A small instance of all hypotheses -/

instance provingFact97 : Fact (Nat.Prime 97) := ⟨by norm_num⟩

/-- The field of 97 elements has a root of unity of order 32. -/
def smallK : TwoAdic (ZMod 97) := ⟨5, 28, 5⟩

theorem smallK_lawful : LawfulTwoAdic smallK := by
  have h := lawful_of_cert (r := 97) 5 5 7 (by decide) (by decide) (by decide) (by decide) (by decide)
    (by decide) (by decide) (by decide)
  have e : (⟨5, ((5 : Nat) : ZMod 97) ^ ((97 - 1) / 2 ^ 5), ((5 : Nat) : ZMod 97)⟩ : TwoAdic (ZMod 97)) = smallK := by
    unfold smallK
    congr 1
  rwa [e] at h

/-- The pairing `(a, b) ↦ 2^(ab)` of `ℤ/97` with itself, with values written additively. -/
def smallPairing (a b : ZMod 97) : (Multiplicative (ZMod 97))ˣ := toUnits (Multiplicative.ofAdd (a * b))

def smallEngine : Engine (ZMod 97) (ZMod 97) (Multiplicative (ZMod 97)) where
  millerLoop l := ((l.map fun q => smallPairing q.1 q.2).prod : (Multiplicative (ZMod 97))ˣ)
  finalExponentiation t := some t

theorem smallEngine_computes : PairingEngine smallEngine smallPairing where
  product _ := rfl
  add_left a a' b := by unfold smallPairing; rw [add_mul, ofAdd_add, map_mul]

theorem smallPairing_right (a b b' : ZMod 97) : smallPairing a (b + b') = smallPairing a b * smallPairing a b' := by
  unfold smallPairing; rw [mul_add, ofAdd_add, map_mul]

def smallToxic : Toxic (ZMod 97) (ZMod 97) 97 := ⟨1, 1, 3, 4, 5, 6, 7⟩

/-- Public: a number.  Secret: two factors of it. -/
def productCode : Code 97 Unit :=
  .call (.prim (.mul 1 2)) fun _ => .call (.prim (.assertEq 0 3)) fun _ => .done

/-- The factors of 35, one pair that is right and one that is wrong. -/
def productCircuit (q : ZMod 97 × ZMod 97) : M (ZMod 97) (CNum (ZMod 97)) :=
  generated .num (.pair .num .num) productCode (some ()) (some (35 : ZMod 97)) (some q)

theorem productCode_fits : productCode.WidthsFit ∧ productCode.Quiet := by
  constructor
  · simp [productCode, Code.WidthsFit, Call.WidthsFit]
  · simp [productCode, Code.Quiet, Call.publishes, Op.publishes]

/-- The state after a run. -/
def finalState {F α : Type} (m : M F α) (s : CS F) : CS F :=
  match m.run s with
  | .ok (_, s') => s'
  | .error _ => s

/-- All hypotheses of C67 and C68 hold of the right factors (in either order), those of `C67_rejects` of the wrong ones. -/
example :
    ((productCircuit (5, 7)).run (CS.new .prove)).isOk = true ∧ ((productCircuit (7, 5)).run (CS.new .prove)).isOk = true ∧
    ((productCircuit (5, 8)).run (CS.new .prove)).isOk = true ∧
    (generateKeys smallK smallToxic (generated .num (.pair .num .num) productCode none none none)).isOk = true := by
  decide +kernel

example : let s := finalState (productCircuit (5, 7)) (CS.new .prove)
    ∀ c ∈ s.cons, c.a.lc.eval s.assign * c.b.lc.eval s.assign = c.c.lc.eval s.assign := by
  decide +kernel

example : let s := finalState (productCircuit (5, 8)) (CS.new .prove)
    ¬ ∀ c ∈ s.cons, c.a.lc.eval s.assign * c.b.lc.eval s.assign = c.c.lc.eval s.assign := by
  decide +kernel

example : (97 • smallToxic.g1 = 0 ∧ 97 • smallToxic.g2 = 0) ∧ smallPairing smallToxic.g1 smallToxic.g2 ≠ 1 := by
  decide +kernel

/-- The whole flow, computed: right factors accepted, wrong ones and other inputs rejected. -/
example :
    (do let params ← (generateKeys smallK smallToxic (generated .num (.pair .num .num) productCode none none none)).toOption
        let good ← (prove smallK params 11 12 (productCircuit (5, 7))).toOption
        let wrong ← (prove smallK params 11 12 (productCircuit (5, 8))).toOption
        let b1 ← (verify smallEngine (truncate params.vk) good [(35 : ZMod 97)]).toOption
        let b2 ← (verify smallEngine (truncate params.vk) wrong [(35 : ZMod 97)]).toOption
        let b3 ← (verify smallEngine (truncate params.vk) good [(36 : ZMod 97)]).toOption
        pure (b1.toOption, b2.toOption, b3.toOption)) = some (some true, some false, some false) := by
  decide +kernel

/-- A circuit that does not use its secret: no keys. -/
example : (match generateKeys smallK smallToxic (generated .num .num (.done : Code 97 Unit) none none none) with
    | .error e => some e
    | .ok _ => none) = some .unconstrainedVariable := by
  decide +kernel

end Fawkes.Props
