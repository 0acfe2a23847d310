import Verif.Props.Proving

/-!
# C79: points at infinity in keys and proofs are rare
-/

namespace Fawkes.Props

open Fawkes.Groth16

section infinity

variable {r : Nat} [Fact r.Prime] {W : Type}

/-- Nothing in the parameters is the point at infinity. -/
def FiniteParameters {G1 G2 : Type} [Zero G1] [Zero G2] (p : Parameters G1 G2) : Prop :=
  (p.vk.alphaG1 ≠ 0 ∧ p.vk.betaG1 ≠ 0 ∧ p.vk.betaG2 ≠ 0 ∧ p.vk.gammaG2 ≠ 0 ∧ p.vk.deltaG1 ≠ 0 ∧ p.vk.deltaG2 ≠ 0) ∧
  (∀ l ∈ [p.vk.ic, p.h, p.l, p.a, p.bG1], ∀ g ∈ l, g ≠ 0) ∧ ∀ g ∈ p.bG2, g ≠ 0

/-- None of the points of the proof is the point at infinity. -/
def FiniteProof {G1 G2 : Type} [Zero G1] [Zero G2] (p : Proof G1 G2) : Prop := p.a ≠ 0 ∧ p.b ≠ 0 ∧ p.c ≠ 0

/-- For a clean secret point, the keys are finite for all but few `beta`. -/
theorem finite_of_clean {K : TwoAdic (ZMod r)} {D : Domain (ZMod r)} {s : CS (ZMod r)} (hD : Domain.ofLength K (rows s).length = some D)
    {tau alpha : ZMod r} (hcl : Clean D tau s) (ha : alpha ≠ 0) :
    ∃ bad : Finset (ZMod r), bad.card ≤ s.ninputs + 1 ∧
      ∀ {G1 G2 : Type} [AddCommGroup G1] [AddCommGroup G2] [DecidableEq G1] [DecidableEq G2] {t : Toxic G1 G2 r}
        (_ : r • t.g1 = 0) (_ : r • t.g2 = 0) (_ : t.g1 ≠ 0) (_ : t.g2 ≠ 0) (_ : t.tau = tau) (_ : t.alpha = alpha) (_ : t.beta ∉ bad)
        {params : Parameters G1 G2} (_ : generateParameters K t s = .ok params), FiniteParameters params := by
  classical
  let root (k : Index) : ZMod r := -(columnAt D tau s (fun q => q.2.1) k * alpha + columnAt D tau s (fun q => q.2.2) k) /
    columnAt D tau s (fun q => q.1) k
  refine ⟨insert 0 ((inputVars s).map root).toFinset, ?_, ?_⟩
  · refine (Finset.card_insert_le _ _).trans (Nat.succ_le_succ ?_)
    refine (List.toFinset_card_le _).trans ?_
    simp [inputVars]
  intro G1 G2 _ _ _ _ t h1 h2 n1 n2 ht hal hbe params hk
  obtain ⟨-, hg, hd, D', hD', rfl, hl⟩ := generateParameters_ok hk
  rw [hD] at hD'; injection hD' with hD'; subst hD'
  subst ht hal
  rw [Finset.mem_insert, not_or, List.mem_toFinset] at hbe
  obtain ⟨hb0, hbr⟩ := hbe
  have S1 : ∀ {x : ZMod r}, x ≠ 0 → x.val • t.g1 ≠ 0 := fun hx => smul_ne_zero_of_order h1 n1 hx
  have S2 : ∀ {x : ZMod r}, x ≠ 0 → x.val • t.g2 ≠ 0 := fun hx => smul_ne_zero_of_order h2 n2 hx
  refine ⟨⟨S1 ha, S1 hb0, S2 hb0, S2 hg, S1 hd, S2 hd⟩, ?_, ?_⟩
  · simp only [List.forall_mem_cons, List.not_mem_nil, false_imp_iff, implies_true, and_true]
    refine ⟨?_, ?_, hl, ?_, ?_⟩
    · intro g hgm
      simp only [keysOf, List.mem_map] at hgm
      obtain ⟨k, hkm, rfl⟩ := hgm
      apply S1
      have hcol := hcl.colA k (List.mem_append_left _ hkm) (present_input hkm)
      unfold Groth16.ext
      refine mul_ne_zero (fun h0 => hbr ?_) (inv_ne_zero hg)
      refine List.mem_map.2 ⟨k, hkm, ?_⟩
      show -(_ * t.alpha + _) / _ = t.beta
      rw [div_eq_iff hcol]
      linear_combination (-1 : ZMod r) * h0
    · intro g hgm
      simp only [keysOf, List.mem_map] at hgm
      obtain ⟨i, -, rfl⟩ := hgm
      exact S1 (mul_ne_zero (pow_ne_zero _ hcl.tau0) (mul_ne_zero hcl.z0 (inv_ne_zero hd)))
    · intro g hgm
      simp only [keysOf, List.mem_filter] at hgm
      simpa using hgm.2
    · intro g hgm
      simp only [keysOf, List.mem_filter] at hgm
      simpa using hgm.2
  · intro g hgm
    simp only [keysOf, List.mem_filter] at hgm
    simpa using hgm.2

theorem parameters_of_clean {K : TwoAdic (ZMod r)} {P Q : Ty} {code : Code r W} {a0 : P.S (ZMod r)} {s0 : CS (ZMod r)}
    (hset : (generated P Q code none none none).run (CS.new .setup) = .ok (a0, s0)) {tau alpha : ZMod r} (hcl : CleanSetup K s0 tau)
    (ha : alpha ≠ 0) :
    ∃ bad' : Finset (ZMod r), bad'.card ≤ s0.ninputs + 1 ∧
      ∀ {G1 G2 : Type} [AddCommGroup G1] [AddCommGroup G2] [DecidableEq G1] [DecidableEq G2] (t : Toxic G1 G2 r)
        (_ : r • t.g1 = 0) (_ : r • t.g2 = 0) (_ : t.g1 ≠ 0) (_ : t.g2 ≠ 0) (_ : t.tau = tau) (_ : t.alpha = alpha) (_ : t.beta ∉ bad')
        (params : Parameters G1 G2) (_ : generateKeys K t (generated P Q code none none none) = .ok params), FiniteParameters params := by
  cases hD : Domain.ofLength K (rows s0).length with
  | none =>
    refine ⟨∅, by simp, ?_⟩
    intro G1 G2 _ _ _ _ t _ _ _ _ _ _ _ params hk
    unfold generateKeys at hk
    rw [hset] at hk
    obtain ⟨-, -, -, D', hD', -⟩ := generateParameters_ok hk
    rw [hD] at hD'; cases hD'
  | some D =>
    obtain ⟨bad', hcard', hbad'⟩ := finite_of_clean hD (hcl D hD) ha
    refine ⟨bad', hcard', ?_⟩
    intro G1 G2 _ _ _ _ t h1 h2 n1 n2 e1 e2 hb params hk
    unfold generateKeys at hk
    rw [hset] at hk
    exact hbad' h1 h2 n1 n2 e1 e2 hb hk

/-- C79: `generate_keys` produces no point at infinity, except for few evaluation points and few `beta`. -/
theorem C79_parameters {K : TwoAdic (ZMod r)} (hK : LawfulTwoAdic K) (P Q : Ty) (code : Code r W) (a0 : P.S (ZMod r)) (s0 : CS (ZMod r))
    (hset : (generated P Q code none none none).run (CS.new .setup) = .ok (a0, s0)) :
    ∃ bad : Finset (ZMod r), bad.card ≤ 2 * (s0.cons.length + s0.ninputs) * (2 * (s0.ninputs + s0.naux) + 1) ∧
      ∀ tau ∉ bad, ∀ alpha ≠ 0, ∃ bad' : Finset (ZMod r), bad'.card ≤ s0.ninputs + 1 ∧
        ∀ {G1 G2 : Type} [AddCommGroup G1] [AddCommGroup G2] [DecidableEq G1] [DecidableEq G2] (t : Toxic G1 G2 r)
          (_ : r • t.g1 = 0) (_ : r • t.g2 = 0) (_ : t.g1 ≠ 0) (_ : t.g2 ≠ 0) (_ : t.tau = tau) (_ : t.alpha = alpha) (_ : t.beta ∉ bad')
          (params : Parameters G1 G2) (_ : generateKeys K t (generated P Q code none none none) = .ok params), FiniteParameters params := by
  obtain ⟨bad, hcard, hbad⟩ := cleanSetup_few hK (ninputs_pos hset)
  exact ⟨bad, hcard, fun tau ht alpha ha => parameters_of_clean hset (hbad tau ht) ha⟩

/-- The points of a proof are finite for all but one `y` and, given `y`, all but two `x`. -/
theorem finite_proof {G1 G2 : Type} [AddCommGroup G1] [AddCommGroup G2] [DecidableEq G1] [DecidableEq G2] (D : Domain (ZMod r))
    {t : Toxic G1 G2 r} (h1 : r • t.g1 = 0) (h2 : r • t.g2 = 0) (n1 : t.g1 ≠ 0) (n2 : t.g2 ≠ 0) (hg : t.gamma ≠ 0) (hd : t.delta ≠ 0)
    (s : CS (ZMod r)) (hrange : rowsInRange s = true) (hDm : (rows s).length ≤ D.m) :
    ∃ y0, ∀ y ≠ y0, ∃ bad : Finset (ZMod r), bad.card ≤ 2 ∧ ∀ x ∉ bad, FiniteProof (denseProof D (denseKeys D t s) x y s) := by
  classical
  have S1 : ∀ {x : ZMod r}, x ≠ 0 → x.val • t.g1 ≠ 0 := fun hx => smul_ne_zero_of_order h1 n1 hx
  have S2 : ∀ {x : ZMod r}, x ≠ 0 → x.val • t.g2 ≠ 0 := fun hx => smul_ne_zero_of_order h2 n2 hx
  refine ⟨-(t.beta + sideAt D t.tau s fun q => q.2.1) / t.delta, fun y hy => ?_⟩
  have hB : y * t.delta + t.beta + (sideAt D t.tau s fun q => q.2.1) ≠ 0 := by
    intro h0
    apply hy
    rw [eq_div_iff hd]
    linear_combination h0
  let c0 : ZMod r := t.alpha * t.beta + inputSum D t s * t.gamma + ((defectPoly D s).eval t.tau - (quotientPoly D s).eval t.tau * D.z t.tau)
  let x1 : ZMod r := -(t.alpha + sideAt D t.tau s fun q => q.1) / t.delta
  let x2 : ZMod r := (c0 / (y * t.delta + t.beta + (sideAt D t.tau s fun q => q.2.1)) - (t.alpha + sideAt D t.tau s fun q => q.1)) / t.delta
  refine ⟨{x1, x2}, Finset.card_le_two, fun x hx => ?_⟩
  simp only [Finset.mem_insert, Finset.mem_singleton, not_or] at hx
  obtain ⟨pa, pb, c, pc, hc⟩ := proof_in_exponent D t h1 h2 hg hd s hrange hDm x y
  unfold FiniteProof
  rw [pa, pb, pc]
  refine ⟨S1 fun h0 => hx.1 ?_, S2 hB, S1 fun h0 => hx.2 ?_⟩
  · rw [eq_div_iff hd]
    linear_combination h0
  · rw [h0, zero_mul] at hc
    rw [eq_div_iff hd]
    have : c0 / (y * t.delta + t.beta + (sideAt D t.tau s fun q => q.2.1)) = x * t.delta + t.alpha + sideAt D t.tau s fun q => q.1 := by
      rw [div_eq_iff hB]
      linear_combination hc
    rw [this]
    ring

theorem proof_of_clean {K : TwoAdic (ZMod r)} (hK : LawfulTwoAdic K) {P Q : Ty} {code : Code r W} (hw : code.WidthsFit) (hc : code.Quiet)
    {a0 : P.S (ZMod r)} {s0 : CS (ZMod r)} (hset : (generated P Q code none none none).run (CS.new .setup) = .ok (a0, s0))
    {G1 G2 : Type} [AddCommGroup G1] [AddCommGroup G2] [DecidableEq G1] [DecidableEq G2] {t : Toxic G1 G2 r}
    (h1 : r • t.g1 = 0) (h2 : r • t.g2 = 0) (n1 : t.g1 ≠ 0) (n2 : t.g2 ≠ 0) (hcl : CleanSetup K s0 t.tau) {params : Parameters G1 G2}
    (hk : generateKeys K t (generated P Q code none none none) = .ok params) {p : P.V (ZMod r)} (hp : P.okV (ZMod r) p) (w : W)
    (q : Q.V (ZMod r)) :
    ∃ y0, ∀ y ≠ y0, ∃ bad' : Finset (ZMod r), bad'.card ≤ 2 ∧ ∀ x ∉ bad', ∀ proof,
      prove K params x y (generated P Q code (some w) (some p) (some q)) = .ok proof → FiniteProof proof := by
  cases h : (generated P Q code (some w) (some p) (some q)).run (CS.new .prove) with
  | error e =>
    refine ⟨0, fun y _ => ⟨∅, by simp, fun x _ proof hpr => ?_⟩⟩
    unfold prove at hpr
    rw [h] at hpr; cases hpr
  | ok res =>
    obtain ⟨a, s⟩ := res
    obtain ⟨D, hD, hk', hout⟩ := prove_outcome_of_clean hw hc hset h1 h2 n1 n2 hcl hk hp h
    obtain ⟨hrange, hg, hd, -⟩ := generateParameters_ok hk'
    obtain ⟨y0, hy0⟩ := finite_proof D h1 h2 n1 n2 hg hd s hrange (hK.domain hD).2
    refine ⟨y0, fun y hy => ?_⟩
    obtain ⟨bad', hcard', hbad'⟩ := hy0 y hy
    refine ⟨bad', hcard', fun x hx proof hpr => ?_⟩
    rw [(hout x y).1] at hpr
    by_cases hone : ConstantOnRight s0
    · rw [(hout x y).2.1 hone] at hpr
      injection hpr with hpr
      rw [← hpr]
      exact hbad' x hx
    · rw [(hout x y).2.2 hone] at hpr; cases hpr

/-- C79: `prove` with keys from `generate_keys` produces no point at infinity, except for few evaluation points of the key generator,
one value of the second random choice and two of the first. -/
theorem C79_proof {K : TwoAdic (ZMod r)} (hK : LawfulTwoAdic K) (P Q : Ty) (code : Code r W) (hw : code.WidthsFit) (hc : code.Quiet)
    (a0 : P.S (ZMod r)) (s0 : CS (ZMod r)) (hset : (generated P Q code none none none).run (CS.new .setup) = .ok (a0, s0)) :
    ∃ bad : Finset (ZMod r), bad.card ≤ 2 * (s0.cons.length + s0.ninputs) * (2 * (s0.ninputs + s0.naux) + 1) ∧
      ∀ {G1 G2 : Type} [AddCommGroup G1] [AddCommGroup G2] [DecidableEq G1] [DecidableEq G2] (t : Toxic G1 G2 r)
        (_ : r • t.g1 = 0) (_ : r • t.g2 = 0) (_ : t.g1 ≠ 0) (_ : t.g2 ≠ 0) (_ : t.tau ∉ bad)
        (params : Parameters G1 G2) (_ : generateKeys K t (generated P Q code none none none) = .ok params)
        (w : W) (p : P.V (ZMod r)) (_ : P.okV (ZMod r) p) (q : Q.V (ZMod r)),
        ∃ y0, ∀ y ≠ y0, ∃ bad' : Finset (ZMod r), bad'.card ≤ 2 ∧ ∀ x ∉ bad', ∀ proof,
          prove K params x y (generated P Q code (some w) (some p) (some q)) = .ok proof → FiniteProof proof := by
  obtain ⟨bad, hcard, hbad⟩ := cleanSetup_few hK (ninputs_pos hset)
  refine ⟨bad, hcard, ?_⟩
  intro G1 G2 _ _ _ _ t h1 h2 n1 n2 ht params hk w p hp q
  exact proof_of_clean hK hw hc hset h1 h2 n1 n2 (hbad _ ht) hk hp w q

instance {G1 G2 : Type} [Zero G1] [Zero G2] [DecidableEq G1] [DecidableEq G2] (p : Parameters G1 G2) : Decidable (FiniteParameters p) := by
  unfold FiniteParameters; infer_instance

instance {G1 G2 : Type} [Zero G1] [Zero G2] [DecidableEq G1] [DecidableEq G2] (p : Proof G1 G2) : Decidable (FiniteProof p) := by
  unfold FiniteProof; infer_instance

/-- The example of C67: keys and proof are finite; the proof is not for one choice of the prover (`x·6 + 3 + 5·… = 0`). -/
example :
    (match generateKeys smallK smallToxic (generated .num (.pair .num .num) productCode none none none) with
     | .ok params => decide (FiniteParameters params) && (match prove smallK params 11 12 (productCircuit (5, 7)) with
       | .ok proof => decide (FiniteProof proof)
       | .error _ => false) && ((List.range 97).filter fun x => match prove smallK params (x : ZMod 97) 12 (productCircuit (5, 7)) with
         | .ok proof => decide (¬ FiniteProof proof)
         | .error _ => true).length == 2
     | .error _ => false) = true := by
  decide +kernel

end infinity

end Fawkes.Props
