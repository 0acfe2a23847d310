import Verif.Lemmas.AlgebraicKeys

/-!
# Knowledge soundness against algebraic provers: C84
-/

namespace Fawkes.Props

open Groth16 Polynomial Finset

variable {r : Nat} [Fact r.Prime]

/-- The equation of the verifier in the exponent, for an algebraic prover and a clean secret point. -/
theorem algebraic_equation {G1 G2 T : Type} [AddCommGroup G1] [AddCommGroup G2] [DecidableEq G1] [DecidableEq G2] [CommMonoid T]
    [DecidableEq T] {E : Engine G1 G2 T} {e : G1 → G2 → Tˣ} (hE : PairingEngine E e) (hr : ∀ a b b', e a (b + b') = e a b * e a b')
    {D : Domain (ZMod r)} {s : CS (ZMod r)} (hm : (rows s).length ≤ D.m) (hrange : rowsInRange s = true)
    {t : Toxic G1 G2 r} (h1 : r • t.g1 = 0) (h2 : r • t.g2 = 0) (hne : e t.g1 t.g2 ≠ 1) (hg : t.gamma ≠ 0) (hcl : Clean D t.tau s)
    (S : AlgebraicProver r) (inputs : List (ZMod r)) :
    verify E (truncate (keysOf D t s).vk) (S.proof t.g1 t.g2 (keysOf D t s)) inputs = .ok (.ok true) ↔
      inputs.length + 1 = s.ninputs ∧
      (S.a.part D s).at t.secrets * (S.b.part D s).at t.secrets = t.alpha * t.beta +
        (t.beta * (sidePoly D s (fun q => q.1) (onInputs (1 :: inputs))).eval t.tau +
          t.alpha * (sidePoly D s (fun q => q.2.1) (onInputs (1 :: inputs))).eval t.tau +
          (sidePoly D s (fun q => q.2.2) (onInputs (1 :: inputs))).eval t.tau) + (S.c.part D s).at t.secrets * t.delta := by
  obtain ⟨n1, n2⟩ := generators_ne hE.add_left hr hne
  have ho := pair_order (g2 := t.g2) hE.add_left h1
  have hlen : (keysOf D t s).vk.ic.length = s.ninputs := by simp [keysOf, inputVars]
  have key : ∀ ic0 ics, (truncate (keysOf D t s).vk).ic = ic0 :: ics →
      (Groth16Equation e (truncate (keysOf D t s).vk).alphaG1 (truncate (keysOf D t s).vk).betaG2
        (truncate (keysOf D t s).vk).gammaG2 (truncate (keysOf D t s).vk).deltaG2 ic0 ics (S.proof t.g1 t.g2 (keysOf D t s)).a
        (S.proof t.g1 t.g2 (keysOf D t s)).b (S.proof t.g1 t.g2 (keysOf D t s)).c inputs ↔
      (S.a.part D s).at t.secrets * (S.b.part D s).at t.secrets = t.alpha * t.beta +
        (t.beta * (sidePoly D s (fun q => q.1) (onInputs (1 :: inputs))).eval t.tau +
          t.alpha * (sidePoly D s (fun q => q.2.1) (onInputs (1 :: inputs))).eval t.tau +
          (sidePoly D s (fun q => q.2.2) (onInputs (1 :: inputs))).eval t.tau) + (S.c.part D s).at t.secrets * t.delta) := by
    intro ic0 ics hic
    unfold Groth16Equation
    rw [inputs_eq hm hrange h1 hic]
    simp only [AlgebraicProver.proof, Combination.point_eq hm hrange h1 n1 hcl, Combination2.point_eq hm h2 n2 hcl]
    simp only [truncate, keysOf, pair_val hE.add_left hr h1]
    rw [← pow_val_add ho, ← pow_val_add ho, pow_val_inj ho hne]
    have : ∀ x : ZMod r, t.gamma⁻¹ * x * t.gamma = x := fun x => by field_simp
    rw [this]
  rw [C55_accepts hE]
  constructor
  · rintro ⟨ic0, ics, hic, hl, heq⟩
    have hic' : (keysOf D t s).vk.ic = ic0 :: ics := hic
    refine ⟨?_, (key ic0 ics hic).1 heq⟩
    rw [← hlen, hic', List.length_cons, hl]
  · rintro ⟨hl, heq⟩
    cases hic : (keysOf D t s).vk.ic with
    | nil => rw [hic] at hlen; simp at hlen; omega
    | cons ic0 ics =>
      rw [hic] at hlen
      simp only [List.length_cons] at hlen
      exact ⟨ic0, ics, hic, by omega, (key ic0 ics hic).2 heq⟩

/-- C84: whoever makes a proof that `verify` accepts by combining the points of the keys knows values that satisfy the circuit: they
can be read off the coefficients.  For every circuit, every list of inputs and every choice of coefficients (made before the keys): if
the proof is accepted, then the values of `S.witness inputs` (the given public inputs, and for the other variables the coefficients that
the third point of the proof has on the query `l`) satisfy all constraints, except for few secrets of the key generator: at most
`(4·(constraints + public inputs)·(variables + 2) + 8)·r⁴` of `r⁵`, whatever the groups and the pairing. -/
theorem C84_knowledge {K : TwoAdic (ZMod r)} (hK : LawfulTwoAdic K) {α : Type} (circuit : M (ZMod r) α) (a0 : α) (s0 : CS (ZMod r))
    (hset : circuit.run (CS.new .setup) = .ok (a0, s0)) (S : AlgebraicProver r) (inputs : List (ZMod r)) :
    ∃ bad : Finset (ZMod r × ZMod r × ZMod r × ZMod r × ZMod r),
      bad.card ≤ (4 * (s0.cons.length + s0.ninputs) * (s0.ninputs + s0.naux + 2) + 8) * r ^ 4 ∧
      ∀ {G1 G2 T : Type} [AddCommGroup G1] [AddCommGroup G2] [DecidableEq G1] [DecidableEq G2] [CommMonoid T] [DecidableEq T]
        {E : Engine G1 G2 T} {e : G1 → G2 → Tˣ} (_ : PairingEngine E e) (_ : ∀ a b b', e a (b + b') = e a b * e a b')
        (t : Toxic G1 G2 r) (_ : r • t.g1 = 0) (_ : r • t.g2 = 0) (_ : e t.g1 t.g2 ≠ 1)
        (_ : (t.alpha, t.beta, t.gamma, t.delta, t.tau) ∉ bad)
        (params : Parameters G1 G2) (_ : generateKeys K t circuit = .ok params),
        verify E (truncate params.vk) (S.proof t.g1 t.g2 params) inputs = .ok (.ok true) →
          inputs.length + 1 = s0.ninputs ∧ s0.Sat (S.witness inputs) := by
  have hn : 1 ≤ s0.ninputs := ninputs_pos hset
  by_cases hsat : s0.Sat (S.witness inputs)
  · -- only the number of inputs is left
    refine ⟨∅, by simp, ?_⟩
    intro G1 G2 T _ _ _ _ _ _ E e hE hr t h1 h2 hne ht params hk hv
    refine ⟨?_, hsat⟩
    rw [generateKeys, hset] at hk
    obtain ⟨-, -, -, D, -, hp, -⟩ := generateParameters_ok hk
    obtain ⟨ic0, ics, hic, hl, -⟩ := (C55_accepts hE _ _ _).1 hv
    have hlen : params.vk.ic.length = s0.ninputs := by rw [hp]; simp [keysOf, inputVars]
    have hic' : params.vk.ic = ic0 :: ics := hic
    rw [← hlen, hic', List.length_cons, hl]
  cases hD : Domain.ofLength K (rows s0).length with
  | none =>
    refine ⟨∅, by simp, ?_⟩
    intro G1 G2 T _ _ _ _ _ _ E e hE hr t h1 h2 hne ht params hk hv
    rw [generateKeys, hset] at hk
    obtain ⟨-, -, -, D, hD', -⟩ := generateParameters_ok hk
    rw [hD] at hD'; cases hD'
  | some D =>
    obtain ⟨hDl, hDm⟩ := hK.domain hD
    have hlen : (rows s0).length = s0.cons.length + s0.ninputs := by simp [rows]
    have hm : D.m ≤ 2 * (rows s0).length := domain_le (by omega) hD
    obtain ⟨bad1, hcard1, hbad1⟩ := cleanSetup_few hK (s0 := s0) hn
    obtain ⟨bad2, hcard2, hbad2⟩ := few_or_eq (S.a.part_small D s0) (S.b.part_degree D s0) (S.c.part_small D s0)
      (sidePoly_degree D s0 (fun q => q.1) (onInputs (1 :: inputs))) (sidePoly_degree D s0 (fun q => q.2.1) (onInputs (1 :: inputs)))
      (sidePoly_degree D s0 (fun q => q.2.2) (onInputs (1 :: inputs))) (fun h => hsat (sat_of_eq hDl hDm S inputs h))
    refine ⟨bad2 ∪ univ ×ˢ (univ ×ˢ (univ ×ˢ (univ ×ˢ bad1))), ?_, ?_⟩
    · refine (Finset.card_union_le _ _).trans ?_
      simp only [Finset.card_product, Finset.card_univ, ZMod.card] at hcard2 ⊢
      have e1 : bad2.card ≤ (8 + 3 * (2 * (s0.cons.length + s0.ninputs))) * r ^ 4 :=
        hcard2.trans (Nat.mul_le_mul_right _ (by omega))
      have e2 : r * (r * (r * (r * bad1.card))) = bad1.card * r ^ 4 := by ring
      have e3 : bad1.card * r ^ 4 ≤ (2 * (s0.cons.length + s0.ninputs) * (2 * (s0.ninputs + s0.naux) + 1)) * r ^ 4 :=
        Nat.mul_le_mul_right _ hcard1
      rw [e2]
      refine (Nat.add_le_add e1 e3).trans (le_of_eq ?_)
      ring
    · intro G1 G2 T _ _ _ _ _ _ E e hE hr t h1 h2 hne ht params hk hv
      rw [generateKeys, hset] at hk
      obtain ⟨hrange, hg, hd, D', hD', hp, -⟩ := generateParameters_ok hk
      rw [hD] at hD'; injection hD' with hD'; subst hD'
      subst hp
      rw [Finset.mem_union, not_or] at ht
      have hcl : Clean D t.tau s0 := by
        refine hbad1 t.tau (fun h => ht.2 ?_) D hD
        simp [h]
      have heq := ((algebraic_equation hE hr hDm hrange h1 h2 hne hg hcl S inputs).1 hv).2
      exact absurd (hbad2 _ _ _ _ _ hg hd heq) ht.1

/-- C84 (provers who choose after they have seen the keys): the coefficients may depend on the keys in any way; if the proof is accepted and
the values read off the coefficients do not satisfy the circuit, then these coefficients alone confine the secrets of the key generator
to few: `bad` is computed from the circuit, the coefficients and the public inputs, not from the keys. -/
theorem C84_adaptive {K : TwoAdic (ZMod r)} (hK : LawfulTwoAdic K) {α : Type} (circuit : M (ZMod r) α) (a0 : α) (s0 : CS (ZMod r))
    (hset : circuit.run (CS.new .setup) = .ok (a0, s0)) :
    ∃ bad : AlgebraicProver r → List (ZMod r) → Finset (ZMod r × ZMod r × ZMod r × ZMod r × ZMod r),
      (∀ S inputs, (bad S inputs).card ≤ (4 * (s0.cons.length + s0.ninputs) * (s0.ninputs + s0.naux + 2) + 8) * r ^ 4) ∧
      ∀ {G1 G2 T : Type} [AddCommGroup G1] [AddCommGroup G2] [DecidableEq G1] [DecidableEq G2] [CommMonoid T] [DecidableEq T]
        {E : Engine G1 G2 T} {e : G1 → G2 → Tˣ} (_ : PairingEngine E e) (_ : ∀ a b b', e a (b + b') = e a b * e a b')
        (prover : G1 → G2 → Parameters G1 G2 → AlgebraicProver r × List (ZMod r))
        (t : Toxic G1 G2 r) (_ : r • t.g1 = 0) (_ : r • t.g2 = 0) (_ : e t.g1 t.g2 ≠ 1)
        (params : Parameters G1 G2) (_ : generateKeys K t circuit = .ok params),
        verify E (truncate params.vk) ((prover t.g1 t.g2 params).1.proof t.g1 t.g2 params) (prover t.g1 t.g2 params).2 = .ok (.ok true) →
          ((prover t.g1 t.g2 params).2.length + 1 = s0.ninputs ∧
            s0.Sat ((prover t.g1 t.g2 params).1.witness (prover t.g1 t.g2 params).2)) ∨
          (t.alpha, t.beta, t.gamma, t.delta, t.tau) ∈ bad (prover t.g1 t.g2 params).1 (prover t.g1 t.g2 params).2 := by
  choose bad hcard hbad using fun S inputs => C84_knowledge hK circuit a0 s0 hset S inputs
  refine ⟨bad, hcard, ?_⟩
  intro G1 G2 T _ _ _ _ _ _ E e hE hr prover t h1 h2 hne params hk hv
  by_cases ht : (t.alpha, t.beta, t.gamma, t.delta, t.tau) ∈ bad (prover t.g1 t.g2 params).1 (prover t.g1 t.g2 params).2
  · exact .inr ht
  · exact .inl (hbad _ _ hE hr t h1 h2 hne ht params hk hv)

/-- C84 (provers who choose after they have seen the keys): a prover who has only finitely many ways to choose the coefficients and inputs - a list
`choices` of them, among which the keys may decide - gets a proof without a witness accepted for at most `choices.length` times as many
secrets as a prover who chooses before. -/
theorem C84_adaptive_count {K : TwoAdic (ZMod r)} (hK : LawfulTwoAdic K) {α : Type} (circuit : M (ZMod r) α) (a0 : α) (s0 : CS (ZMod r))
    (hset : circuit.run (CS.new .setup) = .ok (a0, s0)) (choices : List (AlgebraicProver r × List (ZMod r))) :
    ∃ bad : Finset (ZMod r × ZMod r × ZMod r × ZMod r × ZMod r),
      bad.card ≤ choices.length * ((4 * (s0.cons.length + s0.ninputs) * (s0.ninputs + s0.naux + 2) + 8) * r ^ 4) ∧
      ∀ {G1 G2 T : Type} [AddCommGroup G1] [AddCommGroup G2] [DecidableEq G1] [DecidableEq G2] [CommMonoid T] [DecidableEq T]
        {E : Engine G1 G2 T} {e : G1 → G2 → Tˣ} (_ : PairingEngine E e) (_ : ∀ a b b', e a (b + b') = e a b * e a b')
        (t : Toxic G1 G2 r) (_ : r • t.g1 = 0) (_ : r • t.g2 = 0) (_ : e t.g1 t.g2 ≠ 1)
        (_ : (t.alpha, t.beta, t.gamma, t.delta, t.tau) ∉ bad)
        (params : Parameters G1 G2) (_ : generateKeys K t circuit = .ok params), ∀ c ∈ choices,
        verify E (truncate params.vk) (c.1.proof t.g1 t.g2 params) c.2 = .ok (.ok true) →
          c.2.length + 1 = s0.ninputs ∧ s0.Sat (c.1.witness c.2) := by
  induction choices with
  | nil =>
    refine ⟨∅, by simp, ?_⟩
    intro G1 G2 T _ _ _ _ _ _ E e _ _ t _ _ _ _ params _ c hc
    exact absurd hc List.not_mem_nil
  | cons c rest ih =>
    obtain ⟨bad, hcard, hbad⟩ := ih
    obtain ⟨bad', hcard', hbad'⟩ := C84_knowledge hK circuit a0 s0 hset c.1 c.2
    refine ⟨bad' ∪ bad, (Finset.card_union_le _ _).trans ?_, ?_⟩
    · rw [List.length_cons, Nat.add_mul, Nat.one_mul, Nat.add_comm]
      exact Nat.add_le_add hcard hcard'
    · intro G1 G2 T _ _ _ _ _ _ E e hE hr t h1 h2 hne ht params hk d hd hv
      rw [Finset.mem_union, not_or] at ht
      rcases List.mem_cons.1 hd with rfl | hd
      · exact hbad' hE hr t h1 h2 hne ht.1 params hk hv
      · exact hbad hE hr t h1 h2 hne ht.2 params hk d hd hv

/-- C84: a false statement has no accepted proof that an algebraic prover could make: if no values of the variables with these public
inputs satisfy the constraints, then `verify` does not accept, except for few secrets. -/
theorem C84_sound {K : TwoAdic (ZMod r)} (hK : LawfulTwoAdic K) {α : Type} (circuit : M (ZMod r) α) (a0 : α) (s0 : CS (ZMod r))
    (hset : circuit.run (CS.new .setup) = .ok (a0, s0)) (inputs : List (ZMod r))
    (hfalse : ∀ w, IsAssignment w → (∀ i, i < inputs.length → w (.input (i + 1)) = inputs.getD i 0) → ¬ s0.Sat w)
    (S : AlgebraicProver r) :
    ∃ bad : Finset (ZMod r × ZMod r × ZMod r × ZMod r × ZMod r),
      bad.card ≤ (4 * (s0.cons.length + s0.ninputs) * (s0.ninputs + s0.naux + 2) + 8) * r ^ 4 ∧
      ∀ {G1 G2 T : Type} [AddCommGroup G1] [AddCommGroup G2] [DecidableEq G1] [DecidableEq G2] [CommMonoid T] [DecidableEq T]
        {E : Engine G1 G2 T} {e : G1 → G2 → Tˣ} (_ : PairingEngine E e) (_ : ∀ a b b', e a (b + b') = e a b * e a b')
        (t : Toxic G1 G2 r) (_ : r • t.g1 = 0) (_ : r • t.g2 = 0) (_ : e t.g1 t.g2 ≠ 1)
        (_ : (t.alpha, t.beta, t.gamma, t.delta, t.tau) ∉ bad)
        (params : Parameters G1 G2) (_ : generateKeys K t circuit = .ok params),
        verify E (truncate params.vk) (S.proof t.g1 t.g2 params) inputs =
          .ok (if inputs.length + 1 = s0.ninputs then .ok false else .error .malformedVerifyingKey) := by
  obtain ⟨bad, hcard, hbad⟩ := C84_knowledge hK circuit a0 s0 hset S inputs
  refine ⟨bad, hcard, ?_⟩
  intro G1 G2 T _ _ _ _ _ _ E e hE hr t h1 h2 hne ht params hk
  have h := hbad hE hr t h1 h2 hne ht params hk
  have hk' := hk
  rw [generateKeys, hset] at hk'
  obtain ⟨-, -, -, D, -, hp, -⟩ := generateParameters_ok hk'
  have hlen : (truncate params.vk).ic.length = s0.ninputs := by rw [hp]; simp [truncate, keysOf, inputVars]
  obtain ⟨⟨res, hres⟩, herr⟩ := C55_error hE (truncate params.vk) (S.proof t.g1 t.g2 params) inputs
  split_ifs with hl
  · rw [hres]
    match res, hres with
    | .ok true, hres =>
      exact absurd (h hres).2 (hfalse _ rfl fun i _ => rfl)
    | .ok false, _ => rfl
    | .error .malformedVerifyingKey, hres => exact absurd (hlen ▸ hl) (herr.1 hres)
  · exact herr.2 (by rw [hlen]; exact hl)

/-- C84, the other direction: the proofs of `prove` are made by such a prover, and the extractor gives back the values that the prover
had, except for few secret points of the key generator. -/
theorem C84_honest {K : TwoAdic (ZMod r)} (hK : LawfulTwoAdic K) {W : Type} (P Q : Ty) (code : Code r W) (hw : code.WidthsFit)
    (hc : code.Quiet) (w : W) (p : P.V (ZMod r)) (hp : P.okV (ZMod r) p) (q : Q.V (ZMod r)) (a : P.S (ZMod r)) (s : CS (ZMod r))
    (h : (generated P Q code (some w) (some p) (some q)).run (CS.new .prove) = .ok (a, s)) (x y : ZMod r) :
    ∃ bad : Finset (ZMod r), bad.card ≤ 2 * (s.cons.length + s.ninputs) * (2 * (s.ninputs + s.naux) + 1) ∧
      ∃ (S : AlgebraicProver r) (inputs : List (ZMod r)), getInputs P (some p) = .ok (some inputs) ∧
      (∀ k, inRange s k = true → S.witness inputs k = s.assign k) ∧
      ∀ {G1 G2 : Type} [AddCommGroup G1] [AddCommGroup G2] [DecidableEq G1] [DecidableEq G2] (t : Toxic G1 G2 r)
        (_ : r • t.g1 = 0) (_ : r • t.g2 = 0) (_ : t.g1 ≠ 0) (_ : t.g2 ≠ 0) (_ : t.tau ∉ bad) (params : Parameters G1 G2)
        (_ : generateKeys K t (generated P Q code none none none) = .ok params) (proof : Proof G1 G2)
        (_ : prove K params x y (generated P Q code (some w) (some p) (some q)) = .ok proof),
        proof = S.proof t.g1 t.g2 params := by
  obtain ⟨a0, s0, hset, -⟩ := C12_circuit P Q code hw w p q a s h
  obtain ⟨hi, ha, hcons, hrows⟩ := shape_of_run hw hset h
  have hl : s0.cons.length = s.cons.length := by simpa using (congrArg List.length hcons).symm
  obtain ⟨bad, hcard, hbad⟩ := cleanSetup_few hK (ninputs_pos hset)
  rw [hl, ← hi, ← ha] at hcard
  obtain ⟨-, hpub, hget, -⟩ := keys_of_run (G1 := ZMod r) (G2 := ZMod r) hw hc hp h
  cases hD : Domain.ofLength K (rows s).length with
  | none =>
    refine ⟨bad, hcard, honestProver ⟨0, 0, 0⟩ s x y, publicInputs s, by rw [hpub]; exact hget, honest_witness _ s x y, ?_⟩
    intro G1 G2 _ _ _ _ t h1 h2 n1 n2 ht params hk proof hpr
    obtain ⟨D, hD', -⟩ := prove_outcome_of_clean hw hc hset h1 h2 n1 n2 (hbad _ ht) hk hp h
    rw [hD] at hD'; cases hD'
  | some D =>
    refine ⟨bad, hcard, honestProver D s x y, publicInputs s, by rw [hpub]; exact hget, honest_witness _ s x y, ?_⟩
    intro G1 G2 _ _ _ _ t h1 h2 n1 n2 ht params hk proof hpr
    obtain ⟨D', hD', hk', hout⟩ := prove_outcome_of_clean hw hc hset h1 h2 n1 n2 (hbad _ ht) hk hp h
    rw [hD] at hD'; injection hD' with hD'; subst hD'
    obtain ⟨hp1, hp2, hp3⟩ := hout x y
    rw [hp1] at hpr
    by_cases hone : ConstantOnRight s0
    · rw [hp2 hone] at hpr
      injection hpr with hpr
      obtain ⟨-, -, -, D', hD', hparams, -⟩ := generateParameters_ok hk'
      rw [hD] at hD'; injection hD' with hD'; subst hD'
      rw [← hpr, hparams]
      refine (honest_proof h1 h2 n1 n2 ?_ x y).symm
      exact clean_congr hi ha hrows (hbad _ ht _ (by rw [← hrows]; exact hD))
    · rw [hp3 hone] at hpr
      cases hpr

/-- C84, what a proof does not show: that whoever sends it made it.  From an accepted proof anyone can make others for the same
inputs, by scaling the first point and unscaling the second. -/
theorem C84_malleable {G1 G2 T : Type} [AddCommGroup G1] [AddCommGroup G2] [CommMonoid T] [DecidableEq T] {E : Engine G1 G2 T}
    {e : G1 → G2 → Tˣ} (hE : PairingEngine E e) (hr : ∀ a b b', e a (b + b') = e a b * e a b') (tvk : VK G1 G2) (proof : Proof G1 G2)
    (ha : r • proof.a = 0) (k : ZMod r) (hk : k ≠ 0) (inputs : List (ZMod r)) :
    verify E tvk ⟨k.val • proof.a, k⁻¹.val • proof.b, proof.c⟩ inputs = verify E tvk proof inputs := by
  have h : e (-(k.val • proof.a)) (k⁻¹.val • proof.b) = e (-proof.a) proof.b := by
    rw [hE.neg_left, hE.neg_left, pair_val hE.add_left hr ha, mul_inv_cancel₀ hk, ZMod.val_one, pow_one]
  unfold verify
  split
  · rfl
  · split
    · rfl
    · simp only [hE.product, List.map_cons, List.map_nil, h]

/-! ### A small instance -/

/-- A prover of "35 is a product" that combines points of the keys, with the factors 5 and 7 (and the random choices 11 and 12). -/
def smallProver : AlgebraicProver 97 where
  a := ⟨0, 1, 0, 11, [], [], [], [1, 35, 35, 5, 35], []⟩
  b := ⟨0, 1, 0, 12, [1, 7]⟩
  c := ⟨0, 12, 11, 11 * 12, [], [89, 28, 88, 43, 25, 86, 84], [35, 5, 7, 35], [12, 12 * 35, 12 * 35, 12 * 5, 12 * 35], [11, 11 * 7]⟩

/-- Its proof is accepted, and the factors are among its coefficients. -/
example :
    (do let params ← (generateKeys smallK smallToxic (generated .num (.pair .num .num) productCode none none none)).toOption
        let b ← (verify smallEngine (truncate params.vk) (smallProver.proof smallToxic.g1 smallToxic.g2 params)
          [(35 : ZMod 97)]).toOption
        let b' ← (verify smallEngine (truncate params.vk) (smallProver.proof smallToxic.g1 smallToxic.g2 params)
          [(36 : ZMod 97)]).toOption
        pure (b.toOption, b'.toOption)) = some (some true, some false) ∧
    smallProver.witness [35] (.aux 1) = 5 ∧ smallProver.witness [35] (.aux 2) = 7 := by
  decide +kernel

/-- And so is the proof with its points scaled by 2 and 1/2. -/
example :
    (do let params ← (generateKeys smallK smallToxic (generated .num (.pair .num .num) productCode none none none)).toOption
        let proof := smallProver.proof smallToxic.g1 smallToxic.g2 params
        let b ← (verify smallEngine (truncate params.vk) ⟨2 • proof.a, (49 : ZMod 97).val • proof.b, proof.c⟩
          [(35 : ZMod 97)]).toOption
        pure b.toOption) = some (some true) := by
  decide +kernel

/-- The same circuit over the field of BN256: setup runs, and of the secrets at most one in `2^245` is excepted. -/
example : (let s := finalState (generated .num (.pair .num .num) (.call (.prim (.mul 1 2)) fun _ =>
      .call (.prim (.assertEq 0 3)) fun _ => (.done : Code bnR Unit)) none none none) (CS.new .setup)
    (s.cons.length, s.ninputs, s.naux)) = (3, 2, 4) ∧
    (4 * (3 + 2) * (2 + 4 + 2) + 8) * bnR ^ 4 * 2 ^ 245 ≤ bnR ^ 5 := by
  decide +kernel

end Fawkes.Props
