import Verif.Props.Proving

/-!
# C68 (simulation) and C98: proofs without a witness, and proofs from proofs
-/

namespace Fawkes.Props

open Groth16

variable {G1 G2 T : Type} [AddCommGroup G1] [AddCommGroup G2] [DecidableEq G1] [DecidableEq G2] [CommMonoid T] [DecidableEq T]
  {r : Nat} [Fact r.Prime] {W : Type}

/-! ## Specification -/

/-- `IC₀ + Σ xᵢ·ICᵢ`. -/
def publicPoint (ic : List G1) (inputs : List (ZMod r)) : G1 :=
  (List.zipWith (fun x P => x.val • P) (1 :: inputs) ic).sum

/-- The simulator: from the secrets of the key generator, the public part of the key, the public inputs and two random numbers, a
proof — without any secret data of the circuit, and without the circuit. -/
def simulate (t : Toxic G1 G2 r) (ic : List G1) (inputs : List (ZMod r)) (a b : ZMod r) : Proof G1 G2 where
  a := a.val • t.g1
  b := b.val • t.g2
  c := (t.delta⁻¹).val • ((a * b - t.alpha * t.beta).val • t.g1 - t.gamma.val • publicPoint ic inputs)

/-- Another proof from a proof, with two numbers `u ≠ 0` and `k` of one's choice and a point of the verifying key. -/
def rerandomise (delta : G2) (proof : Proof G1 G2) (u k : ZMod r) : Proof G1 G2 where
  a := u.val • proof.a
  b := (u⁻¹).val • proof.b + k.val • delta
  c := proof.c + (u * k).val • proof.a

/-! ## The simulator -/

omit [DecidableEq G1] [DecidableEq G2] in
theorem publicPoint_eq {D : Domain (ZMod r)} {t : Toxic G1 G2 r} (h1 : r • t.g1 = 0) {s : CS (ZMod r)} (hn : 1 ≤ s.ninputs)
    (w : Index → ZMod r) (hw : w (.input 0) = 1) :
    publicPoint ((inputVars s).map fun k => (Groth16.ext D t s t.gamma⁻¹ k).val • t.g1)
      ((List.range (s.ninputs - 1)).map fun i => w (.input (1 + i))) = (inputSum D t s w).val • t.g1 := by
  obtain ⟨n, hn⟩ : ∃ n, s.ninputs = n + 1 := ⟨s.ninputs - 1, by omega⟩
  have hin : inputVars s = .input 0 :: (List.range n).map fun i => .input (1 + i) := by
    unfold inputVars
    rw [hn, List.range_succ_eq_map, List.map_cons, List.map_map]
    congr 1
    exact List.map_congr_left fun i _ => by simp [Nat.succ_eq_add_one, add_comm]
  have hl : (1 : ZMod r) :: ((List.range (s.ninputs - 1)).map fun i => w (.input (1 + i))) = (inputVars s).map w := by
    rw [hin, List.map_cons, hw, List.map_map, hn]; rfl
  unfold publicPoint inputSum
  rw [hl]
  have := sumexp_eq h1 (inputVars s) w (Groth16.ext D t s t.gamma⁻¹)
  unfold sumexp at this
  exact this

omit [DecidableEq G1] [DecidableEq G2] in
theorem val_sub_smul {g : G1} (hg : r • g = 0) (x y : ZMod r) : (x - y).val • g = x.val • g - y.val • g := by
  rw [eq_sub_iff_add_eq, ← val_add_smul hg, sub_add_cancel]

/-- An honest proof of satisfying data is what the simulator returns for the two numbers in its first two points. -/
theorem denseProof_simulate {K : TwoAdic (ZMod r)} (hK : LawfulTwoAdic K) {t : Toxic G1 G2 r}
    (h1 : r • t.g1 = 0) (h2 : r • t.g2 = 0) {params : Parameters G1 G2} {s : CS (ZMod r)} (hn : 1 ≤ s.ninputs)
    (hk : generateParameters K t s = .ok params) {D : Domain (ZMod r)} (hD : Domain.ofLength K (rows s).length = some D)
    (hs : s.Sat s.assign) (x y : ZMod r) :
    denseProof D (denseKeys D t s) x y s = simulate t params.vk.ic (publicInputs s)
      (x * t.delta + t.alpha + sideAt D t.tau s fun q => q.1) (y * t.delta + t.beta + sideAt D t.tau s fun q => q.2.1) := by
  obtain ⟨h0, hg, hd, D', hD', hp, -⟩ := generateParameters_ok hk
  rw [hD] at hD'; injection hD' with hD'; subst hD'
  obtain ⟨hDl, hDm⟩ := hK.domain hD
  obtain ⟨ea, eb, c, ec, hc⟩ := proof_in_exponent D t h1 h2 hg hd s h0 hDm x y
  have hz : (defectPoly D s).eval t.tau - (quotientPoly D s).eval t.tau * D.z t.tau = 0 := by
    unfold defectPoly quotientPoly
    rw [Domain.quotient_eq hDl _ _ _ ((sat_iff_rows s D.m hDm).1 hs), sub_self]
  rw [hz, sub_zero] at hc
  have hpp : publicPoint params.vk.ic (publicInputs s) = (inputSum D t s).val • t.g1 := by
    rw [hp]; exact publicPoint_eq h1 hn s.assign (CS.assign_isAssignment s)
  generalize hA : x * t.delta + t.alpha + (sideAt D t.tau s fun q => q.1) = A at *
  generalize hB : y * t.delta + t.beta + (sideAt D t.tau s fun q => q.2.1) = B at *
  have hcc : c = t.delta⁻¹ * (A * B - t.alpha * t.beta - t.gamma * inputSum D t s) := by
    rw [mul_comm t.gamma, ← hc]; field_simp
  unfold simulate
  rw [hpp, val_mul_smul h1, ← val_sub_smul h1, val_mul_smul h1, ← hcc, ← ec, ← ea, ← eb]

/-- C68 (simulation): proofs are zero-knowledge.  For data that satisfy the circuit, a bijection of the two random choices of the
prover turns the simulator, which knows no secret data, into the prover: for uniformly chosen random numbers proof and simulation
are equally distributed.  Unless the secret point of the key generator is one of few. -/
theorem C68_simulator {K : TwoAdic (ZMod r)} (hK : LawfulTwoAdic K)
    (P Q : Ty) (code : Code r W) (hw : code.WidthsFit) (hc : code.Quiet) (a0 : P.S (ZMod r)) (s0 : CS (ZMod r))
    (hset : (generated P Q code none none none).run (CS.new .setup) = .ok (a0, s0)) (hone : ConstantOnRight s0) :
    ∃ bad : Finset (ZMod r), bad.card ≤ 2 * (s0.cons.length + s0.ninputs) * (2 * (s0.ninputs + s0.naux) + 1) ∧
      ∀ {G1 G2 : Type} [AddCommGroup G1] [AddCommGroup G2] [DecidableEq G1] [DecidableEq G2] (t : Toxic G1 G2 r)
        (_ : r • t.g1 = 0) (_ : r • t.g2 = 0) (_ : t.g1 ≠ 0) (_ : t.g2 ≠ 0) (_ : t.tau ∉ bad)
        (params : Parameters G1 G2) (_ : generateKeys K t (generated P Q code none none none) = .ok params)
        (p : P.V (ZMod r)) (_ : P.okV (ZMod r) p) (w : W) (q : Q.V (ZMod r)) (a : P.S (ZMod r)) (s : CS (ZMod r))
        (_ : (generated P Q code (some w) (some p) (some q)).run (CS.new .prove) = .ok (a, s)) (_ : s.Sat s.assign),
        ∃ inputs, getInputs P (some p) = .ok (some inputs) ∧ ∃ f : ZMod r × ZMod r ≃ ZMod r × ZMod r, ∀ x y,
          prove K params x y (generated P Q code (some w) (some p) (some q)) =
            .ok (simulate t params.vk.ic inputs (f (x, y)).1 (f (x, y)).2) := by
  obtain ⟨bad, hcard, hbad⟩ := prove_outcome hK hw hc hset
  refine ⟨bad, hcard, ?_⟩
  intro G1 G2 _ _ _ _ t h1 h2 n1 n2 ht params hk p hp w q a s h hs
  obtain ⟨D, hD, hkp, hout⟩ := hbad h1 h2 n1 n2 ht hk hp h
  obtain ⟨hn, hpub, hget, -⟩ := keys_of_run (G1 := G1) (G2 := G2) hw hc hp h
  obtain ⟨-, -, hd, -⟩ := generateParameters_ok hkp
  refine ⟨_, hget, ((Equiv.mulRight₀ t.delta hd).trans (Equiv.addRight (t.alpha + sideAt D t.tau s fun q => q.1))).prodCongr
    ((Equiv.mulRight₀ t.delta hd).trans (Equiv.addRight (t.beta + sideAt D t.tau s fun q => q.2.1))), fun x y => ?_⟩
  rw [(hout x y).1, (hout x y).2.1 hone, denseProof_simulate hK h1 h2 hn hkp hD hs x y, hpub]
  simp only [Equiv.prodCongr_apply, Prod.map_apply, Equiv.trans_apply, Equiv.coe_addRight, Equiv.mulRight₀_apply, add_assoc]

/-- C68 (simulation): the converse for the owner of the keys: whoever kept the secrets of the key generator makes proofs that are
accepted for all public inputs, true or false, of every circuit. -/
theorem C68_simulated_accepted {α : Type} {E : Engine G1 G2 T} {e : G1 → G2 → Tˣ} (hE : PairingEngine E e)
    (hr : ∀ a b b', e a (b + b') = e a b * e a b') {K : TwoAdic (ZMod r)} (t : Toxic G1 G2 r) (h1 : r • t.g1 = 0)
    (circuit : M (ZMod r) α) (params : Parameters G1 G2) (hk : generateKeys K t circuit = .ok params)
    (inputs : List (ZMod r)) (hl : inputs.length + 1 = params.vk.ic.length) (a b : ZMod r) :
    verify E (truncate params.vk) (simulate t params.vk.ic inputs a b) inputs = .ok (.ok true) := by
  unfold generateKeys at hk
  cases hrun : circuit.run (CS.new .setup) with
  | error _ => rw [hrun] at hk; cases hk
  | ok q =>
    obtain ⟨x, s⟩ := q
    rw [hrun] at hk
    have hn := ninputs_pos hrun
    obtain ⟨h0, hg, hd, D, hD, hp, -⟩ := generateParameters_ok hk
    subst hp
    set w : Index → ZMod r := fun
      | .input 0 => 1
      | .input (i + 1) => inputs.getD i 0
      | .aux _ => 0 with hw
    have hlen : inputs.length = s.ninputs - 1 := by
      have : (keysOf D t s).vk.ic.length = s.ninputs := by simp [keysOf, inputVars]
      omega
    have hin : ((List.range (s.ninputs - 1)).map fun i => w (.input (1 + i))) = inputs := by
      rw [← hlen]
      refine List.ext_getElem (by simp) fun i h2 h3 => ?_
      rw [List.getElem_map, List.getElem_range, add_comm 1 i, hw]
      exact List.getD_eq_getElem _ _ h3
    have hpp := publicPoint_eq (D := D) h1 hn w rfl
    rw [hin] at hpp
    have hic : ∃ ic0 ics, (keysOf D t s).vk.ic = ic0 :: ics := by
      cases hc : (keysOf D t s).vk.ic with
      | nil => rw [hc] at hl; simp at hl
      | cons ic0 ics => exact ⟨ic0, ics, rfl⟩
    obtain ⟨ic0, ics, hic⟩ := hic
    refine (C55_accepts hE _ _ _).2 ⟨ic0, ics, hic, by rw [hic] at hl; simpa using hl, ?_⟩
    have hsum : ic0 + (List.zipWith (fun x P => x.val • P) inputs ics).sum = (inputSum D t s w).val • t.g1 := by
      rw [← hpp]
      show _ = publicPoint (keysOf D t s).vk.ic inputs
      rw [hic]
      unfold publicPoint
      rw [List.zipWith_cons_cons, List.sum_cons, ZMod.val_one, one_smul]
    have hpp' : publicPoint (keysOf D t s).vk.ic inputs = (inputSum D t s w).val • t.g1 := hpp
    unfold Groth16Equation
    simp only [truncate, simulate]
    rw [hsum, hpp', val_mul_smul h1, ← val_sub_smul h1, val_mul_smul h1]
    simp only [keysOf]
    rw [pair_val hE.add_left hr h1, pair_val hE.add_left hr h1, pair_val hE.add_left hr h1, pair_val hE.add_left hr h1]
    have ho := pair_order (g2 := t.g2) hE.add_left h1
    rw [← pow_val_add ho, ← pow_val_add ho]
    congr 2
    field_simp
    ring

/-! ## C98 -/

theorem pair_neg_right {e : G1 → G2 → Tˣ} (hr : ∀ a b b', e a (b + b') = e a b * e a b') (a : G1) (b : G2) :
    e a (-b) = (e a b)⁻¹ := by
  have h0 := pair_smul_right hr 0 a b
  rw [zero_smul, pow_zero] at h0
  exact eq_inv_of_mul_eq_one_left (by rw [← hr, neg_add_cancel, h0])

/-- C98: whoever sees a proof can make another one for the same inputs, without any secret: the negatives of the first two points do.  Both
are accepted or none. -/
theorem C98_negated {E : Engine G1 G2 T} {e : G1 → G2 → Tˣ} (hE : PairingEngine E e) (hr : ∀ a b b', e a (b + b') = e a b * e a b')
    (tvk : VK G1 G2) (proof : Proof G1 G2) (inputs : List (ZMod r)) :
    verify E tvk ⟨-proof.a, -proof.b, proof.c⟩ inputs = .ok (.ok true) ↔ verify E tvk proof inputs = .ok (.ok true) := by
  rw [C55_accepts hE, C55_accepts hE]
  unfold Groth16Equation
  simp only [hE.neg_left, pair_neg_right hr, inv_inv]

/-- C98: and so do the points changed by two numbers of one's choice. -/
theorem C98_rerandomised {E : Engine G1 G2 T} {e : G1 → G2 → Tˣ} (hE : PairingEngine E e) (hr : ∀ a b b', e a (b + b') = e a b * e a b')
    (tvk : VK G1 G2) (proof : Proof G1 G2) (ha : r • proof.a = 0) (inputs : List (ZMod r)) (u k : ZMod r) (hu : u ≠ 0) :
    verify E tvk (rerandomise tvk.deltaG2 proof u k) inputs = .ok (.ok true) ↔ verify E tvk proof inputs = .ok (.ok true) := by
  rw [C55_accepts hE, C55_accepts hE]
  unfold Groth16Equation
  have h1 : e (rerandomise tvk.deltaG2 proof u k).a (rerandomise tvk.deltaG2 proof u k).b =
      e proof.a proof.b * e proof.a tvk.deltaG2 ^ (u * k).val := by
    simp only [rerandomise]
    rw [hr, pair_val hE.add_left hr ha, pair_val hE.add_left hr ha, mul_inv_cancel₀ hu, ZMod.val_one, pow_one]
  have h2 : e (rerandomise tvk.deltaG2 proof u k).c tvk.deltaG2 = e proof.c tvk.deltaG2 * e proof.a tvk.deltaG2 ^ (u * k).val := by
    simp only [rerandomise]
    rw [hE.add_left, pair_smul_left hE.add_left]
  rw [h1, h2]
  simp only [← mul_assoc, mul_left_inj]

theorem smul_val_inj {g : G1} (hg : r • g = 0) (h0 : g ≠ 0) {u v : ZMod r} (h : u.val • g = v.val • g) : u = v := by
  have ho : addOrderOf g = r := addOrderOf_eq_prime hg h0
  exact ZMod.val_injective _ (nsmul_injOn_Iio_addOrderOf (x := g) (by rw [ho]; exact ZMod.val_lt u) (by rw [ho]; exact ZMod.val_lt v) h)

/-- C98: different choices give different proofs: from one proof there are `(r - 1) r` others or itself. -/
theorem C98_different (delta : G2) (hd : r • delta = 0) (hd0 : delta ≠ 0) (proof : Proof G1 G2) (ha : r • proof.a = 0) (ha0 : proof.a ≠ 0)
    (u k u' k' : ZMod r) (h : rerandomise delta proof u k = rerandomise delta proof u' k') : u = u' ∧ k = k' := by
  unfold rerandomise at h
  injection h with h1 h2 h3
  obtain rfl := smul_val_inj ha ha0 h1
  exact ⟨rfl, smul_val_inj hd hd0 (add_left_cancel h2)⟩

theorem rerandomise_simulate {t : Toxic G1 G2 r} (h1 : r • t.g1 = 0) (h2 : r • t.g2 = 0) (hd : t.delta ≠ 0) (ic : List G1)
    (inputs : List (ZMod r)) (a b u k : ZMod r) (hu : u ≠ 0) :
    rerandomise (t.delta.val • t.g2) (simulate t ic inputs a b) u k = simulate t ic inputs (u * a) (u⁻¹ * b + k * t.delta) := by
  unfold rerandomise simulate
  simp only [Proof.mk.injEq]
  refine ⟨val_mul_smul h1 _ _, ?_, ?_⟩
  · rw [val_mul_smul h2, val_mul_smul h2, val_add_smul h2]
  · have e1 : u * a * (u⁻¹ * b + k * t.delta) - t.alpha * t.beta = (a * b - t.alpha * t.beta) + (u * k * a) * t.delta := by
      field_simp
      ring
    rw [e1, val_add_smul h1, add_sub_right_comm, smul_add, val_mul_smul h1, val_mul_smul h1]
    congr 3
    field_simp

/-- C98: the changed proof cannot be told from one made by the prover: it is what `prove` returns for the same data and other random
choices. -/
theorem C98_like_fresh {K : TwoAdic (ZMod r)} (hK : LawfulTwoAdic K)
    (P Q : Ty) (code : Code r W) (hw : code.WidthsFit) (hc : code.Quiet) (a0 : P.S (ZMod r)) (s0 : CS (ZMod r))
    (hset : (generated P Q code none none none).run (CS.new .setup) = .ok (a0, s0)) (hone : ConstantOnRight s0) :
    ∃ bad : Finset (ZMod r), bad.card ≤ 2 * (s0.cons.length + s0.ninputs) * (2 * (s0.ninputs + s0.naux) + 1) ∧
      ∀ {G1 G2 : Type} [AddCommGroup G1] [AddCommGroup G2] [DecidableEq G1] [DecidableEq G2] (t : Toxic G1 G2 r)
        (_ : r • t.g1 = 0) (_ : r • t.g2 = 0) (_ : t.g1 ≠ 0) (_ : t.g2 ≠ 0) (_ : t.tau ∉ bad)
        (params : Parameters G1 G2) (_ : generateKeys K t (generated P Q code none none none) = .ok params)
        (p : P.V (ZMod r)) (_ : P.okV (ZMod r) p) (w : W) (q : Q.V (ZMod r)) (a : P.S (ZMod r)) (s : CS (ZMod r))
        (_ : (generated P Q code (some w) (some p) (some q)).run (CS.new .prove) = .ok (a, s)) (_ : s.Sat s.assign)
        (x y : ZMod r) (proof : Proof G1 G2) (_ : prove K params x y (generated P Q code (some w) (some p) (some q)) = .ok proof)
        (u k : ZMod r) (_ : u ≠ 0),
        ∃ x' y', prove K params x' y' (generated P Q code (some w) (some p) (some q)) =
          .ok (rerandomise params.vk.deltaG2 proof u k) := by
  obtain ⟨bad, hcard, hbad⟩ := C68_simulator hK P Q code hw hc a0 s0 hset hone
  refine ⟨bad, hcard, ?_⟩
  intro G1 G2 _ _ _ _ t h1 h2 n1 n2 ht params hk p hp w q a s h hs x y proof hproof u k hu
  obtain ⟨inputs, -, f, hf⟩ := hbad t h1 h2 n1 n2 ht params hk p hp w q a s h hs
  rw [hf] at hproof
  injection hproof with hproof
  subst hproof
  obtain ⟨-, -, -, hkeys⟩ := keys_of_run (G1 := G1) (G2 := G2) hw hc hp h
  rw [hkeys] at hk
  obtain ⟨-, -, hd, D, hD, hpar, -⟩ := generateParameters_ok hk
  have hdel : params.vk.deltaG2 = t.delta.val • t.g2 := by rw [hpar]; rfl
  refine ⟨(f.symm (u * (f (x, y)).1, u⁻¹ * (f (x, y)).2 + k * t.delta)).1,
    (f.symm (u * (f (x, y)).1, u⁻¹ * (f (x, y)).2 + k * t.delta)).2, ?_⟩
  rw [hf, hdel, rerandomise_simulate h1 h2 hd _ _ _ _ _ _ hu, Prod.mk.eta, Equiv.apply_symm_apply]

/-! ### The small instance of `Verif.Props.Proving`, computed -/

/-- The numbers 5 and 7 are proved to be factors of 35.  The proof is what the simulator makes of two numbers; the negated and the changed
proofs are other proofs and accepted, for 35 only; the simulator has its proofs accepted for 36 as well. -/
example :
    (do let params ← (generateKeys smallK smallToxic (generated .num (.pair .num .num) productCode none none none)).toOption
        let good ← (prove smallK params 11 12 (productCircuit (5, 7))).toOption
        let sim : Proof (ZMod 97) (ZMod 97) := simulate smallToxic params.vk.ic [(35 : ZMod 97)] good.a good.b
        let neg : Proof (ZMod 97) (ZMod 97) := ⟨-good.a, -good.b, good.c⟩
        let other := rerandomise params.vk.deltaG2 good (13 : ZMod 97) 29
        let b1 ← (verify smallEngine (truncate params.vk) neg [(35 : ZMod 97)]).toOption
        let b2 ← (verify smallEngine (truncate params.vk) other [(35 : ZMod 97)]).toOption
        let b3 ← (verify smallEngine (truncate params.vk) other [(36 : ZMod 97)]).toOption
        let b4 ← (verify smallEngine (truncate params.vk) (simulate smallToxic params.vk.ic [(36 : ZMod 97)] 50 60) [(36 : ZMod 97)]).toOption
        pure ([decide (sim = good), decide (neg = good), decide (other = good)], b1.toOption, b2.toOption, b3.toOption, b4.toOption)) =
      some ([true, false, false], some true, some true, some false, some true) := by
  decide +kernel

/-- The hypotheses of `C98_different` hold of it. -/
example : (do let params ← (generateKeys smallK smallToxic (generated .num (.pair .num .num) productCode none none none)).toOption
              let good ← (prove smallK params 11 12 (productCircuit (5, 7))).toOption
              pure (decide (good.a ≠ 0), decide (params.vk.deltaG2 ≠ 0))) = some (true, true) := by
  decide +kernel

/-- The circuit has a public signal, so `ConstantOnRight` holds of it. -/
example (a0 : Ty.num.S (ZMod 97)) (s0 : CS (ZMod 97))
    (hset : (generated .num (.pair .num .num) productCode none none none).run (CS.new .setup) = .ok (a0, s0)) : ConstantOnRight s0 :=
  constantOnRight_of_public productCode_fits.2 (by decide) (by simp) hset

end Fawkes.Props
