import Verif.Props.Sqrt
import Verif.Lemmas.BlsCert

/-!
# C111 for BLS12-381
-/

namespace Fawkes.Props

open Groth16 Groth16.Contract Fawkes

/-- In a group of less than `r²` elements those that `r` kills are `r` many, if there is one besides zero. -/
theorem card_torsion_small {G : Type} [AddCommGroup G] [Finite G] {r : Nat} (hr : r.Prime) (hG : Nat.card G < r ^ 2)
    (g : G) (hg : r • g = 0) (hg0 : g ≠ 0) : Nat.card {x : G // r • x = 0} = r := by
  haveI : Fact r.Prime := ⟨hr⟩
  have hd : r ∣ Nat.card G := by
    rw [← addOrderOf_eq_prime hg hg0]; exact addOrderOf_dvd_natCard g
  obtain ⟨h, hh⟩ := hd
  refine card_torsion hr ?_ hh g hg hg0
  refine (Nat.Prime.coprime_iff_not_dvd hr).2 ?_
  rintro ⟨k, rfl⟩
  have hpos : 0 < Nat.card G := Nat.card_pos
  rw [hh] at hG hpos
  have hk : 0 < k := Nat.pos_of_ne_zero (by rintro rfl; simp at hpos)
  have : r * r * 1 ≤ r * r * k := Nat.mul_le_mul_left _ hk
  rw [pow_two] at hG
  rw [← mul_assoc] at hG
  omega

/-- The generator of `G1`. -/
def genBls : PointsOf blsB :=
  .some blsGx blsGy ((nonsingular_iff goodBls.two goodBls.three goodBls.coeff _ _).2 blsG1_onCurve)

theorem genBls_killed : blsR • genBls = 0 := killed_of C52_bls_g1_generator rfl

theorem card_bls_torsion : Nat.card {P : PointsOf blsB // blsR • P = 0} = blsR := by
  haveI := finite_points goodBls
  refine card_torsion_small Fact.out ?_ genBls genBls_killed (WeierstrassCurve.Affine.Point.some_ne_zero _)
  refine lt_of_le_of_lt (card_points_le goodBls) ?_
  rw [Nat.card_zmod]
  decide +kernel

/-- C111: exactly `r` data are accepted as points of the first group of BLS12-381. -/
theorem C111_bls_g1_count : {d : G1PointData (ZMod blsQ) | ∃ p, g1IntoSubgroup blsB blsR d = .ok p}.ncard = blsR := by
  have e : {d : G1PointData (ZMod blsQ) | ∃ p, g1IntoSubgroup blsB blsR d = .ok p} =
      (fun P : PointsOf blsB => g1From (affineOf P)) '' {P | blsR • P = 0} := by
    ext d
    constructor
    · rintro ⟨p, h⟩
      obtain ⟨-, ⟨P, hP, hr⟩, -⟩ := (C52_g1_subgroup blsB blsR d p).1 h
      refine ⟨P, hr, g1Point_inj ?_⟩
      show g1Point (g1From (affineOf P)) = _
      rw [C52_g1_from goodBls.coeff _ (onCurve_affineOf goodBls P), affinePoint_affineOf, hP]
    · rintro ⟨P, hP, rfl⟩
      obtain ⟨p, h, -⟩ := C52_g1_subgroup_round_trip goodBls.coeff blsR _ (onCurve_affineOf goodBls P)
        ⟨P, (affinePoint_affineOf P).symm, hP⟩
      exact ⟨p, h⟩
  rw [e, Set.ncard_image_of_injective]
  · exact card_bls_torsion
  intro P Q h
  have h := congrArg g1Point h
  dsimp only at h
  rw [C52_g1_from goodBls.coeff _ (onCurve_affineOf goodBls P), C52_g1_from goodBls.coeff _ (onCurve_affineOf goodBls Q),
    affinePoint_affineOf, affinePoint_affineOf] at h
  exact coords_inj h

/-! ## The numbers of points -/

theorem blsInto : (natOps blsQ 381).Into (fun a : Nat => (a : ZMod blsQ)) :=
  natOps_into blsQ 381 (Fact.out : blsQ.Prime).pos (ZMod.natCast_self blsQ)

theorem blsInto2 : (natOps2 blsQ 381).Into (fun a : Nat × Nat => (⟨a.1, a.2⟩ : Fq2 (ZMod blsQ))) :=
  natOps2_into blsQ 381 (Fact.out : blsQ.Prime).pos

theorem blsB_val : ((4 : Nat) : ZMod blsQ) = blsB := by rw [C52_constants.2]; rfl

theorem blsB2_val : (⟨(4 : Nat), (4 : Nat)⟩ : Fq2 (ZMod blsQ)) = blsB2 := by rw [C52_constants_twist.2]; rfl

theorem coprime_blsCofactor : Nat.Coprime blsR blsCofactor := by
  show Nat.gcd blsR blsCofactor = 1
  decide +kernel

theorem coprime_blsCofactor2 : Nat.Coprime blsR blsCofactor2 := by
  show Nat.gcd blsR blsCofactor2 = 1
  decide +kernel

theorem coprime_of {a b : Nat} (h : Nat.gcd a b = 1) : Nat.Coprime a b := h

theorem blsCofactor_dvd : blsCofactor ∣ Nat.card (PointsOf blsB) := by
  haveI := finite_points goodBls
  have h3 := cert_single blsInto goodBls blsB_val prime_3 blsRest
  have h11 := cert_inert blsInto goodBls blsB_val blsRoot_is prime_11 (by decide) blsG1_11_cert
  have ha := cert_split blsInto goodBls blsB_val blsRoot_is prime_10177 (by decide) blsG1_10177a_cert blsG1_10177b_cert
  have hb := cert_split blsInto goodBls blsB_val blsRoot_is prime_859267 (by decide) blsG1_859267a_cert blsG1_859267b_cert
  have hc := cert_inert blsInto goodBls blsB_val blsRoot_is prime_52437899 (by decide) blsG1_52437899_cert
  rw [blsCofactor_eq]
  generalize Nat.card (PointsOf blsB) = n at h3 h11 ha hb hc
  refine Nat.Coprime.mul_dvd_of_dvd_of_dvd (coprime_of (by decide +kernel)) ?_ hc
  refine Nat.Coprime.mul_dvd_of_dvd_of_dvd (coprime_of (by decide +kernel)) ?_ hb
  refine Nat.Coprime.mul_dvd_of_dvd_of_dvd (coprime_of (by decide +kernel)) ?_ ha
  exact Nat.Coprime.mul_dvd_of_dvd_of_dvd (coprime_of (by decide +kernel)) h3 h11

theorem blsCofactor2_dvd : blsCofactor2 ∣ Nat.card (PointsOf blsB2) := by
  haveI := finite_points goodBls2
  have h13 := cert_split blsInto2 goodBls2 (bN := (4, 4)) blsB2_val blsRoot_is2 prime_13 (by decide) blsG2_13a_cert blsG2_13b_cert
  have h23 := cert_inert blsInto2 goodBls2 (bN := (4, 4)) blsB2_val blsRoot_is2 prime_23 (by decide) blsG2_23_cert
  have ha := cert_single blsInto2 goodBls2 (bN := (4, 4)) blsB2_val prime_2713 blsG2_2713_cert
  have hb := cert_single blsInto2 goodBls2 (bN := (4, 4)) blsB2_val prime_11953 blsG2_11953_cert
  have hc := cert_single blsInto2 goodBls2 (bN := (4, 4)) blsB2_val prime_262069 blsG2_262069_cert
  have hd := cert_single blsInto2 goodBls2 (bN := (4, 4)) blsB2_val
    prime_402096035359507321594726366720466575392706800671181159425656785868777272553337714697862511267018014931937703598282857976535744623203249 blsG2_large_cert
  rw [blsCofactor2_eq]
  generalize Nat.card (PointsOf blsB2) = n at h13 h23 ha hb hc hd
  refine Nat.Coprime.mul_dvd_of_dvd_of_dvd (coprime_of (by decide +kernel)) ?_ hd
  refine Nat.Coprime.mul_dvd_of_dvd_of_dvd (coprime_of (by decide +kernel)) ?_ hc
  refine Nat.Coprime.mul_dvd_of_dvd_of_dvd (coprime_of (by decide +kernel)) ?_ hb
  refine Nat.Coprime.mul_dvd_of_dvd_of_dvd (coprime_of (by decide +kernel)) ?_ ha
  exact Nat.Coprime.mul_dvd_of_dvd_of_dvd (coprime_of (by decide +kernel)) h13 h23

/-- The generator of `G2`. -/
def genBls2 : PointsOf blsB2 :=
  .some ⟨blsG2x.1, blsG2x.2⟩ ⟨blsG2y.1, blsG2y.2⟩ ((nonsingular_iff goodBls2.two goodBls2.three goodBls2.coeff _ _).2 blsG2_onCurve)

theorem genBls2_killed : blsR • genBls2 = 0 := killed_of C52_bls_g2_generator rfl

theorem card_bls : Nat.card (PointsOf blsB) = blsR * blsCofactor := by
  haveI := finite_points goodBls
  refine card_points_eq goodBls ?_ ?_
  · exact Nat.Coprime.mul_dvd_of_dvd_of_dvd coprime_blsCofactor
      (dvd_card Fact.out genBls_killed (WeierstrassCurve.Affine.Point.some_ne_zero _)) blsCofactor_dvd
  · rw [Nat.card_zmod]; decide +kernel

theorem card_bls2 : Nat.card (PointsOf blsB2) = blsR * blsCofactor2 := by
  haveI := finite_points goodBls2
  refine card_points_eq goodBls2 ?_ ?_
  · exact Nat.Coprime.mul_dvd_of_dvd_of_dvd coprime_blsCofactor2
      (dvd_card Fact.out genBls2_killed (WeierstrassCurve.Affine.Point.some_ne_zero _)) blsCofactor2_dvd
  · rw [card_fq2]; decide +kernel

theorem killed_bls (P : PointsOf blsB) : blsR • blsCofactor • P = 0 := by
  haveI := finite_points goodBls
  have h := card_nsmul_eq_zero' (x := P)
  rw [card_bls, mul_nsmul'] at h
  exact h

theorem killed_bls2 (P : PointsOf blsB2) : blsR • blsCofactor2 • P = 0 := by
  haveI := finite_points goodBls2
  have h := card_nsmul_eq_zero' (x := P)
  rw [card_bls2, mul_nsmul'] at h
  exact h

theorem card_bls2_torsion : Nat.card {P : PointsOf blsB2 // blsR • P = 0} = blsR := by
  haveI := finite_points goodBls2
  exact card_torsion Fact.out coprime_blsCofactor2 card_bls2 genBls2 genBls2_killed (WeierstrassCurve.Affine.Point.some_ne_zero _)

/-- C111: exactly `r` data are accepted as points of the second group of BLS12-381. -/
theorem C111_bls_g2_count : {d : G2PointData (ZMod blsQ) | ∃ p, g2IntoSubgroup blsB2 blsR d = .ok p}.ncard = blsR := by
  have e : {d : G2PointData (ZMod blsQ) | ∃ p, g2IntoSubgroup blsB2 blsR d = .ok p} =
      (fun P : PointsOf blsB2 => g2From (affineOf P)) '' {P | blsR • P = 0} := by
    ext d
    constructor
    · rintro ⟨p, h⟩
      obtain ⟨-, ⟨P, hP, hr⟩, -⟩ := (C52_g2_subgroup blsB2 blsR d p).1 h
      refine ⟨P, hr, g2Point_inj ?_⟩
      show g2Point (g2From (affineOf P)) = _
      rw [C52_g2_from goodBls2.coeff _ (onCurve_affineOf goodBls2 P), affinePoint_affineOf, hP]
    · rintro ⟨P, hP, rfl⟩
      obtain ⟨p, h, -⟩ := C52_g2_subgroup_round_trip goodBls2.coeff blsR _ (onCurve_affineOf goodBls2 P)
        ⟨P, (affinePoint_affineOf P).symm, hP⟩
      exact ⟨p, h⟩
  rw [e, Set.ncard_image_of_injective]
  · exact card_bls2_torsion
  intro P Q h
  have h := congrArg g2Point h
  dsimp only at h
  rw [C52_g2_from goodBls2.coeff _ (onCurve_affineOf goodBls2 P), C52_g2_from goodBls2.coeff _ (onCurve_affineOf goodBls2 Q),
    affinePoint_affineOf, affinePoint_affineOf] at h
  exact coords_inj h

/-! ## Random points -/

section random

variable {sqrt : ZMod blsQ → Option (ZMod blsQ)} {sqrt2 : Fq2 (ZMod blsQ) → Option (Fq2 (ZMod blsQ))}

/-- `Rand for G1` of BLS12-381. -/
noncomputable def blsPoint1 (sqrt : ZMod blsQ → Option (ZMod blsQ)) : Sampler (PointsOf blsB) :=
  curvePoint (fqBytes blsQ) sqrt blsB (OsRng.rand blsQ) blsCofactor

/-- `Rand for G2` of BLS12-381. -/
noncomputable def blsPoint2 (sqrt2 : Fq2 (ZMod blsQ) → Option (Fq2 (ZMod blsQ))) : Sampler (PointsOf blsB2) :=
  curvePoint (fq2Bytes blsQ) sqrt2 blsB2 (randFq2 blsQ) blsCofactor2

theorem blsLive1_free (hs : IsSqrt sqrt) : Free (livePoint (fqBytes blsQ) sqrt blsB (OsRng.rand blsQ) blsCofactor) :=
  livePoint_free (fqBytes_lawful blsQ) goodBls hs _ (rand_free goodBls.two) rand_consumes

theorem blsLive2_free (hs : IsSqrt sqrt2) : Free (livePoint (fq2Bytes blsQ) sqrt2 blsB2 (randFq2 blsQ) blsCofactor2) :=
  livePoint_free (fq2Bytes_lawful blsQ) goodBls2 hs _ (randFq2_free goodBls.two) randFq2_consumes

/-- C111: a random point of `G1` of BLS12-381 is not zero and is killed by the group order. -/
theorem C111_bls_random_g1 (b rest : Entropy) (g : PointsOf blsB) (h : blsPoint1 sqrt b = .ok (g, rest)) : g ≠ 0 ∧ blsR • g = 0 := by
  have hi := curvePoint_image _ _ _ _ h
  exact ⟨hi.1, killed_image killed_bls hi.2⟩

/-- C111: a random point of `G2` of BLS12-381 is not zero and is killed by the group order. -/
theorem C111_bls_random_g2 (b rest : Entropy) (g : PointsOf blsB2) (h : blsPoint2 sqrt2 b = .ok (g, rest)) : g ≠ 0 ∧ blsR • g = 0 := by
  have hi := curvePoint_image _ _ _ _ h
  exact ⟨hi.1, killed_image killed_bls2 hi.2⟩

theorem blsFibre1 {P Q : PointsOf blsB} (hP : P ≠ 0 ∧ blsR • P = 0) (hQ : Q ≠ 0 ∧ blsR • Q = 0) :
    Nonempty ({x : Live blsB blsCofactor // blsCofactor • x.1 = P} ≃ {x : Live blsB blsCofactor // blsCofactor • x.1 = Q}) := by
  have hr : 1 < blsR := (Fact.out : blsR.Prime).one_lt
  exact fibre_multiples _ hP.1 hQ.1 (multiple_of_killed hr coprime_blsCofactor P hP.2) (multiple_of_killed hr coprime_blsCofactor Q hQ.2)

theorem blsFibre2 {P Q : PointsOf blsB2} (hP : P ≠ 0 ∧ blsR • P = 0) (hQ : Q ≠ 0 ∧ blsR • Q = 0) :
    Nonempty ({x : Live blsB2 blsCofactor2 // blsCofactor2 • x.1 = P} ≃ {x : Live blsB2 blsCofactor2 // blsCofactor2 • x.1 = Q}) := by
  have hr : 1 < blsR := (Fact.out : blsR.Prime).one_lt
  exact fibre_multiples _ hP.1 hQ.1 (multiple_of_killed hr coprime_blsCofactor2 P hP.2) (multiple_of_killed hr coprime_blsCofactor2 Q hQ.2)

theorem blsCard_nonzero1 : Nat.card {x : PointsOf blsB // x ≠ 0 ∧ blsR • x = 0} = blsR - 1 := by
  haveI := finite_points goodBls
  rw [card_nonzero (fun x : PointsOf blsB => blsR • x = 0) (smul_zero _), card_bls_torsion]

theorem blsCard_nonzero2 : Nat.card {x : PointsOf blsB2 // x ≠ 0 ∧ blsR • x = 0} = blsR - 1 := by
  haveI := finite_points goodBls2
  rw [card_nonzero (fun x : PointsOf blsB2 => blsR • x = 0) (smul_zero _), card_bls2_torsion]

/-- C111: of the byte strings of any length that give a random point of `G1` of BLS12-381, equally many give each of the `r - 1` points of
the subgroup other than zero. -/
theorem C111_bls_uniform_g1 (hs : IsSqrt sqrt) (n : Nat) (P : PointsOf blsB) (hP : P ≠ 0) (hr : blsR • P = 0) :
    strings n (fun b => ∃ rest, blsPoint1 sqrt b = .ok (P, rest)) * (blsR - 1) =
      strings n (fun b => ∃ Q rest, blsPoint1 sqrt b = .ok (Q, rest)) := by
  haveI := finite_points goodBls
  rw [← blsCard_nonzero1]
  exact evenly (blsLive1_free hs) (fun P : PointsOf blsB => P ≠ 0 ∧ blsR • P = 0) (fun x => blsCofactor • x.1)
    (fun x => ⟨x.2, killed_bls x.1⟩) (fun P Q hP hQ => blsFibre1 hP hQ) _ (curvePoint_eq _) n P ⟨hP, hr⟩

/-- C111: the same of `G2` of BLS12-381. -/
theorem C111_bls_uniform_g2 (hs : IsSqrt sqrt2) (n : Nat) (P : PointsOf blsB2) (hP : P ≠ 0) (hr : blsR • P = 0) :
    strings n (fun b => ∃ rest, blsPoint2 sqrt2 b = .ok (P, rest)) * (blsR - 1) =
      strings n (fun b => ∃ Q rest, blsPoint2 sqrt2 b = .ok (Q, rest)) := by
  haveI := finite_points goodBls2
  rw [← blsCard_nonzero2]
  exact evenly (blsLive2_free hs) (fun P : PointsOf blsB2 => P ≠ 0 ∧ blsR • P = 0) (fun x => blsCofactor2 • x.1)
    (fun x => ⟨x.2, killed_bls2 x.1⟩) (fun P Q hP hQ => blsFibre2 hP hQ) _ (curvePoint_eq _) n P ⟨hP, hr⟩

/-! ## The setup -/

attribute [local irreducible] blsCofactor blsCofactor2

theorem blsR_odd : (2 : ZMod blsR) ≠ 0 := by decide +kernel

/-- What the setup draws: two points other than zero of the groups of prime order. -/
def BlsToxic (t : Toxic (PointsOf blsB) (PointsOf blsB2) blsR) : Prop := (t.g1 ≠ 0 ∧ blsR • t.g1 = 0) ∧ t.g2 ≠ 0 ∧ blsR • t.g2 = 0

/-- C111: a setup over BLS12-381 never draws anything else. -/
theorem C111_bls_setup_good (b rest : Entropy) (t : Toxic (PointsOf blsB) (PointsOf blsB2) blsR)
    (h : setupCoins blsR (blsPoint1 sqrt) (blsPoint2 sqrt2) b = .ok (t, rest)) : BlsToxic t :=
  setupCoins_points (fun b g rest => C111_bls_random_g1 b rest g) (fun b g rest => C111_bls_random_g2 b rest g) h

def blsToxicGood : {t : Toxic (PointsOf blsB) (PointsOf blsB2) blsR // BlsToxic t} ≃
    {P : PointsOf blsB // P ≠ 0 ∧ blsR • P = 0} × {P : PointsOf blsB2 // P ≠ 0 ∧ blsR • P = 0} ×
      (ZMod blsR × ZMod blsR × ZMod blsR × ZMod blsR × ZMod blsR) where
  toFun t := (⟨t.1.g1, t.2.1⟩, ⟨t.1.g2, t.2.2⟩, t.1.alpha, t.1.beta, t.1.gamma, t.1.delta, t.1.tau)
  invFun q := ⟨⟨q.1.1, q.2.1.1, q.2.2.1, q.2.2.2.1, q.2.2.2.2.1, q.2.2.2.2.2.1, q.2.2.2.2.2.2⟩, q.1.2, q.2.1.2⟩
  left_inv _ := rfl
  right_inv _ := rfl

theorem blsCard_good : Nat.card {t : Toxic (PointsOf blsB) (PointsOf blsB2) blsR // BlsToxic t} = (blsR - 1) ^ 2 * blsR ^ 5 := by
  rw [Nat.card_congr blsToxicGood]
  simp only [Nat.card_prod, blsCard_nonzero1, blsCard_nonzero2, Nat.card_zmod]
  generalize blsR - 1 = m
  generalize blsR = r
  ring

/-- C111: of the byte strings of any length for which a setup over BLS12-381 draws its secrets, equally many give each choice of two points
other than zero and five numbers. -/
theorem C111_bls_setup (hs : IsSqrt sqrt) (hs2 : IsSqrt sqrt2) (n : Nat) (t : Toxic (PointsOf blsB) (PointsOf blsB2) blsR)
    (ht : BlsToxic t) :
    strings n (fun b => ∃ rest, setupCoins blsR (blsPoint1 sqrt) (blsPoint2 sqrt2) b = .ok (t, rest)) * ((blsR - 1) ^ 2 * blsR ^ 5) =
      strings n (fun b => ∃ t rest, setupCoins blsR (blsPoint1 sqrt) (blsPoint2 sqrt2) b = .ok (t, rest)) := by
  haveI := finite_points goodBls
  haveI := finite_points goodBls2
  haveI : Finite {t : Toxic (PointsOf blsB) (PointsOf blsB2) blsR // BlsToxic t} := Finite.of_equiv _ blsToxicGood.symm
  rw [← blsCard_good]
  have R := rand_free blsR_odd
  refine evenly ((blsLive1_free hs).seq ((blsLive2_free hs2).seq (R.seq (R.seq (R.seq (R.seq R)))))) BlsToxic
    (fun x => toxicEquiv (Prod.map (fun P => blsCofactor • P.1) (Prod.map (fun P => blsCofactor2 • P.1) id) x)) ?_ ?_ _ ?_ n t ht
  · rintro ⟨P, Q, z⟩
    exact ⟨⟨P.2, killed_bls P.1⟩, Q.2, killed_bls2 Q.1⟩
  · intro t t' ht ht'
    have h := fibre_prod (fun P : Live blsB blsCofactor => blsCofactor • P.1)
      (Prod.map (fun P : Live blsB2 blsCofactor2 => blsCofactor2 • P.1) id)
      (blsFibre1 ht.1 ht'.1) (fibre_prod (fun P : Live blsB2 blsCofactor2 => blsCofactor2 • P.1) id (blsFibre2 ht.2 ht'.2)
        (fibre_id (toxicEquiv.symm t).2.2 (toxicEquiv.symm t').2.2))
    obtain ⟨e⟩ := h
    refine ⟨(Equiv.subtypeEquivRight fun x => ?_).trans (e.trans (Equiv.subtypeEquivRight fun x => ?_))⟩
    · exact toxicEquiv.apply_eq_iff_eq_symm_apply
    · exact toxicEquiv.apply_eq_iff_eq_symm_apply.symm
  · intro b
    exact setupCoins_map (curvePoint_eq blsCofactor) (curvePoint_eq blsCofactor2) b

end random

open Fawkes.FieldSqrt in
/-- C114: with the square roots of the base fields of BLS12-381 no assumption is left. -/
theorem C114_bls_setup (n : Nat) (t : Toxic (PointsOf blsB) (PointsOf blsB2) blsR) (ht : BlsToxic t) :
    strings n (fun b => ∃ rest, setupCoins blsR (blsPoint1 sqrt34) (blsPoint2 sqrt2) b = .ok (t, rest)) * ((blsR - 1) ^ 2 * blsR ^ 5) =
      strings n (fun b => ∃ t rest, setupCoins blsR (blsPoint1 sqrt34) (blsPoint2 sqrt2) b = .ok (t, rest)) :=
  C111_bls_setup C114_base_fields.2.2.1 C114_base_fields.2.2.2 n t ht

/-! ### Examples -/

/-- The generators are such points. -/
example : BlsToxic ⟨genBls, genBls2, 1, 2, 3, 4, 5⟩ :=
  ⟨⟨WeierstrassCurve.Affine.Point.some_ne_zero _, genBls_killed⟩, WeierstrassCurve.Affine.Point.some_ne_zero _, genBls2_killed⟩

end Fawkes.Props
