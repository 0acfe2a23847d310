import Verif.Lemmas.Evenly
import Verif.Props.Forge

/-!
# Properties of the points of BN256 and of the random points of its keys: C111
-/

namespace Fawkes.Props

open Groth16 Groth16.Contract Fawkes

/-! ## The points that the conversions accept -/

/-- C111: every point of the curve of `G1` lies in the group of prime order. -/
theorem C111_g1 (o : Groth16.Coords (ZMod bnQ)) (h : Groth16.OnCurve bnB o) : Groth16.InSubgroup bnB bnR o := by
  rcases o with _ | ⟨x, y⟩
  · exact ⟨0, rfl, smul_zero _⟩
  · exact ⟨.some x y ((nonsingular_iff goodBn.two goodBn.three goodBn.coeff x y).2 h), rfl, killed_bn _⟩

/-- C111: so a test for the subgroup would not make the conversion of `G1` stricter. -/
theorem C111_g1_into (d : G1PointData (ZMod bnQ)) : g1IntoSubgroup bnB bnR d = g1Into bnB d := by
  cases h : g1Into bnB d with
  | ok p =>
    obtain ⟨h1, h2⟩ := (C52_g1_into bnB d p).1 h
    exact (C52_g1_subgroup bnB bnR d p).2 ⟨h1, C111_g1 _ h1, h2⟩
  | error e =>
    unfold g1IntoSubgroup
    rw [h]
    rfl

theorem g1Point_inj {q : Nat} [Fact q.Prime] {d d' : G1PointData (ZMod q)} (h : g1Point d = g1Point d') : d = d' := by
  unfold g1Point at h
  by_cases h0 : d = ⟨0, 0⟩ <;> by_cases h0' : d' = ⟨0, 0⟩
  · rw [h0, h0']
  · rw [if_pos h0, if_neg h0'] at h; cases h
  · rw [if_neg h0, if_pos h0'] at h; cases h
  · rw [if_neg h0, if_neg h0', Option.some.injEq, Prod.mk.injEq] at h
    obtain ⟨a, b⟩ := d
    obtain ⟨a', b'⟩ := d'
    simp only at h
    rw [h.1, h.2]

theorem g2Point_inj {q : Nat} [Fact q.Prime] {d d' : G2PointData (ZMod q)} (h : g2Point d = g2Point d') : d = d' := by
  unfold g2Point at h
  by_cases h0 : d = ⟨(0, 0), (0, 0)⟩ <;> by_cases h0' : d' = ⟨(0, 0), (0, 0)⟩
  · rw [h0, h0']
  · rw [if_pos h0, if_neg h0'] at h; cases h
  · rw [if_neg h0, if_pos h0'] at h; cases h
  · rw [if_neg h0, if_neg h0', Option.some.injEq, Prod.mk.injEq] at h
    obtain ⟨⟨a, b⟩, c, e⟩ := d
    obtain ⟨⟨a', b'⟩, c', e'⟩ := d'
    simp only [QuadraticAlgebra.mk.injEq] at h
    obtain ⟨⟨h1, h2⟩, h3, h4⟩ := h
    rw [h1, h2, h3, h4]

/-- C111: exactly as many data are accepted as points of `G1` as the order of the group. -/
theorem C111_g1_count : {d : G1PointData (ZMod bnQ) | ∃ p, g1Into bnB d = .ok p}.ncard = bnR := by
  have e : {d : G1PointData (ZMod bnQ) | ∃ p, g1Into bnB d = .ok p} = Set.range fun P : PointsOf bnB => g1From (affineOf P) := by
    ext d
    constructor
    · rintro ⟨p, h⟩
      obtain ⟨h1, -⟩ := (C52_g1_into bnB d p).1 h
      obtain ⟨P, hP, -⟩ := C111_g1 _ h1
      refine ⟨P, g1Point_inj ?_⟩
      show g1Point (g1From (affineOf P)) = _
      rw [C52_g1_from goodBn.coeff _ (onCurve_affineOf goodBn P), affinePoint_affineOf, hP]
    · rintro ⟨P, rfl⟩
      obtain ⟨p, h, -⟩ := C52_g1_round_trip goodBn.coeff _ (onCurve_affineOf goodBn P)
      exact ⟨p, h⟩
  rw [e, ← Set.image_univ, Set.ncard_image_of_injective, Set.ncard_univ, card_bn]
  intro P Q h
  have h := congrArg g1Point h
  dsimp only at h
  rw [C52_g1_from goodBn.coeff _ (onCurve_affineOf goodBn P), C52_g1_from goodBn.coeff _ (onCurve_affineOf goodBn Q),
    affinePoint_affineOf, affinePoint_affineOf] at h
  exact coords_inj h

theorem g2_data (S : PointsOf bnB2 → Prop) (T : G2PointData (ZMod bnQ) → Prop)
    (h : ∀ P, T (g2From (affineOf P)) ↔ S P) :
    {d : G2PointData (ZMod bnQ) | (∃ p, g2Into bnB2 d = .ok p) ∧ T d}.ncard = Nat.card {P // S P} := by
  have inj : Function.Injective fun P : PointsOf bnB2 => g2From (affineOf P) := by
    intro P Q h
    have h := congrArg g2Point h
    dsimp only at h
    rw [C52_g2_from goodBn2.coeff _ (onCurve_affineOf goodBn2 P), C52_g2_from goodBn2.coeff _ (onCurve_affineOf goodBn2 Q),
      affinePoint_affineOf, affinePoint_affineOf] at h
    exact coords_inj h
  have e : {d : G2PointData (ZMod bnQ) | (∃ p, g2Into bnB2 d = .ok p) ∧ T d} =
      (fun P : PointsOf bnB2 => g2From (affineOf P)) '' {P | S P} := by
    ext d
    constructor
    · rintro ⟨⟨p, hp⟩, hT⟩
      obtain ⟨h1, h2⟩ := C52_g2_into_point bnB2 d p hp
      have hc := coords_toGroup goodBn2.two goodBn2.three goodBn2.coeff p h2
      have hd : g2From (affineOf (toGroup bnB2 p)) = d := by
        apply g2Point_inj
        rw [C52_g2_from goodBn2.coeff _ (onCurve_affineOf goodBn2 _), affinePoint_affineOf, hc, h1]
      exact ⟨toGroup bnB2 p, (h _).1 (hd ▸ hT), hd⟩
    · rintro ⟨P, hP, rfl⟩
      obtain ⟨p, hp, -⟩ := C52_g2_round_trip goodBn2.coeff _ (onCurve_affineOf goodBn2 P)
      exact ⟨⟨p, hp⟩, (h P).2 hP⟩
  rw [e, Set.ncard_image_of_injective _ inj]
  rfl

/-- C111: `r·(2q - r)` data are accepted as points of the twist. -/
theorem C111_g2_count : {d : G2PointData (ZMod bnQ) | ∃ p, g2Into bnB2 d = .ok p}.ncard = bnR * (2 * bnQ - bnR) := by
  have h := g2_data (fun _ => True) (fun _ => True) (fun _ => Iff.rfl)
  simp only [and_true] at h
  rw [h, Nat.card_congr (Equiv.subtypeUnivEquiv fun _ => trivial), card_bn2]
  rfl

/-- C111: only `r` of them are points of the subgroup, those for which the contract may answer. -/
theorem C111_g2_subgroup_count :
    {d : G2PointData (ZMod bnQ) | (∃ p, g2Into bnB2 d = .ok p) ∧ Groth16.InSubgroup bnB2 bnR (g2Point d)}.ncard = bnR := by
  rw [g2_data (fun P => bnR • P = 0) _ ?_, card_bn2_torsion]
  intro P
  rw [C52_g2_from goodBn2.coeff _ (onCurve_affineOf goodBn2 P), affinePoint_affineOf]
  constructor
  · rintro ⟨Q, hQ, h⟩
    rwa [coords_inj hQ] at h
  · exact fun h => ⟨P, rfl, h⟩

/-! ## Random points -/

section random

variable {sqrt : ZMod bnQ → Option (ZMod bnQ)} {sqrt2 : Fq2 (ZMod bnQ) → Option (Fq2 (ZMod bnQ))}

/-- `Rand for G1` of BN256, cofactor 1. -/
noncomputable def bnPoint1 (sqrt : ZMod bnQ → Option (ZMod bnQ)) : Sampler (PointsOf bnB) :=
  curvePoint (fqBytes bnQ) sqrt bnB (OsRng.rand bnQ) 1

/-- `Rand for G2` of BN256, cofactor `bnCofactor = 2q - r`. -/
noncomputable def bnPoint2 (sqrt2 : Fq2 (ZMod bnQ) → Option (Fq2 (ZMod bnQ))) : Sampler (PointsOf bnB2) :=
  curvePoint (fq2Bytes bnQ) sqrt2 bnB2 (randFq2 bnQ) bnCofactor

theorem live1_free (hs : IsSqrt sqrt) : Free (livePoint (fqBytes bnQ) sqrt bnB (OsRng.rand bnQ) 1) :=
  livePoint_free (fqBytes_lawful bnQ) goodBn hs 1 (rand_free goodBn.two) rand_consumes

theorem live2_free (hs : IsSqrt sqrt2) : Free (livePoint (fq2Bytes bnQ) sqrt2 bnB2 (randFq2 bnQ) bnCofactor) :=
  livePoint_free (fq2Bytes_lawful bnQ) goodBn2 hs _ (randFq2_free goodBn.two) randFq2_consumes

theorem killed_image {G : Type} [AddCommGroup G] {r n : Nat} (h : ∀ P : G, r • n • P = 0) {g : G} (hg : ∃ P, g = n • P) : r • g = 0 := by
  obtain ⟨P, rfl⟩ := hg
  exact h P

/-- C111: a random point of `G1` is not zero and is killed by the group order. -/
theorem C111_random_g1 (b rest : Entropy) (g : PointsOf bnB) (h : bnPoint1 sqrt b = .ok (g, rest)) : g ≠ 0 ∧ bnR • g = 0 :=
  ⟨(curvePoint_image _ _ _ _ h).1, killed_bn g⟩

/-- C111: a random point of `G2` is not zero and is killed by the group order. -/
theorem C111_random_g2 (b rest : Entropy) (g : PointsOf bnB2) (h : bnPoint2 sqrt2 b = .ok (g, rest)) : g ≠ 0 ∧ bnR • g = 0 := by
  have hi := curvePoint_image _ _ _ _ h
  exact ⟨hi.1, killed_image killed_bn2 hi.2⟩

theorem bnPoint1_reads (hs : IsSqrt sqrt) : Reads (bnPoint1 sqrt) :=
  curvePoint_reads (fqBytes_lawful bnQ) goodBn hs 1 (rand_free goodBn.two) rand_consumes

theorem bnPoint2_reads (hs : IsSqrt sqrt2) : Reads (bnPoint2 sqrt2) :=
  curvePoint_reads (fq2Bytes_lawful bnQ) goodBn2 hs _ (randFq2_free goodBn.two) randFq2_consumes

theorem card_nonzero {G : Type} [AddCommGroup G] (S : G → Prop) [Finite {x // S x}] (h0 : S 0) :
    Nat.card {x : G // x ≠ 0 ∧ S x} = Nat.card {x : G // S x} - 1 := by
  have e : {x : G | x ≠ 0 ∧ S x} = {x | S x} \ {0} := by ext x; simp [and_comm]
  have h := Set.ncard_diff_singleton_of_mem (s := {x : G | S x}) (a := 0) h0
  rw [← e] at h
  exact h

theorem fibre1 {P Q : PointsOf bnB} (hP : P ≠ 0) (hQ : Q ≠ 0) :
    Nonempty ({x : Live bnB 1 // 1 • x.1 = P} ≃ {x : Live bnB 1 // 1 • x.1 = Q}) := by
  have h := fibre_equiv (b := bnB) 1 (P0 := P) (P1 := Q) (by rwa [one_smul]) (by rwa [one_smul])
  rwa [one_smul, one_smul] at h

theorem fibre_multiples {K : Type} [Field K] [DecidableEq K] {b : K} (n : Nat) {P Q : PointsOf b} (hP : P ≠ 0) (hQ : Q ≠ 0)
    (h : ∃ P0, P = n • P0) (h' : ∃ Q0, Q = n • Q0) :
    Nonempty ({x : Live b n // n • x.1 = P} ≃ {x : Live b n // n • x.1 = Q}) := by
  obtain ⟨P0, rfl⟩ := h
  obtain ⟨Q0, rfl⟩ := h'
  exact fibre_equiv n hP hQ

theorem fibre2 {P Q : PointsOf bnB2} (hP : P ≠ 0 ∧ bnR • P = 0) (hQ : Q ≠ 0 ∧ bnR • Q = 0) :
    Nonempty ({x : Live bnB2 bnCofactor // bnCofactor • x.1 = P} ≃
      {x : Live bnB2 bnCofactor // bnCofactor • x.1 = Q}) := by
  have hr : 1 < bnR := (Fact.out : bnR.Prime).one_lt
  exact fibre_multiples _ hP.1 hQ.1 (multiple_of_killed hr coprime_cofactor P hP.2) (multiple_of_killed hr coprime_cofactor Q hQ.2)

/-- C111: of the byte strings of any length that give a random point of `G1`, equally many give each of the `r - 1` points other than zero. -/
theorem C111_uniform_g1 (hs : IsSqrt sqrt) (n : Nat) (P : PointsOf bnB) (hP : P ≠ 0) :
    strings n (fun b => ∃ rest, bnPoint1 sqrt b = .ok (P, rest)) * (bnR - 1) =
      strings n (fun b => ∃ Q rest, bnPoint1 sqrt b = .ok (Q, rest)) := by
  haveI := finite_points goodBn
  have hc : Nat.card {x : PointsOf bnB // x ≠ 0 ∧ True} = bnR - 1 := by
    rw [card_nonzero (fun _ => True) trivial, Nat.card_congr (Equiv.subtypeUnivEquiv fun _ => trivial), card_bn]
  rw [← hc]
  exact evenly (live1_free hs) (fun P : PointsOf bnB => P ≠ 0 ∧ True) (fun x => 1 • x.1) (fun x => ⟨x.2, trivial⟩)
    (fun P Q hP hQ => fibre1 hP.1 hQ.1) _ (curvePoint_eq _) n P ⟨hP, trivial⟩

/-- C111: of the byte strings of any length that give a random point of `G2`, equally many give each of the `r - 1` points of the subgroup
other than zero. -/
theorem C111_uniform_g2 (hs : IsSqrt sqrt2) (n : Nat) (P : PointsOf bnB2) (hP : P ≠ 0) (hr : bnR • P = 0) :
    strings n (fun b => ∃ rest, bnPoint2 sqrt2 b = .ok (P, rest)) * (bnR - 1) =
      strings n (fun b => ∃ Q rest, bnPoint2 sqrt2 b = .ok (Q, rest)) := by
  haveI := finite_points goodBn2
  have hc : Nat.card {x : PointsOf bnB2 // x ≠ 0 ∧ bnR • x = 0} = bnR - 1 := by
    rw [card_nonzero (fun x : PointsOf bnB2 => bnR • x = 0) (smul_zero _), card_bn2_torsion]
  rw [← hc]
  exact evenly (live2_free hs) (fun P : PointsOf bnB2 => P ≠ 0 ∧ bnR • P = 0) (fun x => bnCofactor • x.1)
    (fun x => ⟨x.2, killed_bn2 x.1⟩) (fun P Q hP hQ => fibre2 hP hQ) _ (curvePoint_eq _) n P ⟨hP, hr⟩

/-! ## The setup -/

theorem seq_map {A A' B B' : Type} {g : Sampler A'} {g0 : Sampler A} {f : A → A'} {h : Sampler B'} {h0 : Sampler B} {k : B → B'}
    (hg : ∀ b, g b = (g0 b).map fun q => (f q.1, q.2)) (hh : ∀ b, h b = (h0 b).map fun q => (k q.1, q.2)) (b : Entropy) :
    Sampler.seq g h b = (Sampler.seq g0 h0 b).map fun q => (Prod.map f k q.1, q.2) := by
  unfold Sampler.seq
  rw [hg]
  rcases g0 b with e | ⟨x, s⟩
  · rfl
  · show (match h s with | .error e => _ | .ok (y, b) => _) = _
    dsimp only
    rw [hh]
    rcases h0 s with e | ⟨y, s⟩ <;> rfl

theorem setupCoins_map {r : Nat} [Fact r.Prime] {A B G1 G2 : Type} [AddCommGroup G1] [AddCommGroup G2] [DecidableEq G1] [DecidableEq G2]
    {point1 : Sampler G1} {g0 : Sampler A} {f : A → G1} {point2 : Sampler G2}
    {h0 : Sampler B} {k : B → G2} (hg : ∀ b, point1 b = (g0 b).map fun q => (f q.1, q.2))
    (hh : ∀ b, point2 b = (h0 b).map fun q => (k q.1, q.2)) (b : Entropy) :
    setupCoins r point1 point2 b = (Sampler.seq g0 (Sampler.seq h0 (Sampler.seq (OsRng.rand r) (Sampler.seq (OsRng.rand r)
      (Sampler.seq (OsRng.rand r) (Sampler.seq (OsRng.rand r) (OsRng.rand r)))))) b).map
        fun q => (toxicEquiv (Prod.map f (Prod.map k id) q.1), q.2) := by
  rw [setupCoins_eq, seq_map hg (seq_map hh (k := id) fun b => ?_) b]
  · generalize Sampler.seq g0 _ b = u
    rcases u with k | ⟨x, s⟩ <;> rfl
  · generalize Sampler.seq (OsRng.rand r) _ b = u
    rcases u with k | ⟨x, s⟩ <;> rfl

theorem bnR_odd : (2 : ZMod bnR) ≠ 0 := by decide +kernel

/-- What the setup draws: two points other than zero of the groups of prime order. -/
def GoodToxic (t : Toxic (PointsOf bnB) (PointsOf bnB2) bnR) : Prop := t.g1 ≠ 0 ∧ t.g2 ≠ 0 ∧ bnR • t.g2 = 0

/-- C111: the setup never draws anything else. -/
theorem C111_setup_good (b rest : Entropy) (t : Toxic (PointsOf bnB) (PointsOf bnB2) bnR)
    (h : setupCoins bnR (bnPoint1 sqrt) (bnPoint2 sqrt2) b = .ok (t, rest)) : GoodToxic t := by
  have := setupCoins_points (fun b g rest => C111_random_g1 b rest g) (fun b g rest => C111_random_g2 b rest g) h
  exact ⟨this.1.1, this.2⟩

def toxicGood : {t : Toxic (PointsOf bnB) (PointsOf bnB2) bnR // GoodToxic t} ≃
    {P : PointsOf bnB // P ≠ 0 ∧ True} × {P : PointsOf bnB2 // P ≠ 0 ∧ bnR • P = 0} ×
      (ZMod bnR × ZMod bnR × ZMod bnR × ZMod bnR × ZMod bnR) where
  toFun t := (⟨t.1.g1, t.2.1, trivial⟩, ⟨t.1.g2, t.2.2⟩, t.1.alpha, t.1.beta, t.1.gamma, t.1.delta, t.1.tau)
  invFun q := ⟨⟨q.1.1, q.2.1.1, q.2.2.1, q.2.2.2.1, q.2.2.2.2.1, q.2.2.2.2.2.1, q.2.2.2.2.2.2⟩, q.1.2.1, q.2.1.2⟩
  left_inv _ := rfl
  right_inv _ := rfl

theorem card_nonzero1 : Nat.card {x : PointsOf bnB // x ≠ 0 ∧ True} = bnR - 1 := by
  haveI := finite_points goodBn
  rw [card_nonzero (fun _ => True) trivial, Nat.card_congr (Equiv.subtypeUnivEquiv fun _ => trivial), card_bn]

theorem card_nonzero2 : Nat.card {x : PointsOf bnB2 // x ≠ 0 ∧ bnR • x = 0} = bnR - 1 := by
  haveI := finite_points goodBn2
  rw [card_nonzero (fun x : PointsOf bnB2 => bnR • x = 0) (smul_zero _), card_bn2_torsion]

theorem card_good : Nat.card {t : Toxic (PointsOf bnB) (PointsOf bnB2) bnR // GoodToxic t} = (bnR - 1) ^ 2 * bnR ^ 5 := by
  rw [Nat.card_congr toxicGood]
  simp only [Nat.card_prod, card_nonzero1, card_nonzero2, Nat.card_zmod]
  generalize bnR - 1 = m
  generalize bnR = r
  ring

/-- C111: of the byte strings of any length for which the setup draws its secrets, equally many give each choice of two points other than
zero and five numbers. -/
theorem C111_setup (hs : IsSqrt sqrt) (hs2 : IsSqrt sqrt2) (n : Nat) (t : Toxic (PointsOf bnB) (PointsOf bnB2) bnR)
    (ht : GoodToxic t) :
    strings n (fun b => ∃ rest, setupCoins bnR (bnPoint1 sqrt) (bnPoint2 sqrt2) b = .ok (t, rest)) * ((bnR - 1) ^ 2 * bnR ^ 5) =
      strings n (fun b => ∃ t rest, setupCoins bnR (bnPoint1 sqrt) (bnPoint2 sqrt2) b = .ok (t, rest)) := by
  haveI := finite_points goodBn
  haveI := finite_points goodBn2
  haveI : Finite {t : Toxic (PointsOf bnB) (PointsOf bnB2) bnR // GoodToxic t} := Finite.of_equiv _ toxicGood.symm
  rw [← card_good]
  have R := rand_free bnR_odd
  refine evenly ((live1_free hs).seq ((live2_free hs2).seq (R.seq (R.seq (R.seq (R.seq R)))))) GoodToxic
    (fun x => toxicEquiv (Prod.map (fun P => 1 • P.1) (Prod.map (fun P => bnCofactor • P.1) id) x)) ?_ ?_ _ ?_ n t ht
  · rintro ⟨P, Q, z⟩
    exact ⟨P.2, Q.2, killed_bn2 Q.1⟩
  · intro t t' ht ht'
    have h := fibre_prod (fun P : Live bnB 1 => 1 • P.1) (Prod.map (fun P : Live bnB2 bnCofactor => bnCofactor • P.1) id)
      (fibre1 ht.1 ht'.1) (fibre_prod (fun P : Live bnB2 bnCofactor => bnCofactor • P.1) id (fibre2 ht.2 ht'.2)
        (fibre_id (toxicEquiv.symm t).2.2 (toxicEquiv.symm t').2.2))
    obtain ⟨e⟩ := h
    refine ⟨(Equiv.subtypeEquivRight fun x => ?_).trans (e.trans (Equiv.subtypeEquivRight fun x => ?_))⟩
    · exact toxicEquiv.apply_eq_iff_eq_symm_apply
    · exact toxicEquiv.apply_eq_iff_eq_symm_apply.symm
  · intro b
    exact setupCoins_map (curvePoint_eq 1) (curvePoint_eq bnCofactor) b

/-! ## Every choice is possible -/

/-- Each value is returned for some `n` bytes, whatever follows them. -/
def Yields {A : Type} (g : Sampler A) (n : Nat) : Prop := ∀ a, ∃ b : Entropy, b.length = n ∧ ∀ rest, g (b ++ rest) = .ok (a, rest)

theorem yields_of {A : Type} {g : Sampler A} (h : Free g) {b : Entropy} {a : A} (hb : g b = .ok (a, [])) : Yields g b.length := by
  obtain ⟨slot, S⟩ := h
  intro a'
  refine ⟨slot b a', ?_, fun rest => S.put hb a' rest⟩
  rw [S.len hb a' a]
  have := S.cut hb
  rw [List.append_nil] at this
  exact congrArg List.length this.symm

theorem Yields.seq {A B : Type} {g : Sampler A} {h : Sampler B} {n m : Nat} (hg : Yields g n) (hh : Yields h m) : Yields (g.seq h) (n + m) := by
  rintro ⟨x, y⟩
  obtain ⟨b, hb, h1⟩ := hg x
  obtain ⟨c, hc, h2⟩ := hh y
  refine ⟨b ++ c, by rw [List.length_append, hb, hc], fun rest => ?_⟩
  unfold Sampler.seq
  rw [List.append_assoc, h1]
  dsimp only
  rw [h2]

theorem Yields.retry {A B : Type} {g : Sampler B} {f : B → Option A} {emb : A → B} {n : Nat} (hc : Consumes g) (hg : Yields g n)
    (h1 : ∀ a, f (emb a) = some a) : Yields (Fawkes.retry g f) n := by
  intro a
  obtain ⟨b, hb, h⟩ := hg (emb a)
  refine ⟨b, hb, fun rest => ?_⟩
  rw [retry_eq hc, h]
  dsimp only
  rw [h1]

theorem yields_bool : Yields randBool 4 :=
  yields_of randBool_free (b := [0, 0, 0, 0]) (a := false) (by decide +kernel)

theorem yields_bnQ : Yields (OsRng.rand bnQ) 32 :=
  yields_of (rand_free goodBn.two) (b := List.replicate 32 0) (a := 0) (by decide +kernel)

theorem yields_bnR : Yields (OsRng.rand bnR) 32 :=
  yields_of (rand_free bnR_odd) (b := List.replicate 32 0) (a := 0) (by decide +kernel)

theorem yields_fq2 : Yields (randFq2 bnQ) 64 := by
  intro z
  obtain ⟨b, hb, h⟩ := (yields_bnQ.seq yields_bnQ) (z.re, z.im)
  refine ⟨b, hb, fun rest => ?_⟩
  rw [randFq2_eq, h]
  rfl

theorem yields_live {K : Type} [Field K] [DecidableEq K] {b : K} {c : CoordBytes K} {num : K → Nat} {sqrt : K → Option K} {coord : Sampler K}
    (L : LawfulBytes c num) (G : GoodCurve b) (hs : IsSqrt sqrt) (n : Nat) {m : Nat} (hy : Yields coord m) (hc : Consumes coord) :
    Yields (livePoint c sqrt b coord n) (m + 4) :=
  (hy.seq yields_bool).retry (hc.seq randBool_consumes) (accept_pick L G hs n)

theorem yields_curve {K : Type} [Field K] [DecidableEq K] {b : K} {c : CoordBytes K} {num : K → Nat} {sqrt : K → Option K} {coord : Sampler K}
    (L : LawfulBytes c num) (G : GoodCurve b) (hs : IsSqrt sqrt) (n : Nat) {m : Nat} (hy : Yields coord m) (hc : Consumes coord)
    {P : PointsOf b} (h0 : P ≠ 0) (hP : ∃ Q, P = n • Q) :
    ∃ s : Entropy, s.length = m + 4 ∧ ∀ rest, curvePoint c sqrt b coord n (s ++ rest) = .ok (P, rest) := by
  obtain ⟨Q, rfl⟩ := hP
  obtain ⟨s, hs, h⟩ := yields_live L G hs n hy hc ⟨Q, h0⟩
  refine ⟨s, hs, fun rest => ?_⟩
  rw [curvePoint_eq, h]
  rfl

/-- C111: each point of `G1` other than zero is drawn for some 36 bytes. -/
theorem C111_possible_g1 (hs : IsSqrt sqrt) {P : PointsOf bnB} (h0 : P ≠ 0) :
    ∃ s : Entropy, s.length = 36 ∧ ∀ rest, bnPoint1 sqrt (s ++ rest) = .ok (P, rest) :=
  yields_curve (fqBytes_lawful bnQ) goodBn hs 1 yields_bnQ rand_consumes h0 ⟨P, (one_smul ℕ _).symm⟩

/-- C111: each point of the subgroup other than zero is drawn for some 68 bytes. -/
theorem C111_possible_g2 (hs : IsSqrt sqrt2) {P : PointsOf bnB2} (h0 : P ≠ 0) (hP : bnR • P = 0) :
    ∃ s : Entropy, s.length = 68 ∧ ∀ rest, bnPoint2 sqrt2 (s ++ rest) = .ok (P, rest) :=
  yields_curve (fq2Bytes_lawful bnQ) goodBn2 hs bnCofactor yields_fq2 randFq2_consumes h0
    (multiple_of_killed (Fact.out : bnR.Prime).one_lt coprime_cofactor P hP)

/-- C111: each choice of two points other than zero and five numbers is drawn by the setup for some 264 bytes. -/
theorem C111_setup_possible (hs : IsSqrt sqrt) (hs2 : IsSqrt sqrt2) (t : Toxic (PointsOf bnB) (PointsOf bnB2) bnR) (ht : GoodToxic t) :
    ∃ b : Entropy, b.length = 264 ∧ setupCoins bnR (bnPoint1 sqrt) (bnPoint2 sqrt2) b = .ok (t, []) := by
  obtain ⟨b1, hb1, h1⟩ := C111_possible_g1 hs ht.1
  obtain ⟨b2, hb2, h2⟩ := C111_possible_g2 hs2 ht.2.1 ht.2.2
  obtain ⟨b3, hb3, h3⟩ := (yields_bnR.seq (yields_bnR.seq (yields_bnR.seq (yields_bnR.seq yields_bnR))))
    (t.alpha, t.beta, t.gamma, t.delta, t.tau)
  refine ⟨b1 ++ (b2 ++ (b3 ++ [])), by simp only [List.length_append, hb1, hb2, hb3, List.length_nil], ?_⟩
  rw [setupCoins_eq]
  unfold Sampler.seq at h3 ⊢
  rw [h1]
  dsimp only
  rw [h2]
  dsimp only
  rw [h3]
  rfl

/-! ## What this says about the keys of BN256 -/

section keys

variable {T : Type} [CommMonoid T] [DecidableEq T] {K : TwoAdic (ZMod bnR)} {E : Engine (PointsOf bnB) (PointsOf bnB2) T}
  {e : PointsOf bnB → PointsOf bnB2 → Tˣ}

/-- C111: at most the part `2·(constraints + inputs)·(2·variables + 1) / r` of the byte strings of any length with which `setup` gets its
random choices makes keys of BN256 that reject an honest proof. -/
theorem C111_unlucky (hK : LawfulTwoAdic K) (hE : PairingEngine E e) (hadd : ∀ a b b', e a (b + b') = e a b * e a b')
    (hs : IsSqrt sqrt) (hs2 : IsSqrt sqrt2) {W : Type} (P Q : Ty) (code : Code bnR W) (hw : code.WidthsFit) (hc : code.Quiet)
    (a0 : P.S (ZMod bnR)) (s0 : CS (ZMod bnR)) (hset : (generated P Q code none none none).run (CS.new .setup) = .ok (a0, s0))
    (hone : ConstantOnRight s0) (n : Nat) :
    strings n (Unlucky K E (bnPoint1 sqrt) (bnPoint2 sqrt2) P Q code) * bnR ≤
      2 * (s0.cons.length + s0.ninputs) * (2 * (s0.ninputs + s0.naux) + 1) *
        strings n (fun b => ∃ t rest, setupCoins bnR (bnPoint1 sqrt) (bnPoint2 sqrt2) b = .ok (t, rest)) :=
  C82_setup hK bnR_odd hE hadd (bnPoint1_reads hs) (bnPoint2_reads hs2) (fun b g rest => C111_random_g1 b rest g)
    (fun b g rest => C111_random_g2 b rest g) P Q code hw hc a0 s0 hset hone n

/-- C111: at most the part `choices · (4·(constraints + inputs)·(variables + 2) + 8) / r` of them makes keys of BN256 with which one of the
given combinations of the points of the keys is a forgery. -/
theorem C111_entropy (hK : LawfulTwoAdic K) (hE : PairingEngine E e) (hadd : ∀ a b b', e a (b + b') = e a b * e a b')
    (hne : ∀ a b, a ≠ 0 → b ≠ 0 → bnR • b = 0 → e a b ≠ 1) (hs : IsSqrt sqrt) (hs2 : IsSqrt sqrt2)
    {α : Type} (circuit : M (ZMod bnR) α) (a0 : α) (s0 : CS (ZMod bnR)) (hset : circuit.run (CS.new .setup) = .ok (a0, s0))
    (choices : List (AlgebraicProver bnR × List (ZMod bnR))) (n : Nat) :
    strings n (Forgery K E (bnPoint1 sqrt) (bnPoint2 sqrt2) circuit s0 choices) * bnR ≤
      choices.length * (4 * (s0.cons.length + s0.ninputs) * (s0.ninputs + s0.naux + 2) + 8) *
        strings n (fun b => ∃ t rest, setupCoins bnR (bnPoint1 sqrt) (bnPoint2 sqrt2) b = .ok (t, rest)) :=
  C84_entropy hK bnR_odd hE hadd (fun a b ha hb _ hr => hne a b ha hb hr) (bnPoint1_reads hs) (bnPoint2_reads hs2)
    (fun b g rest => C111_random_g1 b rest g) (fun b g rest => C111_random_g2 b rest g) circuit a0 s0 hset choices n

/-- C111: and at most the same part lets the program of the command line print "true" for such a forgery. -/
theorem C111_command_line (hK : LawfulTwoAdic K) (hE : PairingEngine E e) (hadd : ∀ a b b', e a (b + b') = e a b * e a b')
    (hne : ∀ a b, a ≠ 0 → b ≠ 0 → bnR • b = 0 → e a b ≠ 1) (hs : IsSqrt sqrt) (hs2 : IsSqrt sqrt2)
    {W : Type} (pub sec : Serde.Layout) (code : Code bnR W) (u1 : RawCodec (PointsOf bnB)) (u2 : RawCodec (PointsOf bnB2))
    (f : Cli.Format (PointsOf bnB) (PointsOf bnB2) bnR) (hf : ReadsBack f)
    (wit : pub.ty.V (ZMod bnR) → sec.ty.V (ZMod bnR) → W) (a0 : pub.ty.S (ZMod bnR)) (s0 : CS (ZMod bnR))
    (hset : (generated pub.ty sec.ty code none none none).run (CS.new .setup) = .ok (a0, s0)) (hn : s0.ninputs < 2 ^ 32)
    (choices : List (AlgebraicProver bnR × List (ZMod bnR))) (n : Nat) :
    strings n (Fooled (clientProgram K u1 u2 f E pub sec code wit) (bnPoint1 sqrt) (bnPoint2 sqrt2) s0 choices) * bnR ≤
      choices.length * (4 * (s0.cons.length + s0.ninputs) * (s0.ninputs + s0.naux + 2) + 8) *
        strings n (fun b => ∃ t rest, setupCoins bnR (bnPoint1 sqrt) (bnPoint2 sqrt2) b = .ok (t, rest)) :=
  C106_entropy hK bnR_odd hE hadd (fun a b ha hb _ hr => hne a b ha hb hr) (bnPoint1_reads hs) (bnPoint2_reads hs2)
    (fun b g rest => C111_random_g1 b rest g) (fun b g rest => C111_random_g2 b rest g) pub sec code u1 u2 f hf wit a0 s0 hset hn choices n

end keys

end random

/-! ## The groups have a pairing -/

theorem hom_of_prime {G : Type} [AddCommGroup G] {r : Nat} [Fact r.Prime] (h : Nat.card G = r) :
    ∃ f : G →+ ZMod r, ∀ x, x ≠ 0 → f x ≠ 0 := by
  haveI : IsAddCyclic G := isAddCyclic_of_prime_card h
  let f := (zmodAddCyclicAddEquiv (G := G) inferInstance).symm
  subst h
  exact ⟨f.toAddMonoidHom, fun x hx h0 => hx (f.map_eq_zero_iff.1 h0)⟩

theorem hom_of_torsion {G : Type} [AddCommGroup G] {r h : Nat} [Fact r.Prime] (hc : Nat.Coprime r h) (hk : ∀ P : G, r • h • P = 0)
    (hcard : Nat.card {P : G // r • P = 0} = r) : ∃ f : G →+ ZMod r, ∀ x, x ≠ 0 → r • x = 0 → f x ≠ 0 := by
  let S : AddSubgroup G := (nsmulAddMonoidHom r : G →+ G).ker
  have hS : Nat.card S = r := hcard
  obtain ⟨f, hf⟩ := hom_of_prime hS
  refine ⟨f.comp ((nsmulAddMonoidHom h : G →+ G).codRestrict S hk), fun x hx hr => hf _ fun h0 => hx ?_⟩
  have h0 : h • x = 0 := congrArg Subtype.val h0
  have h1 := addOrderOf_dvd_of_nsmul_eq_zero h0
  have h2 := addOrderOf_dvd_of_nsmul_eq_zero hr
  have h3 := Nat.dvd_gcd h2 h1
  rw [hc] at h3
  exact AddMonoid.addOrderOf_eq_one_iff.1 (Nat.dvd_one.1 h3)

/-- C111: the groups of BN256 do have a pairing as the theorems about its keys and proofs assume: additive on both sides and not 1 for points
other than zero of the groups of prime order. -/
theorem C111_pairing : ∃ (E : Engine (PointsOf bnB) (PointsOf bnB2) (Multiplicative (ZMod bnR)))
    (e : PointsOf bnB → PointsOf bnB2 → (Multiplicative (ZMod bnR))ˣ), PairingEngine E e ∧
      (∀ a b b', e a (b + b') = e a b * e a b') ∧ ∀ a b, a ≠ 0 → b ≠ 0 → bnR • b = 0 → e a b ≠ 1 := by
  obtain ⟨f, hf⟩ := hom_of_prime card_bn
  obtain ⟨k, hk⟩ := hom_of_torsion coprime_cofactor killed_bn2 card_bn2_torsion
  let e : PointsOf bnB → PointsOf bnB2 → (Multiplicative (ZMod bnR))ˣ := fun a b => toUnits (Multiplicative.ofAdd (f a * k b))
  refine ⟨⟨fun l => ((l.map fun q => e q.1 q.2).prod : (Multiplicative (ZMod bnR))ˣ), some⟩, e, ⟨fun _ => rfl, fun a a' b => ?_⟩,
    fun a b b' => ?_, fun a b ha hb hr h => ?_⟩
  · show toUnits _ = toUnits _ * toUnits _
    rw [← map_mul, ← ofAdd_add, ← add_mul, map_add]
  · show toUnits _ = toUnits _ * toUnits _
    rw [← map_mul, ← ofAdd_add, ← mul_add, map_add]
  · have h : f a * k b = 0 := by
      have h := toUnits.map_eq_one_iff.1 h
      exact Multiplicative.ofAdd.injective h
    exact (mul_ne_zero (hf a ha) (hk b hb hr)) h

/-! ## Examples -/

/-- The generator `(1, 2)` lies in the group of prime order, and its data are accepted. -/
example : Groth16.InSubgroup bnB bnR (some (1, 2)) ∧ ∃ p, g1Into bnB ⟨1, 2⟩ = .ok p := by
  obtain ⟨p, hp, -⟩ := (g1Into_iff ⟨1, 2⟩ genBn).2 (by unfold g1Point; rw [if_neg (by decide +kernel)]; rfl)
  exact ⟨C111_g1 _ (show (2 : ZMod bnQ) ^ 2 = 1 ^ 3 + bnB by decide +kernel), p, hp⟩

/-- Most points of the twist are not in the subgroup: there is one of order `2q - r`. -/
example : bnCofactor • torsionPoint = 0 ∧ bnR • torsionPoint ≠ 0 := by
  refine ⟨torsionPoint_killed, fun h => ?_⟩
  have h1 := addOrderOf_dvd_of_nsmul_eq_zero h
  rw [order_torsion] at h1
  exact absurd (Nat.le_of_dvd (by decide +kernel) h1) (by decide +kernel)

/-- There are square roots, the generators are drawn for some bytes, and with five numbers they are a choice of the setup. -/
example : ∃ (sqrt : ZMod bnQ → Option (ZMod bnQ)) (sqrt2 : Fq2 (ZMod bnQ) → Option (Fq2 (ZMod bnQ))), IsSqrt sqrt ∧ IsSqrt sqrt2 ∧
    (∃ b, bnPoint1 sqrt b = .ok (genBn, [])) ∧ (∃ b, bnPoint2 sqrt2 b = .ok (genBn2, [])) ∧
    (∃ b, setupCoins bnR (bnPoint1 sqrt) (bnPoint2 sqrt2) b = .ok (⟨genBn, genBn2, 1, 2, 3, 4, 5⟩, [])) := by
  obtain ⟨s1, h1⟩ := exists_isSqrt (ZMod bnQ)
  obtain ⟨s2, h2⟩ := exists_isSqrt (Fq2 (ZMod bnQ))
  have n1 : genBn ≠ 0 := WeierstrassCurve.Affine.Point.some_ne_zero _
  have n2 : genBn2 ≠ 0 := WeierstrassCurve.Affine.Point.some_ne_zero _
  refine ⟨s1, s2, h1, h2, ?_, ?_, ?_⟩
  · obtain ⟨b, -, h⟩ := C111_possible_g1 h1 n1
    exact ⟨b ++ [], h []⟩
  · obtain ⟨b, -, h⟩ := C111_possible_g2 h2 n2 genBn2_killed
    exact ⟨b ++ [], h []⟩
  · obtain ⟨b, -, h⟩ := C111_setup_possible h1 h2 ⟨genBn, genBn2, 1, 2, 3, 4, 5⟩ ⟨n1, n2, genBn2_killed⟩
    exact ⟨b, h⟩

/-- The hypotheses of `C111_entropy` and `C111_command_line` hold: the groups have a pairing, the field has its constants, and the files of the
Ethereum and NEAR bindings are read as written. -/
example (a0 : demoPub.ty.S (ZMod bnR)) (s0 : CS (ZMod bnR))
    (hset : (generated demoPub.ty demoSec.ty demoCode none none none).run (CS.new .setup) = .ok (a0, s0)) (hn : s0.ninputs < 2 ^ 32)
    (u1 : RawCodec (PointsOf bnB)) (u2 : RawCodec (PointsOf bnB2)) (choices : List (AlgebraicProver bnR × List (ZMod bnR))) (n : Nat) :
    ∃ (E : Engine (PointsOf bnB) (PointsOf bnB2) (Multiplicative (ZMod bnR))) (sqrt : ZMod bnQ → Option (ZMod bnQ))
      (sqrt2 : Fq2 (ZMod bnQ) → Option (Fq2 (ZMod bnQ))), ∀ f ∈ [Cli.jsonFormat bnCoords bnR, Cli.nearFormat bnCoords bnR],
      strings n (Fooled (clientProgram demoK u1 u2 f E demoPub demoSec demoCode fun _ _ => ()) (bnPoint1 sqrt) (bnPoint2 sqrt2) s0 choices) * bnR ≤
        choices.length * (4 * (s0.cons.length + s0.ninputs) * (s0.ninputs + s0.naux + 2) + 8) *
          strings n (fun b => ∃ t rest, setupCoins bnR (bnPoint1 sqrt) (bnPoint2 sqrt2) b = .ok (t, rest)) := by
  obtain ⟨E, e, hE, hadd, hne⟩ := C111_pairing
  obtain ⟨s1, h1⟩ := exists_isSqrt (ZMod bnQ)
  obtain ⟨s2, h2⟩ := exists_isSqrt (Fq2 (ZMod bnQ))
  refine ⟨E, s1, s2, ?_⟩
  have key : ∀ f, ReadsBack f → _ := fun f hf =>
    C111_command_line demoK_lawful hE hadd hne h1 h2 demoPub demoSec demoCode u1 u2 f hf (fun _ _ => ()) a0 s0 hset hn choices n
  simp only [List.forall_mem_cons, List.not_mem_nil, false_imp_iff, implies_true, and_true]
  exact ⟨key _ (C106_ethereum_format C78_bn256_coords aligned_bnQ), key _ (C106_near_format C78_bn256_coords)⟩

end Fawkes.Props
