import Verif.Lemmas.Sqrt
import Verif.Lemmas.Shipped
import Verif.Props.FromBytes
import Verif.Props.Eddsa
import Verif.Props.PointCount

/-!
# Square roots are found, and only square roots: C114
-/

namespace Fawkes.Props

open Fawkes.FieldSqrt Fawkes.Groth16 Fawkes.Cli Fawkes.Cli.Cmd Fawkes.Serde Fawkes.Groth16.Contract

theorem seven_bn : ¬ IsSquare ((7 : Nat) : ZMod bnR) :=
  not_isSquare_of_powMod (by decide +kernel) 254 7 (by decide +kernel) (by decide +kernel)

theorem seven_bls : ¬ IsSquare ((7 : Nat) : ZMod blsR) :=
  not_isSquare_of_powMod (by decide +kernel) 255 7 (by decide +kernel) (by decide +kernel)

/-- C114 (Tonelli and Shanks): for every prime `p = 1 + t 2^s` with `t` odd and every number that is not a square as
generator, the loops of the root end, a square gets a root and another number gets none. -/
theorem C114_tonelli {p g s : Nat} [Fact p.Prime] (hs : 1 ≤ s) (ht : (p - 1) / 2 ^ s % 2 = 1) (hd : 2 ^ s ∣ p - 1)
    (hg : ¬ IsSquare (g : ZMod p)) (a : ZMod p) :
    (IsSquare a → ∃ b, sqrt16 g s a = some (some b) ∧ b * b = a) ∧ (¬ IsSquare a → sqrt16 g s a = some none) :=
  sqrt16_ok hs ht hd hg a

/-- C114 (the symbol): `legendre` tells zero, squares and other numbers apart. -/
theorem C114_legendre {p : Nat} [Fact p.Prime] (h2 : p ≠ 2) (a : ZMod p) :
    (legendre a = .zero ↔ a = 0) ∧ (legendre a = .residue ↔ a ≠ 0 ∧ IsSquare a) ∧ (legendre a = .nonResidue ↔ ¬ IsSquare a) := by
  have hp := (Fact.out : p.Prime)
  have hp1 := hp.two_le
  have hodd := hp.eq_two_or_odd
  have hp2 : (p - 1) / 2 = p / 2 := by omega
  unfold legendre
  rw [pow_exponent a (by omega : (p - 1) / 2 < p), hp2]
  simp only
  by_cases hx : a = 0
  · subst hx
    have h0 : IsSquare (0 : ZMod p) := ⟨0, by ring⟩
    rw [zero_pow (by omega), if_pos rfl]
    simp [h0]
  · rw [if_neg (pow_ne_zero _ hx)]
    by_cases hs : IsSquare a
    · rw [if_pos ((ZMod.euler_criterion p hx).mp hs)]; simp [hx, hs]
    · rw [if_neg (fun h => hs ((ZMod.euler_criterion p hx).mpr h))]; simp [hx, hs]

theorem run_ok {p : Nat} {run : ZMod p → Option (Option (ZMod p))}
    (h : ∀ a, (IsSquare a → ∃ b, run a = some (some b) ∧ b * b = a) ∧ (¬ IsSquare a → run a = some none)) (a : ZMod p) :
    run a = some ((run a).getD none) := by
  by_cases hs : IsSquare a
  · obtain ⟨b, hb, -⟩ := (h a).1 hs
    rw [hb]; rfl
  · rw [(h a).2 hs]; rfl

theorem run_isSqrt {p : Nat} [Fact p.Prime] {run : ZMod p → Option (Option (ZMod p))}
    (h : ∀ a, (IsSquare a → ∃ b, run a = some (some b) ∧ b * b = a) ∧ (¬ IsSquare a → run a = some none)) :
    IsSqrt fun a => (run a).getD none := by
  constructor
  · intro a b hb
    by_cases hs : IsSquare a
    · obtain ⟨c, hc, hcc⟩ := (h a).1 hs
      simp only [hc, Option.getD_some, Option.some.injEq] at hb
      rw [← hb, hcc]
    · simp only [(h a).2 hs, Option.getD_some] at hb
      cases hb
  · intro a hs
    obtain ⟨c, hc, -⟩ := (h a).1 hs
    exact ⟨c, by simp only [hc, Option.getD_some]⟩

theorem bnRun_spec (a : ZMod bnR) :
    (IsSquare a → ∃ b, bnRun a = some (some b) ∧ b * b = a) ∧ (¬ IsSquare a → bnRun a = some none) :=
  C114_tonelli (by omega) (by decide +kernel) (by decide +kernel) seven_bn a

theorem blsRun_spec (a : ZMod blsR) :
    (IsSquare a → ∃ b, blsRun a = some (some b) ∧ b * b = a) ∧ (¬ IsSquare a → blsRun a = some none) :=
  C114_tonelli (by omega) (by decide +kernel) (by decide +kernel) seven_bls a

/-- C114 (`Num::sqrt` over BN256): the computation ends for every element; it returns a root of every square, and nothing
for the others. -/
theorem C114_bn256 : (∀ a, bnRun a = some (bnSqrt a)) ∧ IsSqrt bnSqrt ∧ ∀ a, bnSqrt a = none ↔ ¬ ∃ b, b * b = a := by
  refine ⟨run_ok bnRun_spec, run_isSqrt bnRun_spec, fun a => ?_⟩
  have h := (run_isSqrt bnRun_spec : IsSqrt bnSqrt).none_iff a
  refine h.trans ?_
  exact not_congr ⟨fun ⟨b, hb⟩ => ⟨b, hb.symm⟩, fun ⟨b, hb⟩ => ⟨b, hb.symm⟩⟩

/-- C114 (`Num::sqrt` over BLS12-381). -/
theorem C114_bls12_381 :
    (∀ a, blsRun a = some (blsSqrt a)) ∧ IsSqrt blsSqrt ∧ ∀ a, blsSqrt a = none ↔ ¬ ∃ b, b * b = a := by
  refine ⟨run_ok blsRun_spec, run_isSqrt blsRun_spec, fun a => ?_⟩
  have h := (run_isSqrt blsRun_spec : IsSqrt blsSqrt).none_iff a
  refine h.trans ?_
  exact not_congr ⟨fun ⟨b, hb⟩ => ⟨b, hb.symm⟩, fun ⟨b, hb⟩ => ⟨b, hb.symm⟩⟩

/-- C114 (base fields): the roots of the base fields of both pairing curves and of their quadratic extensions. -/
theorem C114_base_fields :
    IsSqrt (sqrt34 (p := bnQ)) ∧ IsSqrt (sqrt2 (q := bnQ)) ∧ IsSqrt (sqrt34 (p := blsQ)) ∧ IsSqrt (sqrt2 (q := blsQ)) :=
  ⟨isSqrt34 (by decide +kernel), isSqrt2 (by decide +kernel), isSqrt34 (by decide +kernel), isSqrt2 (by decide +kernel)⟩

/-- C114 (parameters): the constructors of the curve parameters, run with these roots, give the curves of the other
theorems. -/
theorem C114_params : jubjubBN256 bnSqrt = .ok bnParams ∧ jubjubBLS12_381 blsSqrt = .ok blsParams :=
  ⟨bn_new C114_bn256.2.1, bls_new C114_bls12_381.2.1⟩

/-- C114 (decompression over BN256): a point comes back exactly for the abscissas of points of the subgroup. -/
theorem C114_decompress (x : ZMod bnR) : ∃ o, EdwardsPoint.subgroupDecompress bnSqrt x bnParams = .ok o ∧
    ∀ p, o = some p ↔ ∃ Q : EdPoint bnCurve, InSubgroup bnL Q ∧ Q.x = x ∧ p = Q.affine :=
  C31_subgroup_decompress C114_bn256.2.1 bnParams_valid x

/-- C114 (signatures over BN256): nothing is assumed of roots any more. -/
theorem C114_sign_verifies {P : PoseidonParams (ZMod bnR)} (hP : PoseidonSpec.Shaped P) (ht : 4 ≤ P.t) (sk : ZMod bnL)
    (m : ZMod bnR) : ∃ s rx A, Eddsa.sign bnParams sk m P = .ok (s, rx) ∧ bnParams.g.mul sk bnParams = .ok A ∧
      Eddsa.verify bnSqrt bnParams s rx A.x m P = .ok true :=
  C41_sign_verifies bnParams_valid C114_bn256.2.1 aligned_bnR aligned_bnL (by decide +kernel) hP ht sk m

local instance instPrimeBlsOrder : Fact blsParams.l.Prime := ⟨blsParams_valid.l_prime⟩

/-- C114 (decompression and signatures over BLS12-381): the same without assumptions on roots. -/
theorem C114_bls12_381_uses {P : PoseidonParams (ZMod blsR)} (hP : PoseidonSpec.Shaped P) (ht : 4 ≤ P.t) :
    (∀ x : ZMod blsR, ∃ o, EdwardsPoint.subgroupDecompress blsSqrt x blsParams = .ok o ∧
      ∀ p, o = some p ↔ ∃ Q : EdPoint blsCurve, InSubgroup blsL Q ∧ Q.x = x ∧ p = Q.affine) ∧
    ∀ (sk : ZMod blsParams.l) (m : ZMod blsR), ∃ s rx A, Eddsa.sign blsParams sk m P = .ok (s, rx) ∧ blsParams.g.mul sk blsParams = .ok A ∧
      Eddsa.verify blsSqrt blsParams s rx A.x m P = .ok true :=
  ⟨fun x => C31_subgroup_decompress C114_bls12_381.2.1 blsParams_valid x,
    fun sk m => C41_sign_verifies blsParams_valid C114_bls12_381.2.1 aligned_blsR aligned_blsL (by decide +kernel) hP ht sk m⟩

/-- Parameters of the shape that the theorem asks for exist. -/
example : ∃ P : PoseidonParams (ZMod blsR), PoseidonSpec.Shaped P ∧ 4 ≤ P.t :=
  ⟨⟨[3], List.replicate 4 [1, 0, 0, 1], 4, 1, 0⟩, ⟨rfl, rfl, by intro row h; rw [List.eq_of_mem_replicate h]; rfl⟩, le_refl 4⟩

/-- C114 (the setup over BN256): the secrets drawn with these roots are uniform. -/
theorem C114_setup (n : Nat) (t : Toxic (PointsOf bnB) (PointsOf bnB2) bnR) (ht : GoodToxic t) :
    strings n (fun b => ∃ rest, setupCoins bnR (bnPoint1 sqrt34) (bnPoint2 sqrt2) b = .ok (t, rest)) * ((bnR - 1) ^ 2 * bnR ^ 5) =
      strings n (fun b => ∃ t rest, setupCoins bnR (bnPoint1 sqrt34) (bnPoint2 sqrt2) b = .ok (t, rest)) :=
  C111_setup C114_base_fields.1 C114_base_fields.2.1 n t ht

/-- The constants of the transforms over BN256: the generator 7 and its power of order `2^28`. -/
def bnTwoAdic : TwoAdic (ZMod bnR) := ⟨28, ((7 : Nat) : ZMod bnR) ^ ((bnR - 1) / 2 ^ 28), ((7 : Nat) : ZMod bnR)⟩

theorem bnTwoAdic_lawful : LawfulTwoAdic bnTwoAdic :=
  lawful_of_cert 28 7 256 (by decide) (by decide +kernel) (by decide +kernel) (by decide +kernel) (by decide +kernel)
    (by decide +kernel) (by decide +kernel) (by decide +kernel)

variable {T W : Type} [CommMonoid T] [DecidableEq T] {E : Engine (PointsOf bnB) (PointsOf bnB2) T} {e : PointsOf bnB → PointsOf bnB2 → Tˣ}

/-- C114 (sessions over BN256, data that satisfy the circuit): of C112 only the pairing remains a hypothesis. -/
theorem C114_session_true (hE : PairingEngine E e) (hadd : ∀ a b b', e a (b + b') = e a b * e a b')
    (pub sec : Layout) (hpub : Layout.Named pub ∧ Layout.depth pub ≤ 126) (hsec : Layout.Named sec ∧ Layout.depth sec ≤ 126) (code : Code bnR W)
    (hw : code.WidthsFit) (hc : code.Quiet) (wit : pub.ty.V (ZMod bnR) → sec.ty.V (ZMod bnR) → W) (a0 : pub.ty.S (ZMod bnR)) (s0 : CS (ZMod bnR))
    (hset : (generated pub.ty sec.ty code none none none).run (CS.new .setup) = .ok (a0, s0)) (hone : ConstantOnRight s0) (hused : AllUsed s0)
    (hdomain : s0.cons.length + s0.ninputs ≤ 2 ^ 27) (hsize : s0.ninputs + s0.naux < 2 ^ 32) (n : Nat) :
    (∀ f ∈ [jsonFormat bnCoords bnR, nearFormat bnCoords bnR],
      strings n (fun b => ∃ data, GoodData pub sec code wit data ∧
          Derailed (bnProgram bnTwoAdic E f pub sec code wit) (bnPoint1 sqrt34) (bnPoint2 sqrt2) data true b) * bnR ≤
        (2 * (s0.cons.length + s0.ninputs) * (2 * (s0.ninputs + s0.naux) + 1 + s0.naux) + s0.ninputs + 4) *
          strings n (fun b => ∃ t rest, setupCoins bnR (bnPoint1 sqrt34) (bnPoint2 sqrt2) b = .ok (t, rest))) ∧
    strings n (fun b => ∃ data, GoodData pub sec code wit data ∧
        OftenDerailed (bnProgram bnTwoAdic E (bnWaves sqrt34 sqrt2) pub sec code wit) (bnPoint1 sqrt34) (bnPoint2 sqrt2) data true b) * bnR ≤
      (2 * (s0.cons.length + s0.ninputs) * (2 * (s0.ninputs + s0.naux) + 1 + s0.naux) + s0.ninputs + 4) *
        strings n (fun b => ∃ t rest, setupCoins bnR (bnPoint1 sqrt34) (bnPoint2 sqrt2) b = .ok (t, rest)) :=
  C112_bn256_true bnTwoAdic_lawful hE hadd C114_base_fields.1 C114_base_fields.2.1 pub sec hpub hsec code hw hc wit a0 s0 hset hone hused
    hdomain ⟨by omega, hsize⟩ n

/-- C114 (sessions over BN256, data that do not satisfy the circuit). -/
theorem C114_session_false (hE : PairingEngine E e) (hadd : ∀ a b b', e a (b + b') = e a b * e a b')
    (hne : ∀ a b, a ≠ 0 → b ≠ 0 → bnR • b = 0 → e a b ≠ 1)
    (pub sec : Layout) (hpub : Layout.Named pub ∧ Layout.depth pub ≤ 126) (hsec : Layout.Named sec ∧ Layout.depth sec ≤ 126) (code : Code bnR W)
    (hw : code.WidthsFit) (hc : code.Quiet) (wit : pub.ty.V (ZMod bnR) → sec.ty.V (ZMod bnR) → W) (a0 : pub.ty.S (ZMod bnR)) (s0 : CS (ZMod bnR))
    (hset : (generated pub.ty sec.ty code none none none).run (CS.new .setup) = .ok (a0, s0)) (hone : ConstantOnRight s0) (hused : AllUsed s0)
    (hdomain : s0.cons.length + s0.ninputs ≤ 2 ^ 27) (hsize : s0.ninputs + s0.naux < 2 ^ 32)
    (data : pub.ty.V (ZMod bnR) × sec.ty.V (ZMod bnR)) (hd : WrongData pub sec code wit data) (n : Nat) :
    (∀ f ∈ [jsonFormat bnCoords bnR, nearFormat bnCoords bnR],
      strings n (Derailed (bnProgram bnTwoAdic E f pub sec code wit) (bnPoint1 sqrt34) (bnPoint2 sqrt2) data false) * bnR ≤
        (2 * (s0.cons.length + s0.ninputs) * (4 * (s0.ninputs + s0.naux + 1) + s0.naux) + s0.ninputs + 4) *
          strings n (fun b => ∃ t rest, setupCoins bnR (bnPoint1 sqrt34) (bnPoint2 sqrt2) b = .ok (t, rest))) ∧
    strings n (OftenDerailed (bnProgram bnTwoAdic E (bnWaves sqrt34 sqrt2) pub sec code wit) (bnPoint1 sqrt34) (bnPoint2 sqrt2) data false) * bnR ≤
      (2 * (s0.cons.length + s0.ninputs) * (4 * (s0.ninputs + s0.naux + 1) + s0.naux) + s0.ninputs + 4) *
        strings n (fun b => ∃ t rest, setupCoins bnR (bnPoint1 sqrt34) (bnPoint2 sqrt2) b = .ok (t, rest)) :=
  C112_bn256_false bnTwoAdic_lawful hE hadd hne C114_base_fields.1 C114_base_fields.2.1 pub sec hpub hsec code hw hc wit a0 s0 hset hone hused
    hdomain ⟨by omega, hsize⟩ data hd n

example : bnSqrt 4 = some 2 ∨ bnSqrt 4 = some (-2) := by
  obtain ⟨b, hb⟩ := C114_bn256.2.1.complete 4 ⟨2, by norm_num⟩
  have h := C114_bn256.2.1.sound 4 b hb
  have : (b - 2) * (b + 2) = 0 := by linear_combination h
  rcases mul_eq_zero.mp this with h | h
  · left; rw [hb, sub_eq_zero.mp h]
  · right; rw [hb, eq_neg_of_add_eq_zero_left h]

example : bnSqrt 7 = none := (C114_bn256.2.2 7).mpr (fun ⟨b, hb⟩ => seven_bn ⟨b, by rw [hb]; norm_num⟩)

/-- A small field: 73 = 1 + 9 * 8, generator 5. -/
example : sqrt16 5 3 (2 : ZMod 73) = some (some 32) ∧ sqrt16 5 3 (5 : ZMod 73) = some none := by decide +kernel

example : sqrt2 (q := 7) ⟨0, 2⟩ = some ⟨1, 1⟩ ∨ sqrt2 (q := 7) ⟨0, 2⟩ = some ⟨-1, -1⟩ := by decide +kernel

end Fawkes.Props
