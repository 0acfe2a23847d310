import Verif.Lemmas.PrimeBls
import Verif.Model.Contract
import Verif.Props.Groth16

/-!
# The generators of BN256 and BLS12-381 lie in the subgroups of prime order
-/

namespace Fawkes

open Groth16

/-- `-1` has no square root modulo the base field modulus of BLS12-381. -/
instance blsQ_fq2 : Fact (∀ r : ZMod blsQ, r ^ 2 ≠ -1 + 0 * r) := ⟨fun r h => by
  have := not_isSquare_of_powMod (r := blsQ) (by decide +kernel) 381 (blsQ - 1) (by decide +kernel) (by decide +kernel)
  apply this
  refine ⟨r, ?_⟩
  have h1 : ((blsQ - 1 : Nat) : ZMod blsQ) = -1 := by decide +kernel
  rw [h1, ← pow_two, h]; ring⟩

theorem killed_nat {q f fuel k x y : Nat} [Fact q.Prime] {b : ZMod q} (h2 : (2 : ZMod q) ≠ 0) (h3 : (3 : ZMod q) ≠ 0)
    (hb : b ≠ 0) (hon : Groth16.OnCurve b (some ((x : ZMod q), (y : ZMod q)))) (hy : y ≤ q)
    (hm : (natOps q f).isMultiple (x, y) fuel k (x, q - y) = true) :
    Groth16.InSubgroup b (k + 1) (some ((x : ZMod q), (y : ZMod q))) := by
  have hq : 0 < q := (Fact.out : q.Prime).pos
  have hns := (Props.nonsingular_iff h2 h3 hb _ _).2 hon
  have hy' : ((q - y : Nat) : ZMod q) = -(y : ZMod q) := by
    rw [Nat.cast_sub hy, ZMod.natCast_self, zero_sub]
  exact ⟨.some _ _ hns, rfl, Ops.killed (natOps_into q f hq (ZMod.natCast_self q)) ⟨hns, rfl⟩ fuel k hm hy'⟩

theorem killed_nat2 {q f fuel k : Nat} {x y : Nat × Nat} [Fact q.Prime] [Fact (∀ r : ZMod q, r ^ 2 ≠ -1 + 0 * r)]
    {b : Fq2 (ZMod q)} (h2 : (2 : ZMod q) ≠ 0) (h3 : (3 : ZMod q) ≠ 0) (hb : b ≠ 0)
    (hon : Groth16.OnCurve b (some ((⟨x.1, x.2⟩ : Fq2 (ZMod q)), (⟨y.1, y.2⟩ : Fq2 (ZMod q))))) (hy : y.1 ≤ q ∧ y.2 ≤ q)
    (hm : (natOps2 q f).isMultiple (x, y) fuel k (x, (q - y.1, q - y.2)) = true) :
    Groth16.InSubgroup b (k + 1) (some ((⟨x.1, x.2⟩ : Fq2 (ZMod q)), (⟨y.1, y.2⟩ : Fq2 (ZMod q)))) := by
  have hq : 0 < q := (Fact.out : q.Prime).pos
  have h2' : (2 : Fq2 (ZMod q)) ≠ 0 := fun h => h2 (congrArg QuadraticAlgebra.re h)
  have h3' : (3 : Fq2 (ZMod q)) ≠ 0 := fun h => h3 (congrArg QuadraticAlgebra.re h)
  have hns := (Props.nonsingular_iff h2' h3' hb _ _).2 hon
  have hy' : (⟨((q - y.1 : Nat) : ZMod q), ((q - y.2 : Nat) : ZMod q)⟩ : Fq2 (ZMod q)) = -⟨y.1, y.2⟩ := by
    ext
    · simp only [QuadraticAlgebra.re_neg]; rw [Nat.cast_sub hy.1, ZMod.natCast_self, zero_sub]
    · simp only [QuadraticAlgebra.im_neg]; rw [Nat.cast_sub hy.2, ZMod.natCast_self, zero_sub]
  exact ⟨.some _ _ hns, rfl, Ops.killed (A := natOps2 q f) (natOps2_into q f hq) ⟨hns, rfl⟩ fuel k hm hy'⟩

/-- The coordinates of the generator of the twist of BN256. -/
def bnG2x : Nat × Nat := (10857046999023057135944570762232829481370756359578518086990519993285655852781,
  11559732032986387107991004021392285783925812861821192530917403151452391805634)

/-- The coordinates of the generator of the twist of BN256. -/
def bnG2y : Nat × Nat := (8495653923123431417604973247489272438418190587263600148770280649306958101930,
  4082367875863433681332203403145435568316851327593401208105741076214120093531)

theorem bnG2_multiple : (natOps2 bnQ 254).isMultiple (bnG2x, bnG2y) 256 (bnR - 1) (bnG2x, (bnQ - bnG2y.1, bnQ - bnG2y.2)) = true := by
  decide +kernel

/-- The coordinates of the generator of the twist of BLS12-381. -/
def blsG2x : Nat × Nat :=
  (0x024aa2b2f08f0a91260805272dc51051c6e47ad4fa403b02b4510b647ae3d1770bac0326a805bbefd48056c8c121bdb8,
   0x13e02b6052719f607dacd3a088274f65596bd0d09920b61ab5da61bbdc7f5049334cf11213945d57e5ac7d055d042b7e)

/-- The coordinates of the generator of the twist of BLS12-381. -/
def blsG2y : Nat × Nat :=
  (0x0ce5d527727d6e118cc9cdc6da2e351aadfd9baa8cbdd3a76d429a695160d12c923ac9cc3baca289e193548608b82801,
   0x0606c4a02ea734cc32acd2b02bc28b99cb3e287e85a763af267492ab572e99ab3f370d275cec1da1aaa9075ff05f79be)

theorem blsG2_multiple :
    (natOps2 blsQ 381).isMultiple (blsG2x, blsG2y) 256 (blsR - 1) (blsG2x, (blsQ - blsG2y.1, blsQ - blsG2y.2)) = true := by
  decide +kernel

end Fawkes
