import Mathlib.FieldTheory.Finite.Basic
import Verif.Lemmas.PointBytes
import Verif.Props.Curves
import Verif.Props.Ecc
import Verif.Props.Session

/-!
# C110: the bytes of points

The encodings of the points of both curves, written out, have the properties that the theorems on keys, proofs and parameter files
(C54, C74, C78) assume.
-/

namespace Fawkes.Props

open Groth16 Groth16.Contract

/-! ## The groups with their bytes -/

section codecs

variable {K : Type} [Field K] [DecidableEq K]

open Classical in
/-- The test for the subgroup at the end of `into_affine`; `H` is the whole group where there is none. -/
noncomputable def inGroup (b : K) (H : AddSubgroup (PointsOf b)) (p : Affine K) : Option H :=
  if h : toGroup b p ∈ H then some ⟨toGroup b p, h⟩ else none

/-- Compressed points of BN256. -/
noncomputable def bnCodec (c : CoordBytes K) (sqrt : K → Option K) (b : K) (H : AddSubgroup (PointsOf b)) : Codec H where
  size := c.size
  encode P := compressBn c (affineOf P.1)
  decode bs := (decompressBn c sqrt b bs).bind (inGroup b H)
  isZero P := (affineOf P.1).infinity

/-- Compressed points of BLS12-381. -/
noncomputable def blsCodec (c : CoordBytes K) (sqrt : K → Option K) (b : K) (H : AddSubgroup (PointsOf b)) : Codec H where
  size := c.size
  encode P := compressBls c (affineOf P.1)
  decode bs := (decompressBls c sqrt b bs).bind (inGroup b H)
  isZero P := (affineOf P.1).infinity

/-- Uncompressed points of BN256.  `into_affine_unchecked` also returns pairs that are no points of the curve; as they are no elements
of the group, the unchecked reading is modelled here for points only (`C110_bn256_unchecked` is about all of it). -/
noncomputable def bnRaw (c : CoordBytes K) (b : K) (H : AddSubgroup (PointsOf b)) : RawCodec H where
  size := 2 * c.size
  encode P := uncompressedBn c (affineOf P.1)
  decode bs := (checkCurve b (readUncheckedBn c bs)).bind (inGroup b H)
  decodeUnchecked bs := (checkCurve b (readUncheckedBn c bs)).bind (inGroup b H)
  isZero P := (affineOf P.1).infinity

/-- Uncompressed points of BLS12-381; see `bnRaw`. -/
noncomputable def blsRawPoints (c : CoordBytes K) (b : K) (H : AddSubgroup (PointsOf b)) : RawCodec H where
  size := 2 * c.size
  encode P := uncompressedBls c (affineOf P.1)
  decode bs := (checkCurve b (readUncheckedBls c bs)).bind (inGroup b H)
  decodeUnchecked bs := (checkCurve b (readUncheckedBls c bs)).bind (inGroup b H)
  isZero P := (affineOf P.1).infinity

/-- What is needed of a curve. -/
structure GoodCurve (b : K) : Prop where
  two : (2 : K) ≠ 0
  three : (3 : K) ≠ 0
  coeff : b ≠ 0
  noRoot : ∀ x : K, x ^ 3 + b ≠ 0

variable {c : CoordBytes K} {num : K → Nat} {b : K} {H : AddSubgroup (PointsOf b)}

theorem toGroup_affineOf (P : PointsOf b) : toGroup b (affineOf P) = P := by
  cases P with
  | zero => simp [affineOf, toGroup]
  | some x y h => simp [affineOf, toGroup, h]

theorem onCurve_affineOf (G : GoodCurve b) (P : PointsOf b) : Groth16.OnCurve b (affinePoint (affineOf P)) := by
  cases P with
  | zero => trivial
  | some x y h => exact (nonsingular_iff G.two G.three G.coeff x y).1 h

/-- A triple that stands for a point of the curve in the way the crate writes it. -/
theorem affineOf_toGroup (G : GoodCurve b) {p : Affine K} (h : p = zeroAffine ∨ p.infinity = false ∧ p.y ^ 2 = p.x ^ 3 + b) :
    affineOf (toGroup b p) = p := by
  rcases h with rfl | ⟨h1, h2⟩
  · simp [toGroup, zeroAffine, affineOf]
  · obtain ⟨x, y, i⟩ := p
    simp only at h1 h2
    subst h1
    have := (nonsingular_iff G.two G.three G.coeff x y).2 h2
    simp [toGroup, this, affineOf]

theorem inGroup_iff (p : Affine K) (P : H) : inGroup b H p = some P ↔ toGroup b p = P.1 := by
  unfold inGroup
  by_cases h : toGroup b p ∈ H
  · rw [dif_pos h]
    constructor
    · intro e; cases e; rfl
    · intro e; exact congrArg some (Subtype.ext e)
  · rw [dif_neg h]
    simp only [reduceCtorEq, false_iff]
    intro e
    exact h (e ▸ P.2)

/-- What a reader of triples returns, if it returns only triples of the kind the crate writes. -/
theorem bind_inGroup (G : GoodCurve b) {o : Option (Affine K)}
    (ho : ∀ p, o = some p → p = zeroAffine ∨ p.infinity = false ∧ p.y ^ 2 = p.x ^ 3 + b) (P : H) :
    o.bind (inGroup b H) = some P ↔ o = some (affineOf P.1) := by
  cases o with
  | none => simp
  | some p =>
    simp only [Option.bind_some, Option.some.injEq]
    rw [inGroup_iff]
    constructor
    · intro h
      rw [← affineOf_toGroup G (ho p rfl), h]
    · rintro rfl
      exact toGroup_affineOf _

theorem affineOf_cases (P : PointsOf b) : (P = 0 ∧ affineOf P = zeroAffine ∧ coords P = none) ∨
    (P ≠ 0 ∧ (affineOf P).infinity = false ∧ coords P = some ((affineOf P).x, (affineOf P).y)) := by
  cases P with
  | zero => exact Or.inl ⟨rfl, rfl, rfl⟩
  | some x y h => exact Or.inr ⟨WeierstrassCurve.Affine.Point.some_ne_zero h, rfl, rfl⟩

theorem isZero_affineOf (P : H) : (affineOf P.1).infinity = true ↔ P = 0 := by
  rcases affineOf_cases P.1 with ⟨h1, h2, -⟩ | ⟨h1, h2, -⟩
  · rw [h2]
    exact iff_of_true rfl (Subtype.ext h1)
  · rw [h2]
    simp only [Bool.false_eq_true, false_iff]
    exact fun h => h1 (congrArg Subtype.val h)

theorem y_ne_zero (G : GoodCurve b) {x y : K} (h : y ^ 2 = x ^ 3 + b) : y ≠ 0 := by
  rintro rfl
  exact G.noRoot x (by rw [← h]; ring)

theorem bnCodec_decode (L : LawfulBytes c num) (hr : ∀ x, num x < 2 ^ (8 * c.size - 2)) (G : GoodCurve b) {sqrt : K → Option K}
    (hs : IsSqrt sqrt) {bs : List UInt8} (hl : bs.length = c.size) (P : H) :
    (bnCodec c sqrt b H).decode bs = some P ↔ beNat bs = bnCode num (8 * c.size) (coords P.1) ∨
      P = 0 ∧ beNat bs = 2 ^ (8 * c.size - 2) + 2 ^ (8 * c.size - 1) := by
  show (decompressBn c sqrt b bs).bind (inGroup b H) = some P ↔ _
  have hiff := decompressBn_iff L hr G.two hs b hl
  rw [bind_inGroup G fun p hp => ((hiff p).1 hp).imp And.left fun h => ⟨h.1, h.2.1⟩, hiff]
  have hz : P = 0 ↔ P.1 = 0 := ⟨fun h => congrArg Subtype.val h, fun h => Subtype.ext h⟩
  rcases affineOf_cases P.1 with ⟨h1, h2, h3⟩ | ⟨h1, h2, h3⟩
  · rw [h2, h3]
    simp only [hz, h1, true_and, bnCode]
    constructor
    · rintro (h | ⟨h, -⟩)
      · exact h
      · cases h
    · exact Or.inl
  · have hne : affineOf P.1 ≠ zeroAffine := fun h => by rw [h] at h2; cases h2
    have hon := onCurve_affineOf G P.1
    rw [affinePoint, h2] at hon
    have hy := y_ne_zero G hon
    rw [h3]
    constructor
    · rintro (⟨h, -⟩ | ⟨-, -, h | ⟨h, -⟩⟩)
      · exact absurd h hne
      · exact Or.inl h
      · exact absurd h hy
    · rintro (h | ⟨h, -⟩)
      · exact Or.inr ⟨h2, hon, Or.inl h⟩
      · exact absurd (hz.1 h) h1

theorem blsCodec_decode (L : LawfulBytes c num) (hr : ∀ x, num x < 2 ^ (8 * c.size - 3)) (G : GoodCurve b) {sqrt : K → Option K}
    (hs : IsSqrt sqrt) {bs : List UInt8} (hl : bs.length = c.size) (P : H) :
    (blsCodec c sqrt b H).decode bs = some P ↔ beNat bs = blsCode num (8 * c.size) (coords P.1) := by
  show (decompressBls c sqrt b bs).bind (inGroup b H) = some P ↔ _
  have hiff := decompressBls_iff L hr G.two hs b hl
  rw [bind_inGroup G fun p hp => ((hiff p).1 hp).imp And.left fun h => ⟨h.1, h.2.1⟩, hiff]
  rcases affineOf_cases P.1 with ⟨h1, h2, h3⟩ | ⟨h1, h2, h3⟩
  · rw [h2, h3]
    constructor
    · rintro (h | ⟨h, -⟩)
      · exact h.2
      · cases h
    · exact fun h => Or.inl ⟨rfl, h⟩
  · have hne : affineOf P.1 ≠ zeroAffine := fun h => by rw [h] at h2; cases h2
    have hon := onCurve_affineOf G P.1
    rw [affinePoint, h2] at hon
    have hy := y_ne_zero G hon
    rw [h3]
    constructor
    · rintro (⟨h, -⟩ | ⟨-, -, h | ⟨h, -⟩⟩)
      · exact absurd h hne
      · exact h
      · exact absurd h hy
    · exact fun h => Or.inr ⟨h2, hon, Or.inl h⟩

theorem bnRaw_decode (L : LawfulBytes c num) (hr : ∀ x, num x < 2 ^ (8 * c.size - 2)) (G : GoodCurve b) {bs : List UInt8}
    (hl : bs.length = 2 * c.size) (P : H) :
    (bnRaw c b H).decode bs = some P ↔ beNat bs = rawCode num (8 * c.size) (coords P.1) ∨
      P = 0 ∧ beNat bs = 2 ^ (2 * (8 * c.size) - 2) + 2 ^ (2 * (8 * c.size) - 1) := by
  show (checkCurve b (readUncheckedBn c bs)).bind (inGroup b H) = some P ↔ _
  have hiff := readUncheckedBn_iff L hr hl
  have hz : P = 0 ↔ P.1 = 0 := ⟨fun h => congrArg Subtype.val h, fun h => Subtype.ext h⟩
  rw [bind_inGroup G, checkCurve_iff, hiff]
  · rcases affineOf_cases P.1 with ⟨h1, h2, h3⟩ | ⟨h1, h2, h3⟩
    · rw [h2, h3]
      simp only [hz, h1, true_and, rawCode, raw_bits]
      constructor
      · rintro ⟨h | ⟨h, -⟩, -⟩
        · exact h
        · cases h
      · exact fun h => ⟨Or.inl h, trivial⟩
    · have hne : affineOf P.1 ≠ zeroAffine := fun h => by rw [h] at h2; cases h2
      rw [h3]
      constructor
      · rintro ⟨⟨h, -⟩ | ⟨-, h⟩, -⟩
        · exact absurd h hne
        · exact Or.inl h
      · rintro (h | ⟨h, -⟩)
        · exact ⟨Or.inr ⟨h2, h⟩, onCurve_affineOf G P.1⟩
        · exact absurd (hz.1 h) h1
  · intro p hp
    obtain ⟨h1, h2⟩ := (checkCurve_iff _ _ _).1 hp
    rcases (hiff p).1 h1 with h | h
    · exact Or.inl h.1
    · rw [affinePoint, h.1] at h2
      exact Or.inr ⟨h.1, h2⟩

theorem blsRaw_decode (L : LawfulBytes c num) (hr : ∀ x, num x < 2 ^ (8 * c.size - 3)) (G : GoodCurve b) {bs : List UInt8}
    (hl : bs.length = 2 * c.size) (P : H) :
    (blsRawPoints c b H).decode bs = some P ↔ beNat bs = rawCode num (8 * c.size) (coords P.1) := by
  show (checkCurve b (readUncheckedBls c bs)).bind (inGroup b H) = some P ↔ _
  have hiff := readUncheckedBls_iff L hr hl
  rw [bind_inGroup G, checkCurve_iff, hiff]
  · rcases affineOf_cases P.1 with ⟨h1, h2, h3⟩ | ⟨h1, h2, h3⟩
    · rw [h2, h3]
      constructor
      · rintro ⟨h | ⟨h, -⟩, -⟩
        · exact h.2
        · cases h
      · exact fun h => ⟨Or.inl ⟨rfl, h⟩, trivial⟩
    · have hne : affineOf P.1 ≠ zeroAffine := fun h => by rw [h] at h2; cases h2
      rw [h3]
      constructor
      · rintro ⟨⟨h, -⟩ | ⟨-, h⟩, -⟩
        · exact absurd h hne
        · exact h
      · exact fun h => ⟨Or.inr ⟨h2, h⟩, onCurve_affineOf G P.1⟩
  · intro p hp
    obtain ⟨h1, h2⟩ := (checkCurve_iff _ _ _).1 hp
    rcases (hiff p).1 h1 with h | h
    · exact Or.inl h.1
    · rw [affinePoint, h.1] at h2
      exact Or.inr ⟨h.1, h2⟩

end codecs

/-! ## The four curves -/

/-- A number whose power with exponent `(q - 1) / 3` is not one is no cube. -/
theorem not_cube {q : Nat} [Fact q.Prime] (hq : q % 3 = 1) (f a : Nat) (hf : q < 2 ^ f) (ha : (a : ZMod q) ≠ 0)
    (h : powMod q f a ((q - 1) / 3) ≠ 1) (x : ZMod q) : x ^ 3 ≠ a := by
  have hp := (Fact.out : q.Prime)
  intro hx
  have hx0 : x ≠ 0 := by
    rintro rfl
    exact ha (by rw [← hx]; ring)
  have h1 : (a : ZMod q) ^ ((q - 1) / 3) = 1 := by
    rw [← hx, ← pow_mul, show 3 * ((q - 1) / 3) = q - 1 by have := hp.two_le; omega]
    exact ZMod.pow_card_sub_one_eq_one hx0
  apply h
  rw [powMod_eq _ _ _ _ (lt_of_le_of_lt (Nat.div_le_self _ _) (by omega))]
  have h2 : ((a ^ ((q - 1) / 3) : Nat) : ZMod q) = ((1 : Nat) : ZMod q) := by push_cast; exact h1
  rw [ZMod.natCast_eq_natCast_iff] at h2
  rw [h2, Nat.mod_eq_of_lt hp.one_lt]

theorem goodBn : GoodCurve bnB where
  two := two_ne_zero_bnQ
  three := three_ne_zero_bnQ
  coeff := bnB_ne_zero
  noRoot x h := by
    rw [C52_constants.1] at h
    have h3 : ((bnQ - 3 : Nat) : ZMod bnQ) = -3 := by decide +kernel
    refine not_cube (q := bnQ) (by decide +kernel) 254 (bnQ - 3) (by decide +kernel) (by decide +kernel) (by decide +kernel) x ?_
    rw [h3]
    linear_combination h

theorem goodBls : GoodCurve blsB where
  two := two_ne_zero_blsQ
  three := three_ne_zero_blsQ
  coeff := blsB_ne_zero
  noRoot x h := by
    rw [C52_constants.2] at h
    have h3 : ((blsQ - 4 : Nat) : ZMod blsQ) = -4 := by decide +kernel
    refine not_cube (q := blsQ) (by decide +kernel) 381 (blsQ - 4) (by decide +kernel) (by decide +kernel) (by decide +kernel) x ?_
    rw [h3]
    linear_combination h

theorem goodBn2 : GoodCurve bnB2 where
  two := two_ne_zero_fq2
  three := three_ne_zero_fq2
  coeff := bnB2_ne_zero
  noRoot x h := by
    have h1 : x ^ 3 * ⟨9, 1⟩ = -⟨3, 0⟩ := by
      rw [← C52_constants_twist.1]; linear_combination ⟨9, 1⟩ * h
    have h2 := congrArg QuadraticAlgebra.norm h1
    rw [map_mul, map_pow] at h2
    have h3 : (QuadraticAlgebra.norm (⟨9, 1⟩ : Fq2 (ZMod bnQ))) = 82 := by decide +kernel
    have h4 : (QuadraticAlgebra.norm (-⟨3, 0⟩ : Fq2 (ZMod bnQ))) = 9 := by decide +kernel
    rw [h3, h4] at h2
    have h5 : ((21087453498479301738505683583845423561061080261299122796980902361914303298513 : Nat) : ZMod bnQ) * 82 = 9 := by
      decide +kernel
    have h6 : (82 : ZMod bnQ) ≠ 0 := by decide +kernel
    refine not_cube (q := bnQ) (by decide +kernel) 254
      21087453498479301738505683583845423561061080261299122796980902361914303298513 (by decide +kernel) (by decide +kernel)
      (by decide +kernel) (QuadraticAlgebra.norm x) ?_
    exact mul_right_cancel₀ h6 (h2.trans h5.symm)

theorem two_ne_zero_blsFq2 : (2 : Fq2 (ZMod blsQ)) ≠ 0 := fun h => two_ne_zero_blsQ (congrArg QuadraticAlgebra.re h)

theorem three_ne_zero_blsFq2 : (3 : Fq2 (ZMod blsQ)) ≠ 0 := fun h => three_ne_zero_blsQ (congrArg QuadraticAlgebra.re h)

theorem goodBls2 : GoodCurve blsB2 where
  two := two_ne_zero_blsFq2
  three := three_ne_zero_blsFq2
  coeff := blsB2_ne_zero
  noRoot x h := by
    have h1 : x ^ 3 = -⟨4, 4⟩ := by
      rw [← C52_constants_twist.2]; linear_combination h
    have h2 := congrArg QuadraticAlgebra.norm h1
    rw [map_pow] at h2
    have h4 : (QuadraticAlgebra.norm (-⟨4, 4⟩ : Fq2 (ZMod blsQ))) = ((32 : Nat) : ZMod blsQ) := by decide +kernel
    rw [h4] at h2
    exact not_cube (q := blsQ) (by decide +kernel) 381 32 (by decide +kernel) (by decide +kernel) (by decide +kernel)
      (QuadraticAlgebra.norm x) h2

theorem room_fq {q k : Nat} [Fact q.Prime] (h : q ≤ 2 ^ (8 * (8 * nLimbs q) - k)) (x : ZMod q) :
    fqNumber x < 2 ^ (8 * (fqBytes q).size - k) := lt_of_lt_of_le (ZMod.val_lt x) h

theorem room_fq2 {q k : Nat} [Fact q.Prime] (hk : k ≤ 64) (h : q ≤ 2 ^ (8 * (8 * nLimbs q) - k)) (x : Fq2 (ZMod q)) :
    fq2Number (64 * nLimbs q) x < 2 ^ (8 * (fq2Bytes q).size - k) := by
  have h1 : x.im.val < 2 ^ (64 * nLimbs q - k) := lt_of_lt_of_le (ZMod.val_lt x.im) (by rw [← mul_assoc] at h; exact h)
  have h2 := val_lt_limbs x.re
  have h3 : 64 ≤ 64 * nLimbs q := by unfold nLimbs; omega
  have h4 : 2 ^ (8 * (fq2Bytes q).size - k) = 2 ^ (64 * nLimbs q - k) * 2 ^ (64 * nLimbs q) := by
    rw [← pow_add]
    congr 1
    show 8 * (2 * (8 * nLimbs q)) - k = _
    omega
  rw [h4]
  unfold fq2Number
  have := Nat.mul_le_mul_right (2 ^ (64 * nLimbs q)) (Nat.succ_le_of_lt h1)
  rw [Nat.succ_mul] at this
  omega

theorem nLimbs_bnQ : nLimbs bnQ = 4 := by decide +kernel

theorem nLimbs_blsQ : nLimbs blsQ = 6 := by decide +kernel

section results

/-! ## Compressed points -/

/-- C110: a point of BN256's `G1` is written as 32 bytes: the abscissa, most significant byte first, with the flags of the
specification.  From 32 bytes a point is read exactly if they are its encoding; the point at infinity has a second one. -/
theorem C110_bn256_g1 {sqrt : ZMod bnQ → Option (ZMod bnQ)} (hs : IsSqrt sqrt) (H : AddSubgroup (PointsOf bnB)) :
    (∀ P : H, ((bnCodec (fqBytes bnQ) sqrt bnB H).encode P).length = 32 ∧
      beNat ((bnCodec (fqBytes bnQ) sqrt bnB H).encode P) = bnCode fqNumber 256 (coords P.1)) ∧
    ∀ bs : List UInt8, bs.length = 32 → ∀ P : H, (bnCodec (fqBytes bnQ) sqrt bnB H).decode bs = some P ↔
      beNat bs = bnCode fqNumber 256 (coords P.1) ∨ P = 0 ∧ beNat bs = 2 ^ 254 + 2 ^ 255 := by
  have hsz : (fqBytes bnQ).size = 32 := by show 8 * nLimbs bnQ = 32; rw [nLimbs_bnQ]
  have L := fqBytes_lawful bnQ
  have hr : ∀ x, fqNumber x < 2 ^ (8 * (fqBytes bnQ).size - 2) := room_fq (by decide +kernel)
  refine ⟨fun P => ?_, fun bs hl P => ?_⟩
  · have := compressBn_spec L hr (affineOf P.1)
    rw [affinePoint_affineOf, hsz] at this
    exact this
  · have := bnCodec_decode (H := H) L hr goodBn hs (hl.trans hsz.symm) P
    rw [hsz] at this
    exact this

/-- C110: a point of BN256's `G2` is written as 64 bytes. -/
theorem C110_bn256_g2 {sqrt : Fq2 (ZMod bnQ) → Option (Fq2 (ZMod bnQ))} (hs : IsSqrt sqrt) (H : AddSubgroup (PointsOf bnB2)) :
    (∀ P : H, ((bnCodec (fq2Bytes bnQ) sqrt bnB2 H).encode P).length = 64 ∧
      beNat ((bnCodec (fq2Bytes bnQ) sqrt bnB2 H).encode P) = bnCode (fq2Number 256) 512 (coords P.1)) ∧
    ∀ bs : List UInt8, bs.length = 64 → ∀ P : H, (bnCodec (fq2Bytes bnQ) sqrt bnB2 H).decode bs = some P ↔
      beNat bs = bnCode (fq2Number 256) 512 (coords P.1) ∨ P = 0 ∧ beNat bs = 2 ^ 510 + 2 ^ 511 := by
  have hsz : (fq2Bytes bnQ).size = 64 := by show 2 * (8 * nLimbs bnQ) = 64; rw [nLimbs_bnQ]
  have L := fq2Bytes_lawful bnQ
  have hr := room_fq2 (q := bnQ) (k := 2) (by norm_num) (by decide +kernel)
  rw [nLimbs_bnQ] at L hr
  refine ⟨fun P => ?_, fun bs hl P => ?_⟩
  · have := compressBn_spec L hr (affineOf P.1)
    rw [affinePoint_affineOf, hsz] at this
    exact this
  · have := bnCodec_decode (H := H) L hr goodBn2 hs (hl.trans hsz.symm) P
    rw [hsz, show 8 * 64 - 2 = 510 from rfl, show 8 * 64 - 1 = 511 from rfl] at this
    exact this

/-- C110: a point of BLS12-381's `G1` is written as 48 bytes.  From 48 bytes a point is read exactly if they are its encoding. -/
theorem C110_bls12_381_g1 {sqrt : ZMod blsQ → Option (ZMod blsQ)} (hs : IsSqrt sqrt) (H : AddSubgroup (PointsOf blsB)) :
    (∀ P : H, ((blsCodec (fqBytes blsQ) sqrt blsB H).encode P).length = 48 ∧
      beNat ((blsCodec (fqBytes blsQ) sqrt blsB H).encode P) = blsCode fqNumber 384 (coords P.1)) ∧
    ∀ bs : List UInt8, bs.length = 48 → ∀ P : H, (blsCodec (fqBytes blsQ) sqrt blsB H).decode bs = some P ↔
      beNat bs = blsCode fqNumber 384 (coords P.1) := by
  have hsz : (fqBytes blsQ).size = 48 := by show 8 * nLimbs blsQ = 48; rw [nLimbs_blsQ]
  have L := fqBytes_lawful blsQ
  have hr : ∀ x, fqNumber x < 2 ^ (8 * (fqBytes blsQ).size - 3) := room_fq (by decide +kernel)
  refine ⟨fun P => ?_, fun bs hl P => ?_⟩
  · have := compressBls_spec L hr (affineOf P.1)
    rw [affinePoint_affineOf, hsz] at this
    exact this
  · have := blsCodec_decode (H := H) L hr goodBls hs (hl.trans hsz.symm) P
    rw [hsz] at this
    exact this

/-- C110: a point of BLS12-381's `G2` is written as 96 bytes. -/
theorem C110_bls12_381_g2 {sqrt : Fq2 (ZMod blsQ) → Option (Fq2 (ZMod blsQ))} (hs : IsSqrt sqrt) (H : AddSubgroup (PointsOf blsB2)) :
    (∀ P : H, ((blsCodec (fq2Bytes blsQ) sqrt blsB2 H).encode P).length = 96 ∧
      beNat ((blsCodec (fq2Bytes blsQ) sqrt blsB2 H).encode P) = blsCode (fq2Number 384) 768 (coords P.1)) ∧
    ∀ bs : List UInt8, bs.length = 96 → ∀ P : H, (blsCodec (fq2Bytes blsQ) sqrt blsB2 H).decode bs = some P ↔
      beNat bs = blsCode (fq2Number 384) 768 (coords P.1) := by
  have hsz : (fq2Bytes blsQ).size = 96 := by show 2 * (8 * nLimbs blsQ) = 96; rw [nLimbs_blsQ]
  have L := fq2Bytes_lawful blsQ
  have hr := room_fq2 (q := blsQ) (k := 3) (by norm_num) (by decide +kernel)
  rw [nLimbs_blsQ] at L hr
  refine ⟨fun P => ?_, fun bs hl P => ?_⟩
  · have := compressBls_spec L hr (affineOf P.1)
    rw [affinePoint_affineOf, hsz] at this
    exact this
  · have := blsCodec_decode (H := H) L hr goodBls2 hs (hl.trans hsz.symm) P
    rw [hsz] at this
    exact this

/-- C110: the flag for the ordinate: it is the greater one of `y` and `-y`.  In the base field this means more than half the modulus; in
the extension field it is decided by `c1`, and by `c0` if `c1` is zero. -/
theorem C110_ordinate {q : Nat} [Fact q.Prime] (h2 : q ≠ 2) :
    (∀ y : ZMod q, fqNumber (-y) < fqNumber y ↔ q < 2 * y.val) ∧
    ∀ y : Fq2 (ZMod q), fq2Number (64 * nLimbs q) (-y) < fq2Number (64 * nLimbs q) y ↔
      q < 2 * y.im.val ∨ y.im = 0 ∧ q < 2 * y.re.val := by
  have key : ∀ y : ZMod q, (-y).val < y.val ↔ q < 2 * y.val := by
    intro y
    have := ZMod.val_lt y
    rw [ZMod.neg_val]
    split
    · next h => subst h; simp
    · omega
  have hodd : ∀ y : ZMod q, (-y).val = y.val → y = 0 := by
    intro y h
    by_contra h0
    rw [ZMod.neg_val, if_neg h0] at h
    have := ZMod.val_lt y
    rcases (Fact.out : q.Prime).eq_two_or_odd with h3 | h3
    · exact h2 h3
    · omega
  refine ⟨key, fun y => ?_⟩
  rw [← (fq2Bytes_lawful q).lt]
  show (if (-y).im.val < y.im.val then true else if y.im.val < (-y).im.val then false else decide ((-y).re.val < y.re.val)) = true ↔ _
  rw [QuadraticAlgebra.im_neg, QuadraticAlgebra.re_neg, ← key, ← key]
  by_cases h1 : (-y.im).val < y.im.val
  · rw [if_pos h1]; simp [h1]
  · rw [if_neg h1]
    by_cases h3 : y.im.val < (-y.im).val
    · rw [if_pos h3]
      have : y.im ≠ 0 := by
        intro h0
        rw [h0] at h3
        simp at h3
      simp [this, h1]
    · rw [if_neg h3]
      have := hodd y.im (by omega)
      simp [this]

/-! ## Uncompressed points -/

/-- C110: uncompressed points of BN256. -/
theorem C110_bn256_raw (H1 : AddSubgroup (PointsOf bnB)) (H2 : AddSubgroup (PointsOf bnB2)) :
    (∀ P : H1, ((bnRaw (fqBytes bnQ) bnB H1).encode P).length = 64 ∧
      beNat ((bnRaw (fqBytes bnQ) bnB H1).encode P) = rawCode fqNumber 256 (coords P.1)) ∧
    (∀ bs : List UInt8, bs.length = 64 → ∀ P : H1, (bnRaw (fqBytes bnQ) bnB H1).decode bs = some P ↔
      beNat bs = rawCode fqNumber 256 (coords P.1) ∨ P = 0 ∧ beNat bs = 2 ^ 510 + 2 ^ 511) ∧
    (∀ P : H2, ((bnRaw (fq2Bytes bnQ) bnB2 H2).encode P).length = 128 ∧
      beNat ((bnRaw (fq2Bytes bnQ) bnB2 H2).encode P) = rawCode (fq2Number 256) 512 (coords P.1)) ∧
    ∀ bs : List UInt8, bs.length = 128 → ∀ P : H2, (bnRaw (fq2Bytes bnQ) bnB2 H2).decode bs = some P ↔
      beNat bs = rawCode (fq2Number 256) 512 (coords P.1) ∨ P = 0 ∧ beNat bs = 2 ^ 1022 + 2 ^ 1023 := by
  have hsz : (fqBytes bnQ).size = 32 := by show 8 * nLimbs bnQ = 32; rw [nLimbs_bnQ]
  have L := fqBytes_lawful bnQ
  have hr : ∀ x, fqNumber x < 2 ^ (8 * (fqBytes bnQ).size - 2) := room_fq (by decide +kernel)
  have hsz2 : (fq2Bytes bnQ).size = 64 := by show 2 * (8 * nLimbs bnQ) = 64; rw [nLimbs_bnQ]
  have L2 := fq2Bytes_lawful bnQ
  have hr2 := room_fq2 (q := bnQ) (k := 2) (by norm_num) (by decide +kernel)
  rw [nLimbs_bnQ] at L2 hr2
  refine ⟨fun P => ?_, fun bs hl P => ?_, fun P => ?_, fun bs hl P => ?_⟩
  · have := uncompressed_spec L (affineOf P.1)
    rw [affinePoint_affineOf, hsz] at this
    exact this
  · have := bnRaw_decode (H := H1) L hr goodBn (by rw [hl, hsz]) P
    rw [hsz, show 2 * (8 * 32) - 2 = 510 from rfl, show 2 * (8 * 32) - 1 = 511 from rfl] at this
    exact this
  · have := uncompressed_spec L2 (affineOf P.1)
    rw [affinePoint_affineOf, hsz2] at this
    exact this
  · have := bnRaw_decode (H := H2) L2 hr2 goodBn2 (by rw [hl, hsz2]) P
    rw [hsz2, show 2 * (8 * 64) - 2 = 1022 from rfl, show 2 * (8 * 64) - 1 = 1023 from rfl] at this
    exact this

/-- C110: uncompressed points of BLS12-381. -/
theorem C110_bls12_381_raw (H1 : AddSubgroup (PointsOf blsB)) (H2 : AddSubgroup (PointsOf blsB2)) :
    (∀ P : H1, ((blsRawPoints (fqBytes blsQ) blsB H1).encode P).length = 96 ∧
      beNat ((blsRawPoints (fqBytes blsQ) blsB H1).encode P) = rawCode fqNumber 384 (coords P.1)) ∧
    (∀ bs : List UInt8, bs.length = 96 → ∀ P : H1, (blsRawPoints (fqBytes blsQ) blsB H1).decode bs = some P ↔
      beNat bs = rawCode fqNumber 384 (coords P.1)) ∧
    (∀ P : H2, ((blsRawPoints (fq2Bytes blsQ) blsB2 H2).encode P).length = 192 ∧
      beNat ((blsRawPoints (fq2Bytes blsQ) blsB2 H2).encode P) = rawCode (fq2Number 384) 768 (coords P.1)) ∧
    ∀ bs : List UInt8, bs.length = 192 → ∀ P : H2, (blsRawPoints (fq2Bytes blsQ) blsB2 H2).decode bs = some P ↔
      beNat bs = rawCode (fq2Number 384) 768 (coords P.1) := by
  have hsz : (fqBytes blsQ).size = 48 := by show 8 * nLimbs blsQ = 48; rw [nLimbs_blsQ]
  have L := fqBytes_lawful blsQ
  have hr : ∀ x, fqNumber x < 2 ^ (8 * (fqBytes blsQ).size - 3) := room_fq (by decide +kernel)
  have hsz2 : (fq2Bytes blsQ).size = 96 := by show 2 * (8 * nLimbs blsQ) = 96; rw [nLimbs_blsQ]
  have L2 := fq2Bytes_lawful blsQ
  have hr2 := room_fq2 (q := blsQ) (k := 3) (by norm_num) (by decide +kernel)
  rw [nLimbs_blsQ] at L2 hr2
  refine ⟨fun P => ?_, fun bs hl P => ?_, fun P => ?_, fun bs hl P => ?_⟩
  · have := uncompressed_spec L (affineOf P.1)
    rw [affinePoint_affineOf, hsz] at this
    exact this
  · have := blsRaw_decode (H := H1) L hr goodBls (by rw [hl, hsz]) P
    rw [hsz] at this
    exact this
  · have := uncompressed_spec L2 (affineOf P.1)
    rw [affinePoint_affineOf, hsz2] at this
    exact this
  · have := blsRaw_decode (H := H2) L2 hr2 goodBls2 (by rw [hl, hsz2]) P
    rw [hsz2] at this
    exact this

/-- C110: what `into_affine_unchecked` returns, which tests nothing else: any two coordinates, on the curve or not. -/
theorem C110_bn256_unchecked (bs : List UInt8) (hl : bs.length = 64) (p : Affine (ZMod bnQ)) :
    readUncheckedBn (fqBytes bnQ) bs = some p ↔
      p = ⟨0, 1, true⟩ ∧ (beNat bs = 2 ^ 510 ∨ beNat bs = 2 ^ 510 + 2 ^ 511) ∨
      p.infinity = false ∧ beNat bs = p.x.val * 2 ^ 256 + p.y.val := by
  have hsz : (fqBytes bnQ).size = 32 := by show 8 * nLimbs bnQ = 32; rw [nLimbs_bnQ]
  have := readUncheckedBn_iff (fqBytes_lawful bnQ) (room_fq (by decide +kernel)) (by rw [hl, hsz]) p
  simp only [rawCode, hsz, show 2 * (8 * 32) - 2 = 510 from rfl, show 8 * (2 * 32) - 1 = 511 from rfl, show 8 * 32 = 256 from rfl] at this
  exact this

/-- C110: the same for BLS12-381. -/
theorem C110_bls12_381_unchecked (bs : List UInt8) (hl : bs.length = 96) (p : Affine (ZMod blsQ)) :
    readUncheckedBls (fqBytes blsQ) bs = some p ↔
      p = ⟨0, 1, true⟩ ∧ beNat bs = 2 ^ 766 ∨
      p.infinity = false ∧ beNat bs = p.x.val * 2 ^ 384 + p.y.val := by
  have hsz : (fqBytes blsQ).size = 48 := by show 8 * nLimbs blsQ = 48; rw [nLimbs_blsQ]
  have := readUncheckedBls_iff (fqBytes_lawful blsQ) (room_fq (by decide +kernel)) (by rw [hl, hsz]) p
  simp only [rawCode, hsz, show 2 * (8 * 48) - 2 = 766 from rfl, show 8 * 48 = 384 from rfl] at this
  exact this

/-- C110: the same for the coordinates in the extension field: `c1` stands before `c0`. -/
theorem C110_bn256_unchecked_g2 (bs : List UInt8) (hl : bs.length = 128) (p : Affine (Fq2 (ZMod bnQ))) :
    readUncheckedBn (fq2Bytes bnQ) bs = some p ↔
      p = ⟨0, 1, true⟩ ∧ (beNat bs = 2 ^ 1022 ∨ beNat bs = 2 ^ 1022 + 2 ^ 1023) ∨
      p.infinity = false ∧ beNat bs = (p.x.im.val * 2 ^ 256 + p.x.re.val) * 2 ^ 512 + (p.y.im.val * 2 ^ 256 + p.y.re.val) := by
  have hsz : (fq2Bytes bnQ).size = 64 := by show 2 * (8 * nLimbs bnQ) = 64; rw [nLimbs_bnQ]
  have L := fq2Bytes_lawful bnQ
  have hr := room_fq2 (q := bnQ) (k := 2) (by norm_num) (by decide +kernel)
  rw [nLimbs_bnQ] at L hr
  have := readUncheckedBn_iff L hr (by rw [hl, hsz]) p
  simp only [rawCode, hsz, show 2 * (8 * 64) - 2 = 1022 from rfl, show 8 * (2 * 64) - 1 = 1023 from rfl, show 8 * 64 = 512 from rfl] at this
  exact this

/-- C110: the same for BLS12-381. -/
theorem C110_bls12_381_unchecked_g2 (bs : List UInt8) (hl : bs.length = 192) (p : Affine (Fq2 (ZMod blsQ))) :
    readUncheckedBls (fq2Bytes blsQ) bs = some p ↔
      p = ⟨0, 1, true⟩ ∧ beNat bs = 2 ^ 1534 ∨
      p.infinity = false ∧ beNat bs = (p.x.im.val * 2 ^ 384 + p.x.re.val) * 2 ^ 768 + (p.y.im.val * 2 ^ 384 + p.y.re.val) := by
  have hsz : (fq2Bytes blsQ).size = 96 := by show 2 * (8 * nLimbs blsQ) = 96; rw [nLimbs_blsQ]
  have L := fq2Bytes_lawful blsQ
  have hr := room_fq2 (q := blsQ) (k := 3) (by norm_num) (by decide +kernel)
  rw [nLimbs_blsQ] at L hr
  have := readUncheckedBls_iff L hr (by rw [hl, hsz]) p
  simp only [rawCode, hsz, show 2 * (8 * 96) - 2 = 1534 from rfl, show 8 * 96 = 768 from rfl] at this
  exact this

/-! ## Keys, proofs and parameter files -/

/-- An encoding that can be read back, in which only infinity may have further encodings. -/
structure ExactCodec {G : Type} [Zero G] (c : Codec G) : Prop extends LawfulCodec c where
  isZero : ∀ g, c.isZero g = true ↔ g = 0
  unique : ∀ bs g, bs.length = c.size → c.decode bs = some g → g ≠ 0 → bs = c.encode g

theorem exact_of {G : Type} [Zero G] {c : Codec G} {n : Nat} {num : G → Nat} (hn : c.size = n) (hp : 0 < n)
    (h1 : ∀ g, (c.encode g).length = n ∧ beNat (c.encode g) = num g) (hz : ∀ g, c.isZero g = true ↔ g = 0)
    (h2 : ∀ bs : List UInt8, bs.length = n → ∀ g, (beNat bs = num g → c.decode bs = some g) ∧ (g ≠ 0 → c.decode bs = some g → beNat bs = num g)) :
    ExactCodec c where
  size_pos := by rw [hn]; exact hp
  length_encode g := by rw [hn]; exact (h1 g).1
  decode_encode g := (h2 _ (h1 g).1 g).1 (h1 g).2
  isZero := hz
  unique bs g hl hd h0 := by
    rw [hn] at hl
    exact beNat_inj (hl.trans (h1 g).1.symm) (((h2 bs hl g).2 h0 hd).trans (h1 g).2.symm)

theorem exact_bn1 {sqrt : ZMod bnQ → Option (ZMod bnQ)} (hs : IsSqrt sqrt) (H : AddSubgroup (PointsOf bnB)) :
    ExactCodec (bnCodec (fqBytes bnQ) sqrt bnB H) :=
  exact_of (by show 8 * nLimbs bnQ = 32; rw [nLimbs_bnQ]) (by norm_num) (C110_bn256_g1 hs H).1 isZero_affineOf fun bs hl g =>
    ⟨fun h => ((C110_bn256_g1 hs H).2 bs hl g).2 (Or.inl h), fun h0 h => (((C110_bn256_g1 hs H).2 bs hl g).1 h).resolve_right fun h => h0 h.1⟩

theorem exact_bn2 {sqrt : Fq2 (ZMod bnQ) → Option (Fq2 (ZMod bnQ))} (hs : IsSqrt sqrt) (H : AddSubgroup (PointsOf bnB2)) :
    ExactCodec (bnCodec (fq2Bytes bnQ) sqrt bnB2 H) :=
  exact_of (by show 2 * (8 * nLimbs bnQ) = 64; rw [nLimbs_bnQ]) (by norm_num) (C110_bn256_g2 hs H).1 isZero_affineOf fun bs hl g =>
    ⟨fun h => ((C110_bn256_g2 hs H).2 bs hl g).2 (Or.inl h), fun h0 h => (((C110_bn256_g2 hs H).2 bs hl g).1 h).resolve_right fun h => h0 h.1⟩

theorem exact_bls1 {sqrt : ZMod blsQ → Option (ZMod blsQ)} (hs : IsSqrt sqrt) (H : AddSubgroup (PointsOf blsB)) :
    ExactCodec (blsCodec (fqBytes blsQ) sqrt blsB H) :=
  exact_of (by show 8 * nLimbs blsQ = 48; rw [nLimbs_blsQ]) (by norm_num) (C110_bls12_381_g1 hs H).1 isZero_affineOf fun bs hl g =>
    ⟨((C110_bls12_381_g1 hs H).2 bs hl g).2, fun _ => ((C110_bls12_381_g1 hs H).2 bs hl g).1⟩

theorem exact_bls2 {sqrt : Fq2 (ZMod blsQ) → Option (Fq2 (ZMod blsQ))} (hs : IsSqrt sqrt) (H : AddSubgroup (PointsOf blsB2)) :
    ExactCodec (blsCodec (fq2Bytes blsQ) sqrt blsB2 H) :=
  exact_of (by show 2 * (8 * nLimbs blsQ) = 96; rw [nLimbs_blsQ]) (by norm_num) (C110_bls12_381_g2 hs H).1 isZero_affineOf fun bs hl g =>
    ⟨((C110_bls12_381_g2 hs H).2 bs hl g).2, fun _ => ((C110_bls12_381_g2 hs H).2 bs hl g).1⟩

/-- The keys, the proofs and the texts that can be read: exactly those that were written. -/
def ReadsWhatWasWritten {G1 G2 : Type} [Zero G1] [Zero G2] (c1 : Codec G1) (c2 : Codec G2) (r : Nat) [Fact r.Prime] : Prop :=
  (∀ (buf : List UInt8) (v : VK G1 G2), vkRead c1 c2 buf = some v ↔
    (v.alphaG1 ≠ 0 ∧ v.betaG2 ≠ 0 ∧ v.gammaG2 ≠ 0 ∧ v.deltaG2 ≠ 0 ∧ ∀ g ∈ v.ic, g ≠ 0) ∧
      ∃ junk, junk.length < c1.size ∧ buf = vkWrite c1 c2 v ++ junk) ∧
  (∀ (buf : List UInt8) (p : Proof G1 G2), proofRead c1 c2 buf = some p ↔
    (p.a ≠ 0 ∧ p.b ≠ 0 ∧ p.c ≠ 0) ∧ ∃ rest, buf = proofWrite c1 c2 p ++ rest) ∧
  LosslessFinite (Cli.wavesFormat c1 c2 r)

theorem reads_of_exact {G1 G2 : Type} [Zero G1] [Zero G2] {c1 : Codec G1} {c2 : Codec G2} (h1 : ExactCodec c1) (h2 : ExactCodec c2)
    (r : Nat) [Fact r.Prime] : ReadsWhatWasWritten c1 c2 r := by
  have z1 : ∀ g, c1.isZero g = false ↔ g ≠ 0 := fun g => by rw [← Bool.not_eq_true, h1.isZero]
  have z2 : ∀ g, c2.isZero g = false ↔ g ≠ 0 := fun g => by rw [← Bool.not_eq_true, h2.isZero]
  refine ⟨fun buf v => ?_, fun buf p => ?_, C78_waves_format h1.toLawfulCodec h2.toLawfulCodec (fun g => (h1.isZero g).1) fun g => (h2.isZero g).1⟩
  · rw [C54_canonical h1.toLawfulCodec h2.toLawfulCodec (fun bs g hl hd hz => h1.unique bs g hl hd ((z1 g).1 hz))
      (fun bs g hl hd hz => h2.unique bs g hl hd ((z2 g).1 hz))]
    unfold NoInfinity
    simp only [z1, z2]
  · constructor
    · intro h
      obtain ⟨a, b, c, rest, rfl, ⟨l1, d1, e1⟩, ⟨l2, d2, e2⟩, l3, d3, e3⟩ := (C74_proof_read _ _).1 h
      rw [z1] at e1 e3
      rw [z2] at e2
      refine ⟨⟨e1, e2, e3⟩, rest, ?_⟩
      rw [h1.unique _ _ l1 d1 e1, h2.unique _ _ l2 d2 e2, h1.unique _ _ l3 d3 e3]
      rfl
    · rintro ⟨⟨e1, e2, e3⟩, rest, rfl⟩
      exact C74_proof_round_trip h1.toLawfulCodec h2.toLawfulCodec p ⟨(z1 _).2 e1, (z2 _).2 e2, (z1 _).2 e3⟩ rest

/-- C110: verification keys and proofs of BN256, and the files of the Waves binding. -/
theorem C110_bn256_keys {sqrt : ZMod bnQ → Option (ZMod bnQ)} (hs : IsSqrt sqrt) {sqrt2 : Fq2 (ZMod bnQ) → Option (Fq2 (ZMod bnQ))}
    (hs2 : IsSqrt sqrt2) (H1 : AddSubgroup (PointsOf bnB)) (H2 : AddSubgroup (PointsOf bnB2)) :
    ReadsWhatWasWritten (bnCodec (fqBytes bnQ) sqrt bnB H1) (bnCodec (fq2Bytes bnQ) sqrt2 bnB2 H2) bnR :=
  reads_of_exact (exact_bn1 hs H1) (exact_bn2 hs2 H2) bnR

/-- C110: verification keys and proofs of BLS12-381, and the files of the Waves binding. -/
theorem C110_bls12_381_keys {sqrt : ZMod blsQ → Option (ZMod blsQ)} (hs : IsSqrt sqrt)
    {sqrt2 : Fq2 (ZMod blsQ) → Option (Fq2 (ZMod blsQ))} (hs2 : IsSqrt sqrt2) (H1 : AddSubgroup (PointsOf blsB))
    (H2 : AddSubgroup (PointsOf blsB2)) :
    ReadsWhatWasWritten (blsCodec (fqBytes blsQ) sqrt blsB H1) (blsCodec (fq2Bytes blsQ) sqrt2 blsB2 H2) blsR :=
  reads_of_exact (exact_bls1 hs H1) (exact_bls2 hs2 H2) blsR

theorem bnRaw_size {K : Type} [Field K] [DecidableEq K] (c : CoordBytes K) (b : K) (H : AddSubgroup (PointsOf b)) :
    (bnRaw c b H).size = 2 * c.size := rfl

theorem blsRawPoints_size {K : Type} [Field K] [DecidableEq K] (c : CoordBytes K) (b : K) (H : AddSubgroup (PointsOf b)) :
    (blsRawPoints c b H).size = 2 * c.size := rfl

theorem fqBytes_size (q : Nat) : (fqBytes q).size = 8 * nLimbs q := rfl

theorem fq2Bytes_size (q : Nat) [Fact q.Prime] : (fq2Bytes q).size = 2 * (8 * nLimbs q) := rfl

/-- C110: the encodings of the parameter files have the properties that C74 and C78 assume. -/
theorem C110_raw_lawful (H1 : AddSubgroup (PointsOf bnB)) (H2 : AddSubgroup (PointsOf bnB2)) (H1' : AddSubgroup (PointsOf blsB))
    (H2' : AddSubgroup (PointsOf blsB2)) :
    LawfulRawZero (bnRaw (fqBytes bnQ) bnB H1) ∧ LawfulRawZero (bnRaw (fq2Bytes bnQ) bnB2 H2) ∧
    LawfulRawZero (blsRawPoints (fqBytes blsQ) blsB H1') ∧ LawfulRawZero (blsRawPoints (fq2Bytes blsQ) blsB2 H2') := by
  obtain ⟨a1, a2, a3, a4⟩ := C110_bn256_raw H1 H2
  obtain ⟨b1, b2, b3, b4⟩ := C110_bls12_381_raw H1' H2'
  refine ⟨⟨⟨fun g => ?_, fun g => ?_, fun g => ?_⟩, fun g => (isZero_affineOf g).1⟩,
    ⟨⟨fun g => ?_, fun g => ?_, fun g => ?_⟩, fun g => (isZero_affineOf g).1⟩,
    ⟨⟨fun g => ?_, fun g => ?_, fun g => ?_⟩, fun g => (isZero_affineOf g).1⟩,
    ⟨⟨fun g => ?_, fun g => ?_, fun g => ?_⟩, fun g => (isZero_affineOf g).1⟩⟩
  · rw [(a1 g).1, bnRaw_size, fqBytes_size, nLimbs_bnQ]
  · exact (a2 _ (a1 g).1 g).2 (Or.inl (a1 g).2)
  · exact (a2 _ (a1 g).1 g).2 (Or.inl (a1 g).2)
  · rw [(a3 g).1, bnRaw_size, fq2Bytes_size, nLimbs_bnQ]
  · exact (a4 _ (a3 g).1 g).2 (Or.inl (a3 g).2)
  · exact (a4 _ (a3 g).1 g).2 (Or.inl (a3 g).2)
  · rw [(b1 g).1, blsRawPoints_size, fqBytes_size, nLimbs_blsQ]
  · exact (b2 _ (b1 g).1 g).2 (b1 g).2
  · exact (b2 _ (b1 g).1 g).2 (b1 g).2
  · rw [(b3 g).1, blsRawPoints_size, fq2Bytes_size, nLimbs_blsQ]
  · exact (b4 _ (b3 g).1 g).2 (b3 g).2
  · exact (b4 _ (b3 g).1 g).2 (b3 g).2

/-- Every point has one uncompressed form; infinity may have more, if `P` is false for it. -/
def UniqueRaw {G : Type} (u : RawCodec G) (P : G → Prop) : Prop :=
  ∀ (checked : Bool) bs g, bs.length = u.size → (if checked then u.decode bs else u.decodeUnchecked bs) = some g → P g → bs = u.encode g

theorem rawList_unique {G : Type} {u : RawCodec G} {P : G → Prop} (hu : UniqueRaw u P) (hP : ∀ g, u.isZero g = false → P g) {checked : Bool}
    {bs : List UInt8} {l : List G} (h : RawList u checked bs l) (hl : l.length < 2 ^ 32) : bs = (rawChunks u l).flatten := by
  obtain ⟨count, bss, h4, hn, rfl, hF⟩ := h
  have hc : count = be32 l.length := beNat_inj (by rw [h4]; rfl) (by rw [hn, beNat_be32 _ hl])
  subst hc
  show _ = be32 l.length ++ (l.map u.encode).flatten
  congr 1
  clear hn h4 hl
  induction hF with
  | nil => rfl
  | cons hB _ ih =>
    rw [List.map_cons, List.flatten_cons, List.flatten_cons, ih, hu _ _ _ hB.1 hB.2.1 (hP _ (hB.2.2 rfl))]

theorem params_exact {G1 G2 : Type} {u1 : RawCodec G1} {u2 : RawCodec G2} {P1 : G1 → Prop} {P2 : G2 → Prop} (h1 : LawfulRaw u1)
    (h2 : LawfulRaw u2) (e1 : UniqueRaw u1 P1) (e2 : UniqueRaw u2 P2) (f1 : ∀ g, u1.isZero g = false → P1 g)
    (f2 : ∀ g, u2.isZero g = false → P2 g) (checked : Bool) (buf rest : List UInt8) (p : Parameters G1 G2)
    (hv : P1 p.vk.alphaG1 ∧ P1 p.vk.betaG1 ∧ P2 p.vk.betaG2 ∧ P2 p.vk.gammaG2 ∧ P1 p.vk.deltaG1 ∧ P2 p.vk.deltaG2) :
    paramsRead u1 u2 checked buf = some (p, rest) ↔ Storable u1 u2 p ∧ buf = paramsBytes u1 u2 p ++ rest := by
  constructor
  · intro h
    have hS := C74_params_no_infinity _ _ _ _ h
    refine ⟨hS, ?_⟩
    obtain ⟨b1, b2, b3, b4, b5, b6, ic, l1, l2, l3, l4, l5, rfl, k1, k2, k3, k4, k5, k6, k7, k8, k9, k10, k11, k12⟩ :=
      (C74_params_read _ _ _ _).1 h
    obtain ⟨v1, v2, v3, v4, v5, v6⟩ := hv
    obtain ⟨hl, hb, -⟩ := hS
    simp only [List.forall_mem_cons, List.not_mem_nil, false_imp_iff, implies_true, and_true] at hl
    obtain ⟨⟨i1, -⟩, ⟨i2, -⟩, ⟨i3, -⟩, ⟨i4, -⟩, ⟨i5, -⟩⟩ := hl
    rw [e1 true _ _ k1.1 k1.2.1 v1, e1 true _ _ k2.1 k2.2.1 v2, e2 true _ _ k3.1 k3.2.1 v3, e2 true _ _ k4.1 k4.2.1 v4,
      e1 true _ _ k5.1 k5.2.1 v5, e2 true _ _ k6.1 k6.2.1 v6, rawList_unique e1 f1 k7 i1, rawList_unique e1 f1 k8 i2,
      rawList_unique e1 f1 k9 i3, rawList_unique e1 f1 k10 i4, rawList_unique e1 f1 k11 i5, rawList_unique e2 f2 k12 hb]
    simp [paramsBytes, paramsChunks, fullVKChunks]
  · rintro ⟨hS, rfl⟩
    exact C74_params_round_trip h1 h2 checked p hS rest

/-- No point of the lists is infinity, and the lists have less than `2^32` points. -/
def FiniteLists {G1 G2 : Type} [Zero G1] [Zero G2] (p : Parameters G1 G2) : Prop :=
  (∀ l ∈ [p.vk.ic, p.h, p.l, p.a, p.bG1], l.length < 2 ^ 32 ∧ ∀ g ∈ l, g ≠ 0) ∧ p.bG2.length < 2 ^ 32 ∧ ∀ g ∈ p.bG2, g ≠ 0

theorem storable_iff {G1 G2 : Type} [Zero G1] [Zero G2] {u1 : RawCodec G1} {u2 : RawCodec G2} (z1 : ∀ g, u1.isZero g = true ↔ g = 0)
    (z2 : ∀ g, u2.isZero g = true ↔ g = 0) (p : Parameters G1 G2) : Storable u1 u2 p ↔ FiniteLists p := by
  have z1' : ∀ g, u1.isZero g = false ↔ g ≠ 0 := fun g => by rw [← Bool.not_eq_true, z1]
  have z2' : ∀ g, u2.isZero g = false ↔ g ≠ 0 := fun g => by rw [← Bool.not_eq_true, z2]
  unfold Storable FiniteLists
  simp only [z1', z2']

/-- C110: parameter files of BLS12-381 with points of the curve: what is read are exactly the bytes that are written, and what follows is
not looked at. -/
theorem C110_bls12_381_params (H1 : AddSubgroup (PointsOf blsB)) (H2 : AddSubgroup (PointsOf blsB2)) (checked : Bool)
    (buf rest : List UInt8) (p : Parameters H1 H2) :
    paramsRead (blsRawPoints (fqBytes blsQ) blsB H1) (blsRawPoints (fq2Bytes blsQ) blsB2 H2) checked buf = some (p, rest) ↔
      FiniteLists p ∧ buf = paramsBytes (blsRawPoints (fqBytes blsQ) blsB H1) (blsRawPoints (fq2Bytes blsQ) blsB2 H2) p ++ rest := by
  obtain ⟨-, -, l1, l2⟩ := C110_raw_lawful ⊥ ⊥ H1 H2
  obtain ⟨b1, b2, b3, b4⟩ := C110_bls12_381_raw H1 H2
  have u1 : UniqueRaw (blsRawPoints (fqBytes blsQ) blsB H1) fun _ => True := by
    intro checked bs g hl hd _
    have hd' : (blsRawPoints (fqBytes blsQ) blsB H1).decode bs = some g := by cases checked <;> exact hd
    rw [blsRawPoints_size, fqBytes_size, nLimbs_blsQ] at hl
    exact beNat_inj (hl.trans (b1 g).1.symm) (((b2 bs hl g).1 hd').trans (b1 g).2.symm)
  have u2 : UniqueRaw (blsRawPoints (fq2Bytes blsQ) blsB2 H2) fun _ => True := by
    intro checked bs g hl hd _
    have hd' : (blsRawPoints (fq2Bytes blsQ) blsB2 H2).decode bs = some g := by cases checked <;> exact hd
    rw [blsRawPoints_size, fq2Bytes_size, nLimbs_blsQ] at hl
    exact beNat_inj (hl.trans (b3 g).1.symm) (((b4 bs hl g).1 hd').trans (b3 g).2.symm)
  rw [params_exact l1.toLawfulRaw l2.toLawfulRaw u1 u2 (fun _ _ => trivial) (fun _ _ => trivial) checked buf rest p (by simp),
    storable_iff isZero_affineOf isZero_affineOf]

/-- C110: parameter files of BN256, if none of the points of the key is infinity. -/
theorem C110_bn256_params (H1 : AddSubgroup (PointsOf bnB)) (H2 : AddSubgroup (PointsOf bnB2)) (checked : Bool)
    (buf rest : List UInt8) (p : Parameters H1 H2)
    (hv : p.vk.alphaG1 ≠ 0 ∧ p.vk.betaG1 ≠ 0 ∧ p.vk.betaG2 ≠ 0 ∧ p.vk.gammaG2 ≠ 0 ∧ p.vk.deltaG1 ≠ 0 ∧ p.vk.deltaG2 ≠ 0) :
    paramsRead (bnRaw (fqBytes bnQ) bnB H1) (bnRaw (fq2Bytes bnQ) bnB2 H2) checked buf = some (p, rest) ↔
      FiniteLists p ∧ buf = paramsBytes (bnRaw (fqBytes bnQ) bnB H1) (bnRaw (fq2Bytes bnQ) bnB2 H2) p ++ rest := by
  obtain ⟨l1, l2, -, -⟩ := C110_raw_lawful H1 H2 ⊥ ⊥
  obtain ⟨b1, b2, b3, b4⟩ := C110_bn256_raw H1 H2
  have u1 : UniqueRaw (bnRaw (fqBytes bnQ) bnB H1) fun g => g ≠ 0 := by
    intro checked bs g hl hd h0
    have hd' : (bnRaw (fqBytes bnQ) bnB H1).decode bs = some g := by cases checked <;> exact hd
    rw [bnRaw_size, fqBytes_size, nLimbs_bnQ] at hl
    exact beNat_inj (hl.trans (b1 g).1.symm) ((((b2 bs hl g).1 hd').resolve_right fun h => h0 h.1).trans (b1 g).2.symm)
  have u2 : UniqueRaw (bnRaw (fq2Bytes bnQ) bnB2 H2) fun g => g ≠ 0 := by
    intro checked bs g hl hd h0
    have hd' : (bnRaw (fq2Bytes bnQ) bnB2 H2).decode bs = some g := by cases checked <;> exact hd
    rw [bnRaw_size, fq2Bytes_size, nLimbs_bnQ] at hl
    exact beNat_inj (hl.trans (b3 g).1.symm) ((((b4 bs hl g).1 hd').resolve_right fun h => h0 h.1).trans (b3 g).2.symm)
  have nz1 : ∀ g : H1, (bnRaw (fqBytes bnQ) bnB H1).isZero g = false → g ≠ 0 := fun g hg h0 => by
    have := (isZero_affineOf g).2 h0
    exact absurd (hg.symm.trans this) (by decide)
  have nz2 : ∀ g : H2, (bnRaw (fq2Bytes bnQ) bnB2 H2).isZero g = false → g ≠ 0 := fun g hg h0 => by
    have := (isZero_affineOf g).2 h0
    exact absurd (hg.symm.trans this) (by decide)
  rw [params_exact l1.toLawfulRaw l2.toLawfulRaw u1 u2 nz1 nz2 checked buf rest p hv, storable_iff isZero_affineOf isZero_affineOf]

end results

/-! ## Examples -/

/-- The generator `(1, 2)` of BN256's `G1`. -/
def genBn : PointsOf bnB := .some 1 2 ((nonsingular_iff goodBn.two goodBn.three goodBn.coeff 1 2).2 (by decide +kernel))

/-- 31 zeros and a one are read as the generator; with the top bit they are read as its inverse `(1, -2)`, and infinity is read
from two sequences of bytes. -/
example : ∃ sqrt : ZMod bnQ → Option (ZMod bnQ), IsSqrt sqrt ∧
    (bnCodec (fqBytes bnQ) sqrt bnB ⊤).decode (List.replicate 31 0 ++ [1]) = some ⟨genBn, trivial⟩ ∧
    (bnCodec (fqBytes bnQ) sqrt bnB ⊤).decode (0x80 :: List.replicate 30 0 ++ [1]) = some ⟨-genBn, trivial⟩ ∧
    (bnCodec (fqBytes bnQ) sqrt bnB ⊤).decode (0x40 :: List.replicate 31 0) = some 0 ∧
    (bnCodec (fqBytes bnQ) sqrt bnB ⊤).decode (0xc0 :: List.replicate 31 0) = some 0 := by
  obtain ⟨sqrt, hs⟩ := exists_isSqrt (ZMod bnQ)
  have hneg : coords (-genBn) = some (1, -2) := by
    rw [genBn, WeierstrassCurve.Affine.Point.neg_some]
    simp [coords, WeierstrassCurve.Affine.negY, curve]
  refine ⟨sqrt, hs, ?_, ?_, ?_, ?_⟩
  · exact ((C110_bn256_g1 hs ⊤).2 _ (by decide) _).2 (Or.inl (by
      show _ = bnCode fqNumber 256 (some (1, 2)); decide +kernel))
  · refine ((C110_bn256_g1 hs ⊤).2 _ (by decide) _).2 (Or.inl ?_)
    show _ = bnCode fqNumber 256 (coords (-genBn))
    rw [hneg]
    decide +kernel
  · exact ((C110_bn256_g1 hs ⊤).2 _ (by decide) 0).2 (Or.inl (by decide +kernel))
  · exact ((C110_bn256_g1 hs ⊤).2 _ (by decide) 0).2 (Or.inr ⟨rfl, by decide +kernel⟩)

/-- On BLS12-381 neither can be left out: without the top bit nothing is read. -/
example {sqrt : ZMod blsQ → Option (ZMod blsQ)} (hs : IsSqrt sqrt) :
    (blsCodec (fqBytes blsQ) sqrt blsB ⊤).decode (0xc0 :: List.replicate 47 0) = some 0 ∧
    ∀ P, (blsCodec (fqBytes blsQ) sqrt blsB ⊤).decode (0x40 :: List.replicate 47 0) ≠ some P := by
  refine ⟨((C110_bls12_381_g1 hs ⊤).2 _ (by decide) 0).2 (by decide +kernel), fun P h => ?_⟩
  have h1 := ((C110_bls12_381_g1 hs ⊤).2 _ (by decide) P).1 h
  have h2 : beNat (0x40 :: List.replicate 47 0) < 2 ^ 383 := by decide +kernel
  rw [h1] at h2
  revert h2
  rcases coords P.1 with _ | ⟨x, y⟩
  · exact fun h => absurd h (by decide +kernel)
  · intro h
    have : 2 ^ 383 ≤ blsCode fqNumber 384 (some (x, y)) := by
      show 2 ^ 383 ≤ 2 ^ 383 + fqNumber x + _
      rw [Nat.add_assoc]
      exact Nat.le_add_right _ _
    exact absurd h (Nat.not_lt.2 this)

/-- The hypotheses of the theorems on keys can be met. -/
example : ∃ (sqrt : ZMod bnQ → Option (ZMod bnQ)) (sqrt2 : Fq2 (ZMod bnQ) → Option (Fq2 (ZMod bnQ))),
    ReadsWhatWasWritten (bnCodec (fqBytes bnQ) sqrt bnB ⊤) (bnCodec (fq2Bytes bnQ) sqrt2 bnB2 ⊤) bnR := by
  obtain ⟨s1, h1⟩ := exists_isSqrt (ZMod bnQ)
  obtain ⟨s2, h2⟩ := exists_isSqrt (Fq2 (ZMod bnQ))
  exact ⟨s1, s2, C110_bn256_keys h1 h2 ⊤ ⊤⟩

end Fawkes.Props
