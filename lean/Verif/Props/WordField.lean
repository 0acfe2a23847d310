import Verif.Lemmas.WordSign
import Verif.Props.Sqrt

/-!
# Hashes, trees, points and signatures on machine words: C116
-/

namespace Fawkes.Props

open Fawkes.Limbs Fawkes.Limbs.Elem Natural

variable {p : Nat} [Fact p.Prime] [odd : Fact (p % 2 = 1)]

/-- C116 (the field): the arrays are a field whose operations are the word operations of Model/Limbs, and taking the element that an
array stands for is an isomorphism to the integers modulo the prime. -/
theorem C116_field :
    (∀ a : Elem p, WordsOf a.words a.value) ∧ (∀ (w : List UInt64) (x : ZMod p), WordsOf w x → ∃ a : Elem p, a.words = w ∧ a.value = x) ∧
    (∀ a b : Elem p, (a + b).words = Limbs.add p a.words b.words ∧ (a - b).words = Limbs.sub p a.words b.words ∧
      (a * b).words = Limbs.mul p a.words b.words ∧ (-a).words = Limbs.neg p a.words ∧
      (a ≠ 0 → Limbs.inverse p a.words = some (some a⁻¹.words)) ∧ (a = b ↔ a.words = b.words)) ∧
    (0 : Elem p).words = List.replicate (nLimbs p) 0 ∧ (1 : Elem p).words = constR p ∧
    ∃ e : Elem p ≃+* ZMod p, ∀ a, e a = a.value := by
  refine ⟨fun a => a.wordsOf, fun w x h => ⟨⟨w, h.length, h.below⟩, rfl, value_of h⟩, fun a b => ⟨rfl, rfl, rfl, rfl, fun h => ?_, ?_⟩,
    rfl, rfl, valueIso, fun a => rfl⟩
  · exact (inv_words a (fun h0 => h ((eq_zero_iff a).2 h0))).1
  · exact ⟨fun h => by rw [h], Elem.ext⟩

/-- C116 (Poseidon): hashes and Merkle roots computed on arrays are those of the field, and panic in the same cases. -/
theorem C116_poseidon (P : PoseidonParams (Elem p)) :
    (∀ l : List (Elem p), (Poseidon.poseidon l P).map value = Poseidon.poseidon (l.map value) (P.map value)) ∧
    (∀ (l : List (Elem p)) (seed : Elem p), (Poseidon.poseidonWithSalt l seed P).map value =
      Poseidon.poseidonWithSalt (l.map value) seed.value (P.map value)) ∧
    (∀ (leaf : Elem p) (sibling : List (Elem p)) (path : List Bool), (Poseidon.merkleProofRoot leaf sibling path P).map value =
      Poseidon.merkleProofRoot leaf.value (sibling.map value) path (P.map value)) ∧
    ∀ leaves : List (Elem p), (Poseidon.merkleTreeRoot leaves P).map value = Poseidon.merkleTreeRoot (leaves.map value) (P.map value) :=
  ⟨fun l => poseidon_map (hom p) l P, fun l s => poseidonWithSalt_map (hom p) l s P, fun l s q => merkleProofRoot_map (hom p) l s q P,
    fun l => merkleTreeRoot_map (hom p) l P⟩

/-- C116 (parameters): the constants of Poseidon generated on arrays from the seedbox. -/
theorem C116_params (h64 : numBits p % 64 ≠ 0) (checks : Bool) (tries t f n : Nat) :
    (Elem.newParams p checks tries t f n).map (PoseidonParams.map value) = PoseidonParams.new p checks tries t f n :=
  newParams_eq h64 checks tries t f n

/-- C116 (points): the curve operations on points with arrays as coordinates. -/
theorem C116_points (J : JubJubParams (Elem p)) (A B : EdwardsPoint (Elem p)) {l : Nat} [Fact l.Prime] [Fact (l % 2 = 1)] (s : Elem l) :
    (A.add B J).map (EdwardsPoint.map value) = (A.map value).add (B.map value) (J.map value) ∧
    A.double.map (EdwardsPoint.map value) = (A.map value).double ∧
    (mulPoint A s J).map (EdwardsPoint.map value) = (A.map value).mul s.value (J.map value) ∧
    A.mulByCofactor.map (EdwardsPoint.map value) = (A.map value).mulByCofactor ∧
    A.isInCurve J = (A.map value).isInCurve (J.map value) ∧ A.isZero = (A.map value).isZero ∧
    A.intoExtended.isInSubgroup J = (A.map value).intoExtended.isInSubgroup (J.map value) ∧
    A.intoMontgomery.map (Option.map (MontgomeryPoint.map value)) = (A.map value).intoMontgomery := by
  refine ⟨add_map (hom p) A B J, double_map (hom p) A, mulPoint_map A s J, mulByCofactor_map (hom p) A, (isInCurve_map (hom p) A J).symm,
    (isZero_map (hom p) A).symm, ?_, intoMontgomery_map (hom p) A⟩
  rw [← isInSubgroup_map (hom p), intoExtended_map]
  rfl

/-- C116 (extended points): the formulas without division. -/
theorem C116_extended (J : JubJubParams (Elem p)) (A B : EdwardsPointEx (Elem p)) (M : MontgomeryPoint (Elem p)) (scalar : List UInt64) :
    (A.add B J).map value = (A.map value).add (B.map value) (J.map value) ∧ A.double.map value = (A.map value).double ∧
    A.negate.map value = (A.map value).negate ∧ (A.mulRaw scalar J).map value = (A.map value).mulRaw scalar (J.map value) ∧
    A.intoAffine.map (EdwardsPoint.map value) = (A.map value).intoAffine ∧ A.eq B = (A.map value).eq (B.map value) ∧
    A.isInCurve J = (A.map value).isInCurve (J.map value) ∧ A.isZero = (A.map value).isZero ∧
    M.intoAffine.map (EdwardsPoint.map value) = (M.map value).intoAffine :=
  ⟨ex_add_map (hom p) A B J, ex_double_map (hom p) A, ex_negate_map (hom p) A, mulRaw_map (hom p) A scalar J, ex_intoAffine_map (hom p) A,
    (ex_eq_map (hom p) A B).symm, (ex_isInCurve_map (hom p) A J).symm, (ex_isZero_map (hom p) A).symm, mont_intoAffine_map (hom p) M⟩

/-- C116 (conversions): bytes, integers and the other field. -/
theorem C116_conversions {q : Nat} [Fact q.Prime] [Fact (q % 2 = 1)] (a : Elem p) (bytes : List UInt8) (n : Nat) :
    a.intoBinaryBE = Num.intoBinaryBE a.value ∧ (Elem.fromBinaryBE p bytes).map value = Num.fromBinaryBE p bytes ∧
    (Elem.fromBigUint p n).map value = Num.fromBigUint p n ∧ (Elem.intoOther q a).map value = Num.intoOther q a.value ∧
    (Elem.fromSeed p bytes).map value = Num.fromSeed p bytes :=
  ⟨intoBinaryBE_eq a, fromBinaryBE_eq bytes, fromBigUint_eq n, intoOther_eq a, fromSeed_eq bytes⟩

instance instOddBnR : Fact (bnR % 2 = 1) := ⟨by decide +kernel⟩
instance instOddBnL : Fact (bnL % 2 = 1) := ⟨by decide +kernel⟩

/-- `Num::sqrt` over BN256 on arrays. -/
def bnSqrtWords (a : Elem bnR) : Option (Elem bnR) := (Elem.sqrt16 7 28 a).getD none

theorem bnSqrtWords_map (a : Elem bnR) : (bnSqrtWords a).map value = FieldSqrt.bnSqrt a.value := by
  have h := Elem.sqrt16_map 7 28 a
  unfold bnSqrtWords FieldSqrt.bnSqrt FieldSqrt.bnRun
  rw [← h]
  generalize Elem.sqrt16 7 28 a = o
  cases o <;> rfl

/-- C116 (square roots over BN256): the loops on arrays end, and return a root exactly if there is one. -/
theorem C116_sqrt (a : Elem bnR) : (∃ o, Elem.sqrt16 7 28 a = some o) ∧
    (∀ b, bnSqrtWords a = some b → b * b = a) ∧ (bnSqrtWords a = none ↔ ¬ ∃ b : Elem bnR, b * b = a) := by
  have hm := bnSqrtWords_map a
  have hr := Elem.sqrt16_map 7 28 a
  rw [show FieldSqrt.sqrt16 7 28 a.value = some (FieldSqrt.bnSqrt a.value) from C114_bn256.1 a.value] at hr
  have hiff : (∃ b : Elem bnR, b * b = a) ↔ ∃ x : ZMod bnR, x * x = a.value :=
    ⟨fun ⟨b, hb⟩ => ⟨b.value, by rw [← value_mul, hb]⟩,
      fun ⟨x, hx⟩ => ⟨Elem.ofValue x, value_injective (by rw [value_mul, value_ofValue, hx])⟩⟩
  refine ⟨?_, fun b hb => ?_, ?_⟩
  · cases h : Elem.sqrt16 7 28 a with
    | none => rw [h] at hr; cases hr
    | some o => exact ⟨o, rfl⟩
  · rw [hb] at hm
    have h := C114_bn256.2.1.sound _ _ hm.symm
    exact value_injective (by rw [value_mul, h])
  · rw [hiff, ← C114_bn256.2.2, ← hm]
    cases bnSqrtWords a <;> simp

/-- C116 (signatures): signing and verifying on arrays. -/
theorem C116_eddsa (J : JubJubParams (Elem p)) [h1 : Fact J.l.Prime] [Fact (J.l % 2 = 1)] (P : PoseidonParams (Elem p)) :
    (∀ (sk : Elem J.l) (m : Elem p), (Limbs.sign J sk m P).map (fun q => (q.1.value, q.2.value)) =
      @Eddsa.sign p _ (J.map value) h1 sk.value m.value (P.map value)) ∧
    ∀ (sqrt : Elem p → Option (Elem p)) (sqrt' : ZMod p → Option (ZMod p)), (∀ a, (sqrt a).map value = sqrt' a.value) →
      ∀ (s : Elem J.l) (rx a m : Elem p), Limbs.verify sqrt J s rx a m P =
        @Eddsa.verify p _ sqrt' (J.map value) h1 s.value rx.value a.value m.value (P.map value) :=
  ⟨fun sk m => sign_map J sk m P, fun sqrt sqrt' hs s rx a m => verify_map sqrt sqrt' hs J s rx a m P⟩

/-- The parameters over BN256 (`JubJubBN256`), as arrays. -/
def bnWords : JubJubParams (Elem bnR) := bnParams.map Elem.ofValue

theorem bnWords_map : bnWords.map value = bnParams := by
  simp [bnWords, JubJubParams.map, EdwardsPoint.map, value_ofValue]

instance instPrimeBnWords : Fact bnWords.l.Prime := (inferInstance : Fact bnL.Prime)
instance instOddBnWords : Fact (bnWords.l % 2 = 1) := instOddBnL

/-- C116 (a signature from key to verdict over BN256): computed on machine words throughout, with the square roots of C116_sqrt, a
signature verifies, for all keys, messages and constants. -/
theorem C116_sign_verifies {P : PoseidonParams (Elem bnR)} (hP : PoseidonSpec.Shaped P) (ht : 4 ≤ P.t) (sk : Elem bnL) (m : Elem bnR) :
    ∃ s rx A, Limbs.sign bnWords sk m P = .ok (s, rx) ∧ mulPoint bnWords.g sk bnWords = .ok A ∧
      Limbs.verify bnSqrtWords bnWords s rx A.x m P = .ok true := by
  have hV : (bnWords.map value).Valid bnCurve := by rw [bnWords_map]; exact bnParams_valid
  have hS : PoseidonSpec.Shaped (P.map value) :=
    ⟨by simpa [PoseidonParams.map] using hP.c, by simpa [PoseidonParams.map] using hP.rows, by
      intro row h
      obtain ⟨row', h1, rfl⟩ := List.mem_map.1 h
      simpa [PoseidonParams.map] using hP.cols row' h1⟩
  haveI : Fact (bnWords.map value).l.Prime := instPrimeBnWords
  obtain ⟨s, rx, A, h1, h2, h3⟩ := C41_sign_verifies (J := bnWords.map value) hV C114_bn256.2.1 aligned_bnR
    (show _ from aligned_bnL) (by decide +kernel) hS ht sk.value m.value
  have e1 := (C116_eddsa bnWords P).1 sk m
  have e2 := mulPoint_map bnWords.g sk bnWords
  have e1' := e1.trans h1
  have e2' := e2.trans h2
  cases hs : Limbs.sign bnWords sk m P with
  | error e => rw [hs] at e1'; exact absurd e1' (by intro h; cases h)
  | ok q =>
    cases ha : mulPoint bnWords.g sk bnWords with
    | error e => rw [ha] at e2'; exact absurd e2' (by intro h; cases h)
    | ok A' =>
      obtain ⟨s', rx'⟩ := q
      rw [hs] at e1'
      rw [ha] at e2'
      injection e1' with e3
      injection e3 with e3 e4
      injection e2' with e5
      subst e3 e4 e5
      exact ⟨s', rx', A', rfl, rfl, ((C116_eddsa bnWords P).2 bnSqrtWords FieldSqrt.bnSqrt bnSqrtWords_map s' rx' A'.x m).trans h3⟩

/-- Constants of the right shape on arrays: those of `PoseidonParams::new` are. -/
example : PoseidonSpec.Shaped (⟨List.replicate 3 1, List.replicate 4 [1, 0, 0, 1], 4, 2, 1⟩ : PoseidonParams (Elem bnR)) :=
  ⟨rfl, rfl, by intro row h; rw [List.eq_of_mem_replicate h]; rfl⟩

/-- A hash computed on the words of BN256, and a product: `2 * 3 = 6` in Montgomery form. -/
example : ((1 + 1) * (1 + 1 + 1) : Elem bnR).words = (Limbs.fromRepr bnR [6, 0, 0, 0]).getD [] ∧
    (match Poseidon.poseidon [1] (⟨[1], [[1 + 1]], 1, 0, 1⟩ : PoseidonParams (Elem bnR)) with
      | .ok a => a.words == (Limbs.fromRepr bnR [64, 0, 0, 0]).getD []
      | .error _ => false) = true := by decide +kernel

end Fawkes.Props
