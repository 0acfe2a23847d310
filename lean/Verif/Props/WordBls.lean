import Verif.Props.WordCircuit

/-!
# Signatures over BLS12-381 on machine words: C116 and C117
-/

namespace Fawkes.Props

open Fawkes.Limbs Fawkes.Limbs.Elem Natural

instance instOddBlsR : Fact (blsR % 2 = 1) := ⟨by decide +kernel⟩
instance instOddBlsL : Fact (blsL % 2 = 1) := ⟨by decide +kernel⟩

/-- `Num::sqrt` over the scalar field of BLS12-381 on arrays. -/
def blsSqrtWords (a : Elem blsR) : Option (Elem blsR) := (Elem.sqrt16 7 32 a).getD none

theorem blsSqrtWords_map (a : Elem blsR) : (blsSqrtWords a).map value = FieldSqrt.blsSqrt a.value := by
  have h := Elem.sqrt16_map 7 32 a
  unfold blsSqrtWords FieldSqrt.blsSqrt FieldSqrt.blsRun
  rw [← h]
  generalize Elem.sqrt16 7 32 a = o
  cases o <;> rfl

/-- C116 (square roots over BLS12-381): the loops on arrays end, and return a root exactly if there is one. -/
theorem C116_bls12_381_sqrt (a : Elem blsR) : (∃ o, Elem.sqrt16 7 32 a = some o) ∧
    (∀ b, blsSqrtWords a = some b → b * b = a) ∧ (blsSqrtWords a = none ↔ ¬ ∃ b : Elem blsR, b * b = a) := by
  have hm := blsSqrtWords_map a
  have hr := Elem.sqrt16_map 7 32 a
  rw [show FieldSqrt.sqrt16 7 32 a.value = some (FieldSqrt.blsSqrt a.value) from C114_bls12_381.1 a.value] at hr
  have hiff : (∃ b : Elem blsR, b * b = a) ↔ ∃ x : ZMod blsR, x * x = a.value :=
    ⟨fun ⟨b, hb⟩ => ⟨b.value, by rw [← value_mul, hb]⟩,
      fun ⟨x, hx⟩ => ⟨Elem.ofValue x, value_injective (by rw [value_mul, value_ofValue, hx])⟩⟩
  refine ⟨?_, fun b hb => ?_, ?_⟩
  · cases h : Elem.sqrt16 7 32 a with
    | none => rw [h] at hr; cases hr
    | some o => exact ⟨o, rfl⟩
  · rw [hb] at hm
    have h := C114_bls12_381.2.1.sound _ _ hm.symm
    exact value_injective (by rw [value_mul, h])
  · rw [hiff, ← C114_bls12_381.2.2, ← hm]
    cases blsSqrtWords a <;> simp

/-- The parameters over BLS12-381 (`JubJubBLS12_381`), as arrays. -/
def blsWords : JubJubParams (Elem blsR) := blsParams.map Elem.ofValue

theorem blsWords_map : blsWords.map value = blsParams := by
  simp [blsWords, JubJubParams.map, EdwardsPoint.map, value_ofValue]

instance instPrimeBlsWords : Fact blsWords.l.Prime := ⟨blsParams_valid.l_prime⟩
instance instOddBlsWords : Fact (blsWords.l % 2 = 1) := instOddBlsL

/-- C116 (a signature from key to verdict over BLS12-381), computed on machine words throughout. -/
theorem C116_bls12_381_sign_verifies {P : PoseidonParams (Elem blsR)} (hP : PoseidonSpec.Shaped P) (ht : 4 ≤ P.t) (sk : Elem blsWords.l) (m : Elem blsR) :
    ∃ s rx A, Limbs.sign blsWords sk m P = .ok (s, rx) ∧ mulPoint blsWords.g sk blsWords = .ok A ∧
      Limbs.verify blsSqrtWords blsWords s rx A.x m P = .ok true := by
  have hV : (blsWords.map value).Valid blsCurve := by rw [blsWords_map]; exact blsParams_valid
  have hS : PoseidonSpec.Shaped (P.map value) :=
    ⟨by simpa [PoseidonParams.map] using hP.c, by simpa [PoseidonParams.map] using hP.rows, by
      intro row h
      obtain ⟨row', h1, rfl⟩ := List.mem_map.1 h
      simpa [PoseidonParams.map] using hP.cols row' h1⟩
  haveI : Fact (blsWords.map value).l.Prime := instPrimeBlsWords
  obtain ⟨s, rx, A, h1, h2, h3⟩ := C41_sign_verifies (J := blsWords.map value) hV C114_bls12_381.2.1 aligned_blsR
    (show _ from aligned_blsL) (by decide +kernel) hS ht sk.value m.value
  have e1 := (C116_eddsa blsWords P).1 sk m
  have e2 := mulPoint_map blsWords.g sk blsWords
  have e1' := e1.trans h1
  have e2' := e2.trans h2
  cases hs : Limbs.sign blsWords sk m P with
  | error e => rw [hs] at e1'; exact absurd e1' (by intro h; cases h)
  | ok q =>
    cases ha : mulPoint blsWords.g sk blsWords with
    | error e => rw [ha] at e2'; exact absurd e2' (by intro h; cases h)
    | ok A' =>
      obtain ⟨s', rx'⟩ := q
      rw [hs] at e1'
      rw [ha] at e2'
      injection e1' with e3
      injection e3 with e3 e4
      injection e2' with e5
      subst e3 e4 e5
      exact ⟨s', rx', A', rfl, rfl, ((C116_eddsa blsWords P).2 blsSqrtWords FieldSqrt.blsSqrt blsSqrtWords_map s' rx' A'.x m).trans h3⟩

/-- C117 (signatures over BLS12-381): the verification circuit built on arrays. -/
theorem C117_bls12_381_eddsa (P : PoseidonParams (Elem blsR)) (s rx a m : CNum (Elem blsR)) :
    SameCircuit (CBool.map value) (Limbs.cVerify blsSqrtWords blsWords s rx a m P)
      (@Eddsa.cVerify blsR _ FieldSqrt.blsSqrt (blsWords.map value) instPrimeBlsWords (s.map value) (rx.map value) (a.map value)
        (m.map value) (P.map value)) :=
  maps_cVerify blsSqrtWords FieldSqrt.blsSqrt blsSqrtWords_map blsWords s rx a m P

/-- Constants of the right shape on arrays, and a computation on the words of BLS12-381: `2 * 3 = 6` in Montgomery form. -/
example : PoseidonSpec.Shaped (⟨List.replicate 3 1, List.replicate 4 [1, 0, 0, 1], 4, 2, 1⟩ : PoseidonParams (Elem blsR)) ∧
    ((1 + 1) * (1 + 1 + 1) : Elem blsR).words = (Limbs.fromRepr blsR [6, 0, 0, 0]).getD [] :=
  ⟨⟨rfl, rfl, by intro row h; rw [List.eq_of_mem_replicate h]; rfl⟩, by decide +kernel⟩

end Fawkes.Props
