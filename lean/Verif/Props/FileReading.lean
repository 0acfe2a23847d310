import Verif.Props.FileLayout

/-!
# C118: which files `verify` reads, and as what

Near and Ethereum; for Waves see C110.
-/

namespace Fawkes.Props

open Groth16 Cli Cli.Cmd Serde Files Json Json.Grammar Json.Data

variable {G1 G2 : Type} {q r : Nat} [Fact q.Prime] [Fact r.Prime]

/-- Points are made from their own coordinates only. -/
structure ExactCoords (c : Coords G1 G2 q) : Prop where
  g1 : ∀ d P, c.into1 d = .ok P ↔ d = g1From (c.coords1 P)
  g2 : ∀ d P, c.into2 d = .ok P ↔ d = g2From (c.coords2 P)

theorem reading_g1Point_inj {K : Type} [Field K] [DecidableEq K] {d d' : G1PointData K} (h : g1Point d = g1Point d') : d = d' := by
  obtain ⟨a, b⟩ := d
  obtain ⟨a', b'⟩ := d'
  unfold g1Point at h
  split at h <;> split at h <;> simp_all

theorem reading_g2Point_inj {K : Type} [Field K] [DecidableEq K] {d d' : G2PointData K} (h : g2Point d = g2Point d') : d = d' := by
  obtain ⟨⟨a, b⟩, ⟨e, f⟩⟩ := d
  obtain ⟨⟨a', b'⟩, ⟨e', f'⟩⟩ := d'
  unfold g2Point at h
  split at h <;> split at h <;> simp_all

theorem reading_map_ok_iff {A B : Type} {x : Except Panic A} {f : A → B} {b : B} : x.map f = .ok b ↔ ∃ a, x = .ok a ∧ f a = b := by
  cases x with
  | error e => simp [Except.map]
  | ok a => simp [Except.map]

/-- C118: the conversions of BN256 are exact. -/
theorem C118_bn256_exact : ExactCoords bnCoords where
  g1 d P := by
    have hon : Groth16.OnCurve bnB (affinePoint (affineOf P)) := by
      cases P with
      | zero => trivial
      | some x y hxy => exact (nonsingular_iff two_ne_zero_bnQ three_ne_zero_bnQ bnB_ne_zero x y).1 hxy
    have hp : g1Point (g1From (affineOf P)) = coords P := by rw [C52_g1_from bnB_ne_zero _ hon, affinePoint_affineOf]
    show (g1Into bnB d).map (toGroup bnB) = .ok P ↔ d = g1From (affineOf P)
    rw [reading_map_ok_iff, g1Into_iff]
    exact ⟨fun h => reading_g1Point_inj (h.symm.trans hp.symm), fun h => by rw [h, hp]⟩
  g2 d P := by
    have hon : Groth16.OnCurve bnB2 (affinePoint (affineOf P)) := by
      cases P with
      | zero => trivial
      | some x y hxy => exact (nonsingular_iff two_ne_zero_fq2 three_ne_zero_fq2 bnB2_ne_zero x y).1 hxy
    have hp : g2Point (g2From (affineOf P)) = coords P := by rw [C52_g2_from bnB2_ne_zero _ hon, affinePoint_affineOf]
    show (g2Into bnB2 d).map (toGroup bnB2) = .ok P ↔ d = g2From (affineOf P)
    rw [reading_map_ok_iff, g2Into_iff]
    exact ⟨fun h => reading_g2Point_inj (h.symm.trans hp.symm), fun h => by rw [h, hp]⟩

theorem reading_bind_ok_iff {A B : Type} {x : Except Panic A} {f : A → Except Panic B} {b : B} :
    (x >>= f) = .ok b ↔ ∃ a, x = .ok a ∧ f a = .ok b := by
  cases x with
  | error e => simp [bind, Except.bind]
  | ok a => simp [bind, Except.bind]

theorem reading_unwrapE_iff {A : Type} {x : Option A} {a : A} : unwrapE x = .ok a ↔ x = some a := by
  cases x <;> simp [unwrapE]

theorem mapE_exact {A B : Type} {f : A → Except Panic B} {g : B → A} (h : ∀ a b, f a = .ok b ↔ a = g b) (l : List A) (m : List B) :
    mapE f l = .ok m ↔ l = m.map g := by
  induction l generalizing m with
  | nil => cases m <;> simp [mapE]
  | cons a l ih =>
    rw [mapE, reading_bind_ok_iff]
    simp only [reading_bind_ok_iff, h, ih]
    constructor
    · rintro ⟨b, rfl, m', rfl, e⟩
      cases e; rfl
    · intro e
      cases m with
      | nil => cases e
      | cons b m =>
        injection e with e1 e2
        exact ⟨b, e1, m, e2, rfl⟩

theorem reading_vkFromData_iff {c : Coords G1 G2 q} (hc : ExactCoords c) (d : VKData (ZMod q)) (v : VK G1 G2) :
    vkFromData c.into1 c.into2 d = .ok v ↔ d = vkIntoData (keyCoords c v) := by
  unfold vkFromData
  simp only [reading_bind_ok_iff, hc.g1, hc.g2, mapE_exact (g := fun P => g1From (c.coords1 P)) (fun d P => hc.g1 d P)]
  constructor
  · rintro ⟨a, h1, b, h2, g, h3, e, h4, l, h5, h⟩
    cases h
    obtain ⟨d1, d2, d3, d4, d5⟩ := d
    subst h1 h2 h3 h4 h5
    simp [vkIntoData, keyCoords]
  · rintro rfl
    exact ⟨_, rfl, _, rfl, _, rfl, _, rfl, v.ic, by simp [vkIntoData, keyCoords], rfl⟩

theorem reading_proofFromData_iff {c : Coords G1 G2 q} (hc : ExactCoords c) (d : ProofData (ZMod q)) (P : Proof G1 G2) :
    proofFromData c.into1 c.into2 d = .ok P ↔ d = proofIntoData (proofCoords c P) := by
  unfold proofFromData
  simp only [reading_bind_ok_iff, hc.g1, hc.g2]
  constructor
  · rintro ⟨a, h1, b, h2, g, h3, h⟩
    cases h
    obtain ⟨d1, d2, d3⟩ := d
    subst h1 h2 h3
    rfl
  · rintro rfl
    exact ⟨_, rfl, _, rfl, _, rfl, rfl⟩

theorem reading_tryFromSlice_iff {A : Type} {f : Decoder A} {bs : List UInt8} {a : A} : tryFromSlice f bs = some a ↔ f bs = some (a, []) := by
  unfold tryFromSlice
  split
  · next x h => rw [h]; simp
  · next h =>
    constructor
    · rintro ⟨⟩
    · exact fun e => absurd e (h a)

/-- C118: the Near binding reads a text as a key, proof or list of inputs exactly if the text, filled up with `=`, is the one that
is written for it. -/
theorem C118_near_read {c : Coords G1 G2 q} (hc : ExactCoords c) (t : List Char) :
    (∀ v, (nearFormat c r).vkOf t = .ok v ↔
      v.ic.length < 2 ^ 32 ∧ ∃ k, Base64.IsBase64 (t ++ List.replicate k '=') (nearKey (keyCoords c v))) ∧
    (∀ P, (nearFormat c r).proofOf t = .ok P ↔ ∃ k, Base64.IsBase64 (t ++ List.replicate k '=') (nearProof (proofCoords c P))) ∧
    ∀ l : List (ZMod r), (nearFormat c r).inputsOf t = .ok l ↔
      l.length < 2 ^ 32 ∧ ∃ k, Base64.IsBase64 (t ++ List.replicate k '=') (nearInputs l) := by
  refine ⟨fun v => ?_, fun P => ?_, fun l => ?_⟩
  · show (unwrapE (Base64.decode t) >>= fun bs => unwrapE (tryFromSlice (vkDeserialize q) bs) >>= fun d => vkFromData c.into1 c.into2 d) = _ ↔ _
    simp only [reading_bind_ok_iff, reading_unwrapE_iff, reading_tryFromSlice_iff, C53_vk, reading_vkFromData_iff hc, List.append_nil]
    constructor
    · rintro ⟨bs, h, d, ⟨hl, rfl⟩, rfl⟩
      have hl' : v.ic.length < 2 ^ 32 := by simpa [vkIntoData, keyCoords] using hl
      refine ⟨hl', (C72_base64_decode _ _).1 ?_⟩
      rw [h]
      exact congrArg some (C53_vk_layout (keyCoords c v) (by simpa [keyCoords] using hl'))
    · rintro ⟨hl, hk⟩
      refine ⟨_, (C72_base64_decode _ _).2 hk, _, ⟨by simpa [vkIntoData, keyCoords] using hl, ?_⟩, rfl⟩
      exact (C53_vk_layout (keyCoords c v) (by simpa [keyCoords] using hl)).symm
  · show (unwrapE (Base64.decode t) >>= fun bs => unwrapE (tryFromSlice (proofDeserialize q) bs) >>= fun d =>
      proofFromData c.into1 c.into2 d) = _ ↔ _
    simp only [reading_bind_ok_iff, reading_unwrapE_iff, reading_tryFromSlice_iff, C53_proof, reading_proofFromData_iff hc, List.append_nil]
    rw [← C72_base64_decode, nearProof, ← C53_proof_layout]
    constructor
    · rintro ⟨bs, h, d, rfl, rfl⟩; exact h
    · exact fun h => ⟨_, h, _, rfl, rfl⟩
  · show (unwrapE (Base64.decode t) >>= fun bs => unwrapE (tryFromSlice (vecDeserialize (Num.borshDeserialize r)) bs)) = _ ↔ _
    have hv : ∀ bs, vecDeserialize (Num.borshDeserialize r) bs = some (l, []) ↔ l.length < 2 ^ 32 ∧ bs = nearInputs l := fun bs => by
      have e : ∀ n : Nat, le32 n = Near.number 4 n := fun n => rfl
      unfold vecDeserialize nearInputs
      simp only [Option.bind_eq_bind, Option.bind_eq_some_iff, Prod.exists, u32_iff,
        decodeN_iff (fun b (a : ZMod r) rest => C49_unique b rest a), List.append_nil, e,
        show (Num.borshSerialize : ZMod r → _) = fun x => Near.number (8 * nLimbs r) x.val from funext number_bytes]
      constructor
      · rintro ⟨n, b, ⟨hn, rfl⟩, rfl, rfl⟩; exact ⟨hn, rfl⟩
      · rintro ⟨hn, rfl⟩; exact ⟨_, _, ⟨hn, rfl⟩, rfl, rfl⟩
    simp only [reading_bind_ok_iff, reading_unwrapE_iff, reading_tryFromSlice_iff, hv]
    rw [← C72_base64_decode]
    constructor
    · rintro ⟨bs, h, hl, rfl⟩; exact ⟨hl, h⟩
    · rintro ⟨hl, h⟩; exact ⟨_, h, hl, rfl⟩

/-- C118: the Ethereum binding reads a text exactly if it is JSON for the coordinates of the points, in any spelling. -/
theorem C118_ethereum_read {c : Coords G1 G2 q} (hc : ExactCoords c) (hq : Aligned q) (hr : Aligned r) (t : List Char) :
    (∀ v, (jsonFormat c r).vkOf t = .ok v ↔ ∃ j, Text t j ∧ depth j ≤ 127 ∧ IsVK j (vkIntoData (keyCoords c v))) ∧
    (∀ P, (jsonFormat c r).proofOf t = .ok P ↔ ∃ j, Text t j ∧ depth j ≤ 127 ∧ IsProof j (proofIntoData (proofCoords c P))) ∧
    ∀ l : List (ZMod r), (jsonFormat c r).inputsOf t = .ok l ↔ ∃ j, Text t j ∧ depth j ≤ 127 ∧ IsVec IsNum j l := by
  refine ⟨fun v => ?_, fun P => ?_, fun l => ?_⟩
  · show (unwrapE (ofText (Serde.vkOf q) t) >>= fun d => vkFromData c.into1 c.into2 d) = _ ↔ _
    simp only [reading_bind_ok_iff, reading_unwrapE_iff, reading_vkFromData_iff hc]
    rw [← C91_vk hq]
    exact ⟨fun ⟨d, h, e⟩ => e ▸ h, fun h => ⟨_, h, rfl⟩⟩
  · show (unwrapE (ofText (Serde.proofOf q) t) >>= fun d => proofFromData c.into1 c.into2 d) = _ ↔ _
    simp only [reading_bind_ok_iff, reading_unwrapE_iff, reading_proofFromData_iff hc]
    rw [← C91_proof hq]
    exact ⟨fun ⟨d, h, e⟩ => e ▸ h, fun h => ⟨_, h, rfl⟩⟩
  · show unwrapE (ofText (vecOf (numOf r)) t) = _ ↔ _
    rw [reading_unwrapE_iff, C91_inputs hr]

omit [Fact q.Prime] in
/-- C118: the Waves binding reads a text as a list of inputs exactly if the text, filled up with `=`, is the one written for it. -/
theorem C118_waves_inputs_read (c1 : Codec G1) (c2 : Codec G2) (t : List Char) (l : List (ZMod r)) :
    (wavesFormat c1 c2 r).inputsOf t = .ok l ↔ ∃ k, Base64.IsBase64 (t ++ List.replicate k '=') (wavesInputs l) := by
  show (unwrapE (Base64.decode t) >>= fun bs => unwrapE (Num.readNumVec r bs)) = _ ↔ _
  have e : Num.numVecToBuf l = wavesInputs l := by
    rw [numVecToBuf_eq, wavesInputs]
    simp only [waves_number]
  simp only [reading_bind_ok_iff, reading_unwrapE_iff, C51_read_iff, e]
  rw [← C72_base64_decode]
  exact ⟨fun ⟨bs, h, e⟩ => e ▸ h, fun h => ⟨_, h, rfl⟩⟩

/-! ### Examples -/

/-- The hypotheses hold of the points of BN256, and every text that is written meets the right sides. -/
example (P : Proof Contract.E1 Contract.E2) : ∃ t, (nearFormat bnCoords bnR).proofTo P = .ok t ∧ (nearFormat bnCoords bnR).proofOf t = .ok P := by
  obtain ⟨t, h1, h2⟩ := (C118_near (r := bnR) bnCoords).2.1 P
  exact ⟨t, h1, ((C118_near_read C118_bn256_exact t).2.1 P).2 ⟨0, by simpa using h2⟩⟩

end Fawkes.Props
