import Verif.Props.SignatureKeys

/-!
# C101: which signatures are accepted
-/

set_option linter.unusedSectionVars false

namespace Fawkes.Props

open Eddsa EddsaSpec

variable {r : Nat} [Fact r.Prime] {C : EdCurve (ZMod r)} {J : JubJubParams (ZMod r)} [Fact J.l.Prime]
  {sqrt : ZMod r → Option (ZMod r)} {P : PoseidonParams (ZMod r)}

theorem zsmul_congr {A : Type} [AddCommGroup A] {l : Nat} {Q : A} (hQ : l • Q = 0) {a b : ℤ} (h : (a : ZMod l) = (b : ZMod l)) : a • Q = b • Q := by
  obtain ⟨c, hc⟩ := (ZMod.intCast_eq_intCast_iff_dvd_sub _ _ _).1 h
  have : b = a + l * c := by omega
  rw [this, add_smul, mul_comm, mul_smul, natCast_zsmul, hQ, smul_zero, add_zero]

theorem val_int {l : Nat} [NeZero l] (k : ZMod l) : ((k.val : ℤ) : ZMod l) = k := by simp

/-- The subgroup consists of the multiples of the base point. -/
theorem in_base (hv : J.Valid C) (hr : r < J.l ^ 2) {G : EdPoint C} (hG : J.g = G.affine) {Q : EdPoint C} (hQ : InSubgroup J.l Q) :
    ∃ k : ZMod J.l, Q = k.val • G := by
  by_contra hno
  have hGl := (order_base hv hG).1
  have hlp : 0 < J.l := (Fact.out : J.l.Prime).pos
  have hinj : Function.Injective (fun p : ZMod J.l × ZMod J.l => (p.1.val • G + p.2.val • Q).x) := by
    rintro ⟨i, j⟩ ⟨i', j'⟩ hx
    have hin : ∀ i j : ZMod J.l, InSubgroup J.l (i.val • G + j.val • Q) := by
      intro i j
      unfold InSubgroup
      rw [nsmul_add, nsmul_left_comm, hGl, nsmul_zero, nsmul_left_comm, hQ, nsmul_zero, add_zero]
    have he := C31_unique hv (hin i j) (hin i' j') hx
    by_cases hj : j = j'
    · subst hj
      rw [base_injective hv hG (add_right_cancel he)]
    · exfalso
      have hd : j - j' ≠ 0 := sub_ne_zero.2 hj
      apply hno
      refine ⟨(j - j')⁻¹ * (i' - i), ?_⟩
      have h1 : ((j.val : ℤ) - j'.val) • Q = ((i'.val : ℤ) - i.val) • G := by
        rw [sub_smul, sub_smul, natCast_zsmul, natCast_zsmul, natCast_zsmul, natCast_zsmul, sub_eq_sub_iff_add_eq_add, add_comm, he]
      have h2 := congrArg (fun X : EdPoint C => (((j - j')⁻¹).val : ℤ) • X) h1
      simp only [smul_smul] at h2
      rw [zsmul_congr (Q := Q) hQ (b := 1) (by push_cast; simp [hd]), one_smul] at h2
      rw [h2, ← natCast_zsmul]
      exact zsmul_congr hGl (by push_cast; simp)
  have hcard := Fintype.card_le_of_injective _ hinj
  rw [Fintype.card_prod, ZMod.card, ZMod.card] at hcard
  rw [pow_two] at hr
  omega

theorem accepted_of (hv : J.Valid C) (hsq : IsSqrt sqrt) (har : Aligned r) (hal : Aligned J.l) (h32 : numBytes r ≤ 32)
    (hP : PoseidonSpec.Shaped P) (ht : 4 ≤ P.t) {G : EdPoint C} (hG : J.g = G.affine) (sk k : ZMod J.l) (m : ZMod r) :
    verify sqrt J (k + ((challenge P (k.val • G).x (sk.val • G).x m).val : ZMod J.l) * sk) (k.val • G).x (sk.val • G).x m P = .ok true := by
  have hGl := (order_base hv hG).1
  obtain ⟨b, hb, hi⟩ := C42_verify_iff hv hsq har hal h32 hP ht hG
    (k + ((challenge P (k.val • G).x (sk.val • G).x m).val : ZMod J.l) * sk) (k.val • G).x (sk.val • G).x m
  rw [hb, hi.2]
  refine ⟨k.val • G, sk.val • G, base_sub hv hG _, base_sub hv hG _, rfl, rfl, ?_⟩
  rw [EdPoint.val_add_nsmul hGl, EdPoint.val_mul_nsmul hGl, mul_comm, mul_nsmul, val_cast_nsmul (base_sub hv hG _)]

theorem form_of (hv : J.Valid C) (hr : r < J.l ^ 2) (hsq : IsSqrt sqrt) (har : Aligned r) (hal : Aligned J.l) (h32 : numBytes r ≤ 32)
    (hP : PoseidonSpec.Shaped P) (ht : 4 ≤ P.t) {G : EdPoint C} (hG : J.g = G.affine) {s : ZMod J.l} {rx a m : ZMod r}
    (h : verify sqrt J s rx a m P = .ok true) :
    ∃ sk k : ZMod J.l, a = (sk.val • G).x ∧ rx = (k.val • G).x ∧ s = k + ((challenge P rx a m).val : ZMod J.l) * sk := by
  have hGl := (order_base hv hG).1
  obtain ⟨b, hb, hi⟩ := C42_verify_iff hv hsq har hal h32 hP ht hG s rx a m
  rw [h] at hb; cases hb
  obtain ⟨R, A, hR, hA, hrx, hax, he⟩ := hi.1 rfl
  obtain ⟨k, rfl⟩ := in_base hv hr hG hR
  obtain ⟨sk, rfl⟩ := in_base hv hr hG hA
  refine ⟨sk, k, hax.symm, hrx.symm, base_injective hv hG ?_⟩
  rw [he, EdPoint.val_add_nsmul hGl, EdPoint.val_mul_nsmul hGl, mul_comm, mul_nsmul, val_cast_nsmul hA]

/-- C101 (form): the accepted triples of public key and signature are exactly those a signer can make: `a` is the abscissa of `sk · G`
for a scalar `sk`, `r` is the abscissa of `k · G` for a scalar `k`, and `s = k + h · sk`, where `h` is the challenge.  There is no
other way to be accepted; in particular every accepted public key has a secret key. -/
theorem C101_form (hv : J.Valid C) (hr : r < J.l ^ 2) (hsq : IsSqrt sqrt) (har : Aligned r) (hal : Aligned J.l) (h32 : numBytes r ≤ 32)
    (hP : PoseidonSpec.Shaped P) (ht : 4 ≤ P.t) (s : ZMod J.l) (rx a m : ZMod r) :
    verify sqrt J s rx a m P = .ok true ↔
      ∃ sk k A R, J.g.mul sk J = .ok A ∧ J.g.mul k J = .ok R ∧ a = A.x ∧ rx = R.x ∧ s = k + ((challenge P rx a m).val : ZMod J.l) * sk := by
  obtain ⟨G, hG, -⟩ := hv.base
  have hmul : ∀ k : ZMod J.l, J.g.mul k J = .ok (k.val • G).affine := fun k => by rw [hG, C28_mul hv.d_eq]
  constructor
  · intro h
    obtain ⟨sk, k, h1, h2, h3⟩ := form_of hv hr hsq har hal h32 hP ht hG h
    exact ⟨sk, k, _, _, hmul sk, hmul k, h1, h2, h3⟩
  · rintro ⟨sk, k, A, R, hA, hR, rfl, rfl, rfl⟩
    rw [hmul] at hA hR
    cases hA; cases hR
    exact accepted_of hv hsq har hal h32 hP ht hG sk k m

/-- C101 (count): for every key pair and every message exactly `l` pairs `(s, r)` are accepted, one for each nonce: out of the
`l · |F|` pairs there are. -/
theorem C101_count (hv : J.Valid C) (hr : r < J.l ^ 2) (hsq : IsSqrt sqrt) (har : Aligned r) (hal : Aligned J.l) (h32 : numBytes r ≤ 32)
    (hP : PoseidonSpec.Shaped P) (ht : 4 ≤ P.t) (sk : ZMod J.l) (A : EdwardsPoint (ZMod r)) (hA : J.g.mul sk J = .ok A) (m : ZMod r) :
    Nat.card {p : ZMod J.l × ZMod r // verify sqrt J p.1 p.2 A.x m P = .ok true} = J.l := by
  obtain ⟨G, hG, -⟩ := hv.base
  rw [hG, C28_mul hv.d_eq] at hA
  cases hA
  let f : ZMod J.l → {p : ZMod J.l × ZMod r // verify sqrt J p.1 p.2 (sk.val • G).x m P = .ok true} :=
    fun k => ⟨(_, _), accepted_of hv hsq har hal h32 hP ht hG sk k m⟩
  have hf : Function.Bijective f := by
    constructor
    · intro k k' h
      have h2 : (k.val • G).x = (k'.val • G).x := congrArg (fun p => p.1.2) h
      exact base_injective hv hG (C31_unique hv (base_sub hv hG _) (base_sub hv hG _) h2)
    · rintro ⟨⟨s, rx⟩, h⟩
      obtain ⟨sk', k, h1, rfl, h3⟩ := form_of hv hr hsq har hal h32 hP ht hG h
      obtain rfl := base_injective hv hG (C31_unique hv (base_sub hv hG _) (base_sub hv hG _) h1)
      exact ⟨k, Subtype.ext (Prod.ext h3.symm rfl)⟩
  refine (Nat.card_congr (Equiv.ofBijective f hf)).symm.trans ?_
  rw [Nat.card_eq_fintype_card, ZMod.card]

/-- C101 (other messages): an accepted signature of `m` is accepted for another message exactly if the challenges agree modulo the order
of the group, or if the public key is zero. -/
theorem C101_other_message (hv : J.Valid C) (hr : r < J.l ^ 2) (hsq : IsSqrt sqrt) (har : Aligned r) (hal : Aligned J.l) (h32 : numBytes r ≤ 32)
    (hP : PoseidonSpec.Shaped P) (ht : 4 ≤ P.t) (s : ZMod J.l) (rx a m m' : ZMod r) (h : verify sqrt J s rx a m P = .ok true) :
    verify sqrt J s rx a m' P = .ok true ↔ (challenge P rx a m).val ≡ (challenge P rx a m').val [MOD J.l] ∨ a = 0 := by
  obtain ⟨G, hG, -⟩ := hv.base
  obtain ⟨sk, k, rfl, rfl, h3⟩ := form_of hv hr hsq har hal h32 hP ht hG h
  have hzero : (sk.val • G).x = 0 ↔ sk = 0 := by
    constructor
    · intro h0
      exact base_injective hv hG (C31_unique hv (base_sub hv hG _) (base_sub hv hG _) (by rw [h0, ZMod.val_zero, zero_nsmul]; rfl))
    · rintro rfl; rw [ZMod.val_zero, zero_nsmul]; rfl
  rw [hzero, ← ZMod.natCast_eq_natCast_iff]
  have hacc := accepted_of hv hsq har hal h32 hP ht hG sk k m'
  constructor
  · intro h'
    have hs := C42_unique_s hv hsq har hal h32 hP ht h' hacc
    rw [h3] at hs
    have := add_left_cancel hs
    by_cases h0 : sk = 0
    · exact .inr h0
    · exact .inl (mul_right_cancel₀ h0 this)
  · rintro (hc | rfl)
    · rw [h3, hc]; exact hacc
    · rw [h3, mul_zero]; rw [mul_zero] at hacc; exact hacc

/-- C101 (other keys): an accepted signature of `m` under the key of `sk` is accepted for `m'` under the key of `sk'` exactly if
`h · sk = h' · sk'`, where the two challenges are for the same `r`. -/
theorem C101_other_key (hv : J.Valid C) (hr : r < J.l ^ 2) (hsq : IsSqrt sqrt) (har : Aligned r) (hal : Aligned J.l) (h32 : numBytes r ≤ 32)
    (hP : PoseidonSpec.Shaped P) (ht : 4 ≤ P.t) (sk sk' : ZMod J.l) (A A' : EdwardsPoint (ZMod r)) (hA : J.g.mul sk J = .ok A)
    (hA' : J.g.mul sk' J = .ok A') (s : ZMod J.l) (rx m m' : ZMod r) (h : verify sqrt J s rx A.x m P = .ok true) :
    verify sqrt J s rx A'.x m' P = .ok true ↔
      ((challenge P rx A.x m).val : ZMod J.l) * sk = ((challenge P rx A'.x m').val : ZMod J.l) * sk' := by
  obtain ⟨G, hG, -⟩ := hv.base
  rw [hG, C28_mul hv.d_eq] at hA hA'
  cases hA; cases hA'
  obtain ⟨sk2, k, h1, rfl, h3⟩ := form_of hv hr hsq har hal h32 hP ht hG h
  obtain rfl := base_injective hv hG (C31_unique hv (base_sub hv hG _) (base_sub hv hG _) h1)
  have hacc := accepted_of hv hsq har hal h32 hP ht hG sk' k m'
  constructor
  · intro h'
    have hs := C42_unique_s hv hsq har hal h32 hP ht h' hacc
    rw [h3] at hs
    exact add_left_cancel hs
  · intro hc
    rw [h3]
    show verify sqrt J (k + ((challenge P (k.val • G).x (sk.val • G).x m).val : ZMod J.l) * sk) _ (sk'.val • G).x m' P = _
    have hc' : ((challenge P (k.val • G).x (sk.val • G).x m).val : ZMod J.l) * sk =
      ((challenge P (k.val • G).x (sk'.val • G).x m').val : ZMod J.l) * sk' := hc
    rw [hc']; exact hacc

/-- C101 (the zero key): under the public key zero — the key of the secret key zero, which nothing rejects — `(s, r)` is accepted
for every message exactly if `r` is the abscissa of `s · G`.  So anybody can sign anything under it. -/
theorem C101_zero_key (hv : J.Valid C) (hr : r < J.l ^ 2) (hsq : IsSqrt sqrt) (har : Aligned r) (hal : Aligned J.l) (h32 : numBytes r ≤ 32)
    (hP : PoseidonSpec.Shaped P) (ht : 4 ≤ P.t) (s : ZMod J.l) (rx m : ZMod r) :
    verify sqrt J s rx 0 m P = .ok true ↔ ∃ R, J.g.mul s J = .ok R ∧ rx = R.x := by
  obtain ⟨G, hG, -⟩ := hv.base
  have h0 : ((0 : ZMod J.l).val • G).x = 0 := by rw [ZMod.val_zero, zero_nsmul]; rfl
  have hmul : ∀ k : ZMod J.l, J.g.mul k J = .ok (k.val • G).affine := fun k => by rw [hG, C28_mul hv.d_eq]
  constructor
  · intro h
    obtain ⟨sk, k, h1, h2, h3⟩ := form_of hv hr hsq har hal h32 hP ht hG h
    obtain rfl := base_injective hv hG (C31_unique hv (base_sub hv hG _) (base_sub hv hG _) (h0.trans h1))
    rw [mul_zero, add_zero] at h3
    subst h3
    exact ⟨_, hmul s, h2⟩
  · rintro ⟨R, hR, rfl⟩
    rw [hmul] at hR
    cases hR
    have := accepted_of hv hsq har hal h32 hP ht hG 0 s m
    rw [h0, mul_zero, add_zero] at this
    exact this

/-- C101 (the zero nonce): a signature with `r = 0` gives the secret key away, as `s = h · sk`. -/
theorem C101_zero_nonce (hv : J.Valid C) (hr : r < J.l ^ 2) (hsq : IsSqrt sqrt) (har : Aligned r) (hal : Aligned J.l) (h32 : numBytes r ≤ 32)
    (hP : PoseidonSpec.Shaped P) (ht : 4 ≤ P.t) (sk : ZMod J.l) (A : EdwardsPoint (ZMod r)) (hA : J.g.mul sk J = .ok A) (s : ZMod J.l)
    (m : ZMod r) : verify sqrt J s 0 A.x m P = .ok true ↔ s = ((challenge P 0 A.x m).val : ZMod J.l) * sk := by
  obtain ⟨G, hG, -⟩ := hv.base
  rw [hG, C28_mul hv.d_eq] at hA
  cases hA
  have h0 : ((0 : ZMod J.l).val • G).x = 0 := by rw [ZMod.val_zero, zero_nsmul]; rfl
  have hacc := accepted_of hv hsq har hal h32 hP ht hG sk 0 m
  rw [h0, zero_add] at hacc
  constructor
  · intro h
    exact C42_unique_s hv hsq har hal h32 hP ht h hacc
  · rintro rfl; exact hacc

/-- The hypotheses on the parameters hold of both curves. -/
example : bnR < bnParams.l ^ 2 ∧ blsR < blsParams.l ^ 2 := by decide +kernel

/-- Concrete: on BN256 exactly `l` signatures of the message 7 are accepted under the public key of 5, and under the public key zero
everybody can sign every message. -/
example : ∃ sqrt A, IsSqrt sqrt ∧ bnParams.g.mul (5 : ZMod bnParams.l) bnParams = .ok A ∧
    Nat.card {p : ZMod bnParams.l × ZMod bnR // verify sqrt bnParams p.1 p.2 A.x 7 powerSum = .ok true} = bnParams.l ∧
    ∀ m, verify sqrt bnParams 1 bnParams.g.x 0 m powerSum = .ok true := by
  obtain ⟨sqrt, hs⟩ := exists_isSqrt (ZMod bnR)
  obtain ⟨G, hG, -⟩ := bnParams_valid.base
  have hmul : ∀ k : ZMod bnParams.l, bnParams.g.mul k bnParams = .ok (k.val • G).affine := fun k => by rw [hG, C28_mul bnParams_valid.d_eq]
  refine ⟨sqrt, _, hs, hmul 5, ?_, fun m => ?_⟩
  · exact C101_count bnParams_valid (by decide +kernel) hs aligned_bnR aligned_bnL (by decide +kernel) powerSum_shaped (by decide) 5 _ (hmul 5) 7
  · refine (C101_zero_key bnParams_valid (by decide +kernel) hs aligned_bnR aligned_bnL (by decide +kernel) powerSum_shaped (by decide) 1 _ m).2
      ⟨_, hmul 1, ?_⟩
    rw [ZMod.val_one, one_nsmul, ← hG]

end Fawkes.Props
