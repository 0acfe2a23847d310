import Verif.Props.Eddsa

/-!
# C97: keys, nonces and signatures determine each other
-/

set_option linter.unusedSectionVars false

namespace Fawkes.Props

open Eddsa EddsaSpec

variable {r : Nat} [Fact r.Prime] {C : EdCurve (ZMod r)} {J : JubJubParams (ZMod r)} [Fact J.l.Prime]
  {sqrt : ZMod r → Option (ZMod r)} {P : PoseidonParams (ZMod r)}

theorem order_base (hv : J.Valid C) {G : EdPoint C} (hG : J.g = G.affine) : J.l • G = 0 ∧ addOrderOf G = J.l := by
  obtain ⟨G', hG', hG0, hGl⟩ := hv.base
  obtain rfl : G' = G := by
    rw [hG] at hG'
    injection hG' with h1 h2
    exact EdPoint.ext h1.symm h2.symm
  exact ⟨hGl, addOrderOf_eq_prime hGl hG0⟩

theorem base_injective (hv : J.Valid C) {G : EdPoint C} (hG : J.g = G.affine) {k k' : ZMod J.l} (h : k.val • G = k'.val • G) : k = k' := by
  have ho := (order_base hv hG).2
  exact ZMod.val_injective _ (nsmul_injOn_Iio_addOrderOf (x := G) (by rw [ho]; exact ZMod.val_lt k) (by rw [ho]; exact ZMod.val_lt k') h)

theorem base_sub (hv : J.Valid C) {G : EdPoint C} (hG : J.g = G.affine) (k : Nat) : InSubgroup J.l (k • G) := by
  unfold InSubgroup; rw [nsmul_left_comm, (order_base hv hG).1, nsmul_zero]

/-- C97 (keys): different secret keys have different public keys: the abscissa of `sk · G` determines `sk`. -/
theorem C97_public_keys (hv : J.Valid C) (sk sk' : ZMod J.l) (A A' : EdwardsPoint (ZMod r)) (h : J.g.mul sk J = .ok A)
    (h' : J.g.mul sk' J = .ok A') (hx : A.x = A'.x) : sk = sk' := by
  obtain ⟨G, hG, -⟩ := hv.base
  rw [hG, C28_mul hv.d_eq] at h h'
  cases h; cases h'
  exact base_injective hv hG (C31_unique hv (base_sub hv hG _) (base_sub hv hG _) hx)

/-- C97 (extraction): two accepted signatures under one public key with the same `r` and different challenges (modulo the order of the
group) give the secret key away: it is `(s - s') / (h - h')`.  So whoever can sign under `a` knows the secret key of `a`, and a
signer who uses a nonce twice has published the key. -/
theorem C97_extract (hv : J.Valid C) (hsq : IsSqrt sqrt) (har : Aligned r) (hal : Aligned J.l) (h32 : numBytes r ≤ 32)
    (hP : PoseidonSpec.Shaped P) (ht : 4 ≤ P.t) (s s' : ZMod J.l) (rx a m m' : ZMod r)
    (h : verify sqrt J s rx a m P = .ok true) (h' : verify sqrt J s' rx a m' P = .ok true)
    (hc : ((challenge P rx a m).val : ZMod J.l) ≠ ((challenge P rx a m').val : ZMod J.l)) :
    ∃ A, J.g.mul ((s - s') / (((challenge P rx a m).val : ZMod J.l) - ((challenge P rx a m').val : ZMod J.l))) J = .ok A ∧ A.x = a := by
  obtain ⟨G, hG, hG0, hGl⟩ := hv.base
  obtain ⟨b, hb, hi⟩ := C42_verify_iff hv hsq har hal h32 hP ht hG s rx a m
  obtain ⟨b', hb', hi'⟩ := C42_verify_iff hv hsq har hal h32 hP ht hG s' rx a m'
  rw [h] at hb; rw [h'] at hb'
  cases hb; cases hb'
  obtain ⟨R, A, hR, hA, hrx, hax, he⟩ := hi.1 rfl
  obtain ⟨R', A', hR', hA', hrx', hax', he'⟩ := hi'.1 rfl
  rw [C31_unique hv hR' hR (hrx'.trans hrx.symm), C31_unique hv hA' hA (hax'.trans hax.symm)] at he'
  set c := ((challenge P rx a m).val : ZMod J.l)
  set c' := ((challenge P rx a m').val : ZMod J.l)
  rw [← val_cast_nsmul hA] at he he'
  refine ⟨A.affine, ?_, hax⟩
  have h1 : (s - s').val • G = (c - c').val • A := by
    have e1 := EdPoint.val_add_nsmul hGl (s - s') s'
    have e2 := EdPoint.val_add_nsmul hA (c - c') c'
    rw [sub_add_cancel] at e1 e2
    rw [e1, e2, he', ← add_assoc, add_comm _ R, add_assoc] at he
    have := add_left_cancel he
    exact add_right_cancel this
  have h2 : ((s - s') / (c - c')).val • G = A := by
    rw [div_eq_mul_inv, EdPoint.val_mul_nsmul hGl, mul_nsmul, h1, ← mul_nsmul, ← EdPoint.val_mul_nsmul hA,
      mul_inv_cancel₀ (sub_ne_zero.2 hc), ZMod.val_one, one_nsmul]
  rw [hG, C28_mul hv.d_eq, h2]

/-- C97 (extraction): and the key found is the signer's key itself, not merely one that works. -/
theorem C97_key_recovered (hv : J.Valid C) (hsq : IsSqrt sqrt) (har : Aligned r) (hal : Aligned J.l) (h32 : numBytes r ≤ 32)
    (hP : PoseidonSpec.Shaped P) (ht : 4 ≤ P.t) (s s' sk : ZMod J.l) (A : EdwardsPoint (ZMod r)) (hA : J.g.mul sk J = .ok A)
    (rx m m' : ZMod r) (h : verify sqrt J s rx A.x m P = .ok true) (h' : verify sqrt J s' rx A.x m' P = .ok true)
    (hc : ((challenge P rx A.x m).val : ZMod J.l) ≠ ((challenge P rx A.x m').val : ZMod J.l)) :
    (s - s') / (((challenge P rx A.x m).val : ZMod J.l) - ((challenge P rx A.x m').val : ZMod J.l)) = sk := by
  obtain ⟨A', hA', hx⟩ := C97_extract hv hsq har hal h32 hP ht s s' rx A.x m m' h h' hc
  exact C97_public_keys hv _ _ _ _ hA' hA hx

theorem hashR_eq (har : Aligned r) (hal : Aligned J.l) (sk : ZMod J.l) (m : ZMod r) :
    ∃ k e, Num.intoBinaryBE sk = .ok k ∧ Num.intoBinaryBE m = .ok e ∧ k.length = (Nat.size J.l + 7) / 8 ∧ beNat k = sk.val ∧ beNat e = m.val ∧
      hashR sk m = .ok (beNat (Blake2s.hash 32 personalization (k ++ e)) : ZMod J.l) := by
  obtain ⟨k, h1, hl, hk⟩ := C46_into_binary_be hal sk
  obtain ⟨e, h2, -, he⟩ := C46_into_binary_be har m
  refine ⟨k, e, h1, h2, hl, hk, he, ?_⟩
  unfold hashR
  rw [h1]; simp only [bind, Except.bind]
  rw [h2]; exact C46_from_binary_be hal _

theorem sign_nonce (hv : J.Valid C) {G : EdPoint C} (hG : J.g = G.affine) {sk rho s : ZMod J.l} {m rx : ZMod r}
    (hr : hashR sk m = .ok rho) (h : sign J sk m P = .ok (s, rx)) : rx = (rho.val • G).x := by
  unfold sign at h
  rw [hr, hG, C28_mul hv.d_eq] at h
  simp only [bind, Except.bind] at h
  rw [C28_mul hv.d_eq] at h
  dsimp only at h
  cases h1 : hashRam (rho.val • G).affine.x (sk.val • G).affine.x m P with
  | error e => rw [h1] at h; cases h
  | ok c =>
    rw [h1] at h
    dsimp only at h
    cases h2 : Num.intoOther J.l c with
    | error e => rw [h2] at h; cases h
    | ok c' =>
      rw [h2] at h
      have := Except.ok.inj h
      exact (congrArg Prod.snd this).symm

/-- C97 (nonces): two signing calls return the same `r` only for the same key and message, or if Blake2s (personalised as in the
code) maps two different byte strings — the encodings of the two pairs of key and message — to numbers that are congruent modulo
the order of the group. -/
theorem C97_nonces (hv : J.Valid C) (har : Aligned r) (hal : Aligned J.l) (sk sk' : ZMod J.l) (m m' : ZMod r) (s s' : ZMod J.l)
    (rx : ZMod r) (h : sign J sk m P = .ok (s, rx)) (h' : sign J sk' m' P = .ok (s', rx)) :
    (sk = sk' ∧ m = m') ∨
      ∃ k k' e e', Num.intoBinaryBE sk = .ok k ∧ Num.intoBinaryBE sk' = .ok k' ∧ Num.intoBinaryBE m = .ok e ∧
        Num.intoBinaryBE m' = .ok e' ∧ k ++ e ≠ k' ++ e' ∧
        beNat (Blake2s.hash 32 personalization (k ++ e)) ≡ beNat (Blake2s.hash 32 personalization (k' ++ e')) [MOD J.l] := by
  obtain ⟨G, hG, -⟩ := hv.base
  obtain ⟨k, e, hk, he, kl, kv, ev, hr⟩ := hashR_eq har hal sk m
  obtain ⟨k', e', hk', he', kl', kv', ev', hr'⟩ := hashR_eq har hal sk' m'
  have hx := (sign_nonce hv hG hr h).symm.trans (sign_nonce hv hG hr' h')
  have hrho := base_injective hv hG (C31_unique hv (base_sub hv hG _) (base_sub hv hG _) hx)
  by_cases hc : k ++ e = k' ++ e'
  · obtain ⟨rfl, rfl⟩ := List.append_inj hc (kl.trans kl'.symm)
    exact .inl ⟨ZMod.val_injective _ (kv.symm.trans kv'), ZMod.val_injective _ (ev.symm.trans ev')⟩
  · exact .inr ⟨k, k', e, e', hk, hk', he, he', hc, (ZMod.natCast_eq_natCast_iff _ _ _).1 hrho⟩

/-- A small hash for the example: the sum of the fifth powers. -/
def powerSum : PoseidonParams (ZMod bnR) := ⟨[0], List.replicate 4 [1, 1, 1, 1], 4, 1, 0⟩

theorem powerSum_shaped : PoseidonSpec.Shaped powerSum :=
  ⟨rfl, rfl, fun row h => by rw [List.eq_of_mem_replicate h]; rfl⟩

theorem challenge_powerSum (rx a m : ZMod bnR) : challenge powerSum rx a m = rx ^ 5 + a ^ 5 + m ^ 5 + domain bnR ^ 5 := by
  show (1 * (rx + 0) ^ 5 + (1 * (a + 0) ^ 5 + (1 * (m + 0) ^ 5 + (1 * (domain bnR + 0) ^ 5 + 0)))) = _
  ring

/-- Concrete: on BN256 somebody uses the nonce 1 with every key `sk` for the messages 0 and 1: both signatures are accepted, the
hypotheses of the theorems hold, and the key is found. -/
example (sk : ZMod bnParams.l) : ∃ sqrt A s s', IsSqrt sqrt ∧ bnParams.g.mul sk bnParams = .ok A ∧
    verify sqrt bnParams s bnParams.g.x A.x 0 powerSum = .ok true ∧ verify sqrt bnParams s' bnParams.g.x A.x 1 powerSum = .ok true ∧
    (s - s') / (((challenge powerSum bnParams.g.x A.x 0).val : ZMod bnParams.l) - ((challenge powerSum bnParams.g.x A.x 1).val : ZMod bnParams.l)) = sk := by
  obtain ⟨sqrt, hs⟩ := exists_isSqrt (ZMod bnR)
  obtain ⟨G, hG, hG0, hGl⟩ := bnParams_valid.base
  have hA : bnParams.g.mul sk bnParams = .ok (sk.val • G).affine := by rw [hG, C28_mul bnParams_valid.d_eq]
  have hsub : ∀ k : Nat, InSubgroup bnParams.l (k • G) := base_sub bnParams_valid hG
  have hver : ∀ m : ZMod bnR, verify sqrt bnParams (1 + ((challenge powerSum bnParams.g.x (sk.val • G).affine.x m).val : ZMod bnParams.l) * sk)
      bnParams.g.x (sk.val • G).affine.x m powerSum = .ok true := by
    intro m
    obtain ⟨b, hb, hi⟩ := C42_verify_iff bnParams_valid hs aligned_bnR aligned_bnL (by decide +kernel) powerSum_shaped (by decide) hG
      (1 + ((challenge powerSum bnParams.g.x (sk.val • G).affine.x m).val : ZMod bnParams.l) * sk) bnParams.g.x (sk.val • G).affine.x m
    rw [hb, hi.2]
    refine ⟨G, sk.val • G, by simpa using hsub 1, hsub _, by rw [hG]; rfl, rfl, ?_⟩
    rw [EdPoint.val_add_nsmul hGl, EdPoint.val_mul_nsmul hGl, mul_comm, mul_nsmul, val_cast_nsmul (hsub _), ZMod.val_one, one_nsmul]
  refine ⟨sqrt, _, _, _, hs, hA, hver 0, hver 1, ?_⟩
  refine C97_key_recovered bnParams_valid hs aligned_bnR aligned_bnL (by decide +kernel) powerSum_shaped (by decide) _ _ sk _ hA _ 0 1
    (hver 0) (hver 1) ?_
  rw [challenge_powerSum, challenge_powerSum]
  generalize bnParams.g.x ^ 5 + (sk.val • G).affine.x ^ 5 = u
  generalize domain bnR ^ 5 = v
  intro he
  have e1 : u + 1 ^ 5 + v = (u + 0 ^ 5 + v) + 1 := by ring
  rw [e1] at he
  generalize u + 0 ^ 5 + v = y at he
  rw [ZMod.val_add, ZMod.val_one_eq_one_mod, ZMod.natCast_eq_natCast_iff] at he
  have hy := ZMod.val_lt y
  by_cases hlast : y.val + 1 < bnR
  · rw [show (1 % bnR) = 1 by decide +kernel, Nat.mod_eq_of_lt hlast] at he
    have := (Nat.modEq_iff_dvd' (by omega)).1 he
    rw [Nat.add_sub_cancel_left, Nat.dvd_one] at this
    exact absurd this (by decide +kernel)
  · have e2 : y.val = bnR - 1 := by omega
    rw [e2] at he
    exact absurd he (by decide +kernel)

/-- Concrete: signing gets through for every key and message (so the hypotheses of `C97_nonces` can be met). -/
example (sk : ZMod bnParams.l) (m : ZMod bnR) : ∃ s rx, sign bnParams sk m powerSum = .ok (s, rx) := by
  obtain ⟨sqrt, hs⟩ := exists_isSqrt (ZMod bnR)
  obtain ⟨s, rx, A, h, -⟩ := C41_sign_verifies bnParams_valid hs aligned_bnR aligned_bnL (by decide +kernel) powerSum_shaped (by decide) sk m
  exact ⟨s, rx, h⟩

end Fawkes.Props
