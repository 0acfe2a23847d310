import Verif.Spec.Eddsa
import Verif.Model.Eddsa
import Verif.Lemmas.PoseidonVaries
import Verif.Props.CEcc
import Verif.Props.Poseidon
import Verif.Props.NumConv

/-!
# C41–C43: signing and verifying, natively and in a circuit
-/

set_option linter.unusedSectionVars false

namespace Fawkes.Props

open Eddsa EddsaSpec

section native

variable {r : Nat} [Fact r.Prime] {C : EdCurve (ZMod r)} {J : JubJubParams (ZMod r)} [Fact J.l.Prime]
  {sqrt : ZMod r → Option (ZMod r)} {P : PoseidonParams (ZMod r)}

theorem fromSeed_domain (har : Aligned r) (h32 : numBytes r ≤ 32) : Num.fromSeed r seedEddsaPoseidon = .ok (domain r) := by
  unfold Num.fromSeed
  rw [if_pos h32]; exact C46_from_binary_be har _

theorem hashRam_ok (har : Aligned r) (h32 : numBytes r ≤ 32) (hP : PoseidonSpec.Shaped P) (ht : 4 ≤ P.t) (rx a m : ZMod r) :
    hashRam rx a m P = .ok (challenge P rx a m) := by
  unfold hashRam
  rw [fromSeed_domain har h32]
  show Poseidon.poseidonWithSalt [rx, a, m] (domain r) P = _
  rw [(C20_native P _ _).1 ⟨by simp, by simp; omega⟩]
  exact C64_hades P hP _ (by simp) (by simpa using ht)

/-- C42: `verify` never panics (for a hash of width at least four), and accepts exactly the signatures: `r` and `a` are
abscissas of points of the prime subgroup that satisfy the signature equation. -/
theorem C42_verify_iff (hv : J.Valid C) (hsq : IsSqrt sqrt) (har : Aligned r) (hal : Aligned J.l) (h32 : numBytes r ≤ 32)
    (hP : PoseidonSpec.Shaped P) (ht : 4 ≤ P.t) {G : EdPoint C} (hG : J.g = G.affine) (s : ZMod J.l) (rx a m : ZMod r) :
    ∃ b, verify sqrt J s rx a m P = .ok b ∧ (b = true ↔ IsSignature J.l G P s.val rx a m) := by
  obtain ⟨oa, hoa, hpa⟩ := C31_subgroup_decompress hsq hv a
  obtain ⟨or, hor, hpr⟩ := C31_subgroup_decompress hsq hv rx
  unfold verify
  rw [hoa]
  simp only [bind, Except.bind]
  cases oa with
  | none =>
    refine ⟨false, rfl, ?_⟩
    simp only [Bool.false_eq_true, false_iff]
    rintro ⟨R, A, -, hA, -, hax, -⟩
    have := (hpa A.affine).2 ⟨A, hA, hax, rfl⟩
    cases this
  | some pa =>
    obtain ⟨A, hA, hax, rfl⟩ := (hpa pa).1 rfl
    dsimp only
    rw [hor]
    cases or with
    | none =>
      refine ⟨false, rfl, ?_⟩
      simp only [Bool.false_eq_true, false_iff]
      rintro ⟨R, A, hR, -, hrx, -⟩
      have := (hpr R.affine).2 ⟨R, hR, hrx, rfl⟩
      cases this
    | some pr =>
      obtain ⟨R, hR, hrx, rfl⟩ := (hpr pr).1 rfl
      dsimp only
      rw [hashRam_ok har h32 hP ht]
      dsimp only
      rw [(C47_residue har hal _).1]
      dsimp only
      rw [C28_mul hv.d_eq, hG]
      dsimp only
      rw [C28_mul hv.d_eq]
      dsimp only
      rw [add_affine hv.d_eq]
      refine ⟨_, rfl, ?_⟩
      rw [val_cast_nsmul hA]
      simp only [EdPoint.affine, Bool.and_eq_true, beq_iff_eq]
      rw [← EdPoint.ext_iff, add_comm]
      constructor
      · exact fun h => ⟨R, A, hR, hA, hrx, hax, h⟩
      · rintro ⟨R', A', hR', hA', hrx', hax', h⟩
        rw [C31_unique hv hR' hR (hrx'.trans hrx.symm), C31_unique hv hA' hA (hax'.trans hax.symm)] at h
        exact h

/-- C42: for a given `r`, public key and message at most one `s` is accepted: signatures cannot be altered in `s`. -/
theorem C42_unique_s (hv : J.Valid C) (hsq : IsSqrt sqrt) (har : Aligned r) (hal : Aligned J.l) (h32 : numBytes r ≤ 32)
    (hP : PoseidonSpec.Shaped P) (ht : 4 ≤ P.t) {s s' : ZMod J.l} {rx a m : ZMod r}
    (h : verify sqrt J s rx a m P = .ok true) (h' : verify sqrt J s' rx a m P = .ok true) : s = s' := by
  obtain ⟨G, hG, hG0, hGl⟩ := hv.base
  obtain ⟨b, hb, hi⟩ := C42_verify_iff hv hsq har hal h32 hP ht hG s rx a m
  obtain ⟨b', hb', hi'⟩ := C42_verify_iff hv hsq har hal h32 hP ht hG s' rx a m
  rw [h] at hb; rw [h'] at hb'
  cases hb; cases hb'
  obtain ⟨R, A, hR, hA, hrx, hax, he⟩ := hi.1 rfl
  obtain ⟨R', A', hR', hA', hrx', hax', he'⟩ := hi'.1 rfl
  rw [C31_unique hv hR' hR (hrx'.trans hrx.symm), C31_unique hv hA' hA (hax'.trans hax.symm), ← he] at he'
  have ho : addOrderOf G = J.l := addOrderOf_eq_prime hGl hG0
  have : s'.val = s.val := by
    have := nsmul_injOn_Iio_addOrderOf (x := G) (by rw [ho]; exact ZMod.val_lt s') (by rw [ho]; exact ZMod.val_lt s) he'
    exact this
  exact ZMod.val_injective _ this.symm

/-- C41: signing never panics, and for every key (zero included) and message the signature verifies under the public key
`(sk · G).x`. -/
theorem C41_sign_verifies (hv : J.Valid C) (hsq : IsSqrt sqrt) (har : Aligned r) (hal : Aligned J.l) (h32 : numBytes r ≤ 32)
    (hP : PoseidonSpec.Shaped P) (ht : 4 ≤ P.t) (sk : ZMod J.l) (m : ZMod r) :
    ∃ s rx A, sign J sk m P = .ok (s, rx) ∧ J.g.mul sk J = .ok A ∧ verify sqrt J s rx A.x m P = .ok true := by
  obtain ⟨G, hG, hG0, hGl⟩ := hv.base
  obtain ⟨b1, h1, -⟩ := C46_into_binary_be hal sk
  obtain ⟨b2, h2, -⟩ := C46_into_binary_be har m
  obtain ⟨rho, hrho⟩ : ∃ rho : ZMod J.l, hashR sk m = .ok rho := by
    refine ⟨(beNat (Blake2s.hash 32 personalization (b1 ++ b2)) : ZMod J.l), ?_⟩
    unfold hashR
    rw [h1]; simp only [bind, Except.bind]
    rw [h2]; exact C46_from_binary_be hal _
  have hsub : ∀ k : Nat, InSubgroup J.l (k • G) := fun k => by
    unfold InSubgroup; rw [nsmul_left_comm, hGl, nsmul_zero]
  set h := challenge P (rho.val • G).x (sk.val • G).x m with hh
  have hsign : sign J sk m P = .ok (rho + (h.val : ZMod J.l) * sk, (rho.val • G).x) := by
    unfold sign
    rw [hrho]; simp only [bind, Except.bind]
    rw [hG, C28_mul hv.d_eq]; dsimp only
    rw [C28_mul hv.d_eq]; dsimp only
    rw [hashRam_ok har h32 hP ht]; dsimp only
    rw [(C47_residue har hal _).1]; rfl
  refine ⟨_, _, (sk.val • G).affine, hsign, by rw [hG, C28_mul hv.d_eq], ?_⟩
  obtain ⟨b, hb, hi⟩ := C42_verify_iff hv hsq har hal h32 hP ht hG (rho + (h.val : ZMod J.l) * sk) (rho.val • G).x
    (sk.val • G).affine.x m
  rw [hb, hi.2]
  refine ⟨rho.val • G, sk.val • G, hsub _, hsub _, rfl, rfl, ?_⟩
  show _ = _ + h.val • _
  rw [EdPoint.val_add_nsmul hGl, EdPoint.val_mul_nsmul hGl, mul_comm, mul_nsmul, val_cast_nsmul (hsub _)]

/-- What `verify` computes once the points are decompressed. -/
theorem verify_eq (hv : J.Valid C) (har : Aligned r) (hal : Aligned J.l) {G R A : EdPoint C} (hG : J.g = G.affine)
    (hA : InSubgroup J.l A) {s : ZMod J.l} {rx a m h : ZMod r}
    (hpa : EdwardsPoint.subgroupDecompress sqrt a J = .ok (some A.affine))
    (hpr : EdwardsPoint.subgroupDecompress sqrt rx J = .ok (some R.affine)) (hh : hashRam rx a m P = .ok h) :
    ∃ b, verify sqrt J s rx a m P = .ok b ∧ (b = true ↔ s.val • G = h.val • A + R) := by
  unfold verify
  rw [hpa]; simp only [bind, Except.bind]
  rw [hpr]; dsimp only
  rw [hh]; dsimp only
  rw [(C47_residue har hal _).1]; dsimp only
  rw [C28_mul hv.d_eq, hG]; dsimp only
  rw [C28_mul hv.d_eq]; dsimp only
  rw [add_affine hv.d_eq]; dsimp only
  rw [val_cast_nsmul hA]
  refine ⟨_, rfl, ?_⟩
  simp only [EdPoint.affine, Bool.and_eq_true, beq_iff_eq]
  rw [← EdPoint.ext_iff]

end native

/-! ### C43 -/

section circuit

variable {r : Nat} [Fact r.Prime] {C : EdCurve (ZMod r)} {J : JubJubParams (ZMod r)} [Fact J.l.Prime]
  {sqrt : ZMod r → Option (ZMod r)} {P : PoseidonParams (ZMod r)} {st st' : CS (ZMod r)} {w : Index → ZMod r}
  {s rx a m : CNum (ZMod r)}

theorem hashRam_of_salt (har : Aligned r) (h32 : numBytes r ≤ 32) {x y z h : ZMod r}
    (hh : Poseidon.poseidonWithSalt [x, y, z] (domain r) P = .ok h) : hashRam x y z P = .ok h := by
  unfold hashRam
  rw [fromSeed_domain har h32]; exact hh

/-- Two points of the subgroup are equal iff their abscissas are. -/
theorem subgroup_eq_iff (hv : J.Valid C) {Q Q' : EdPoint C} (h : InSubgroup J.l Q) (h' : InSubgroup J.l Q') :
    Q.x - Q'.x = 0 ↔ Q' = Q := by
  rw [sub_eq_zero]
  exact ⟨fun e => (C31_unique hv h h' e).symm, fun e => by rw [e]⟩

/-- C43 (sound): for every signal `s` that is not a constant and arbitrary `r`, `a`, `m`: in every satisfying assignment
the integer `s` has at most `NUM_BITS(Fs)` bits, `r` and `a` decompress natively, and the output is what native `verify`
returns for `s` modulo `l`. -/
theorem C43_sound (hv : J.Valid C) (hsq : IsSqrt sqrt) (har : Aligned r) (hal : Aligned J.l) (h32 : numBytes r ≤ 32)
    (hs : st.WF) (hsa : s.lc.Alloc st) (hra : rx.lc.Alloc st) (haa : a.lc.Alloc st) (hma : m.lc.Alloc st)
    (hsc : s.asConst = none) {o : CBool (ZMod r)} (hw : IsAssignment w)
    (h : (cVerify sqrt J s rx a m P).run st = .ok (o, st')) (hsat : st'.Sat w) :
    (s.lc.eval w).val < 2 ^ numBits J.l ∧
    (∃ A R, EdwardsPoint.subgroupDecompress sqrt (a.lc.eval w) J = .ok (some A) ∧
      EdwardsPoint.subgroupDecompress sqrt (rx.lc.eval w) J = .ok (some R)) ∧
    ∃ b, verify sqrt J ((s.lc.eval w).val : ZMod J.l) (rx.lc.eval w) (a.lc.eval w) (m.lc.eval w) P = .ok b ∧
      o.num.lc.eval w = if b then 1 else 0 := by
  unfold cVerify at h
  obtain ⟨_, s0, h0, h⟩ := M.bind_ok h
  obtain ⟨pa, s1, h1, h⟩ := M.bind_ok h
  obtain ⟨pr, s2, h2, h⟩ := M.bind_ok h
  obtain ⟨seed, s3, h3, h⟩ := M.bind_ok h
  obtain ⟨hh, s4, h4, h⟩ := M.bind_ok h
  obtain ⟨hBits, s5, h5, h⟩ := M.bind_ok h
  obtain ⟨ha, s6, h6, h⟩ := M.bind_ok h
  obtain ⟨sBits, s7, h7, h⟩ := M.bind_ok h
  obtain ⟨sb, s8, h8, h⟩ := M.bind_ok h
  obtain ⟨haR, s9, h9, h10⟩ := M.bind_ok h
  clear h
  -- the assertion
  rw [M.run_assert] at h0
  split at h0
  swap
  · cases h0
  next hbits =>
  cases h0
  have hbits : numBits J.l < numBits r := by simpa using hbits
  have hl4 : 4 ≤ numBits J.l := Nat.lt_size.2 (by have := hv.l_large; omega)
  have h2l : 2 ^ numBits J.l ≤ r := (Nat.pow_le_pow_right (by norm_num) (by omega)).trans (numBits_pos (p := r))
  have hr8 : 8 ≤ r := le_trans (by have := Nat.pow_le_pow_right (n := 2) (by norm_num) hl4; omega) h2l
  -- the seed
  rw [fromSeed_domain har h32, M.run_lift] at h3
  cases h3
  -- extensions and satisfaction
  have e1 := M.run_ext h1
  have e2 := M.run_ext h2
  have e4 := M.run_ext h4
  have e5 := M.run_ext h5
  have e6 := M.run_ext h6
  have e7 := M.run_ext h7
  have e8 := M.run_ext h8
  have e9 := M.run_ext h9
  have e10 := M.run_ext h10
  have q9 : s9.Sat w := e10.sat hsat
  have q8 : s8.Sat w := e9.sat q9
  have q7 : s7.Sat w := e8.sat q8
  have q6 : s6.Sat w := e7.sat q7
  have q5 : s5.Sat w := e6.sat q6
  have q4 : s4.Sat w := e5.sat q5
  have q2 : s2.Sat w := e4.sat q4
  have q1 : s1.Sat w := e2.sat q2
  have w1 := e1.wf hs
  have w2 := e2.wf w1
  have w4 := e4.wf w2
  have w5 := e5.wf w4
  have w6 := e6.wf w5
  have w7 := e7.wf w6
  have w8 := e8.wf w7
  -- decompression
  obtain ⟨A, hA, hpA, sA⟩ := C36_sound hv hsq hs a hw h1 q1
  obtain ⟨R, hR, hpR, sR⟩ := C36_sound hv hsq w1 rx hw h2 q2
  obtain ⟨oa, hoa, hoa'⟩ := C31_subgroup_decompress hsq hv (a.lc.eval w)
  rw [hA] at hoa; cases hoa
  obtain ⟨A, hAl, hAx, rfl⟩ := (hoa' A).1 rfl
  obtain ⟨or, hor, hor'⟩ := C31_subgroup_decompress hsq hv (rx.lc.eval w)
  rw [hR] at hor; cases hor
  obtain ⟨R, hRl, hRx, rfl⟩ := (hor' R).1 rfl
  -- the hash and its bits
  have e02 := e1.trans e2
  have hhash : hashRam (rx.lc.eval w) (a.lc.eval w) (m.lc.eval w) P = .ok (hh.lc.eval w) :=
    hashRam_of_salt har h32 (C20_sound P _ _ _ _ _ w hw h4 q4)
  have hhal : hh.lc.Alloc s4 := CPoseidon.post_salt_alloc _ P w2 (by
    intro x hx
    simp only [List.mem_cons, List.not_mem_nil, or_false] at hx
    rcases hx with rfl | rfl | rfl
    · exact hra.mono e02
    · exact haa.mono e02
    · exact hma.mono e02) hh s4 h4
  have hsp := spec_strict hw hr8 hh s4 hBits s5 h5 q5
  have hpl := post_strict_plain hr8 w4 hhal hBits s5 h5
  -- multiplication of `A`
  have sA5 : pa.IsSignal s5 := by
    have e := e2.trans (e4.trans e5)
    exact ⟨sA.alloc_x.mono e, sA.alloc_y.mono e, sA.varies_x, sA.varies_y⟩
  have hnz : ∃ b ∈ hBits, b.num.asConst ≠ some 0 := by
    by_contra hno
    push Not at hno
    refine C38_panics (J := J) ?_ hno (ha, s6) h6
    unfold CEdwardsPoint.asConst; rw [sA.varies_x.asConst]; rfl
  obtain ⟨iha, -, sha⟩ := C38_sound hv w5 hAl sA5 (fun b hb => (hpl b hb).1) (fun b hb => (hpl b hb).2) hnz hw h6 q6 hpA hsp
  rw [bitsNat_lowBits, Nat.mod_eq_of_lt ((ZMod.val_lt _).trans (lt_two_pow_numBits r))] at iha
  -- multiplication of the base point
  obtain ⟨G, hG, hG0, hGl⟩ := hv.base
  have hsal : s.lc.Alloc s6 := hsa.mono (e02.trans (e4.trans (e5.trans e6)))
  obtain ⟨hslt, hssp⟩ := C14_unique s _ h2l s6 s7 sBits w hw h7 q7
  have hr2 : r ≠ 2 := by omega
  obtain ⟨hsl, hssh, hsind⟩ := post_intoBits_shape hr2 (by omega) w6 hsal hsc sBits s7 h7
  rw [hG] at h8
  obtain ⟨isb, -, ssb⟩ := C39_sound_partial hv w7 hGl (fun b hb => (hssh b hb).1) (by omega) (hsind hl4) hw h8 q8 hssp
  rw [bitsNat_lowBits, Nat.mod_eq_of_lt hslt] at isb
  -- the sum
  have sha8 : ha.IsSignal s8 := by
    have e := e7.trans e8
    exact ⟨sha.alloc_x.mono e, sha.alloc_y.mono e, sha.varies_x, sha.varies_y⟩
  have sR8 : pr.IsSignal s8 := by
    have e := e4.trans (e5.trans (e6.trans (e7.trans e8)))
    exact ⟨sR.alloc_x.mono e, sR.alloc_y.mono e, sR.varies_x, sR.varies_y⟩
  obtain ⟨S, hS, iS, -⟩ := C33_add_sound_partial hv.d_eq w8 sha8 sR8 hw h9 q9 iha hpR
    ((isInCurve_iff hv.d_eq _).2 ⟨_, rfl⟩) ((isInCurve_iff hv.d_eq _).2 ⟨_, rfl⟩)
  rw [add_affine hv.d_eq] at hS
  cases hS
  -- the comparison
  obtain ⟨b, hb, hbi⟩ := verify_eq (s := ((s.lc.eval w).val : ZMod J.l)) hv har hal hG hAl hA hR hhash
  refine ⟨hslt, ⟨_, _, hA, hR⟩, b, hb, ?_⟩
  have hz := spec_isZero hw (CNum.sub haR.x sb.x) o st' h10 hsat
  have hsubG : InSubgroup J.l ((s.lc.eval w).val • G) := by
    unfold InSubgroup; rw [nsmul_left_comm, hGl, nsmul_zero]
  have hsubS : InSubgroup J.l ((hh.lc.eval w).val • A + R) := by
    have hA' : J.l • A = 0 := hAl
    have hR' : J.l • R = 0 := hRl
    unfold InSubgroup; rw [nsmul_add, nsmul_left_comm, hA', hR', nsmul_zero, add_zero]
  have hz' : o.num.lc.eval w = if ((hh.lc.eval w).val • A + R).x - ((s.lc.eval w).val • G).x = 0 then 1 else 0 := by
    have h1 : haR.x.eval w = ((hh.lc.eval w).val • A + R).x := iS.1
    have h2 : sb.x.eval w = ((s.lc.eval w).val • G).x := isb.1
    rw [CNum.eval_sub, h1, h2] at hz
    exact hz
  rw [hz']
  refine if_congr ?_ rfl rfl
  rw [hbi, subgroup_eq_iff hv hsubS hsubG, val_cast_nsmul hGl]

/-- C43 (unsatisfiable): if `r` or `a` does not decompress, or `s` has more than `NUM_BITS(Fs)` bits, no assignment with
these inputs satisfies the circuit. -/
theorem C43_unsatisfiable (hv : J.Valid C) (hsq : IsSqrt sqrt) (har : Aligned r) (hal : Aligned J.l) (h32 : numBytes r ≤ 32)
    (hs : st.WF) (hsa : s.lc.Alloc st) (hra : rx.lc.Alloc st) (haa : a.lc.Alloc st) (hma : m.lc.Alloc st)
    (hsc : s.asConst = none) {o : CBool (ZMod r)} (h : (cVerify sqrt J s rx a m P).run st = .ok (o, st')) {sv rv av : ZMod r}
    (hbad : EdwardsPoint.subgroupDecompress sqrt av J = .ok none ∨ EdwardsPoint.subgroupDecompress sqrt rv J = .ok none ∨
      2 ^ numBits J.l ≤ sv.val) :
    ¬ ∃ w, IsAssignment w ∧ st'.Sat w ∧ s.lc.eval w = sv ∧ rx.lc.eval w = rv ∧ a.lc.eval w = av := by
  rintro ⟨w, hw, hsat, rfl, rfl, rfl⟩
  obtain ⟨h1, ⟨A, R, hA, hR⟩, -⟩ := C43_sound hv hsq har hal h32 hs hsa hra haa hma hsc hw h hsat
  rcases hbad with hb | hb | hb
  · rw [hb] at hA; cases hA
  · rw [hb] at hR; cases hR
  · omega

/-- The part of the honest run up to the multiplication of `A`: some bit of the hash can be one. -/
theorem hash_bit_ne {hh : CNum (ZMod r)} {v : ZMod r} (h8 : 8 ≤ r) (hs : st.Honest) (hx : Has st hh v)
    (hor : v ≠ 0 ∨ Varies hh) {bits : List (CBool (ZMod r))} (h : (Bitify.intoBitsLEStrict hh).run st = .ok (bits, st'))
    (hb : CarriesBits st' bits (lowBits (numBits r) v.val)) : ∃ b ∈ bits, b.num.asConst ≠ some 0 := by
  by_contra hno
  push Not at hno
  rcases hor with h0 | hvar
  · have key : ∀ (l : List (CBool (ZMod r))) (bs : List Bool), CarriesBits st' l bs → (∀ b ∈ l, b.num.asConst = some 0) →
        bitsNat bs = 0 := by
      intro l bs hl
      induction hl with
      | nil => intro _; rfl
      | @cons x b l bs hx _ ih =>
        intro hz
        have h1 : (if b then (1 : ZMod r) else 0) = 0 := (Has.const hx (hz x (by simp))).symm
        have hb : b = false := by
          cases b with
          | false => rfl
          | true => simp at h1
        rw [bitsNat, ih fun y hy => hz y (by simp [hy]), hb]; rfl
    have h1 := key _ _ hb hno
    rw [bitsNat_lowBits, Nat.mod_eq_of_lt ((ZMod.val_lt _).trans (lt_two_pow_numBits r))] at h1
    exact h0 ((ZMod.val_eq_zero v).1 h1)
  · obtain ⟨hne, hv⟩ := post_strict_shape h8 hs.wf hx.alloc hvar.asConst bits st' h
    match bits, hne with
    | b :: _, _ =>
      have := hno b (by simp)
      rw [((hv b (by simp)).2).asConst] at this
      cases this

/-- C43 (complete): if `s` has at most `NUM_BITS(Fs)` bits and `r` and `a` decompress, the honest prover succeeds — also
with an invalid signature — and gets what native `verify` returns for `s` modulo `l`.  The circuit cannot multiply by a
hash that is the constant zero, so either the hash must not be zero or one of the hashed signals must not be a constant,
and then the matrix must have no zero entries. -/
theorem C43_complete (hv : J.Valid C) (hsq : IsSqrt sqrt) (har : Aligned r) (hal : Aligned J.l) (h32 : numBytes r ≤ 32)
    (hbits : numBits J.l < numBits r) (hP : PoseidonSpec.Shaped P) (ht : 4 ≤ P.t) (hs : st.Honest) {sv rv av mv : ZMod r}
    (hsv : Has st s sv) (hrv : Has st rx rv) (hav : Has st a av) (hmv : Has st m mv) (hsc : s.asConst = none)
    (hslt : sv.val < 2 ^ numBits J.l) {pA pR : EdwardsPoint (ZMod r)}
    (hA : EdwardsPoint.subgroupDecompress sqrt av J = .ok (some pA))
    (hR : EdwardsPoint.subgroupDecompress sqrt rv J = .ok (some pR))
    (hor : challenge P rv av mv ≠ 0 ∨
      ((Varies rx ∨ Varies a ∨ Varies m) ∧ 2 ≤ P.f ∧ ∀ row ∈ P.m, ∀ c ∈ row, c ≠ 0)) :
    ∃ o st' b, (cVerify sqrt J s rx a m P).run st = .ok (o, st') ∧ st'.Honest ∧
      verify sqrt J (sv.val : ZMod J.l) rv av mv P = .ok b ∧ Has st' o.num (if b then 1 else 0) := by
  have hl4 : 4 ≤ numBits J.l := Nat.lt_size.2 (by have := hv.l_large; omega)
  have h2l : 2 ^ numBits J.l ≤ r := (Nat.pow_le_pow_right (by norm_num) (by omega)).trans (numBits_pos (p := r))
  have hr8 : 8 ≤ r := le_trans (by have := Nat.pow_le_pow_right (n := 2) (by norm_num) hl4; omega) h2l
  obtain ⟨oa, hoa, hoa'⟩ := C31_subgroup_decompress hsq hv av
  rw [hA] at hoa; cases hoa
  obtain ⟨A, hAl, hAx, rfl⟩ := (hoa' pA).1 rfl
  obtain ⟨or, hor0, hor'⟩ := C31_subgroup_decompress hsq hv rv
  rw [hR] at hor0; cases hor0
  obtain ⟨R, hRl, hRx, rfl⟩ := (hor' pR).1 rfl
  obtain ⟨G, hG, hG0, hGl⟩ := hv.base
  obtain ⟨b, hb, hbi⟩ := verify_eq (s := (sv.val : ZMod J.l)) hv har hal hG hAl hA hR (hashRam_ok har h32 hP ht rv av mv)
  obtain ⟨pa, s1, h1, q1, cA, sA⟩ := C36_complete hv hsq hs hav hA
  have e1 := M.run_ext h1
  obtain ⟨pr, s2, h2, q2, cR, sR⟩ := C36_complete hv hsq q1 (hrv.mono e1) hR
  have e2 := M.run_ext h2
  have e02 := e1.trans e2
  have hsalt : Poseidon.poseidonWithSalt [rv, av, mv] (domain r) P = .ok (challenge P rv av mv) := by
    rw [(C20_native P _ _).1 ⟨by simp, by simp; omega⟩]
    exact C64_hades P hP _ (by simp) (by simpa using ht)
  have hin : List.Forall₂ (Has s2) [rx, a, m] [rv, av, mv] :=
    .cons (hrv.mono e02) (.cons (hav.mono e02) (.cons (hmv.mono e02) .nil))
  obtain ⟨hh, s4, h4, q4, hhv⟩ := C20_complete P _ (domain r) _ s2 q2 hin _ hsalt
  have e4 := M.run_ext h4
  obtain ⟨hBits, s5, h5, e5, q5, hhb⟩ := runs_strict q4 hr8 hhv
  have hnz : ∃ b ∈ hBits, b.num.asConst ≠ some 0 := by
    refine hash_bit_ne hr8 q4 hhv ?_ h5 hhb
    rcases hor with h | ⟨hvar, hf, hm0⟩
    · exact Or.inl h
    · refine Or.inr (CPoseidon.post_salt_varies _ P hm0 hf q2.wf ?_ ?_ hh s4 h4).2
      · intro x hx
        simp only [List.mem_cons, List.not_mem_nil, or_false] at hx
        rcases hx with rfl | rfl | rfl
        · exact hrv.alloc.mono e02
        · exact hav.alloc.mono e02
        · exact hmv.alloc.mono e02
      · rcases hvar with h | h | h
        · exact ⟨_, by simp, h⟩
        · exact ⟨_, by simp, h⟩
        · exact ⟨_, by simp, h⟩
  have hpl := post_strict_plain hr8 q4.wf hhv.alloc hBits s5 h5
  have eA := e2.trans (e4.trans e5)
  obtain ⟨ha, s6, h6, q6, cha, sha⟩ := C38_complete hv q5 hAl
    ⟨sA.alloc_x.mono eA, sA.alloc_y.mono eA, sA.varies_x, sA.varies_y⟩ (fun b hb => (hpl b hb).2) hnz
    ⟨cA.1.mono eA, cA.2.mono eA⟩ hhb
  rw [bitsNat_lowBits, Nat.mod_eq_of_lt ((ZMod.val_lt _).trans (lt_two_pow_numBits r))] at cha
  have e6 := M.run_ext h6
  have hsv6 := hsv.mono (e02.trans (e4.trans (e5.trans e6)))
  obtain ⟨sBits, s7, sb, s8, h7, h8, q8, csb⟩ := C39_scalar_complete hv q6 hsv6 hsc hl4
    ((Nat.le_of_lt hbits).trans (numBits_lt r).le) hslt hGl
  have e7 := M.run_ext h7
  have e8 := M.run_ext h8
  have e78 := e7.trans e8
  have eR := e4.trans (e5.trans (e6.trans e78))
  obtain ⟨haR, s9, S, h9, q9, hS, cS, -⟩ := C33_add_complete_partial hv.d_eq q8
    ⟨sha.alloc_x.mono e78, sha.alloc_y.mono e78, sha.varies_x, sha.varies_y⟩
    ⟨sR.alloc_x.mono eR, sR.alloc_y.mono eR, sR.varies_x, sR.varies_y⟩
    ⟨cha.1.mono e78, cha.2.mono e78⟩ ⟨cR.1.mono eR, cR.2.mono eR⟩
    ((isInCurve_iff hv.d_eq _).2 ⟨_, rfl⟩) ((isInCurve_iff hv.d_eq _).2 ⟨_, rfl⟩)
  rw [add_affine hv.d_eq] at hS
  cases hS
  obtain ⟨o, s10, h10, e10, q10, ho⟩ := runs_isZero q9 (has_sub cS.1 (csb.1.mono (M.run_ext h9)))
  refine ⟨o, s10, b, ?_, q10, hb, ?_⟩
  · unfold cVerify
    rw [M.run_bind, M.run_assert, decide_eq_true hbits]
    simp only [if_true]
    rw [M.run_bind, h1]; simp only
    rw [M.run_bind, h2]; simp only
    rw [M.run_bind, M.run_lift, fromSeed_domain har h32]; simp only
    rw [M.run_bind, h4]; simp only
    rw [M.run_bind, h5]; simp only
    rw [M.run_bind, h6]; simp only
    rw [M.run_bind, h7]; simp only
    rw [hG, M.run_bind, h8]; simp only
    rw [M.run_bind, h9]; simp only
    exact h10
  · convert ho using 1
    have hsubG : InSubgroup J.l (sv.val • G) := by
      unfold InSubgroup; rw [nsmul_left_comm, hGl, nsmul_zero]
    have hsubS : InSubgroup J.l ((challenge P rv av mv).val • A + R) := by
      have hA' : J.l • A = 0 := hAl
      have hR' : J.l • R = 0 := hRl
      unfold InSubgroup; rw [nsmul_add, nsmul_left_comm, hA', hR', nsmul_zero, add_zero]
    refine if_congr ?_ rfl rfl
    rw [hbi, val_cast_nsmul hGl]
    exact (subgroup_eq_iff hv hsubS hsubG).symm

/-- C43 (limit): the circuit does not require `s` to be below `l`: a native signature `s` is accepted in the form `s + l`
too, whenever that number still has `NUM_BITS(Fs)` bits. -/
theorem C43_accepts_unreduced (hv : J.Valid C) (hsq : IsSqrt sqrt) (har : Aligned r) (hal : Aligned J.l)
    (h32 : numBytes r ≤ 32) (hbits : numBits J.l < numBits r) (hP : PoseidonSpec.Shaped P) (ht : 4 ≤ P.t) (hs : st.Honest)
    {s0 : ZMod J.l} {rv av mv : ZMod r} (hok : verify sqrt J s0 rv av mv P = .ok true)
    (hlt : s0.val + J.l < 2 ^ numBits J.l) (hsv : Has st s ((s0.val + J.l : Nat) : ZMod r)) (hrv : Has st rx rv)
    (hav : Has st a av) (hmv : Has st m mv) (hsc : s.asConst = none) (h0 : challenge P rv av mv ≠ 0) :
    ∃ o st', (cVerify sqrt J s rx a m P).run st = .ok (o, st') ∧ st'.Honest ∧ Has st' o.num 1 := by
  have h2l : 2 ^ numBits J.l ≤ r := (Nat.pow_le_pow_right (by norm_num) (by omega)).trans (numBits_pos (p := r))
  have hval : ((s0.val + J.l : Nat) : ZMod r).val = s0.val + J.l := ZMod.val_natCast_of_lt (by omega)
  obtain ⟨G, hG, -⟩ := hv.base
  obtain ⟨b', hb', hi⟩ := C42_verify_iff hv hsq har hal h32 hP ht hG s0 rv av mv
  rw [hok] at hb'; cases hb'
  obtain ⟨R, A, hR, hA, hrx, hax, -⟩ := hi.1 rfl
  obtain ⟨o, st', b, h, hh, hb, ho⟩ := C43_complete hv hsq har hal h32 hbits hP ht hs hsv hrv hav hmv hsc
    (by rw [hval]; exact hlt) (by rw [← hax]; exact C31_round_trip hsq hv hA) (by rw [← hrx]; exact C31_round_trip hsq hv hR)
    (Or.inl h0)
  rw [hval, Nat.cast_add, ZMod.natCast_self, add_zero, ZMod.natCast_zmod_val, hok] at hb
  cases hb
  exact ⟨o, st', h, hh, ho⟩

end circuit

/-- Concrete: a signature in BN256 held in allocated signals meets the hypotheses of the C43 theorems; the circuit accepts
it. -/
example (P : PoseidonParams (ZMod bnR)) (hP : PoseidonSpec.Shaped P) (ht : P.t = 4) (hf : 2 ≤ P.f)
    (hm : ∀ row ∈ P.m, ∀ c ∈ row, c ≠ 0) (sk : ZMod bnParams.l) (mv : ZMod bnR) :
    ∃ sqrt sv rv A, IsSqrt sqrt ∧ sign bnParams sk mv P = .ok (sv, rv) ∧ bnParams.g.mul sk bnParams = .ok A ∧
    ∃ (s rx a m : CNum (ZMod bnR)) (st : CS (ZMod bnR)), st.Honest ∧ Has st s (sv.val : ZMod bnR) ∧ Has st rx rv ∧
      Has st a A.x ∧ Has st m mv ∧ s.asConst = none ∧
      ∃ o st', (cVerify sqrt bnParams s rx a m P).run st = .ok (o, st') ∧ st'.Honest ∧ Has st' o.num 1 := by
  obtain ⟨sqrt, hs⟩ := exists_isSqrt (ZMod bnR)
  obtain ⟨sv, rv, A, h1, h2, h3⟩ := C41_sign_verifies bnParams_valid hs aligned_bnR aligned_bnL (by decide +kernel) hP ht.ge sk mv
  refine ⟨sqrt, sv, rv, A, hs, h1, h2, ?_⟩
  obtain ⟨s, s1, _, _, hs1, hx1, hf1⟩ := runs_alloc (CS.honest_new (F := ZMod bnR) .test) (sv.val : ZMod bnR)
  obtain ⟨rx, s2, _, e2, hs2, hx2, hf2⟩ := runs_alloc hs1 rv
  obtain ⟨a, s3, _, e3, hs3, hx3, hf3⟩ := runs_alloc hs2 A.x
  obtain ⟨m, s4, _, e4, hs4, hx4, hf4⟩ := runs_alloc hs3 mv
  have e24 := e2.trans (e3.trans e4)
  have e34 := e3.trans e4
  refine ⟨s, rx, a, m, s4, hs4, hx1.mono e24, hx2.mono e34, hx3.mono e4, hx4, hf1.varies.asConst, ?_⟩
  obtain ⟨b', hb', hi⟩ := C42_verify_iff bnParams_valid hs aligned_bnR aligned_bnL (by decide +kernel) hP ht.ge bnG_affine sv rv A.x mv
  rw [h3] at hb'; cases hb'
  obtain ⟨R, A', hR, hA, hrx, hax, -⟩ := hi.1 rfl
  have hlt : sv.val < bnR := (ZMod.val_lt sv).trans (by decide +kernel)
  have hval : ((sv.val : Nat) : ZMod bnR).val = sv.val := ZMod.val_natCast_of_lt hlt
  obtain ⟨o, st', b, h, hh, hb, ho⟩ := C43_complete (C := bnCurve) bnParams_valid hs aligned_bnR aligned_bnL (by decide +kernel)
    (by decide +kernel) hP ht.ge hs4 (hx1.mono e24) (hx2.mono e34) (hx3.mono e4) hx4 hf1.varies.asConst
    (by rw [hval]; exact (ZMod.val_lt sv).trans (by decide +kernel)) (by rw [← hax]; exact C31_round_trip hs bnParams_valid hA)
    (by rw [← hrx]; exact C31_round_trip hs bnParams_valid hR) (Or.inr ⟨Or.inl hf2.varies, hf, hm⟩)
  rw [hval, ZMod.natCast_zmod_val, h3] at hb
  cases hb
  exact ⟨o, st', h, hh, ho⟩

/-- Concrete: the shipped BN256 curve and any generated Poseidon parameters of width four meet the hypotheses; every key
and message can be signed and verified. -/
example {σ E : Type} (init : List Char → σ) (gen : σ → Except E (ZMod bnR × σ)) (P : PoseidonParams (ZMod bnR))
    (hP : Poseidon.newParams init gen 4 8 54 = .ok P) (sk : ZMod bnParams.l) (m : ZMod bnR) :
    ∃ sqrt s rx A, IsSqrt sqrt ∧ sign bnParams sk m P = .ok (s, rx) ∧
      bnParams.g.mul sk bnParams = .ok A ∧ verify sqrt bnParams s rx A.x m P = .ok true := by
  obtain ⟨sqrt, hs⟩ := exists_isSqrt (ZMod bnR)
  obtain ⟨h1, h2, -⟩ := C60_shape init gen 4 8 54 P hP
  obtain ⟨s, rx, A, h⟩ := C41_sign_verifies bnParams_valid hs aligned_bnR aligned_bnL (by decide +kernel)
    h1 h2.ge sk m
  exact ⟨sqrt, s, rx, A, hs, h⟩

end Fawkes.Props
