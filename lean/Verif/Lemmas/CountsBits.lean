import Verif.Lemmas.CountsEcc
import Verif.Model.Eddsa

/-!
# Exact numbers of constraints: bits, comparisons, signatures
-/

set_option linter.unusedSectionVars false

namespace Fawkes

section key

variable {F : Type} [Field F] [DecidableEq F]

theorem LC.eval_finset (l : LC F) (w : Index → F) (S : Finset Index) (h : ∀ kv ∈ l, kv.1 ∈ S) :
    LC.eval w l = ∑ k ∈ S, (l.map fun kv => if kv.1 = k then kv.2 else 0).sum * w k := by
  induction l with
  | nil => simp
  | cons kv l ih =>
    rw [LC.eval_cons, ih fun x hx => h x (by simp [hx])]
    simp only [List.map_cons, List.sum_cons, add_mul, Finset.sum_add_distrib, ite_mul, zero_mul]
    rw [Finset.sum_ite_eq, if_pos (h kv (by simp))]

/-- A signal that varies has a variable with a coefficient other than zero. -/
theorem Varies.key {a : CNum F} (h : Varies a) : ∃ k, k ≠ .input 0 ∧ coef k a ≠ 0 := by
  by_contra hn
  push Not at hn
  obtain ⟨w, w', hw, hw', hv⟩ := h
  set S := (a.lc.map Prod.fst).toFinset with hS
  have hm : ∀ kv ∈ a.lc, kv.1 ∈ S := fun kv hkv => by simp only [hS, List.mem_toFinset]; exact List.mem_map_of_mem hkv
  have hc : ∀ k ∈ S, k ≠ .input 0 → (a.lc.map fun kv => if kv.1 = k then kv.2 else 0).sum = 0 := by
    intro k hk h0
    have := hn k h0
    unfold coef CNum.eval at this
    rw [LC.eval_finset _ _ S hm, LC.eval_finset _ _ S hm, ← Finset.sum_sub_distrib, Finset.sum_eq_single k] at this
    · simpa [bump, h0] using this
    · intro j _ hj
      by_cases hj0 : j = .input 0 <;> simp [bump, hj0, hj]
    · intro h; exact absurd hk h
  apply hv
  rw [LC.eval_finset _ _ S hm, LC.eval_finset _ _ S hm]
  refine Finset.sum_congr rfl fun k hk => ?_
  by_cases h0 : k = .input 0
  · rw [h0, show w (.input 0) = 1 from hw, show w' (.input 0) = 1 from hw']
  · rw [hc k hk h0, zero_mul, zero_mul]

theorem zip_coef_zero {l : List (CNum F)} {ks : List Index} (h : List.Forall₂ (fun (b : CNum F) j => b.lc = [(j, 1)]) l ks) (j : Index)
    (hj : j ≠ .input 0) (hn : j ∉ ks) (cs : List F) : (List.zipWith (fun c a => c * coef j a) cs l).sum = 0 := by
  induction h generalizing cs with
  | nil => cases cs <;> simp
  | @cons b i l ks hb hl ih =>
    cases cs with
    | nil => simp
    | cons c cs =>
      rw [List.zipWith_cons_cons, List.sum_cons, ih (fun h => hn (by simp [h])) cs, coef_other hb hj (fun h => hn (by simp [h]))]
      ring

/-- Distinct variables are independent. -/
theorem Independent.of_vars {l : List (CNum F)} {ks : List Index} (hl : List.Forall₂ (fun (b : CNum F) j => b.lc = [(j, 1)]) l ks)
    (hnd : ks.Nodup) (h0 : ∀ j ∈ ks, j ≠ .input 0) : Independent l := by
  induction hl with
  | nil => intro cs hcs _ x hx; rw [List.length_eq_zero_iff.1 hcs] at hx; cases hx
  | @cons b i l ks hb hl ih =>
    intro cs hcs hc
    match cs, hcs with
    | d :: cs, hcs =>
      obtain ⟨hni, hnd'⟩ := List.nodup_cons.1 hnd
      have h1 := combine_coef i hc
      rw [List.zipWith_cons_cons, List.sum_cons, zip_coef_zero hl i (h0 i (by simp)) hni, add_zero,
        coef_var hb (h0 i (by simp)), mul_one] at h1
      intro x hx
      rcases List.mem_cons.1 hx with rfl | hx
      · exact h1
      · refine ih hnd' (fun j hj => h0 j (by simp [hj])) cs (by simpa using hcs) (fun w w' hw hw' => ?_) x hx
        have := hc w w' hw hw'
        rwa [combine_cons, combine_cons, h1, zero_mul, zero_mul, zero_add, zero_add] at this

/-- New variables and a signal with an older one are independent. -/
theorem Independent.of_old {a : CNum F} {k : Index} (ha : coef k a ≠ 0) {l : List (CNum F)} {ks : List Index}
    (hl : List.Forall₂ (fun (b : CNum F) j => b.lc = [(j, 1)]) l ks) (hnd : ks.Nodup) (h0 : ∀ j ∈ ks, j ≠ .input 0) (hk : k ∉ ks)
    (hk0 : k ≠ .input 0) : Independent (a :: l) := by
  intro cs hcs hc
  match cs, hcs with
  | c :: cs, hcs =>
    have h1 := combine_coef k hc
    rw [List.zipWith_cons_cons, List.sum_cons, zip_coef_zero hl k hk0 hk, add_zero] at h1
    have hc0 : c = 0 := (mul_eq_zero.1 h1).resolve_right ha
    intro x hx
    rcases List.mem_cons.1 hx with rfl | hx
    · exact hc0
    · refine Independent.of_vars hl hnd h0 cs (by simpa using hcs) (fun w w' hw hw' => ?_) x hx
      have := hc w w' hw hw'
      rwa [combine_cons, combine_cons, hc0, zero_mul, zero_mul, zero_add, zero_add] at this

end key

open Bitify

variable {p : Nat} [hp : Fact p.Prime] {s s' : CS (ZMod p)}

theorem two_ne_zero_of_ne (h2 : p ≠ 2) : (2 : ZMod p) ≠ 0 := by
  intro h
  have : ((2 : ℕ) : ZMod p) = 0 := by exact_mod_cast h
  rw [ZMod.natCast_eq_zero_iff] at this
  exact h2 ((Nat.prime_dvd_prime_iff_eq hp.out Nat.prime_two).1 this)

/-- `n` bits: `n` constraints and independent bits. -/
theorem takes_intoBits {x : CNum (ZMod p)} {n : Nat} (h2 : p ≠ 2) (hs : s.WF) (hxa : x.lc.Alloc s) (hx : Varies x) :
    Takes s (intoBitsLE x n) n (fun bits s' => bits.length = n ∧ (∀ b ∈ bits, b.num.lc.Alloc s') ∧
      Independent (bits.map CBool.num)) := by
  refine Takes.mono (Q := fun bits s' => bits.length = n ∧ ((∀ b ∈ bits, b.num.lc.Alloc s') ∧ Independent (bits.map CBool.num)))
    ?_ fun _ _ _ h => h
  refine ((post_intoBits_count (n := n) h2 hs hxa hx.asConst).and (Q' := fun bits s' =>
    (∀ b ∈ bits, b.num.lc.Alloc s') ∧ Independent (bits.map CBool.num)) ?_).mono fun bits s' _ h => ⟨h.1.1, h.1.2, h.2⟩
  unfold intoBitsLE
  rw [hx.asConst]
  refine Post.bind (post_allocLoop_shape _ _ _ _ _ s hs hxa) ?_
  rintro ⟨bits, rem⟩ s1 e1 ⟨ks, hlen, hall, hnd, hks, hal, hco, hold⟩
  refine Post.bind Post.true fun _ s2 e2 _ => ?_
  split
  · exact Post.panic
  obtain ⟨k, hk0, hkc⟩ := hx.key
  have hkm : k ∈ s.vars.map Prod.fst := by
    by_contra hn
    exact hkc (coef_alloc hxa hk0 hn)
  dsimp only at hall hal hco hold
  refine Post.pure ⟨?_, ?_⟩
  · intro b hb
    rcases List.mem_cons.1 hb with rfl | hb
    · exact hal.mono e2
    · have : ∃ j ∈ ks, b.num.lc = [(j, 1)] := by
        clear hco hnd hks hlen hal hold
        induction hall with
        | nil => cases hb
        | cons h1 h2 ih =>
          rcases List.mem_cons.1 hb with rfl | hb
          · exact ⟨_, by simp, h1⟩
          · obtain ⟨j, hj, h⟩ := ih (by simp [hb]) hb
            exact ⟨j, by simp [hj], h⟩
      obtain ⟨j, hj, hbj⟩ := this
      refine LC.Alloc.mono (s := s1) ?_ e2
      intro i hi
      rw [hbj] at hi
      simp only [LC.keys, List.map_cons, List.map_nil, List.mem_singleton] at hi
      subst hi; exact Or.inr (hks i hj).2.2
  · refine Independent.of_old (k := k) (ks := ks) ?_ ?_ hnd (fun j hj => (hks j hj).1) (fun h => (hks k h).2.1 hkm) hk0
    · rw [hold k hkm hk0]; exact hkc
    · exact List.forall₂_map_left_iff.2 hall

theorem coef_compTerm {k : Index} (ctl ctu : Bool) {l u lu : CNum (ZMod p)} (hl : coef k l = 0) (hu : coef k u = 0) :
    coef k (compTerm ctl ctu l u lu) = coef k lu ∨ coef k (compTerm ctl ctu l u lu) = -coef k lu := by
  unfold compTerm
  cases ctl <;> cases ctu <;> simp [coef_sub, coef_add, coef_subConst, coef_addAssign, coef_mulConst, hl, hu]

theorem alloc_compTerm (ctl ctu : Bool) {l u lu : CNum (ZMod p)} (hl : l.lc.Alloc s) (hu : u.lc.Alloc s) (hlu : lu.lc.Alloc s) :
    (compTerm ctl ctu l u lu).lc.Alloc s := by
  unfold compTerm
  cases ctl <;> cases ctu
  · exact alloc_sub (alloc_add hl hu) hlu
  · exact alloc_subConst (alloc_addAssign hlu hu) _
  · exact alloc_subConst (alloc_sub (alloc_addAssign (alloc_mulConst hu _) hl) hlu) _
  · exact alloc_subConst hlu _

/-- The padding of the comparison to an even number of bits. -/
def padBits2 (bits : List (CBool (ZMod p))) : List (CBool (ZMod p)) :=
  bits ++ if bits.length % 2 = 1 then [CBool.fromConst false] else []

theorem padBits2_two (b0 b1 : CBool (ZMod p)) (bits : List (CBool (ZMod p))) :
    padBits2 (b0 :: b1 :: bits) = b0 :: b1 :: padBits2 bits := by
  unfold padBits2
  have h2 : (b0 :: b1 :: bits).length % 2 = bits.length % 2 := by simp only [List.length_cons]; omega
  simp only [h2, List.cons_append]

/-- The loop of the comparison: one constraint for every two bits. -/
theorem takes_compLoop (h2 : p ≠ 2) (bits : List (CBool (ZMod p))) : ∀ {ct : List Bool} {k : ZMod p} {acc : CNum (ZMod p)}
    {s0 s : CS (ZMod p)}, s0.Ext s → s.WF → k ≠ 0 → acc.lc.Alloc s → (∀ b ∈ bits, b.num.lc.Alloc s0 ∧ Varies b.num) →
    (bits.length < 2 → NewIn s0 acc) →
    Takes s (compLoop ((bits.length + 1) / 2) ct (padBits2 bits) k acc) (bits.length / 2)
      (fun r s' => r.1.lc.Alloc s' ∧ NewIn s0 r.1) := by
  match bits with
  | [] =>
    intro ct k acc s0 s e hs hk ha hb hn
    rw [show (([] : List (CBool (ZMod p))).length + 1) / 2 = 0 by simp, show ([] : List (CBool (ZMod p))).length / 2 = 0 by simp]
    unfold compLoop
    exact Takes.pure ⟨ha, hn (by simp)⟩
  | [b] =>
    intro ct k acc s0 s e hs hk ha hb hn
    rw [show padBits2 [b] = [b, CBool.fromConst false] from rfl]
    rw [show ([b].length + 1) / 2 = 1 by simp, show [b].length / 2 = 0 by simp]
    unfold compLoop
    split
    · simp_all
    · next heq1 heq2 =>
      cases heq2
      cases heq1
      have hn' := hn (by simp)
      obtain ⟨j, hj0, hjn, hjc⟩ := hn'
      obtain ⟨hba, hbv⟩ := hb b (by simp)
      have hjb := coef_alloc hba hj0 hjn
      have hjf : coef j (CBool.fromConst false : CBool (ZMod p)).num = 0 := coef_fromConst 0
      rw [CNum.mul_const_right hbv.asConst CEdwardsPoint.fromConst_false_asConst]
      refine Takes.cast (Takes.bind (Q := fun lu s' => lu = CNum.mulConst b.num 0 ∧ s' = s) (Takes.pure ⟨rfl, rfl⟩) ?_) (Nat.zero_add 0)
      rintro _ _ _ ⟨rfl, rfl⟩
      unfold compLoop
      refine Takes.pure ⟨alloc_add ha (alloc_mulConst (alloc_compTerm _ _ (hba.mono e) (alloc_fromConst _)
        (alloc_mulConst (hba.mono e) _)) _), j, hj0, hjn, ?_⟩
      show coef j (CNum.add _ _) ≠ 0
      rw [coef_add, coef_mulConst]
      rcases coef_compTerm (p := p) (k := j) _ _ hjb hjf with h | h
      · rw [h, coef_mulConst, hjb, zero_mul, zero_mul, add_zero]; exact hjc
      · rw [h, coef_mulConst, hjb, zero_mul, neg_zero, zero_mul, add_zero]; exact hjc
    · exact Takes.panic
  | b0 :: b1 :: bits =>
    intro ct k acc s0 s e hs hk ha hb hn
    rw [padBits2_two, show ((b0 :: b1 :: bits).length + 1) / 2 = (bits.length + 1) / 2 + 1 by simp only [List.length_cons]; omega,
      show (b0 :: b1 :: bits).length / 2 = 1 + bits.length / 2 by simp only [List.length_cons]; omega]
    unfold compLoop
    split
    · simp_all
    · next heq1 heq2 =>
      cases heq2
      cases heq1
      obtain ⟨a0, v0⟩ := hb b0 (by simp)
      obtain ⟨a1, v1⟩ := hb b1 (by simp)
      refine Takes.bind (takes_mul hs v0 v1) fun lu s1 e1 h1 => ?_
      have e01 := e.trans e1
      refine takes_compLoop h2 bits e01 (e1.wf hs) (mul_ne_zero (two_ne_zero_of_ne h2) hk) ?_ (fun b hb' => hb b (by simp [hb'])) fun _ => ?_
      · exact alloc_add (ha.mono e1) (alloc_mulConst (alloc_compTerm _ _ (a0.mono e01) (a1.mono e01) h1.2) _)
      · obtain ⟨j, hj0, hjn, hj1, hjo⟩ := h1.1.key
        refine ⟨j, hj0, fun h => hjn (mem_vars_mono e h), ?_⟩
        rw [coef_add, coef_mulConst, hjo _ ha, zero_add]
        refine mul_ne_zero ?_ hk
        rcases coef_compTerm (p := p) (k := j) _ _ (hjo _ (a0.mono e)) (hjo _ (a1.mono e)) with h | h
        · rw [h, hj1]; exact one_ne_zero
        · rw [h, hj1]; exact neg_ne_zero.2 one_ne_zero
    · exact Takes.panic

theorem takes_compConstant (h2 : p ≠ 2) (hs : s.WF) {bits : List (CBool (ZMod p))} (hb : ∀ b ∈ bits, b.num.lc.Alloc s ∧ Varies b.num)
    (hn : 2 ≤ bits.length) (ct : ZMod p) :
    Takes s (compConstant bits ct) (bits.length + 1) (fun b _ => Varies b.num) := by
  unfold compConstant
  dsimp only
  refine Takes.cast (Takes.bind (Q := fun _ s' => s' = s) (Takes.assert fun _ => rfl) ?_)
    (show 0 + (bits.length / 2 + ((bits.length / 2 + bits.length % 2 + 1) + 0)) = bits.length + 1 by omega)
  intro _ s' _ hss
  rw [hss]
  have hst : bits.length / 2 + bits.length % 2 = (bits.length + 1) / 2 := by omega
  rw [hst]
  refine Takes.bind (takes_compLoop h2 bits (CS.Ext.refl s) hs one_ne_zero (alloc_fromConst 0) hb (by omega)) ?_
  rintro ⟨acc, k⟩ s1 e1 ⟨h1, h3⟩
  dsimp only at h1 h3 ⊢
  refine Takes.bind (takes_intoBits h2 (e1.wf hs) (alloc_addConst h1 _) (h3.addConst _).varies) fun out s2 e2 ho => ?_
  split
  · exact Takes.panic
  · next b hbo => exact Takes.pure (ho.2.2.all_varies _ (List.mem_map_of_mem (List.mem_of_getElem? hbo)))

/-- The strict decomposition: twice the number of bits, and two. -/
theorem takes_strict {x : CNum (ZMod p)} (h4 : 4 ≤ p) (h2 : p ≠ 2) (hs : s.WF) (hxa : x.lc.Alloc s) (hx : Varies x) :
    Takes s (intoBitsLEStrict x) (2 * numBits p + 2) (fun bits s' => bits.length = numBits p ∧ (∀ b ∈ bits, b.num.lc.Alloc s') ∧
      Independent (bits.map CBool.num)) := by
  unfold intoBitsLEStrict
  refine Takes.cast (Takes.bind (takes_intoBits h2 hs hxa hx) fun bits s1 e1 h1 => ?_)
    (show numBits p + ((numBits p + 1) + (1 + 0)) = 2 * numBits p + 2 by omega)
  have hv := h1.2.2.all_varies
  have hn : 2 ≤ numBits p := Nat.lt_size.2 (by omega)
  have hc := takes_compConstant h2 (e1.wf hs) (fun b hb => ⟨h1.2.1 b hb, hv _ (List.mem_map_of_mem hb)⟩) (by rw [h1.1]; exact hn) (-1)
  rw [h1.1] at hc
  refine Takes.bind hc fun c s2 e2 h3 => ?_
  refine Takes.bind (takes_assertConst h3.asConst _) fun _ s3 e3 _ => ?_
  exact Takes.pure ⟨h1.1, fun b hb => (h1.2.1 b hb).mono (e2.trans e3), h1.2.2⟩

/-! ## Signatures -/

/-- `c_eddsaposeidon_verify`. -/
theorem takes_cVerify (sqrt : ZMod p → Option (ZMod p)) {C : EdCurve (ZMod p)} {J : JubJubParams (ZMod p)} [Fact J.l.Prime] (hJ : J.Valid C)
    (P : PoseidonParams (ZMod p)) (hm : ∀ row ∈ P.m, ∀ c ∈ row, c ≠ 0) (hf : 2 ≤ P.f)
    (hg : ∀ G : EdPoint C, J.g = G.affine → ∀ k, k < numBits J.l / 3 → Generic (8 ^ k • G)) (h4 : 4 ≤ p) (hs : s.WF) {sg rx a m : CNum (ZMod p)}
    (as : sg.lc.Alloc s) (arx : rx.lc.Alloc s) (aa : a.lc.Alloc s) (am : m.lc.Alloc s) (vs : Varies sg) (vrx : Varies rx)
    (va : Varies a) (vm : Varies m) :
    Takes s (Eddsa.cVerify sqrt J sg rx a m P)
      (2 * 19 + 3 * (3 + (P.f - 1) * P.t + P.p) + (2 * numBits p + 2) + (9 * numBits p + 10) + numBits J.l + constMulCount (numBits J.l) + 6 + 3)
      (fun b _ => Varies b.num) := by
  have hd0 : J.d ≠ 0 := by rw [hJ.d_eq]; exact C.d_ne_zero
  have ha0 : J.a ≠ 0 := by rw [hJ.a_eq]; exact C.a_ne_zero
  have hb0 : J.b ≠ 0 := by rw [hJ.b_eq]; exact C.b_ne_zero
  have h20 : (2 : ZMod p) ≠ 0 := C.two_ne_zero
  have h2 : p ≠ 2 := C.r_ne_two
  obtain ⟨G, hG, hG0, hGl⟩ := hJ.base
  have hl2 : 2 ≤ numBits J.l := by have := hJ.l_large; exact Nat.lt_size.2 (by omega)
  unfold Eddsa.cVerify
  refine Takes.cast (Takes.bind (Q := fun _ s' => s' = s) (Takes.assert fun _ => rfl) ?_)
    (show 0 + (19 + (19 + (0 + (3 * (3 + (P.f - 1) * P.t + P.p) + ((2 * numBits p + 2) + ((9 * numBits p + 10) + (numBits J.l +
      (constMulCount (numBits J.l) + (6 + 3))))))))) = _ by generalize (P.f - 1) * P.t = z; omega)
  intro _ s' _ hss
  rw [hss]
  refine Takes.bind (CEdwardsPoint.takes_decompress sqrt hd0 h20 hs aa) fun pa s1 e1 h1 => ?_
  have hs1 := e1.wf hs
  refine Takes.bind (CEdwardsPoint.takes_decompress sqrt hd0 h20 hs1 (arx.mono e1)) fun pr s2 e2 h3 => ?_
  have hs2 := e2.wf hs1
  refine Takes.bind (Q := fun _ s' => s' = s2) (Takes.lift fun _ _ => rfl) fun seed s2' _ h2' => ?_
  rw [h2']
  have e12 := e1.trans e2
  have hh := CPoseidon.takes_salt (s := s2) seed P hm hf (inputs := [rx, a, m]) hs2
    (by intro x hx; simp only [List.mem_cons, List.not_mem_nil, or_false] at hx
        rcases hx with rfl | rfl | rfl
        · exact arx.mono e12
        · exact aa.mono e12
        · exact am.mono e12)
    (by intro x hx; simp only [List.mem_cons, List.not_mem_nil, or_false] at hx
        rcases hx with rfl | rfl | rfl
        · exact Plain.of_varies vrx
        · exact Plain.of_varies va
        · exact Plain.of_varies vm)
    ⟨rx, by simp, vrx.asConst⟩
  rw [show [rx, a, m].countP (fun a => a.asConst.isNone) = 3 by simp [List.countP_cons, vrx.asConst, va.asConst, vm.asConst]] at hh
  refine Takes.bind hh fun h s3 e3 hh => ?_
  have hs3 := e3.wf hs2
  refine Takes.bind (takes_strict h4 h2 hs3 hh.1 hh.2.varies) fun hBits s4 e4 hb => ?_
  have hs4 := e4.wf hs3
  have e24 := e3.trans e4
  have hvar := CEdwardsPoint.takes_mulVarBase (J := J) h20 ha0 hb0 hs4 (h1.2.1.mono (e2.trans e24)) (h1.2.2.mono (e2.trans e24)) h1.1.varies.1
    h1.1.varies.2 (bits := hBits) (fun b hb' => hb.2.2.all_varies _ (List.mem_map_of_mem hb'))
    (by rintro rfl
        have h0 : (0 : Nat) = numBits p := hb.1
        have : 2 ≤ numBits p := Nat.lt_size.2 (by omega)
        omega)
  rw [hb.1] at hvar
  have hpa : pa.mul hBits J = CEdwardsPoint.mulVarBase pa hBits J := by
    unfold CEdwardsPoint.mul CEdwardsPoint.asConst
    rw [h1.1.varies.1.asConst]; rfl
  rw [hpa]
  refine Takes.bind hvar fun ha s5 e5 hha => ?_
  have hs5 := e5.wf hs4
  have e05 := e12.trans (e24.trans e5)
  refine Takes.bind (takes_intoBits (n := numBits J.l) h2 hs5 (as.mono e05) vs) fun sBits s6 e6 hsb => ?_
  have hs6 := e6.wf hs5
  have hcm : (CEdwardsPoint.fromConst J.g).mul sBits J = CEdwardsPoint.mulConstBase J.g sBits J := by
    unfold CEdwardsPoint.mul CEdwardsPoint.asConst CEdwardsPoint.fromConst
    simp only [CNum.asConst_fromConst]; rfl
  have hconst := CEdwardsPoint.takes_mulConstBase hJ.d_eq hb0 hJ.l_prime hJ.l_large hGl hG0 hs6 hsb.2.1 hsb.2.2 (by rw [hsb.1]; exact hl2)
    (by rw [hsb.1]; exact hg G hG)
  rw [hsb.1, ← hG] at hconst
  rw [hcm]
  refine Takes.bind hconst fun sb s7 e7 h7 => ?_
  have hs7 := e7.wf hs6
  refine Takes.bind (CEdwardsPoint.takes_add hd0 hs7 hha.2.2 h3.1) fun haR s8 e8 h8 => ?_
  exact (takes_isZero (e8.wf hs7) (h8.2.2.1.sub h7.1).varies).mono fun _ _ _ h => h.2.varies

end Fawkes
