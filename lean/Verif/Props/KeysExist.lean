import Verif.Props.Handwritten

/-!
# Which circuits have keys: C88
-/

namespace Fawkes.Props

open Groth16 Polynomial

variable {r : Nat} [Fact r.Prime] {W : Type}

/-- Every allocated variable occurs in some constraint. -/
def AllUsed (s : CS (ZMod r)) : Prop :=
  ∀ j, j < s.naux → ∃ c ∈ s.cons, Index.aux j ∈ c.a.lc.keys ++ c.b.lc.keys ++ c.c.lc.keys

/-- The zeros of `b x + a y + c`, where not all three coefficients are zero. -/
theorem linear_zeros (x y c : ZMod r) (h : ¬ (x = 0 ∧ y = 0 ∧ c = 0)) :
    (Finset.univ.filter fun q : ZMod r × ZMod r => x * q.2 + y * q.1 + c = 0).card ≤ r := by
  classical
  have hcard : Fintype.card (ZMod r) = r := ZMod.card r
  by_cases hx : x = 0
  · by_cases hy : y = 0
    · rw [Finset.card_eq_zero.2]
      · exact Nat.zero_le _
      · refine Finset.filter_eq_empty_iff.2 fun q _ h0 => h ⟨hx, hy, ?_⟩
        rw [hx, hy] at h0
        linear_combination h0
    · refine (Finset.card_le_card_of_injOn (fun q => q.2) (t := (Finset.univ : Finset (ZMod r))) (fun _ _ => by simp) ?_).trans
        (by simp [hcard])
      intro p hp q hq hpq
      simp only [Finset.coe_filter, Finset.mem_univ, true_and, Set.mem_setOf_eq] at hp hq hpq
      refine Prod.ext (mul_left_cancel₀ hy ?_) hpq
      rw [hx] at hp hq
      linear_combination hp - hq
  · refine (Finset.card_le_card_of_injOn (fun q => q.1) (t := (Finset.univ : Finset (ZMod r))) (fun _ _ => by simp) ?_).trans
      (by simp [hcard])
    intro p hp q hq hpq
    simp only [Finset.coe_filter, Finset.mem_univ, true_and, Set.mem_setOf_eq] at hp hq hpq
    refine Prod.ext hpq (mul_left_cancel₀ hx ?_)
    rw [hpq] at hp
    linear_combination hp - hq

/-- Three polynomials, one of them not zero. -/
theorem combined_zeros {A B C : (ZMod r)[X]} {d : Nat} (hA : A.natDegree ≤ d) (hB : B.natDegree ≤ d) (hC : C.natDegree ≤ d)
    (h : A ≠ 0 ∨ B ≠ 0 ∨ C ≠ 0) :
    (Finset.univ.filter fun q : ZMod r × ZMod r × ZMod r => A.eval q.2.2 * q.2.1 + B.eval q.2.2 * q.1 + C.eval q.2.2 = 0).card ≤
      (d + 1) * r ^ 2 := by
  classical
  have hcard : Fintype.card (ZMod r) = r := ZMod.card r
  obtain ⟨Z, hZ0, hZd, hZ⟩ : ∃ Z : (ZMod r)[X], Z ≠ 0 ∧ Z.natDegree ≤ d ∧
      ∀ t, A.eval t = 0 ∧ B.eval t = 0 ∧ C.eval t = 0 → Z.eval t = 0 := by
    rcases h with h | h | h
    exacts [⟨A, h, hA, fun t h => h.1⟩, ⟨B, h, hB, fun t h => h.2.1⟩, ⟨C, h, hC, fun t h => h.2.2⟩]
  have hsub : (Finset.univ.filter fun q : ZMod r × ZMod r × ZMod r =>
      A.eval q.2.2 * q.2.1 + B.eval q.2.2 * q.1 + C.eval q.2.2 = 0) ⊆
      (Finset.univ : Finset (ZMod r)).biUnion fun t =>
        ((if Z.eval t = 0 then Finset.univ else
          Finset.univ.filter fun p : ZMod r × ZMod r => A.eval t * p.2 + B.eval t * p.1 + C.eval t = 0)).image
            fun p => (p.1, p.2, t) := by
    intro q hq
    simp only [Finset.mem_filter, Finset.mem_univ, true_and] at hq
    simp only [Finset.mem_biUnion, Finset.mem_univ, true_and, Finset.mem_image]
    refine ⟨q.2.2, (q.1, q.2.1), ?_, rfl⟩
    split
    · exact Finset.mem_univ _
    · simpa using hq
  refine (Finset.card_le_card hsub).trans (Finset.card_biUnion_le.trans ?_)
  have hterm : ∀ t : ZMod r, (((if Z.eval t = 0 then Finset.univ else
      Finset.univ.filter fun p : ZMod r × ZMod r => A.eval t * p.2 + B.eval t * p.1 + C.eval t = 0)).image
        fun p => (p.1, p.2, t)).card ≤ r + if Z.eval t = 0 then r ^ 2 else 0 := by
    intro t
    refine Finset.card_image_le.trans ?_
    split
    · simp [hcard, sq]
    · next h0 => exact (linear_zeros _ _ _ fun h => h0 (hZ t h)).trans (Nat.le_add_right _ _)
  refine (Finset.sum_le_sum fun t _ => hterm t).trans ?_
  rw [Finset.sum_add_distrib, Finset.sum_const, ← Finset.sum_filter, Finset.sum_const, Finset.card_univ, hcard, smul_eq_mul, smul_eq_mul]
  have hroots : (Finset.univ.filter fun t => Z.eval t = 0).card ≤ d := by
    refine (Finset.card_le_card (t := Z.roots.toFinset) fun t ht => ?_).trans
      ((Multiset.toFinset_card_le _).trans ((Polynomial.card_roots' _).trans hZd))
    rw [Multiset.mem_toFinset, Polynomial.mem_roots hZ0]
    exact (Finset.mem_filter.1 ht).2
  calc r * r + (Finset.univ.filter fun t => Z.eval t = 0).card * r ^ 2 ≤ r * r + d * r ^ 2 :=
        Nat.add_le_add_left (Nat.mul_le_mul_right _ hroots) _
    _ = (d + 1) * r ^ 2 := by ring

/-- Constraints over canonical linear combinations in which every variable is used: keys exist for all but few secrets. -/
theorem parameters_exist {K : TwoAdic (ZMod r)} (hK : LawfulTwoAdic K) {s : CS (ZMod r)} (hc : ConsCanonical s)
    (hrange : rowsInRange s = true) (hn : 1 ≤ s.ninputs) (hused : AllUsed s) (hsize : s.cons.length + s.ninputs ≤ 2 ^ (K.S - 1)) :
    ∃ bad : Finset (ZMod r × ZMod r × ZMod r), bad.card ≤ 2 * (s.cons.length + s.ninputs) * s.naux * r ^ 2 ∧
      ∀ {G1 G2 : Type} [AddCommGroup G1] [AddCommGroup G2] [DecidableEq G1] [DecidableEq G2] (t : Toxic G1 G2 r)
        (_ : r • t.g1 = 0) (_ : t.g1 ≠ 0) (_ : t.gamma ≠ 0) (_ : t.delta ≠ 0) (_ : (t.alpha, t.beta, t.tau) ∉ bad),
        ∃ params, generateParameters K t s = .ok params := by
  classical
  have hlen : (rows s).length = s.cons.length + s.ninputs := by simp [rows]
  have hdom : ∃ D, Domain.ofLength K (rows s).length = some D := by
    unfold Domain.ofLength
    simp only
    rw [if_neg]
    · exact ⟨_, rfl⟩
    · rintro ⟨h0, h1⟩
      have h2 : Nat.clog 2 (rows s).length ≤ K.S - 1 := Nat.clog_le_of_le_pow (hlen ▸ hsize)
      omega
  obtain ⟨D, hD⟩ := hdom
  obtain ⟨hDl, hDm⟩ := hK.domain hD
  have hm : D.m ≤ 2 * (rows s).length := domain_le (by omega) hD
  have hpos := hDl.pos
  let zeros (j : Nat) : Finset (ZMod r × ZMod r × ZMod r) := Finset.univ.filter fun q =>
    (columnPoly D s (fun q => q.1) (.aux j)).eval q.2.2 * q.2.1 + (columnPoly D s (fun q => q.2.1) (.aux j)).eval q.2.2 * q.1 +
      (columnPoly D s (fun q => q.2.2) (.aux j)).eval q.2.2 = 0
  have hz : ∀ j < s.naux, (zeros j).card ≤ D.m * r ^ 2 := by
    intro j hj
    have hdeg : ∀ f : Side r, (columnPoly D s f (.aux j)).natDegree ≤ D.m - 1 := fun f => Domain.degree_poly _ _
    have := combined_zeros (hdeg fun q => q.1) (hdeg fun q => q.2.1) (hdeg fun q => q.2.2) ?_
    · rwa [Nat.sub_add_cancel hpos] at this
    · obtain ⟨c, hcm, hj⟩ := hused j hj
      have hrow : c.shape ∈ rows s := List.mem_append_left _ (List.mem_map_of_mem hcm)
      obtain ⟨ca, cb, cc⟩ := hc c hcm
      have hkey : ∀ l : LC (ZMod r), l.Canonical → Index.aux j ∈ l.keys → coeff (.aux j) l ≠ 0 := by
        intro l hl hm
        obtain ⟨⟨k, v⟩, ht, hk⟩ := List.mem_map.1 hm
        simp only at hk
        subst hk
        rw [coeff_of_mem hl.sorted ht]
        exact hl.nonzero _ ht (by simp)
      simp only [List.mem_append] at hj
      rcases hj with (hj | hj) | hj
      · exact .inl (columnPoly_ne hDl hDm ⟨_, hrow, hkey _ ca hj⟩)
      · exact .inr (.inl (columnPoly_ne hDl hDm ⟨_, hrow, hkey _ cb hj⟩))
      · exact .inr (.inr (columnPoly_ne hDl hDm ⟨_, hrow, hkey _ cc hj⟩))
  refine ⟨(Finset.range s.naux).biUnion zeros, ?_, ?_⟩
  · refine (Finset.card_biUnion_le_card_mul _ _ _ fun j hj => hz j (Finset.mem_range.1 hj)).trans ?_
    rw [Finset.card_range, ← hlen]
    calc s.naux * (D.m * r ^ 2) ≤ s.naux * (2 * (rows s).length * r ^ 2) := Nat.mul_le_mul_left _ (Nat.mul_le_mul_right _ hm)
      _ = 2 * (rows s).length * s.naux * r ^ 2 := by ring
  · intro G1 G2 _ _ _ _ t h1 n1 hg hd ht
    unfold generateParameters
    rw [if_neg (by simp [hrange]), hD]
    simp only
    rw [if_neg (by simp [hg, hd]), if_neg]
    · exact ⟨_, rfl⟩
    rw [List.any_eq_true]
    rintro ⟨b, hb, hb0⟩
    simp only [keysOf, List.mem_map] at hb
    obtain ⟨k, hk, rfl⟩ := hb
    simp only [auxVars, List.mem_map, List.mem_range] at hk
    obtain ⟨j, hj, rfl⟩ := hk
    apply ht
    refine Finset.mem_biUnion.2 ⟨j, Finset.mem_range.2 hj, Finset.mem_filter.2 ⟨Finset.mem_univ _, ?_⟩⟩
    simp only
    rw [columnPoly_eval hDm, columnPoly_eval hDm, columnPoly_eval hDm]
    by_contra hne
    refine smul_ne_zero_of_order h1 n1 (x := Groth16.ext D t s t.delta⁻¹ (.aux j)) ?_ (by simpa using hb0)
    exact mul_ne_zero hne (inv_ne_zero hd)

theorem range_of_good {s : CS (ZMod r)} (hf : s.WF) (h : ConsGood false s s) : rowsInRange s = true := by
  unfold rowsInRange
  rw [List.all_eq_true]
  intro c hc
  rw [List.all_eq_true]
  intro t ht
  have key : ∀ l : LC (ZMod r), l.Alloc s → t ∈ l → inRange s t.1 = true := by
    intro l hl hm
    rcases hl t.1 (List.mem_map_of_mem (f := Prod.fst) hm) with h0 | h0
    · have := hf.pos
      rw [h0]; simp only [inRange, decide_eq_true_eq]; omega
    · obtain ⟨k, v⟩ := t
      cases k with
      | input n => simpa [inRange] using (hf.input_lt n h0).2
      | aux n => simpa [inRange] using hf.aux_lt n h0
  obtain ⟨ha, hb, hcc, -⟩ := h c hc
  simp only [List.mem_append] at ht
  rcases ht with (ht | ht) | ht
  exacts [key _ ha.alloc ht, key _ hb.alloc ht, key _ hcc.alloc ht]

/-- C88: a circuit of the macros that runs without data, uses every variable it allocates and is not too large for the field has keys:
`generate_keys` returns some, for all but few random choices. -/
theorem C88_keys {K : TwoAdic (ZMod r)} (hK : LawfulTwoAdic K) (P Q : Ty) (code : Code r W) (a0 : P.S (ZMod r)) (s0 : CS (ZMod r))
    (hset : (generated P Q code none none none).run (CS.new .setup) = .ok (a0, s0)) (hused : AllUsed s0)
    (hsize : s0.cons.length + s0.ninputs ≤ 2 ^ (K.S - 1)) :
    ∃ bad : Finset (ZMod r × ZMod r × ZMod r), bad.card ≤ 2 * (s0.cons.length + s0.ninputs) * s0.naux * r ^ 2 ∧
      ∀ {G1 G2 : Type} [AddCommGroup G1] [AddCommGroup G2] [DecidableEq G1] [DecidableEq G2] (t : Toxic G1 G2 r)
        (_ : r • t.g1 = 0) (_ : t.g1 ≠ 0) (_ : t.gamma ≠ 0) (_ : t.delta ≠ 0) (_ : (t.alpha, t.beta, t.tau) ∉ bad),
        ∃ params, generateKeys K t (generated P Q code none none none) = .ok params := by
  have hf : s0.WF := (M.run_ext hset).wf (wf_new _)
  have hgood := circuit_good false P Q code none none none (fun k => by cases k) .setup hset
  obtain ⟨bad, hcard, hbad⟩ := parameters_exist hK (canonical_of_run hset) (range_of_good hf hgood) hf.pos hused hsize
  refine ⟨bad, hcard, ?_⟩
  intro G1 G2 _ _ _ _ t h1 n1 hg hd ht
  unfold generateKeys
  rw [hset]
  exact hbad t h1 n1 hg hd ht

/-- C88 for circuits written without the macros. -/
theorem C88_keys_handwritten {K : TwoAdic (ZMod r)} (hK : LawfulTwoAdic K) (code : Code r W) (o0 : List (CNum (ZMod r)))
    (s0 : CS (ZMod r)) (hset : (handwritten code none).run (CS.new .setup) = .ok (o0, s0)) (hused : AllUsed s0)
    (hsize : s0.cons.length + s0.ninputs ≤ 2 ^ (K.S - 1)) :
    ∃ bad : Finset (ZMod r × ZMod r × ZMod r), bad.card ≤ 2 * (s0.cons.length + s0.ninputs) * s0.naux * r ^ 2 ∧
      ∀ {G1 G2 : Type} [AddCommGroup G1] [AddCommGroup G2] [DecidableEq G1] [DecidableEq G2] (t : Toxic G1 G2 r)
        (_ : r • t.g1 = 0) (_ : t.g1 ≠ 0) (_ : t.gamma ≠ 0) (_ : t.delta ≠ 0) (_ : (t.alpha, t.beta, t.tau) ∉ bad),
        ∃ params, generateKeys K t (handwritten code none) = .ok params := by
  have hf : s0.WF := (M.run_ext hset).wf (wf_new _)
  have hgood := (good_code false code none (fun k => by cases k) (fun k => by cases k) _ _ _ _ s0 hf (by simp)
    (consGood_new false s0 .setup) hset List.prefix_rfl).1
  obtain ⟨bad, hcard, hbad⟩ := parameters_exist hK (handwritten_canonical hset) (range_of_good hf hgood) hf.pos hused hsize
  refine ⟨bad, hcard, ?_⟩
  intro G1 G2 _ _ _ _ t h1 n1 hg hd ht
  unfold generateKeys
  rw [hset]
  exact hbad t h1 n1 hg hd ht

/-- C88: each of the conditions is needed.  A circuit that panics without data, a circuit with an unused variable and a circuit that is
too large have no keys, whatever the random choices. -/
theorem C88_needed {α : Type} {K : TwoAdic (ZMod r)} {G1 G2 : Type} [AddCommGroup G1] [AddCommGroup G2] [DecidableEq G1] [DecidableEq G2]
    (t : Toxic G1 G2 r) (circuit : M (ZMod r) α) (params : Parameters G1 G2) (hk : generateKeys K t circuit = .ok params) :
    ∃ a s, circuit.run (CS.new .setup) = .ok (a, s) ∧ AllUsed s ∧
      (2 ≤ s.cons.length + s.ninputs → s.cons.length + s.ninputs ≤ 2 ^ (K.S - 1)) ∧ t.gamma ≠ 0 ∧ t.delta ≠ 0 := by
  cases h : circuit.run (CS.new .setup) with
  | error e => unfold generateKeys at hk; rw [h] at hk; cases hk
  | ok q =>
    obtain ⟨a, s⟩ := q
    refine ⟨a, s, rfl, ?_, ?_⟩
    · intro j hj
      by_contra hno
      refine C67_unconstrained t circuit a s h j hj (fun c hc u hu he => hno ⟨c, hc, ?_⟩) params hk
      rw [← he]
      simp only [List.mem_append] at hu ⊢
      rcases hu with (hu | hu) | hu
      exacts [.inl (.inl (List.mem_map_of_mem (f := Prod.fst) hu)), .inl (.inr (List.mem_map_of_mem (f := Prod.fst) hu)),
        .inr (List.mem_map_of_mem (f := Prod.fst) hu)]
    · unfold generateKeys at hk
      rw [h] at hk
      obtain ⟨-, hg, hd, D, hD, -⟩ := generateParameters_ok hk
      refine ⟨fun h2 => ?_, hg, hd⟩
      have hlen : (rows s).length = s.cons.length + s.ninputs := by simp [rows]
      rw [hlen] at hD
      unfold Domain.ofLength at hD
      simp only at hD
      have h3 : 0 < Nat.clog 2 (s.cons.length + s.ninputs) := Nat.clog_pos (by omega) h2
      split_ifs at hD with h4
      have h5 : Nat.clog 2 (s.cons.length + s.ninputs) ≤ K.S - 1 := by omega
      exact (Nat.le_pow_clog (by omega) _).trans (Nat.pow_le_pow_right (by omega) h5)

/-- The product circuit of C67 meets the conditions, and the bound is less than the number of all choices. -/
example : let s := finalState (generated .num (.pair .num .num) productCode none none none) (CS.new .setup)
    ((generated .num (.pair .num .num) productCode none none none).run (CS.new .setup)).isOk = true ∧ AllUsed s ∧
      s.cons.length + s.ninputs ≤ 2 ^ (smallK.S - 1) ∧ 2 * (s.cons.length + s.ninputs) * s.naux * 97 ^ 2 < 97 ^ 3 := by
  unfold AllUsed
  decide +kernel

end Fawkes.Props
