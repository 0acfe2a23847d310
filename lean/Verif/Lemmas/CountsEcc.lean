import Verif.Lemmas.Counts
import Verif.Lemmas.CostGadgets
import Verif.Lemmas.CEccAssert

/-!
# Exact numbers of constraints: bits, lookups and curve points
-/

set_option linter.unusedSectionVars false

namespace Fawkes

variable {F : Type} [Field F] [DecidableEq F] {s s' : CS F} {C : EdCurve F} {J : JubJubParams F}

/-! ## Independent signals -/

theorem combine_nil (l : List (CNum F)) (w : Index → F) : combine [] l w = 0 := by simp [combine]

theorem combine_cons (k : F) (ks : List F) (a : CNum F) (l : List (CNum F)) (w : Index → F) :
    combine (k :: ks) (a :: l) w = k * a.lc.eval w + combine ks l w := by simp [combine]

theorem Independent.tail {a : CNum F} {l : List (CNum F)} (h : Independent (a :: l)) : Independent l := by
  intro ks hk hc k hm
  refine h (0 :: ks) (by simp [hk]) (fun w w' hw hw' => ?_) k (by simp [hm])
  rw [combine_cons, combine_cons, zero_mul, zero_mul, hc w w' hw hw']

theorem Independent.head2 {a b : CNum F} {l : List (CNum F)} (h : Independent (a :: b :: l)) : Independent [a, b] := by
  refine Independent.intro fun k0 k1 hc => ?_
  have hz : ∀ (n : Nat) (l : List (CNum F)) (w : Index → F), combine (List.replicate n (0 : F)) l w = 0 := by
    intro n
    induction n with
    | zero => intro l w; exact combine_nil l w
    | succ n ih =>
      intro l w
      cases l with
      | nil => simp [combine]
      | cons a l => rw [List.replicate_succ, combine_cons, ih, zero_mul, zero_add]
  have := h (k0 :: k1 :: List.replicate l.length 0) (by simp) fun w w' hw hw' => by
    rw [combine_cons, combine_cons, combine_cons, combine_cons, hz, hz, add_zero, add_zero]
    exact hc w w' hw hw'
  exact ⟨this k0 (by simp), this k1 (by simp)⟩

theorem Independent.head_varies {a : CNum F} {l : List (CNum F)} (h : Independent (a :: l)) : Varies a := by
  cases l with
  | nil =>
    by_contra hn
    obtain ⟨m, hm⟩ := not_varies hn
    have := h [1] rfl (fun w w' hw hw' => by
      rw [combine_cons, combine_cons, combine_nil, combine_nil]
      have e1 := hm w hw
      have e2 := hm w' hw'
      unfold CNum.eval at e1 e2
      rw [e1, e2]) 1 (by simp)
    exact one_ne_zero this
  | cons b l => exact h.head2.varies.1

theorem Independent.all_varies {l : List (CNum F)} (h : Independent l) : ∀ a ∈ l, Varies a := by
  induction l with
  | nil => simp
  | cons b l ih =>
    intro a ha
    rcases List.mem_cons.1 ha with rfl | ha
    · exact h.head_varies
    · exact ih h.tail a ha

theorem Independent.add_varies {a b : CNum F} (h : Independent [a, b]) : Varies (CNum.add a b) := by
  by_contra hn
  obtain ⟨m, hm⟩ := not_varies hn
  exact one_ne_zero (h.two (k0 := 1) (k1 := 1) (m := m) fun w hw => by rw [← hm w hw, CNum.eval_add]; ring).1

theorem Independent.sub_varies {a b : CNum F} (h : Independent [a, b]) : Varies (CNum.sub a b) := by
  by_contra hn
  obtain ⟨m, hm⟩ := not_varies hn
  exact one_ne_zero (h.two (k0 := 1) (k1 := -1) (m := m) fun w hw => by rw [← hm w hw, CNum.eval_sub]; ring).1

/-! ## Lookups -/

section lookup

theorem takes_column {s0 s1 s2 : CBool F} {s10 : CNum F} (hs : s.WF) (hi : Independent [s0.num, s1.num]) (v2 : Varies s2.num)
    (h0 : s0.num.lc.Alloc s) (h1 : s1.num.lc.Alloc s) (e : s.Ext s') (f10 : FreshVar s s10)
    {c0 c1 c2 c3 c4 c5 c6 c7 : F} (hne : ¬ (c5 - c1 = c4 - c0 ∧ c6 - c2 = c4 - c0 ∧ c7 - c3 = c4 - c0)) :
    Takes s' (Mux.column s0 s1 s2 s10 c0 c1 c2 c3 c4 c5 c6 c7) 1 (fun _ _ => True) := by
  obtain ⟨k, hk, hkn, hk1, hk0⟩ := f10.key
  unfold Mux.column
  dsimp only
  refine (Takes.bind (takes_mul (e.wf hs) ?_ v2) fun t s2 e2 _ => Takes.pure trivial : Takes s' _ (1 + 0) (fun _ _ => True))
  refine Varies.addConst ?_ _
  by_contra hn
  have a0 : c7 - c6 - c5 + c4 - c3 + c2 + c1 - c0 = 0 := by
    by_contra h
    refine hn (Varies.of_coef (k := k) ?_)
    rw [coef_add, coef_add, coef_mulConst, coef_mulConst, coef_mulConst, hk1, hk0 _ h0, hk0 _ h1]
    simpa using h
  obtain ⟨m, hm⟩ := not_varies hn
  obtain ⟨e0, e1⟩ := hi.two (k0 := c5 - c4 - c1 + c0) (k1 := c6 - c4 - c2 + c0) (m := m) fun w hw => by
    rw [← hm w hw]
    simp only [CNum.eval_add, CNum.eval_mulConst hw, a0]
    ring
  exact hne ⟨by linear_combination e0, by linear_combination e1, by linear_combination a0 + e0 + e1⟩

theorem takes_columns {s0 s1 s2 : CBool F} {s10 : CNum F} (hs : s.WF) (hi : Independent [s0.num, s1.num]) (v2 : Varies s2.num)
    (h0 : s0.num.lc.Alloc s) (h1 : s1.num.lc.Alloc s) (f10 : FreshVar s s10) (c : List (List F)) :
    ∀ {s' : CS F}, s.Ext s' → (∀ col ∈ c, ∃ f : Nat → F, col = (List.range 8).map (fun j => f (1 + j)) ∧ Uneven f) →
    Takes s' (Mux.columns s0 s1 s2 s10 c) c.length (fun _ _ => True) := by
  induction c with
  | nil => intro s' e hc; exact Takes.pure trivial
  | cons col c ih =>
    intro s' e hc
    obtain ⟨f, rfl, i, j, hi0, hi4, hj0, hj4, hij⟩ := hc col (by simp)
    have hcol : (List.range 8).map (fun j => f (1 + j)) = [f 1, f 2, f 3, f 4, f 5, f 6, f 7, f 8] := by
      simp [List.range_succ]
    rw [hcol]
    unfold Mux.columns
    rw [List.length_cons]
    refine Takes.cast (Takes.bind (takes_column hs hi v2 h0 h1 e f10 ?_) fun r s1 e1 _ =>
      Takes.bind (ih (e.trans e1) fun col hcol => hc col (by simp [hcol])) fun rs s2 e2 _ => Takes.pure trivial) (by omega)
    rintro ⟨g1, g2, g3⟩
    have : ∀ i, 0 < i → i ≤ 4 → f (4 + i) - f i = f 5 - f 1 := by
      intro i h0 h4
      interval_cases i
      · rfl
      · exact g1
      · exact g2
      · exact g3
    exact hij ((this i hi0 hi4).trans (this j hj0 hj4).symm)

/-- Three independent bits: one constraint for the product of two, one for each column. -/
theorem takes_mux3 {s0 s1 s2 : CBool F} (hs : s.WF) (hi : Independent [s0.num, s1.num]) (v2 : Varies s2.num)
    (h0 : s0.num.lc.Alloc s) (h1 : s1.num.lc.Alloc s) (c : List (List F))
    (hc : ∀ col ∈ c, ∃ f : Nat → F, col = (List.range 8).map (fun j => f (1 + j)) ∧ Uneven f) :
    Takes s (Mux.mux3 [s0, s1, s2] c) (1 + c.length) (fun _ _ => True) := by
  unfold Mux.mux3
  refine Takes.cast (Takes.bind (Q := fun _ s' => s' = s) (Takes.assert fun _ => rfl) ?_) (Nat.zero_add _)
  rintro _ _ _ rfl
  refine Takes.cast (Takes.bind (Q := fun _ s'' => s'' = _) (Takes.assert fun _ => rfl) ?_) (Nat.zero_add _)
  rintro _ _ _ rfl
  exact Takes.bind (takes_mul hs hi.varies.1 hi.varies.2) fun s10 s1' e1 h10 => takes_columns hs hi v2 h0 h1 h10.1 c e1 hc

/-- No constraint for the columns if the third bit is a constant. -/
theorem takes_columns_const {s0 s1 s2 : CBool F} {s10 : CNum F} {v : F} (h2 : s2.num.asConst = some v) (c : List (List F)) :
    ∀ {s : CS F}, Takes s (Mux.columns s0 s1 s2 s10 c) 0 (fun _ _ => True) := by
  induction c with
  | nil => intro s; exact Takes.pure trivial
  | cons col c ih =>
    intro s
    unfold Mux.columns
    split
    · exact Takes.pure trivial
    · next heq =>
      injection heq with ha hb
      subst ha hb
      refine (Takes.bind (Q := fun _ _ => True) ?_ fun r s1 e1 _ => Takes.bind ih fun rs s2 e2 _ => Takes.pure trivial : Takes s _ (0 + (0 + 0)) (fun _ _ => True))
      unfold Mux.column
      exact (Takes.bind (takes_mul_const (Or.inr (by rw [h2]; simp)) (fun _ _ => True) Post.true) fun _ _ _ _ => Takes.pure trivial :
        Takes s _ (0 + 0) (fun _ _ => True))
    · exact Takes.panic

theorem takes_mux3_two {s0 s1 s2 : CBool F} {v : F} (hs : s.WF) (v0 : Varies s0.num) (v1 : Varies s1.num) (h2 : s2.num.asConst = some v)
    (c : List (List F)) : Takes s (Mux.mux3 [s0, s1, s2] c) 1 (fun _ _ => True) := by
  unfold Mux.mux3
  refine Takes.cast (Takes.bind (Q := fun _ s' => s' = s) (Takes.assert fun _ => rfl) ?_) (Nat.zero_add _)
  rintro _ _ _ rfl
  refine Takes.cast (Takes.bind (Q := fun _ s'' => s'' = _) (Takes.assert fun _ => rfl) ?_) (Nat.zero_add _)
  rintro _ _ _ rfl
  exact (Takes.bind (takes_mul hs v0 v1) fun s10 s1' e1 h10 => takes_columns_const h2 c : Takes _ _ (1 + 0) _)

theorem takes_mux3_one {s0 s1 s2 : CBool F} {v u : F} (h1 : s1.num.asConst = some u) (h2 : s2.num.asConst = some v)
    (c : List (List F)) : Takes s (Mux.mux3 [s0, s1, s2] c) 0 (fun _ _ => True) := by
  unfold Mux.mux3
  refine Takes.cast (Takes.bind (Q := fun _ s' => s' = s) (Takes.assert fun _ => rfl) ?_) (Nat.zero_add _)
  rintro _ _ _ rfl
  refine Takes.cast (Takes.bind (Q := fun _ s'' => s'' = _) (Takes.assert fun _ => rfl) ?_) (Nat.zero_add _)
  rintro _ _ _ rfl
  exact (Takes.bind (takes_mul_const (Or.inr (by rw [h1]; simp)) (fun _ _ => True) Post.true) fun s10 s1' e1 h10 =>
    takes_columns_const h2 c : Takes _ _ (0 + 0) _)

end lookup

/-! ## Points -/

namespace CMontgomeryPoint

theorem takes_double (h2 : (2 : F) ≠ 0) (ha0 : J.a ≠ 0) (hb0 : J.b ≠ 0) (hs : s.WF) {p : CMontgomeryPoint F}
    (ax : p.x.lc.Alloc s) (ay : p.y.lc.Alloc s) (vx : Varies p.x) (vy : Varies p.y) :
    Takes s (p.double J) 4 (fun r s' => r.x.lc.Alloc s' ∧ r.y.lc.Alloc s' ∧ Varies r.x ∧ Varies r.y) := by
  unfold CMontgomeryPoint.double CNum.square
  refine (Takes.bind (takes_mul hs vx vx) fun x2 s1 e1 h1 => ?_ : Takes s _ (1 + (1 + (1 + (1 + 0)))) _)
  have vnum : Varies (CNum.addConst (CNum.add (CNum.mulConst x2 3) (CNum.mulConst p.x (2 * J.a))) 1) := by
    refine Varies.addConst ?_ 1
    by_cases h3 : (3 : F) = 0
    · obtain ⟨w, w', hw, hw', hv⟩ := varies_iff.1 vx
      refine varies_iff.2 ⟨w, w', hw, hw', fun e => hv ?_⟩
      rw [CNum.eval_add, CNum.eval_add, CNum.eval_mulConst hw, CNum.eval_mulConst hw', CNum.eval_mulConst hw,
        CNum.eval_mulConst hw', h3, mul_zero, mul_zero, zero_add, zero_add] at e
      exact mul_right_cancel₀ (mul_ne_zero h2 ha0) e
    · exact ((h1.1.newIn.mulConst h3).add (alloc_mulConst ax _)).varies
  have hs1 := e1.wf hs
  refine Takes.bind (takes_div hs1 vnum (vy.mulConst (mul_ne_zero h2 hb0))) fun l s2 e2 hl => ?_
  have hs2 := e2.wf hs1
  refine Takes.bind (takes_mul hs2 hl.1.varies hl.1.varies) fun l2 s3 e3 hl2 => ?_
  have nbl : NewIn s2 (CNum.mulConst l2 J.b) := hl2.1.newIn.mulConst hb0
  have alp : p.x.lc.Alloc s2 := (ax.mono e1).mono e2
  refine Takes.bind (takes_mul (e3.wf hs2) hl.1.varies
    (nbl.sub_left (alloc_addConst (alloc_mulConst alp _) _)).varies) fun t s4 e4 ht => ?_
  have e14 := ((e1.trans e2).trans e3).trans e4
  refine Takes.pure ⟨?_, ?_, ?_, ?_⟩
  · exact alloc_sub (alloc_subConst (alloc_mulConst (hl2.2.mono e4) _) _) (alloc_mulConst (ax.mono e14) _)
  · exact alloc_sub ht.2 (ay.mono e14)
  · exact ((nbl.subConst _).sub (alloc_mulConst alp _)).varies
  · exact ((ht.1.newIn.anti ((e1.trans e2).trans e3)).sub ay).varies

theorem takes_add (hb0 : J.b ≠ 0) (hs : s.WF) {p q : CMontgomeryPoint F} (apx : p.x.lc.Alloc s) (apy : p.y.lc.Alloc s)
    (aqx : q.x.lc.Alloc s) (vx : Varies (CNum.sub q.x p.x)) (vy : Varies (CNum.sub q.y p.y)) :
    Takes s (p.add q J) 3 (fun r s' => r.x.lc.Alloc s' ∧ r.y.lc.Alloc s' ∧ NewIn s r.x ∧ NewIn s r.y) := by
  unfold CMontgomeryPoint.add CNum.square
  refine (Takes.bind (takes_div hs vy vx) fun l s1 e1 hl => ?_ : Takes s _ (1 + (1 + (1 + 0))) _)
  have hs1 := e1.wf hs
  refine Takes.bind (takes_mul hs1 hl.1.varies hl.1.varies) fun l2 s2 e2 hl2 => ?_
  have nbl : NewIn s1 (CNum.mulConst l2 J.b) := hl2.1.newIn.mulConst hb0
  have alp : p.x.lc.Alloc s1 := apx.mono e1
  have alq : q.x.lc.Alloc s1 := aqx.mono e1
  refine Takes.bind (takes_mul (e2.wf hs1) hl.1.varies
    (nbl.sub_left (alloc_addConst (alloc_addAssign (alloc_mulConst alp _) alq) _)).varies) fun t s3 e3 ht => ?_
  have e23 := e2.trans e3
  refine Takes.pure ⟨?_, ?_, ?_, ?_⟩
  · exact alloc_sub (alloc_sub (alloc_subConst (alloc_mulConst (hl2.2.mono e3) _) _) (alp.mono e23)) (alq.mono e23)
  · exact alloc_sub ht.2 (apy.mono (e1.trans e23))
  · exact (((nbl.subConst _).sub alp).sub alq).anti e1
  · exact (ht.1.newIn.anti (e1.trans e2)).sub apy

theorem takes_switch (hs : s.WF) {p q : CMontgomeryPoint F} {b : CBool F} (apx : p.x.lc.Alloc s) (apy : p.y.lc.Alloc s)
    (aqx : q.x.lc.Alloc s) (aqy : q.y.lc.Alloc s) (vb : Varies b.num) (vx : Varies (CNum.sub p.x q.x)) (vy : Varies (CNum.sub p.y q.y)) :
    Takes s (p.switch b q) 2 (fun r s' => r.x.lc.Alloc s' ∧ r.y.lc.Alloc s' ∧ NewIn s r.x ∧ NewIn s r.y) := by
  unfold CMontgomeryPoint.switch
  refine (Takes.bind (Fawkes.takes_switch hs apx aqx vb vx) fun x s1 e1 h1 => ?_ : Takes s _ (1 + (1 + 0)) _)
  refine Takes.bind (Fawkes.takes_switch (e1.wf hs) (apy.mono e1) (aqy.mono e1) vb vy) fun y s2 e2 h2 => ?_
  exact Takes.pure ⟨h1.1.mono e2, h2.1, h1.2, h2.2.anti e1⟩

theorem takes_intoEdwards (hs : s.WF) {p : CMontgomeryPoint F} (ay : p.y.lc.Alloc s) (vx : Varies p.x)
    (vy : Varies p.y) : Takes s p.intoEdwards 5 (fun r s' => r.x.lc.Alloc s' ∧ r.y.lc.Alloc s' ∧ Independent [r.x, r.y]) := by
  unfold CMontgomeryPoint.intoEdwards
  refine (Takes.bind (takes_isZero hs vy) fun z s1 e1 hz => ?_ : Takes s _ (3 + (1 + (1 + 0))) _)
  have hs1 := e1.wf hs
  refine Takes.bind (takes_div hs1 vx (hz.2.addAssign ay).varies) fun x s2 e2 hx => ?_
  refine Takes.bind (takes_div (e2.wf hs1) (vx.subConst 1) (vx.addConst 1)) fun y s3 e3 hy => ?_
  exact Takes.pure ⟨hx.2.mono e3, hy.2, Independent.of_fresh hx.2 hx.1.varies hy.1⟩

end CMontgomeryPoint

namespace CEdwardsPoint

theorem takes_alloc (hs : s.WF) (v : Option (EdwardsPoint F)) :
    Takes s (alloc v) 0 (fun p s' => p.x.lc.Alloc s' ∧ p.y.lc.Alloc s' ∧ Independent [p.x, p.y]) := by
  unfold alloc
  refine (Takes.bind (Fawkes.takes_alloc hs _) fun x s1 e1 h1 => ?_ : Takes s _ (0 + (0 + 0)) _)
  refine Takes.bind (Fawkes.takes_alloc (e1.wf hs) _) fun y s2 e2 h2 => ?_
  exact Takes.pure ⟨h1.2.mono e2, h2.2, Independent.of_fresh h1.2 h1.1.varies h2.1⟩

theorem takes_switch (hs : s.WF) {p q : CEdwardsPoint F} {b : CBool F} (apx : p.x.lc.Alloc s) (apy : p.y.lc.Alloc s)
    (aqx : q.x.lc.Alloc s) (aqy : q.y.lc.Alloc s) (vb : Varies b.num) (vx : Varies (CNum.sub p.x q.x)) (vy : Varies (CNum.sub p.y q.y)) :
    Takes s (p.switch b q) 2 (fun r s' => r.x.lc.Alloc s' ∧ r.y.lc.Alloc s' ∧ NewIn s r.x ∧ NewIn s r.y) := by
  unfold CEdwardsPoint.switch
  refine (Takes.bind (Fawkes.takes_switch hs apx aqx vb vx) fun x s1 e1 h1 => ?_ : Takes s _ (1 + (1 + 0)) _)
  refine Takes.bind (Fawkes.takes_switch (e1.wf hs) (apy.mono e1) (aqy.mono e1) vb vy) fun y s2 e2 h2 => ?_
  exact Takes.pure ⟨h1.1.mono e2, h2.1, h1.2, h2.2.anti e1⟩

theorem takes_double (hJ : J.d ≠ 0) (h2 : (2 : F) ≠ 0) (hs : s.WF) {p : CEdwardsPoint F} (apx : p.x.lc.Alloc s)
    (apy : p.y.lc.Alloc s) (hi : Independent [p.x, p.y]) :
    Takes s (p.double J) 5 (fun o s' => (NewIn s o.x ∧ NewIn s o.y) ∧ Independent [o.x, o.y] ∧ o.x.lc.Alloc s' ∧ o.y.lc.Alloc s') := by
  refine Takes.and ?_ (post_double_independent hJ h2 hs apx apy hi.varies.1 hi.varies.2)
  unfold CEdwardsPoint.double CNum.square
  refine (Takes.bind (takes_mul hs hi.varies.1 hi.varies.2) fun v s1 e1 h1 => ?_ : Takes s _ (1 + (1 + (1 + (1 + (1 + 0))))) _)
  refine Takes.bind (takes_mul (e1.wf hs) h1.1.varies h1.1.varies) fun v2 s2 e2 h3 => ?_
  have hs2 := (e1.trans e2).wf hs
  refine Takes.bind (takes_mul hs2 hi.add_varies hi.add_varies) fun u s4 e4 h4 => ?_
  have hs4 := e4.wf hs2
  have vn2 : Varies (CNum.sub u (CNum.mulConst v 2)) := (h4.1.newIn.sub (alloc_mulConst (h1.2.mono e2) _)).varies
  have hv := h3.1.varies.mulConst hJ
  have e04 := (e1.trans e2).trans e4
  refine Takes.bind (takes_div hs4 (h1.1.varies.mulConst h2) (hv.addConst 1)) fun x s5 e5 h5 => ?_
  exact Takes.bind (takes_div (e5.wf hs4) vn2 (hv.constSub 1)) fun y s6 e6 h6 =>
    Takes.pure ⟨h5.1.newIn.anti e04, h6.1.newIn.anti (e04.trans e5)⟩

theorem takes_cofactor (hJ : J.d ≠ 0) (h2 : (2 : F) ≠ 0) (hs : s.WF) {p : CEdwardsPoint F} (apx : p.x.lc.Alloc s)
    (apy : p.y.lc.Alloc s) (hi : Independent [p.x, p.y]) :
    Takes s (p.mulByCofactor J) 15
      (fun o s' => (NewIn s o.x ∧ NewIn s o.y) ∧ Independent [o.x, o.y] ∧ o.x.lc.Alloc s' ∧ o.y.lc.Alloc s') := by
  unfold CEdwardsPoint.mulByCofactor
  refine (Takes.bind (takes_double hJ h2 hs apx apy hi) fun p2 s1 e1 h1 => ?_ : Takes s _ (5 + (5 + 5)) _)
  refine Takes.bind (takes_double hJ h2 (e1.wf hs) h1.2.2.1 h1.2.2.2 h1.2.1) fun p4 s2 e2 h3 => ?_
  have e := e1.trans e2
  exact (takes_double hJ h2 (e.wf hs) h3.2.2.1 h3.2.2.2 h3.2.1).mono fun o s3 _ h => ⟨⟨h.1.1.anti e, h.1.2.anti e⟩, h.2⟩

theorem takes_add (hJ : J.d ≠ 0) (hs : s.WF) {p q : CEdwardsPoint F} (hp : Independent [p.x, p.y]) (hq : Independent [q.x, q.y]) :
    Takes s (p.add q J) 6 (fun o s' => o.x.lc.Alloc s' ∧ o.y.lc.Alloc s' ∧ NewIn s o.x ∧ NewIn s o.y) := by
  unfold CEdwardsPoint.add
  refine (Takes.bind (takes_mul hs hp.varies.1 hq.varies.2) fun v1 s1 e1 h1 => ?_ :
    Takes s _ (1 + (1 + (1 + (1 + (1 + (1 + 0)))))) _)
  refine Takes.bind (takes_mul (e1.wf hs) hq.varies.1 hp.varies.2) fun v2 s2 e2 h2 => ?_
  have hs2 := (e1.trans e2).wf hs
  refine Takes.bind (takes_mul hs2 h1.1.varies h2.1.varies) fun v12 s3 e3 h3 => ?_
  have hs3 := e3.wf hs2
  refine Takes.bind (takes_mul hs3 hp.add_varies hq.add_varies) fun u s4 e4 h4 => ?_
  have hs4 := e4.wf hs3
  have vn2 : Varies (CNum.sub (CNum.sub u v1) v2) :=
    ((h4.1.newIn.sub (h1.2.mono (e2.trans e3))).sub (h2.2.mono e3)).varies
  have hv := h3.1.varies.mulConst hJ
  refine Takes.bind (takes_div hs4 (h2.1.newIn.add_left h1.2).varies (hv.addConst 1)) fun x s5 e5 h5 => ?_
  refine Takes.bind (takes_div (e5.wf hs4) vn2 (hv.constSub 1)) fun y s6 e6 h6 => ?_
  have e04 := ((e1.trans e2).trans e3).trans e4
  exact Takes.pure ⟨h5.2.mono e6, h6.2, h5.1.newIn.anti e04, h6.1.newIn.anti (e04.trans e5)⟩

theorem takes_assertInCurve (hs : s.WF) {p : CEdwardsPoint F} (vx : Varies p.x) (vy : Varies p.y) :
    Takes s (p.assertInCurve J) 3 (fun _ _ => True) := by
  unfold assertInCurve CNum.square
  refine (Takes.bind (takes_mul hs vx vx) fun x2 s1 e1 h1 => ?_ : Takes s _ (1 + (1 + 1)) _)
  exact Takes.bind (takes_mul (e1.wf hs) vy vy) fun y2 s2 e2 h2 => takes_enforce _ _ _

theorem takes_assertZero {a : CNum F} (h : Varies a) : Takes s (CNum.assertZero a) 1 (fun _ _ => True) :=
  takes_assertConst h.asConst 0

theorem takes_assertInSubgroup [Fact J.l.Prime] (hJ : J.d ≠ 0) (h2 : (2 : F) ≠ 0) (hs : s.WF) {p : CEdwardsPoint F}
    (apx : p.x.lc.Alloc s) (apy : p.y.lc.Alloc s) : Takes s (p.assertInSubgroup J) 20 (fun _ _ => True) := by
  unfold assertInSubgroup
  refine (Takes.bind (Q := fun _ s' => s' = s) (Takes.lift fun _ _ => rfl) fun v s0 _ h0 => ?_ :
    Takes s _ (0 + (0 + (3 + (15 + (1 + 1))))) _)
  subst h0
  refine Takes.bind (takes_alloc hs v) fun q s1 e1 h1 => ?_
  refine Takes.bind (takes_assertInCurve (e1.wf hs) h1.2.2.varies.1 h1.2.2.varies.2) fun _ s2 e2 _ => ?_
  have e12 := e1.trans e2
  refine Takes.bind (takes_cofactor hJ h2 (e12.wf hs) (h1.1.mono e2) (h1.2.1.mono e2) h1.2.2) fun q8 s3 e3 h3 => ?_
  refine Takes.bind (takes_assertZero (h3.1.1.sub_left (apx.mono e12)).varies) fun _ s4 e4 _ => ?_
  exact takes_assertZero (h3.1.2.sub_left (apy.mono e12)).varies

theorem takes_decompress (sqrt : F → Option F) [Fact J.l.Prime] (hJ : J.d ≠ 0) (h2 : (2 : F) ≠ 0) (hs : s.WF) {x : CNum F}
    (ax : x.lc.Alloc s) : Takes s (subgroupDecompress sqrt x J) 19
      (fun o s' => Independent [o.x, o.y] ∧ o.x.lc.Alloc s' ∧ o.y.lc.Alloc s') := by
  unfold subgroupDecompress
  refine (Takes.bind (Q := fun _ s' => s' = s) (Takes.lift fun _ _ => rfl) fun v s0 _ h0 => ?_ :
    Takes s _ (0 + (0 + (3 + (15 + (1 + 0))))) _)
  subst h0
  refine Takes.bind (takes_alloc hs v) fun q s1 e1 h1 => ?_
  refine Takes.bind (takes_assertInCurve (e1.wf hs) h1.2.2.varies.1 h1.2.2.varies.2) fun _ s2 e2 _ => ?_
  have e12 := e1.trans e2
  refine Takes.bind (takes_cofactor hJ h2 (e12.wf hs) (h1.1.mono e2) (h1.2.1.mono e2) h1.2.2) fun q8 s3 e3 h3 => ?_
  refine Takes.bind (takes_assertZero (h3.1.1.sub_left (ax.mono e12)).varies) fun _ s4 e4 _ => ?_
  exact Takes.pure ⟨h3.2.1, h3.2.2.1.mono e4, h3.2.2.2.mono e4⟩

/-! ## Scalar multiplication -/

theorem _root_.Fawkes.Independent.neg {a b : CNum F} (h : Independent [a, b]) : Independent [CNum.neg a, CNum.neg b] := by
  refine Independent.intro fun k0 k1 hc => ?_
  have := h.elim (k0 := -k0) (k1 := -k1) fun w w' hw hw' => by
    have := hc w w' hw hw'
    have en : ∀ (a : CNum F) w, (CNum.neg a).lc.eval w = -a.lc.eval w := fun a w => CNum.eval_neg w a
    rw [en, en, en, en] at this
    linear_combination this
  exact ⟨neg_eq_zero.1 this.1, neg_eq_zero.1 this.2⟩

theorem takes_finish (hs : s.WF) {p : CMontgomeryPoint F} (ay : p.y.lc.Alloc s) (vx : Varies p.x) (vy : Varies p.y) :
    Takes s (finish p) 5 (fun r s' => r.x.lc.Alloc s' ∧ r.y.lc.Alloc s' ∧ Independent [r.x, r.y]) := by
  unfold finish
  refine Takes.cast (Takes.bind (CMontgomeryPoint.takes_intoEdwards hs ay vx vy) fun r s1 e1 h1 => ?_) (Nat.add_zero 5)
  exact Takes.pure ⟨alloc_neg h1.1, alloc_neg h1.2.1, Independent.neg h1.2.2⟩

theorem takes_intoMontgomery (hs : s.WF) {p : CEdwardsPoint F} (vx : Varies p.x) (vy : Varies p.y) :
    Takes s p.intoMontgomery 2 (fun r s' => r.x.lc.Alloc s' ∧ r.y.lc.Alloc s' ∧ Varies r.x ∧ Varies r.y) := by
  unfold intoMontgomery
  refine (Takes.bind (takes_div hs (vy.addConst 1) (vy.constSub 1)) fun x s1 e1 h1 => ?_ : Takes s _ (1 + (1 + 0)) _)
  exact Takes.bind (takes_div (e1.wf hs) h1.1.varies vx) fun y s2 e2 h2 => Takes.pure ⟨h1.2.mono e2, h2.2, h1.1.varies, h2.1.varies⟩

theorem takes_doublings (h2 : (2 : F) ≠ 0) (ha0 : J.a ≠ 0) (hb0 : J.b ≠ 0) (n : Nat) : ∀ {s : CS F} {p : CMontgomeryPoint F}, s.WF →
    p.x.lc.Alloc s → p.y.lc.Alloc s → Varies p.x → Varies p.y →
    Takes s (doublings J n p) (4 * n) (fun l s' => ∀ q ∈ l, q.x.lc.Alloc s' ∧ q.y.lc.Alloc s' ∧ Varies q.x ∧ Varies q.y) := by
  induction n with
  | zero => intro s p hs _ _ _ _; exact Takes.pure (by simp)
  | succ n ih =>
    intro s p hs ax ay vx vy
    unfold doublings
    refine Takes.cast (Takes.bind (CMontgomeryPoint.takes_double h2 ha0 hb0 hs ax ay vx vy) fun q s1 e1 h1 => ?_)
      (show 4 + (4 * n + 0) = 4 * (n + 1) by omega)
    refine Takes.bind (ih (e1.wf hs) h1.1 h1.2.1 h1.2.2.1 h1.2.2.2) fun l s2 e2 hl => ?_
    refine Takes.pure fun x hx => ?_
    rcases List.mem_cons.1 hx with rfl | hx
    · exact ⟨h1.1.mono e2, h1.2.1.mono e2, h1.2.2⟩
    · exact hl x hx

/-- The loop over the bits, after the first one. -/
theorem takes_addLoop (hb0 : J.b ≠ 0) (bits : List (CBool F)) : ∀ {s s0 : CS F} {exps : List (CMontgomeryPoint F)}
    {acc : CMontgomeryPoint F}, s0.Ext s → s.WF → (∀ b ∈ bits, Varies b.num) → (∀ q ∈ exps, q.x.lc.Alloc s0 ∧ q.y.lc.Alloc s0) →
    acc.x.lc.Alloc s → acc.y.lc.Alloc s → NewIn s0 acc.x → NewIn s0 acc.y →
    Takes s (addLoop J bits exps acc) (5 * bits.length)
      (fun r s' => r.x.lc.Alloc s' ∧ r.y.lc.Alloc s' ∧ NewIn s0 r.x ∧ NewIn s0 r.y) := by
  induction bits with
  | nil => intro s s0 exps acc e hs hb he ax ay nx ny; unfold addLoop; exact Takes.pure ⟨ax, ay, nx, ny⟩
  | cons b bits ih =>
    intro s s0 exps acc e hs hb he ax ay nx ny
    match exps with
    | [] => unfold addLoop; exact Takes.panic
    | q :: exps =>
      unfold addLoop
      rw [List.length_cons]
      obtain ⟨qx, qy⟩ := he q (by simp)
      refine Takes.cast (Takes.bind (CMontgomeryPoint.takes_add hb0 hs ax ay (qx.mono e) (nx.sub_left qx).varies (ny.sub_left qy).varies)
        fun inc s1 e1 h1 => ?_) (show 3 + (2 + 5 * bits.length) = 5 * (bits.length + 1) by omega)
      refine Takes.bind (CMontgomeryPoint.takes_switch (e1.wf hs) h1.1 h1.2.1 (ax.mono e1) (ay.mono e1) (hb b (by simp))
        (h1.2.2.1.sub ax).varies (h1.2.2.2.sub ay).varies) fun acc' s2 e2 h2 => ?_
      have e' := e.trans e1
      exact ih (e'.trans e2) ((e1.trans e2).wf hs) (fun b hb' => hb b (by simp [hb'])) (fun q hq => he q (by simp [hq])) h2.1 h2.2.1
        (h2.2.2.1.anti e') (h2.2.2.2.anti e')

/-- A variable point times `n` bits: `9 n + 10`. -/
theorem takes_mulVarBase (h2 : (2 : F) ≠ 0) (ha0 : J.a ≠ 0) (hb0 : J.b ≠ 0) (hs : s.WF) {p : CEdwardsPoint F} (apx : p.x.lc.Alloc s)
    (apy : p.y.lc.Alloc s) (vx : Varies p.x) (vy : Varies p.y) {bits : List (CBool F)} (hb : ∀ b ∈ bits, Varies b.num)
    (hn : bits ≠ []) : Takes s (mulVarBase p bits J) (9 * bits.length + 10)
      (fun r s' => r.x.lc.Alloc s' ∧ r.y.lc.Alloc s' ∧ Independent [r.x, r.y]) := by
  obtain ⟨b, bits, rfl⟩ := List.exists_cons_of_ne_nil hn
  unfold mulVarBase
  simp only [List.length_cons, Nat.add_sub_cancel]
  have hsub : ∀ (c : F) {a : CNum F}, Varies a → Varies (CNum.sub (CNum.fromConst c) a) := fun c a h => h.constSub c
  refine Takes.cast (Takes.bind (takes_isZero hs vx) fun z s1 e1 hz => ?_)
    (show 3 + (2 + (2 + (4 * bits.length + ((3 + (2 + 5 * bits.length)) + (2 + 5))))) = 9 * (bits.length + 1) + 10 by omega)
  have hs1 := e1.wf hs
  refine Takes.bind (takes_switch hs1 (alloc_fromConst _) (alloc_fromConst _) (apx.mono e1) (apy.mono e1) hz.2.varies
    (hsub _ vx) (hsub _ vy)) fun q s2 e2 hq => ?_
  have hs2 := e2.wf hs1
  refine Takes.bind (takes_intoMontgomery hs2 hq.2.2.1.varies hq.2.2.2.varies) fun m s3 e3 hm => ?_
  have hs3 := e3.wf hs2
  refine Takes.bind (takes_doublings h2 ha0 hb0 bits.length hs3 hm.1 hm.2.1 hm.2.2.1 hm.2.2.2) fun exps s4 e4 he => ?_
  have hs4 := e4.wf hs3
  refine Takes.bind (Q := fun r s' => r.x.lc.Alloc s' ∧ r.y.lc.Alloc s' ∧ NewIn s4 r.x ∧ NewIn s4 r.y) ?_ fun acc s5 e5 hacc => ?_
  · unfold addLoop
    have hz0 : (CNum.zero : CNum F).lc.Alloc s4 := alloc_fromConst 0
    have hsz : ∀ {a : CNum F}, Varies a → Varies (CNum.sub a CNum.zero) := fun h => h.subConst 0
    refine Takes.bind (CMontgomeryPoint.takes_add hb0 hs4 hz0 hz0 (hm.1.mono e4) (hsz hm.2.2.1) (hsz hm.2.2.2)) fun inc s5 e5 h5 => ?_
    refine Takes.bind (CMontgomeryPoint.takes_switch (e5.wf hs4) h5.1 h5.2.1 (hz0.mono e5) (hz0.mono e5) (hb b (by simp))
      (h5.2.2.1.sub hz0).varies (h5.2.2.2.sub hz0).varies) fun acc s6 e6 h6 => ?_
    exact takes_addLoop hb0 bits (e5.trans e6) ((e5.trans e6).wf hs4) (fun b hb' => hb b (by simp [hb']))
      (fun q hq => ⟨(he q hq).1, (he q hq).2.1⟩) h6.1 h6.2.1 (h6.2.2.1.anti e5) (h6.2.2.2.anti e5)
  · have hs5 := e5.wf hs4
    have hz0 : (CNum.zero : CNum F).lc.Alloc s5 := alloc_fromConst 0
    refine Takes.bind (CMontgomeryPoint.takes_switch hs5 hz0 hz0 hacc.1 hacc.2.1 hz.2.varies
      (hsub 0 hacc.2.2.1.varies) (hsub 0 hacc.2.2.2.varies)) fun acc' s6 e6 h6 => ?_
    exact takes_finish (e6.wf hs5) h6.2.1 h6.2.2.1.varies h6.2.2.2.varies

/-- One window: `k` constraints for the lookup and three for the addition. -/
theorem takes_window (hd : J.d = C.d) (hb0 : J.b ≠ 0) {l : Nat} (hl : l.Prime) (hl8 : 7 < l) {B : EdPoint C} (hB : l • B = 0)
    (hB0 : B ≠ 0) {P : EdwardsPointEx F} (hP : Represents P B) (hs : s.WF) {b0 b1 b2 : CBool F}
    (hal : ∀ b ∈ [b0, b1, b2], b.num.lc.Alloc s) {bits : List (CBool F)} {acc : CMontgomeryPoint F} (ax : acc.x.lc.Alloc s)
    (ay : acc.y.lc.Alloc s) {k n : Nat} {Q : CMontgomeryPoint F → CS F → Prop}
    (hm : Takes s (Mux.mux3 [b0, b1, b2] [(List.range 8).map fun j => ((1 + j) • B).montX, (List.range 8).map fun j => ((1 + j) • B).montY])
      k (fun _ _ => True))
    (hv : Post s (Mux.mux3 [b0, b1, b2] [(List.range 8).map fun j => ((1 + j) • B).montX, (List.range 8).map fun j => ((1 + j) • B).montY])
      (fun r _ => ∀ x y, r = [x, y] → Varies (CNum.sub x acc.x) ∧ Varies (CNum.sub y acc.y)))
    (hk : ∀ acc' s1, s.Ext s1 → acc'.x.lc.Alloc s1 → acc'.y.lc.Alloc s1 → NewIn s acc'.x → NewIn s acc'.y →
      Takes s1 (windowLoop J bits acc' P.double.double.double) n Q) :
    Takes s (windowLoop J (b0 :: b1 :: b2 :: bits) acc P) (k + 3 + n) Q := by
  have hne : ∀ j, j < 8 → (1 + j) • B ≠ 0 := fun j hj => by
    by_cases h8 : 1 + j < l
    · exact nsmul_ne_zero_of_lt hl hB hB0 (by omega) h8
    · have : 1 + j = 8 := by omega
      rw [this]; exact eight_nsmul_ne_zero hl hl8 hB hB0
  unfold windowLoop
  rw [genTable_ok hd hP hne]
  refine Takes.cast (Takes.bind (Q := fun t s' => t = _ ∧ s' = s) (Takes.lift fun t ht => ⟨(Except.ok.inj ht).symm, rfl⟩) ?_)
    (show 0 + (k + (3 + n)) = k + 3 + n by omega)
  rintro _ _ _ ⟨rfl, rfl⟩
  refine Takes.bind ((hm.and hv).and (alloc_mux3 hs hal _)) fun r s1 e1 h1 => ?_
  split
  · next x y =>
    obtain ⟨⟨-, hvr⟩, har⟩ := h1
    obtain ⟨hvx, hvy⟩ := hvr x y rfl
    refine Takes.bind (CMontgomeryPoint.takes_add hb0 (e1.wf hs) (ax.mono e1) (ay.mono e1) (har x (by simp)) hvx hvy)
      fun acc' s2 e2 h2 => ?_
    exact hk acc' s2 (e1.trans e2) h2.1 h2.2.1 (h2.2.2.1.anti e1) (h2.2.2.2.anti e1)
  · exact Takes.panic

/-- The constraints of all windows for `n` bits. -/
def windowCount (n : Nat) : Nat := 6 * (n / 3) + if n % 3 = 0 then 0 else if n % 3 = 1 then 3 else 4

theorem generic_columns {B : EdPoint C} (h : Generic B) : ∀ col ∈ [(List.range 8).map fun j => ((1 + j) • B).montX,
    (List.range 8).map fun j => ((1 + j) • B).montY], ∃ f : Nat → F, col = (List.range 8).map (fun j => f (1 + j)) ∧ Uneven f := by
  intro col hc
  rcases List.mem_cons.1 hc with rfl | hc
  · exact ⟨fun i => (i • B).montX, rfl, h.1⟩
  · obtain rfl : col = _ := by simpa using hc
    exact ⟨fun i => (i • B).montY, rfl, h.2⟩

theorem windowCount_three (n : Nat) : windowCount (n + 1 + 1 + 1) = 1 + 2 + 3 + windowCount n := by
  unfold windowCount
  have h1 : (n + 1 + 1 + 1) / 3 = n / 3 + 1 := by omega
  have h2 : (n + 1 + 1 + 1) % 3 = n % 3 := by omega
  rw [h1, h2]; omega

theorem padBits3_three (b0 b1 b2 : CBool F) (bits : List (CBool F)) :
    padBits3 (b0 :: b1 :: b2 :: bits) = b0 :: b1 :: b2 :: padBits3 bits := by
  unfold padBits3
  simp only [List.length_cons, List.cons_append]
  have h2 : (bits.length + 1 + 1 + 1) % 3 = bits.length % 3 := by omega
  rw [h2]

theorem fromConst_false_asConst : (CBool.fromConst false : CBool F).num.asConst = some 0 := CNum.asConst_fromConst 0

/-- The windows after the first one. -/
theorem takes_windowLoop (hd : J.d = C.d) (hb0 : J.b ≠ 0) {l : Nat} (hl : l.Prime) (hl8 : 7 < l) (bits : List (CBool F)) :
    ∀ {s s0 : CS F} {acc : CMontgomeryPoint F} {B : EdPoint C} {P : EdwardsPointEx F}, l • B = 0 → B ≠ 0 →
    Represents P B → s0.Ext s → s.WF → (∀ b ∈ bits, b.num.lc.Alloc s0) → Independent (bits.map CBool.num) →
    acc.x.lc.Alloc s → acc.y.lc.Alloc s → NewIn s0 acc.x → NewIn s0 acc.y → (∀ k, k < bits.length / 3 → Generic (8 ^ k • B)) →
    Takes s (windowLoop J (padBits3 bits) acc P) (windowCount bits.length)
      (fun r s' => r.x.lc.Alloc s' ∧ r.y.lc.Alloc s' ∧ NewIn s0 r.x ∧ NewIn s0 r.y) := by
  have hcoef : ∀ {s s0 : CS F} {acc : CMontgomeryPoint F} {b0 b1 b2 : CBool F} (c : List (List F)), s0.Ext s → s.WF →
      (∀ b ∈ [b0, b1, b2], b.num.lc.Alloc s0) → acc.x.lc.Alloc s → acc.y.lc.Alloc s → NewIn s0 acc.x → NewIn s0 acc.y →
      Post s (Mux.mux3 [b0, b1, b2] c) (fun r _ => ∀ x y, r = [x, y] → Varies (CNum.sub x acc.x) ∧ Varies (CNum.sub y acc.y)) := by
    intro s s0 acc b0 b1 b2 c e hs hal ax ay ⟨kx, kx0, kxn, kxc⟩ ⟨ky, ky0, kyn, kyc⟩
    have z : ∀ {k : Index}, k ≠ .input 0 → k ∉ s0.vars.map Prod.fst → ∀ b ∈ [b0, b1, b2], coef k b.num = 0 :=
      fun h0 hn b hb => coef_alloc (hal b hb) h0 hn
    have hmem : ∀ {k : Index} {a : CNum F}, k ≠ .input 0 → a.lc.Alloc s → coef k a ≠ 0 → k ∈ s.vars.map Prod.fst := by
      intro k a h0 ha hc
      by_contra hn
      exact hc (coef_alloc ha h0 hn)
    refine ((post_mux3_coef hs kx0 (hmem kx0 ax kxc) (z kx0 kxn b0 (by simp)) (z kx0 kxn b1 (by simp)) (z kx0 kxn b2 (by simp)) c).and
      (post_mux3_coef hs ky0 (hmem ky0 ay kyc) (z ky0 kyn b0 (by simp)) (z ky0 kyn b1 (by simp)) (z ky0 kyn b2 (by simp)) c)).mono
      fun r s' _ hr => ?_
    rintro x y rfl
    constructor
    · apply Varies.of_coef (k := kx)
      rw [coef_sub, hr.1 x (by simp), zero_sub]; exact neg_ne_zero.2 kxc
    · apply Varies.of_coef (k := ky)
      rw [coef_sub, hr.2 y (by simp), zero_sub]; exact neg_ne_zero.2 kyc
  have hend : ∀ {s s1 s0 : CS F} {acc' : CMontgomeryPoint F} {P : EdwardsPointEx F}, s0.Ext s → acc'.x.lc.Alloc s1 →
      acc'.y.lc.Alloc s1 → NewIn s acc'.x → NewIn s acc'.y → Takes s1 (windowLoop J [] acc' P) 0
      (fun r s' => r.x.lc.Alloc s' ∧ r.y.lc.Alloc s' ∧ NewIn s0 r.x ∧ NewIn s0 r.y) := by
    intro s s1 s0 acc' P e ax ay nx ny
    unfold windowLoop
    exact Takes.pure ⟨ax, ay, nx.anti e, ny.anti e⟩
  match bits with
  | [] =>
    intro s s0 acc B P hB hB0 hP e hs hal hi ax ay nx ny hg
    rw [show padBits3 ([] : List (CBool F)) = [] by simp [padBits3]]
    refine Takes.cast (n := 0) ?_ (by simp [windowCount])
    unfold windowLoop
    exact Takes.pure ⟨ax, ay, nx, ny⟩
  | [b0] =>
    intro s s0 acc B P hB hB0 hP e hs hal hi ax ay nx ny hg
    have hal' : ∀ b ∈ [b0, CBool.fromConst false, CBool.fromConst false], b.num.lc.Alloc s0 := by
      intro b hb
      simp only [List.mem_cons, List.not_mem_nil, or_false] at hb
      rcases hb with rfl | rfl | rfl
      · exact hal _ (by simp)
      · exact alloc_fromConst _
      · exact alloc_fromConst _
    rw [show padBits3 [b0] = [b0, CBool.fromConst false, CBool.fromConst false] from rfl]
    exact (takes_window (bits := []) hd hb0 hl hl8 hB hB0 hP hs (fun b hb => (hal' b hb).mono e) ax ay
      (takes_mux3_one fromConst_false_asConst fromConst_false_asConst _) (hcoef _ e hs hal' ax ay nx ny)
      (fun acc' s1 e1 ax' ay' nx' ny' => hend e ax' ay' nx' ny')).cast (by simp [windowCount])
  | [b0, b1] =>
    intro s s0 acc B P hB hB0 hP e hs hal hi ax ay nx ny hg
    have hal' : ∀ b ∈ [b0, b1, CBool.fromConst false], b.num.lc.Alloc s0 := by
      intro b hb
      simp only [List.mem_cons, List.not_mem_nil, or_false] at hb
      rcases hb with rfl | rfl | rfl
      · exact hal _ (by simp)
      · exact hal _ (by simp)
      · exact alloc_fromConst _
    have hi' : Independent [b0.num, b1.num] := hi
    rw [show padBits3 [b0, b1] = [b0, b1, CBool.fromConst false] from rfl]
    exact (takes_window (bits := []) hd hb0 hl hl8 hB hB0 hP hs (fun b hb => (hal' b hb).mono e) ax ay
      (takes_mux3_two hs hi'.varies.1 hi'.varies.2 fromConst_false_asConst _) (hcoef _ e hs hal' ax ay nx ny)
      (fun acc' s1 e1 ax' ay' nx' ny' => hend e ax' ay' nx' ny')).cast (by simp [windowCount])
  | b0 :: b1 :: b2 :: bits =>
    intro s s0 acc B P hB hB0 hP e hs hal hi ax ay nx ny hg
    have hi' : Independent (b0.num :: b1.num :: b2.num :: bits.map CBool.num) := hi
    have hal' : ∀ b ∈ [b0, b1, b2], b.num.lc.Alloc s0 := by
      intro b hb
      simp only [List.mem_cons, List.not_mem_nil, or_false] at hb
      rcases hb with rfl | rfl | rfl <;> exact hal _ (by simp)
    rw [padBits3_three, List.length_cons, List.length_cons, List.length_cons, windowCount_three]
    have hg0 : Generic B := by
      have := hg 0 (by simp only [List.length_cons]; omega)
      rwa [pow_zero, one_nsmul] at this
    refine takes_window hd hb0 hl hl8 hB hB0 hP hs (fun b hb => (hal' b hb).mono e) ax ay
      (takes_mux3 hs hi'.head2 hi'.tail.tail.head_varies ((hal' b0 (by simp)).mono e) ((hal' b1 (by simp)).mono e) _ (generic_columns hg0))
      (hcoef _ e hs hal' ax ay nx ny) (fun acc' s1 e1 ax' ay' nx' ny' => ?_)
    refine takes_windowLoop hd hb0 hl hl8 bits (nsmul_killed hB 8) (eight_nsmul_ne_zero hl hl8 hB hB0) (triple_represents hP)
      (e.trans e1) (e1.wf hs) (fun b hb => hal b (by simp [hb])) hi'.tail.tail.tail ax' ay' (nx'.anti e) (ny'.anti e) fun k hk => ?_
    have := hg (k + 1) (by simp only [List.length_cons]; omega)
    rwa [pow_succ, mul_nsmul'] at this

theorem _root_.Fawkes.Independent.head3 {a b c : CNum F} {l : List (CNum F)} (h : Independent (a :: b :: c :: l)) :
    Independent [a, b, c] := by
  intro ks hk hc
  match ks, hk with
  | [x, y, z], _ =>
    have hz : ∀ (n : Nat) (l : List (CNum F)) (w : Index → F), combine (List.replicate n (0 : F)) l w = 0 := by
      intro n
      induction n with
      | zero => intro l w; exact combine_nil l w
      | succ n ih =>
        intro l w
        cases l with
        | nil => simp [combine]
        | cons a l => rw [List.replicate_succ, combine_cons, ih, zero_mul, zero_add]
    have := h (x :: y :: z :: List.replicate l.length 0) (by simp) fun w w' hw hw' => by
      have := hc w w' hw hw'
      simp only [combine_cons, hz, combine_nil] at this ⊢
      exact this
    intro k hk
    exact this k (by simp only [List.mem_cons, List.not_mem_nil, or_false] at hk ⊢; tauto)

/-- A constant point times `n` independent bits. -/
theorem takes_mulConstBase (hd : J.d = C.d) (hb0 : J.b ≠ 0) {l : Nat} (hl : l.Prime) (hl8 : 7 < l) {B : EdPoint C} (hB : l • B = 0)
    (hB0 : B ≠ 0) (hs : s.WF) {bits : List (CBool F)} (hal : ∀ b ∈ bits, b.num.lc.Alloc s) (hi : Independent (bits.map CBool.num))
    (h2 : 2 ≤ bits.length) (hg : ∀ k, k < bits.length / 3 → Generic (8 ^ k • B)) :
    Takes s (mulConstBase B.affine bits J) (constMulCount bits.length)
      (fun r s' => r.x.lc.Alloc s' ∧ r.y.lc.Alloc s' ∧ Independent [r.x, r.y]) := by
  have hl2 : l % 2 = 1 := by
    rcases hl.eq_two_or_odd with h | h
    · omega
    · exact h
  have hP : Represents B.affine.intoExtended B := Represents.of_affine B
  unfold mulConstBase
  dsimp only
  rw [if_neg (fun h => hB0 (hP.isZero_iff.1 h)), startPoint_ok hd hl2 hB hP]
  refine Takes.cast (Takes.bind (Q := fun _ s' => s' = s) (Takes.lift fun t ht => rfl) ?_)
    (show 0 + (windowCount bits.length + 5) = constMulCount bits.length by rw [Nat.zero_add]; rfl)
  intro m s' _ hss
  rw [hss]
  have hmux : ∀ {b0 b1 b2 : CBool F} {k : Nat}, 4 ≤ k → Selects k b0 b1 b2 → (∀ b ∈ [b0, b1, b2], b.num.lc.Alloc s) →
      Post s (Mux.mux3 [b0, b1, b2] [(List.range 8).map fun j => ((1 + j) • B).montX, (List.range 8).map fun j => ((1 + j) • B).montY])
      (fun r _ => ∀ x y, r = [x, y] → Varies (CNum.sub x (CMontgomeryPoint.fromConst m).x) ∧
        Varies (CNum.sub y (CMontgomeryPoint.fromConst m).y)) := by
    intro b0 b1 b2 k hk hsel hal
    refine (post_mux3_varies hs hsel (hal b0 (by simp)) (hal b1 (by simp)) (hal b2 (by simp)) ?_).mono fun r s' _ hr => ?_
    · intro col hcol
      rcases List.mem_cons.1 hcol with rfl | hcol
      · refine ⟨0, 1, by omega, by omega, ?_⟩
        simpa using montX_table_ne hl hl8 hB hB0
      · obtain rfl : col = _ := by simpa using hcol
        obtain ⟨i, j, hi, hj, hij⟩ := montY_table_ne hl hl8 hB hB0
        refine ⟨i, j, by omega, by omega, ?_⟩
        rw [List.getElem?_map, List.getElem?_map, List.getElem?_range (by omega), List.getElem?_range (by omega)]
        simpa using hij
    · rintro x y rfl
      exact ⟨(hr x (by simp)).sub_const (CNum.asConst_fromConst _), (hr y (by simp)).sub_const (CNum.asConst_fromConst _)⟩
  have ax : (CMontgomeryPoint.fromConst m).x.lc.Alloc s := alloc_fromConst _
  have ay : (CMontgomeryPoint.fromConst m).y.lc.Alloc s := alloc_fromConst _
  refine Takes.bind (Q := fun r s' => r.x.lc.Alloc s' ∧ r.y.lc.Alloc s' ∧ NewIn s r.x ∧ NewIn s r.y) ?_ fun acc s1 e1 h1 =>
    takes_finish (e1.wf hs) h1.2.1 h1.2.2.1.varies h1.2.2.2.varies
  match bits, h2 with
  | [b0, b1], _ =>
    have hal' : ∀ b ∈ [b0, b1, CBool.fromConst false], b.num.lc.Alloc s := by
      intro b hb
      simp only [List.mem_cons, List.not_mem_nil, or_false] at hb
      rcases hb with rfl | rfl | rfl
      · exact hal _ (by simp)
      · exact hal _ (by simp)
      · exact alloc_fromConst _
    have hi' : Independent [b0.num, b1.num] := hi
    rw [show padBits3 [b0, b1] = [b0, b1, CBool.fromConst false] from rfl]
    refine (takes_window (bits := []) hd hb0 hl hl8 hB hB0 hP hs hal' ax ay
      (takes_mux3_two hs hi'.varies.1 hi'.varies.2 fromConst_false_asConst _)
      (hmux (le_refl 4) (Or.inr ⟨rfl, hi', fromConst_false_asConst⟩) hal')
      (fun acc' s1 e1 ax' ay' nx' ny' => ?_)).cast (show 1 + 3 + 0 = _ by simp [windowCount])
    unfold windowLoop
    exact Takes.pure ⟨ax', ay', nx', ny'⟩
  | b0 :: b1 :: b2 :: bits, _ =>
    have hi' : Independent (b0.num :: b1.num :: b2.num :: bits.map CBool.num) := hi
    have hal' : ∀ b ∈ [b0, b1, b2], b.num.lc.Alloc s := by
      intro b hb
      simp only [List.mem_cons, List.not_mem_nil, or_false] at hb
      rcases hb with rfl | rfl | rfl <;> exact hal _ (by simp)
    rw [padBits3_three, List.length_cons, List.length_cons, List.length_cons, windowCount_three]
    have hg0 : Generic B := by
      have := hg 0 (by simp only [List.length_cons]; omega)
      rwa [pow_zero, one_nsmul] at this
    refine takes_window hd hb0 hl hl8 hB hB0 hP hs hal' ax ay
      (takes_mux3 hs hi'.head2 hi'.tail.tail.head_varies (hal' b0 (by simp)) (hal' b1 (by simp)) _ (generic_columns hg0))
      (hmux (by omega) (Or.inl ⟨rfl, hi'.head3⟩) hal') (fun acc' s1 e1 ax' ay' nx' ny' => ?_)
    refine takes_windowLoop hd hb0 hl hl8 bits (nsmul_killed hB 8) (eight_nsmul_ne_zero hl hl8 hB hB0) (triple_represents hP)
      e1 (e1.wf hs) (fun b hb => hal b (by simp [hb])) hi'.tail.tail.tail ax' ay' nx' ny' fun k hk => ?_
    have := hg (k + 1) (by simp only [List.length_cons]; omega)
    rwa [pow_succ, mul_nsmul'] at this

end CEdwardsPoint

end Fawkes
