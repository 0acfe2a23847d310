import Verif.Lemmas.CEcc

/-!
# Lookups by selectors that are partly constant or dependent

`Mux.mux3` returns a signal as soon as two selector triples that some assignment produces have different table entries.
-/

namespace Fawkes

variable {F : Type} [Field F] [DecidableEq F]

/-- Some assignment of the variables gives the three bits the values of the binary digits of `j`. -/
def Reachable (b0 b1 b2 : CBool F) (j : Nat) : Prop :=
  ∃ (w : Index → F) (c0 c1 c2 : Bool), IsAssignment w ∧ SpellsBits w [b0, b1, b2] [c0, c1, c2] ∧ j = sel3 c0 c1 c2

theorem Reachable.lt {b0 b1 b2 : CBool F} {j : Nat} (h : Reachable b0 b1 b2 j) : j < 8 := by
  obtain ⟨w, c0, c1, c2, -, -, rfl⟩ := h
  cases c0 <;> cases c1 <;> cases c2 <;> simp [sel3]

section
variable {s : CS F}

omit [DecidableEq F] in
theorem eval_congr_alloc {w w' : Index → F} (a : CNum F)
    (h : ∀ k ∈ a.lc.keys, w' k = w k) : a.eval w' = a.eval w := by
  unfold CNum.eval LC.eval
  congr 1
  refine List.map_congr_left fun kv hkv => ?_
  rw [h kv.1 (List.mem_map_of_mem hkv)]

/-- A product, or a fresh variable. -/
theorem post_mul_tie (hs : s.WF) {a b : CNum F} (ha : a.lc.Alloc s) (hb : b.lc.Alloc s) :
    Post s (CNum.mul a b) (fun c s' => c.lc.Alloc s' ∧
      (FreshVar s c ∨ ∀ w, IsAssignment w → c.eval w = a.eval w * b.eval w)) := by
  unfold CNum.mul
  split
  · next x h => exact Post.pure ⟨alloc_mulConst hb _, .inr fun w hw => by
      rw [CNum.eval_mulConst hw, CNum.eval_of_asConst hw h, mul_comm]⟩
  · next x h _ => exact Post.pure ⟨alloc_mulConst ha _, .inr fun w hw => by
      rw [CNum.eval_mulConst hw, CNum.eval_of_asConst hw h]⟩
  · refine Post.bind (post_alloc_fresh hs _) ?_
    rintro c s1 e1 ⟨hf, hc, -⟩
    refine Post.bind Post.true ?_
    rintro _ s2 e2 -
    exact Post.pure ⟨hc.mono e2, .inl hf⟩

/-- Every assignment can be changed, on variables that are not in the state, so that `c` takes the product of `a` and `b`. -/
def Tied (s : CS F) (a b c : CNum F) : Prop :=
  ∀ w, IsAssignment w → ∃ w', IsAssignment w' ∧ (∀ d : CNum F, d.lc.Alloc s → d.eval w' = d.eval w) ∧ c.eval w' = a.eval w * b.eval w

theorem tied_of {a b c : CNum F} (h : FreshVar s c ∨ ∀ w, IsAssignment w → c.eval w = a.eval w * b.eval w) : Tied s a b c := by
  intro w hw
  rcases h with ⟨k, hl, hk, hn⟩ | h
  · refine ⟨Function.update w k (a.eval w * b.eval w), ?_, fun d hd => ?_, ?_⟩
    · unfold IsAssignment at hw ⊢; rw [Function.update_of_ne (Ne.symm hk), hw]
    · refine eval_congr_alloc d fun j hj => Function.update_of_ne ?_ _ _
      rintro rfl
      rcases hd j hj with h | h
      · exact hk h
      · exact hn h
    · unfold CNum.eval LC.eval
      simp [hl]
  · exact ⟨w, hw, fun _ _ => rfl, h w hw⟩

theorem post_column_reach {s' : CS F} (hs' : s'.WF) {s0 s1 s2 : CBool F} {s10 : CNum F}
    (h0 : s0.num.lc.Alloc s) (h1 : s1.num.lc.Alloc s) (h2 : s2.num.lc.Alloc s) (e : s.Ext s')
    (t10 : Tied s s0.num s1.num s10) (h10 : s10.lc.Alloc s') {c0 c1 c2 c3 c4 c5 c6 c7 : F}
    (hne : ∃ i j, Reachable s0 s1 s2 i ∧ Reachable s0 s1 s2 j ∧
      [c0, c1, c2, c3, c4, c5, c6, c7][i]? ≠ [c0, c1, c2, c3, c4, c5, c6, c7][j]?) :
    Post s' (Mux.column s0 s1 s2 s10 c0 c1 c2 c3 c4 c5 c6 c7) (fun r _ => Varies r) := by
  unfold Mux.column
  dsimp only
  refine Post.bind (post_mul_tie hs' (alloc_addConst (alloc_add (alloc_add (alloc_mulConst h10 _) (alloc_mulConst (h1.mono e) _))
    (alloc_mulConst (h0.mono e) _)) _) (h2.mono e)) fun t s2' e2 ht => Post.pure ?_
  rcases ht.2 with hf | ht
  · exact ((((hf.newIn.add (alloc_mulConst h10 _)).add (alloc_mulConst (h1.mono e) _)).add
      (alloc_mulConst (h0.mono e) _)).addConst _).varies
  · by_contra hn
    obtain ⟨m, hm⟩ := not_varies hn
    have key : ∀ i, Reachable s0 s1 s2 i → [c0, c1, c2, c3, c4, c5, c6, c7][i]? = some m := by
      rintro i ⟨w, d0, d1, d2, hw, hsp, rfl⟩
      obtain ⟨w', hw', hd, h10'⟩ := t10 w hw
      rcases hsp with _ | ⟨p0, _ | ⟨p1, _ | ⟨p2, _⟩⟩⟩
      have q := hm w' hw'
      simp only [CNum.eval_addConst hw', CNum.eval_add, CNum.eval_mulConst hw', ht w' hw', h10', hd _ h0, hd _ h1, hd _ h2] at q
      simp only [CNum.eval, p0, p1, p2] at q
      rw [← q]
      cases d0 <;> cases d1 <;> cases d2 <;> simp [sel3] <;> try ring
    obtain ⟨i, j, hi, hj, hij⟩ := hne
    exact hij (by rw [key i hi, key j hj])

theorem post_columns_reach {s0 s1 s2 : CBool F} {s10 : CNum F}
    (h0 : s0.num.lc.Alloc s) (h1 : s1.num.lc.Alloc s) (h2 : s2.num.lc.Alloc s) (t10 : Tied s s0.num s1.num s10) (c : List (List F)) :
    ∀ {s' : CS F}, s'.WF → s.Ext s' → s10.lc.Alloc s' →
    (∀ col ∈ c, ∃ i j, Reachable s0 s1 s2 i ∧ Reachable s0 s1 s2 j ∧ col[i]? ≠ col[j]?) →
    Post s' (Mux.columns s0 s1 s2 s10 c) (fun r _ => ∀ x ∈ r, Varies x) := by
  induction c with
  | nil => intro s' hs' e h10 hne; exact Post.pure (by simp)
  | cons col c ih =>
    intro s' hs' e h10 hne
    unfold Mux.columns
    split
    · exact Post.pure (by simp)
    · next heq =>
      injection heq with ha hb
      subst ha hb
      refine Post.bind (post_column_reach hs' h0 h1 h2 e t10 h10 (hne _ (by simp))) fun r s1' e1 hr => ?_
      refine Post.bind (ih (e1.wf hs') (e.trans e1) (h10.mono e1) fun col hc => hne col (by simp [hc])) fun rs s2' e2 hrs => ?_
      refine Post.pure fun x hx => ?_
      rcases List.mem_cons.1 hx with rfl | hx
      · exact hr
      · exact hrs x hx
    · exact Post.panic

/-- A lookup is not constant if two reachable selector triples have different entries in each column. -/
theorem post_mux3_reach (hs : s.WF) {s0 s1 s2 : CBool F} (h0 : s0.num.lc.Alloc s)
    (h1 : s1.num.lc.Alloc s) (h2 : s2.num.lc.Alloc s) {c : List (List F)}
    (hne : ∀ col ∈ c, ∃ i j, Reachable s0 s1 s2 i ∧ Reachable s0 s1 s2 j ∧ col[i]? ≠ col[j]?) :
    Post s (Mux.mux3 [s0, s1, s2] c) (fun r _ => ∀ x ∈ r, Varies x) := by
  unfold Mux.mux3
  refine Post.bind (Q := fun _ s' => s' = s) (Post.assert fun _ => rfl) ?_
  rintro _ _ _ rfl
  refine Post.bind (Q := fun _ s'' => s'' = _) (Post.assert fun _ => rfl) ?_
  rintro _ _ _ rfl
  refine Post.bind (post_mul_tie hs h0 h1) fun s10 s1' e1 h10 => ?_
  exact post_columns_reach h0 h1 h2 (tied_of h10.2) c (e1.wf hs) e1 h10.1 hne

end

/-! ## The multiplication of a constant point -/

section
variable {C : EdCurve F} {J : JubJubParams F} {s : CS F}

/-- The first window selects among multiples of `B` that do not all share a Montgomery coordinate. -/
def FirstWindow (B : EdPoint C) (bits : List (CBool F)) : Prop :=
  ∃ b0 b1 b2 rest, CEdwardsPoint.padBits3 bits = b0 :: b1 :: b2 :: rest ∧
    (∃ i j, Reachable b0 b1 b2 i ∧ Reachable b0 b1 b2 j ∧ ((1 + i) • B).montX ≠ ((1 + j) • B).montX) ∧
    (∃ i j, Reachable b0 b1 b2 i ∧ Reachable b0 b1 b2 j ∧ ((1 + i) • B).montY ≠ ((1 + j) • B).montY)

/-- Scalar multiplication of a constant subgroup point, by the criterion on the first window. -/
theorem Mode.mulConstBase_reach (md : Mode F) (hd : J.d = C.d) (ha : J.a = C.a) (hb : J.b = C.b) {l : Nat} (hl : l.Prime) (hl8 : 7 < l)
    {B : EdPoint C} (hB : l • B = 0) (hs : md.St s) {bits : List (CBool F)} {bs : List Bool} (hbs : md.Bits s bits bs)
    (hfw : B ≠ 0 → FirstWindow B bits)
    (hz : B ≠ 0 → md.Z (EdPoint.torsion2 + bitsNat bs • B).montY := by exact fun _ => trivial) :
    md.T s (CEdwardsPoint.mulConstBase B.affine bits J) (fun r s' => md.Ed s' r (bitsNat bs • B) ∧
      (B ≠ 0 → NewIn s r.x ∧ NewIn s r.y)) := by
  have hl2 : l % 2 = 1 := by
    rcases hl.eq_two_or_odd with h | h
    · omega
    · exact h
  have hP : Represents B.affine.intoExtended B := Represents.of_affine B
  unfold CEdwardsPoint.mulConstBase
  dsimp only
  by_cases hB0 : B = 0
  · rw [if_pos (hP.isZero_iff.2 hB0)]
    refine md.pure hs ⟨?_, fun h => absurd hB0 h⟩
    rw [hB0, nsmul_zero]
    exact ⟨md.fromConst 0, md.fromConst 1⟩
  rw [if_neg (fun h => hB0 (hP.isZero_iff.1 h))]
  set n := (CEdwardsPoint.padBits3 bits).length / 3 with hn
  have hlen : (CEdwardsPoint.padBits3 bits).length = 3 * n := by
    rw [hn]; unfold CEdwardsPoint.padBits3
    rw [List.length_append, List.length_replicate]; omega
  set bs' := bs ++ List.replicate ((3 - bits.length % 3) % 3) false with hbs'
  have hbits : md.Bits s (CEdwardsPoint.padBits3 bits) bs' := by
    unfold CEdwardsPoint.padBits3
    refine List.rel_append hbs ?_
    generalize (3 - bits.length % 3) % 3 = k
    induction k with
    | zero => exact .nil
    | succ k ih => exact .cons (md.fromConst 0) ih
  refine md.bind (md.lift (Q := fun t s' => t = _ ∧ s' = s) hs (startPoint_ok hd hl2 hB hP n) ⟨rfl, rfl⟩) ?_
  rintro _ s' _ _ ⟨rfl, hs'⟩
  subst s'
  have hX := neg_killed (nsmul_killed hB (ones n))
  have hstart : ∀ {s'}, md.Mo s' (CMontgomeryPoint.fromConst (EdPoint.torsion2 + -(ones n • B)).mont) (EdPoint.torsion2 + -(ones n • B)) :=
    ⟨torsion2_add_ne hl2 hX (nsmul_zero l), md.fromConst _, md.fromConst _⟩
  have hloop : md.T s (CEdwardsPoint.windowLoop J (CEdwardsPoint.padBits3 bits)
      (CMontgomeryPoint.fromConst (EdPoint.torsion2 + -(ones n • B)).mont) B.affine.intoExtended)
      (fun r s' => md.Mo s' r (EdPoint.torsion2 + (-(ones n • B) + (ones n + bitsNat bs') • B)) ∧ NewIn s r.x ∧ NewIn s r.y) := by
    obtain ⟨b0, b1, b2, rest, hpad, ⟨ix, jx, rix, rjx, hx⟩, iy, jy, riy, rjy, hy⟩ := hfw hB0
    rw [hpad] at hbits hlen ⊢
    obtain ⟨c0, t0, h0, hbits0, hbe⟩ := List.forall₂_cons_left_iff.1 hbits
    obtain ⟨c1, t1, h1, hbits1, rfl⟩ := List.forall₂_cons_left_iff.1 hbits0
    obtain ⟨c2, bs'', h2, hbits2, rfl⟩ := List.forall₂_cons_left_iff.1 hbits1
    rw [hbe]
    obtain ⟨n', hn'⟩ : ∃ n', n = n' + 1 := ⟨n - 1, by simp only [List.length_cons] at hlen; omega⟩
    refine md.window hd ha hb hl hl8 hB hB0 hX hs (c0 := c0) (c1 := c1) (c2 := c2) (.cons h0 (.cons h1 (.cons h2 .nil)))
      hstart hP ?_ ?_
    · refine (post_mux3_reach (md.wf hs) (md.alloc h0) (md.alloc h1) (md.alloc h2) ?_).mono fun r s' _ hr => ?_
      · intro col hcol
        rcases List.mem_cons.1 hcol with rfl | hcol
        · refine ⟨ix, jx, rix, rjx, ?_⟩
          rw [List.getElem?_map, List.getElem?_map, List.getElem?_range rix.lt, List.getElem?_range rjx.lt]
          simpa using hx
        · obtain rfl : col = _ := by simpa using hcol
          refine ⟨iy, jy, riy, rjy, ?_⟩
          rw [List.getElem?_map, List.getElem?_map, List.getElem?_range riy.lt, List.getElem?_range rjy.lt]
          simpa using hy
      · rintro x y rfl
        exact ⟨(hr x (by simp)).sub_const (CNum.asConst_fromConst _), (hr y (by simp)).sub_const (CNum.asConst_fromConst _)⟩
    · intro acc' s1 e1 hs1 hacc' nx' ny'
      refine md.weaken (md.windowLoop (s0 := s) hd ha hb hl hl8 n' (by simp only [List.length_cons] at hlen; omega) (nsmul_killed hB 8)
        (eight_nsmul_ne_zero hl hl8 hB hB0) (add_killed hX (nsmul_killed hB _)) e1 hs1 hbits2 hacc' (triple_represents hP)
        nx' ny') fun r s2 e2 hs2 h2 => ⟨?_, h2.2⟩
      have : -(ones n • B) + (ones n + bitsNat (c0 :: c1 :: c2 :: bs'')) • B =
          -(ones n • B) + (1 + bitsNat [c0, c1, c2]) • B + (ones n' + bitsNat bs'') • 8 • B := by
        rw [← mul_nsmul, add_assoc, ← add_nsmul]
        congr 2
        rw [hn']
        simp only [ones, bitsNat]; ring
      rw [this]; exact h2.1
  refine md.bind hloop fun acc s1 e1 hs1 h1 => ?_
  have hval : -(ones n • B) + (ones n + bitsNat bs') • B = bitsNat bs • B := by
    rw [add_nsmul, neg_add_cancel_left, hbs', bitsNat_append_false]
  rw [hval] at h1
  refine md.weaken (md.finish hs1 h1.1 h1.2.1.varies h1.2.2.varies (hz hB0)) fun r s2 e2 hs2 h2 => ?_
  exact ⟨h2.1, fun _ => ⟨h2.2.1.anti e1, h2.2.2.anti e1⟩⟩

end

end Fawkes
