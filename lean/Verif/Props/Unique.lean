import Verif.Lemmas.RigidSignal
import Verif.Props.CEcc
import Verif.Props.Membership
import Verif.Props.Preimage

/-!
# Helper values are determined: C99

Functions of the circuit library add variables that the client does not see.  Here: once the values of the client's own variables are
fixed, the constraints leave one value for each of the others, with a short list of exceptions.  The exceptions are real.
-/

namespace Fawkes.Props

variable {r : Nat} [Fact r.Prime] {W : Type} {w w' : Index → ZMod r}

/-- C99: one call.  Two satisfying assignments that agree on the variables which exist before a call agree on those that the call adds, and
on the values of all registers, for every call that leaves no choice. -/
theorem C99_call (hw : IsAssignment w) (hw' : IsAssignment w') (v : Option W) (c : Call r W) (q q' : List (CNum (ZMod r)))
    (s s' : CS (ZMod r)) (hs : s.WF) (hq : ∀ a ∈ q, a.lc.Canonical ∧ a.lc.Alloc s) (hc : c.Sharp w q)
    (h : (c.exec v q).run s = .ok (q', s')) (h1 : s'.Sat w) (h2 : s'.Sat w') (hag : Agree w w' s) :
    Agree w w' s' ∧ ∀ a ∈ q', a.lc.eval w = a.lc.eval w' := by
  have := (rig_call hw hw' hs hq hag hc _ _ h h1 h2 hag).1
  exact ⟨this, fun a ha => this.same hw hw' (tidy_call hs hq h a ha).2⟩

/-- C99: programs of any length: the values of the client's own variables determine all others. -/
theorem C99_program (hw : IsAssignment w) (hw' : IsAssignment w') (v : Option W) (code : Code r W) (q o : List (CNum (ZMod r)))
    (s s' : CS (ZMod r)) (hs : s.WF) (hq : ∀ a ∈ q, a.lc.Canonical ∧ a.lc.Alloc s) (hc : code.Sharp v w q s)
    (h : (code.exec v q).run s = .ok (o, s')) (h1 : s'.Sat w) (h2 : s'.Sat w') (hag : Agree w w' s)
    (hown : ∀ i, ClientVar v q code s i → w i = w' i) :
    Agree w w' s' ∧ ∀ a ∈ o, a.lc.eval w = a.lc.eval w' := by
  induction code generalizing q s with
  | done =>
    rw [Code.exec, M.run_pure] at h
    injection h with h; injection h with e1 e2; subst e1 e2
    exact ⟨hag, fun a ha => hag.same hw hw' (hq a ha).2⟩
  | call c next ih =>
    rw [Code.exec] at h
    obtain ⟨q1, s1, r1, r2⟩ := M.bind_ok h
    have e2 := M.run_ext r2
    have g1 : Agree w w' s1 := by
      rcases hc.1 with ho | hc
      · intro k hk
        by_cases hk' : k ∈ s.vars.map Prod.fst
        · exact hag k hk'
        · exact hown k (.here ho r1 hk hk')
      · exact (C99_call hw hw' v c q q1 s s1 hs hq hc r1 (e2.sat h1) (e2.sat h2) hag).1
    exact ih _ q1 s1 ((M.run_ext r1).wf hs) (tidy_call hs hq r1) (hc.2 q1 s1 r1) r2 g1 fun i hi => hown i (.later r1 hi)

/-- C99 for a circuit written by hand. -/
theorem C99_handwritten (hw : IsAssignment w) (hw' : IsAssignment w') (code : Code r W) (v : Option W) (b : Backend)
    (o : List (CNum (ZMod r))) (s : CS (ZMod r)) (h : (handwritten code v).run (CS.new b) = .ok (o, s)) (h1 : s.Sat w) (h2 : s.Sat w')
    (hc : code.Sharp v w [] (CS.new b)) (hown : ∀ i, ClientVar v [] code (CS.new b) i → w i = w' i) : Agree w w' s :=
  (C99_program hw hw' v code [] o _ s (wf_new b) (by simp) hc h h1 h2 (by simp [Agree, CS.new]) hown).1

/-- C99 for a circuit of the macros: `x` and `y` are the signals that hold the public and the secret data.  Two satisfying assignments with
the same data and the same values of the variables that the client adds by itself are equal. -/
theorem C99_generated (P Q : Ty) (code : Code r W) (v : Option W) (p : Option (P.V (ZMod r))) (q : Option (Q.V (ZMod r))) (b : Backend)
    (a : P.S (ZMod r)) (s : CS (ZMod r)) (h : (generated P Q code v p q).run (CS.new b) = .ok (a, s)) :
    ∃ x s1 y s2, (P.alloc p).run (CS.new b) = .ok (x, s1) ∧ (Q.alloc q).run s1 = .ok (y, s2) ∧
      ∀ w w' : Index → ZMod r, IsAssignment w → IsAssignment w' → s.Sat w → s.Sat w' →
        (∀ z ∈ P.linearize x ++ Q.linearize y, z.lc.eval w = z.lc.eval w') →
        (∀ i, ClientVar v (P.linearize x ++ Q.linearize y) code s2 i → w i = w' i) →
        code.Sharp v w (P.linearize x ++ Q.linearize y) s2 → Agree w w' s := by
  obtain ⟨x, s1, r1, h⟩ := M.bind_ok h
  obtain ⟨y, s2, r2, h⟩ := M.bind_ok h
  obtain ⟨_, s3, r3, h⟩ := M.bind_ok h
  obtain ⟨_, s4, r4, h⟩ := M.bind_ok h
  rw [M.run_pure] at h; injection h with h; injection h with e1 e2; subst e1 e2
  refine ⟨x, s1, y, s2, r1, r2, ?_⟩
  intro w w' hw hw' h1 h2 hdata hown hc
  obtain ⟨o, s3', r3', h⟩ := M.bind_ok r3
  rw [M.run_pure] at h; injection h with h; injection h with _ h; subst h
  have f1 := P.fills_alloc p (CS.new b) _ _ r1
  have f2 := Q.fills_alloc q s1 _ _ r2
  have g2 : Agree w w' s2 := by
    intro k hk
    rcases f1.append f2 k hk with hk | ⟨z, hz, hl⟩
    · simp [CS.new] at hk
    · rw [← P.linearize_eq, ← Q.linearize_eq] at hz
      exact (same_var hl).1 (hdata z hz)
  have wf1 := (M.run_ext r1).wf (wf_new b)
  have wf2 := (M.run_ext r2).wf wf1
  have t : Tidy s2 (P.linearize x ++ Q.linearize y) :=
    ((P.tidy_alloc p (wf_new b) r1).mono (M.run_ext r2)).append (Q.tidy_alloc q wf1 r2)
  have e4 := M.run_ext r4
  have g3 := (C99_program hw hw' v code _ o s2 s3' wf2 t hc r3' (e4.sat h1) (e4.sat h2) g2 hown).1
  refine (P.rig_inputize hw hw' (fun z hz => ?_) _ _ r4 h1 h2 g3).1
  rw [← P.linearize_eq] at hz
  exact hdata z (List.mem_append_left _ hz)

/-- C99 for the operations on signals of any type. -/
theorem C99_signal {F : Type} [Field F] [DecidableEq F] {w w' : Index → F} (hw : IsAssignment w) (hw' : IsAssignment w') (t : Ty)
    (a b : t.S F) (c : CBool F) (v : t.V F) (s s' : CS F) (h1 : s'.Sat w) (h2 : s'.Sat w') (hag : Agree w w' s)
    (ha : ∀ x ∈ t.linearize a, x.lc.eval w = x.lc.eval w') (hb : ∀ x ∈ t.linearize b, x.lc.eval w = x.lc.eval w')
    (hc : c.num.lc.eval w = c.num.lc.eval w')
    (h : (∃ x, (t.switch a c b).run s = .ok (x, s')) ∨ (t.assertEq a b).run s = .ok ((), s') ∨
      (t.assertConst a v).run s = .ok ((), s') ∨ (t.inputize a).run s = .ok ((), s')) : Agree w w' s' := by
  rw [t.linearize_eq] at ha hb
  rcases h with ⟨x, h⟩ | h | h | h
  · exact (t.rig_switch hw hw' hc ha hb _ _ h h1 h2 hag).1
  · exact (t.rig_assertEq hw hw' a b _ _ h h1 h2 hag).1
  · exact (t.rig_assertConst hw hw' a v _ _ h h1 h2 hag).1
  · exact (t.rig_inputize hw hw' ha _ _ h h1 h2 hag).1

/-! ### Two circuits without exceptions -/

theorem _root_.Fawkes.Fills.agree {F : Type} [Field F] [DecidableEq F] {w w' : Index → F} {s s' : CS F} {l : List (CNum F)} (h : Fills s l s')
    (hag : Agree w w' s) (hl : ∀ x ∈ l, Same w w' x) : Agree w w' s' := by
  intro k hk
  rcases h k hk with hk | ⟨x, hx, e⟩
  · exact hag k hk
  · exact (same_var e).1 (hl x hx)

/-- C99: in the crate's own circuit the preimage determines everything. -/
theorem C99_preimage (P : PoseidonParams (ZMod r)) (c : CheckPreimage (ZMod r)) (b : Backend) (hb : b ≠ .test) (s : CS (ZMod r))
    (h : (c.synthesize P).run (CS.new b) = .ok ((), s)) (hw : IsAssignment w) (hw' : IsAssignment w') (h1 : s.Sat w) (h2 : s.Sat w')
    (he : w (.aux 1) = w' (.aux 1)) : Agree w w' s := by
  have hin : w (.input 1) = w' (.input 1) := by
    have e1 := (preimage_sound hb h).2 w hw h1
    have e2 := (preimage_sound hb h).2 w' hw' h2
    rw [he, e2] at e1
    exact (Except.ok.inj e1).symm
  obtain ⟨x, s1, r1, h⟩ := M.bind_ok h
  obtain ⟨_, s2, r2, h⟩ := M.bind_ok h
  have t2 := (M.run_ext h).sat h1
  have t2' := (M.run_ext h).sat h2
  obtain ⟨y, s3, r3, h⟩ := M.bind_ok h
  have b1 : s1.backend ≠ .test := by rw [(M.run_ext r1).backend]; exact hb
  have b2 : s2.backend ≠ .test := by rw [(M.run_ext r2).backend]; exact b1
  obtain ⟨n1, -⟩ := post_alloc_next _ _ hb _ _ r1
  obtain ⟨-, e3⟩ := post_alloc_next _ _ b2 _ _ r3
  have i1 : s1.ninputs = 1 := (post_alloc_keep _ _ _ _ r1).2 hb
  obtain ⟨-, n2, v2⟩ := spec_inputize hw _ _ _ _ r2 t2
  obtain ⟨-, -, v2'⟩ := spec_inputize hw' _ _ _ _ r2 t2'
  have v2 := v2 0 (by simp)
  have v2' := v2' 0 (by simp)
  rw [i1] at v2 v2'
  simp only [List.getElem_cons_zero, Nat.add_zero] at v2 v2'
  have sx : Same w w' x := v2.symm.trans (hin.trans v2')
  rw [n2, n1] at e3
  have sy : Same w w' y := (e3 w).trans (he.trans (e3 w').symm)
  have g1 : Agree w w' s1 := Fills.agree (fills_alloc _ _ _ _ r1) (by simp [Agree, CS.new]) (by simpa using sx)
  have g2 := (rig_inputize hw hw' sx _ _ r2 t2 t2' g1).1
  have g3 : Agree w w' s3 := Fills.agree (fills_alloc _ _ _ _ r3) g2 (by simpa using sy)
  obtain ⟨z, s4, r4, h⟩ := M.bind_ok h
  have g4 := (rig_poseidon hw hw' P (by simpa using sy) _ _ r4 ((M.run_ext h).sat h1) ((M.run_ext h).sat h2) g3).1
  exact (rig_assertZero hw hw' _ _ h h1 h2 g4).1

/-- C99: in the circuit for membership in a Merkle tree the public data, the siblings and the path determine everything. -/
theorem C99_member (P : PoseidonParams (ZMod r)) (n : Nat) (p : Option (ZMod r × ZMod r))
    (q : Option (SizedVec (ZMod r) n × SizedVec Bool n)) (b : Backend) (a : CNum (ZMod r) × CNum (ZMod r)) (s : CS (ZMod r))
    (h : (memberCircuit P n p q).run (CS.new b) = .ok (a, s)) :
    ∃ x s1 y s2, ((Ty.pair .num .num).alloc (F := ZMod r) p).run (CS.new b) = .ok (x, s1) ∧
      ((Ty.pair (.vec n .num) (.vec n .bool)).alloc (F := ZMod r) q).run s1 = .ok (y, s2) ∧
      ∀ w w' : Index → ZMod r, IsAssignment w → IsAssignment w' → s.Sat w → s.Sat w' →
        (∀ z ∈ (Ty.pair .num .num).linearize (F := ZMod r) x ++ (Ty.pair (.vec n .num) (.vec n .bool)).linearize (F := ZMod r) y,
          z.lc.eval w = z.lc.eval w') → Agree w w' s := by
  obtain ⟨a', h', -⟩ : ∃ a', (generated (.pair .num .num) (.pair (.vec n .num) (.vec n .bool)) (memberCode n P) none p q).run
      (CS.new b) = .ok (a', s) ∧ a = a' := by
    rcases member_generated P n none p q (CS.new b) with ⟨a1, a2, t, h1, h2, e⟩ | ⟨e, h1, -⟩
    · rw [h] at h1; injection h1 with h1; injection h1 with e1 e2; subst e1 e2
      exact ⟨a2, h2, e⟩
    · rw [h] at h1; cases h1
  obtain ⟨x, s1, y, s2, r1, r2, h3⟩ := C99_generated _ _ _ _ _ _ _ _ _ h'
  refine ⟨x, s1, y, s2, r1, r2, fun w w' hw hw' h1 h2 hd => h3 w w' hw hw' h1 h2 hd ?_ ?_⟩
  · intro i hi
    cases hi with
    | here hc => exact hc.elim
    | later _ hi =>
      cases hi with
      | here hc => exact hc.elim
      | later _ hi => cases hi
  · exact ⟨Or.inr trivial, fun _ _ _ => ⟨Or.inr trivial, fun _ _ _ => trivial⟩⟩

/-! ### The exceptions are real -/

section free
variable {F : Type} [Field F] [DecidableEq F] {w : Index → F} {s s' : CS F} {a b : CNum F}

theorem eval_of_agree {u : Index → F} (hw : IsAssignment w) (hu : IsAssignment u) (hag : Agree w u s) (ha : a.lc.Alloc s) :
    a.lc.eval u = a.lc.eval w := (hag.same hw hu ha).symm

theorem _root_.Fawkes.Closed.sat {F : Type} [Field F] [DecidableEq F] {w : Index → F} {s : CS F} (h : Closed s) {u : Index → F} (hw : IsAssignment w) (hu : IsAssignment u) (hag : Agree w u s) (hs : s.Sat w) :
    s.Sat u := by
  intro c hc
  have := hs c hc
  unfold Constraint.Sat at this ⊢
  obtain ⟨h1, h2, h3⟩ := h c hc
  rwa [eval_of_agree hw hu hag h1, eval_of_agree hw hu hag h2, eval_of_agree hw hu hag h3]

theorem _root_.Fawkes.Agree.trans_ext {F : Type} [Field F] [DecidableEq F] {w v u : Index → F} {s s1 : CS F} (h : Agree w v s)
    (e : s.Ext s1) (h' : Agree v u s1) : Agree w u s :=
  fun k hk => (h k hk).trans (h' k ((e.vars.map Prod.fst).subset hk))

/-- A new variable may have any value. -/
theorem _root_.Fawkes.Solves.alloc {F : Type} [Field F] [DecidableEq F] {w : Index → F} {s s' : CS F} (h : Solves s w) {v : Option F} {x : CNum F} (hr : (CNum.alloc v).run s = .ok (x, s')) (u : F) :
    ∃ w', Solves s' w' ∧ Agree w w' s ∧ x.lc.eval w' = u ∧ x.lc.Alloc s' ∧ x.asConst = none := by
  have e := M.run_ext hr
  have hfresh := nextAlloc_fresh h.wf
  have hf := post_alloc_fresh h.wf v _ _ hr
  obtain ⟨-, hl, rfl⟩ := post_alloc _ _ _ _ hr
  have h1 : IsAssignment (Function.update w s.nextAlloc u) := by
    unfold IsAssignment
    rw [Function.update_of_ne hfresh.1.symm]; exact h.one
  have hag : Agree w (Function.update w s.nextAlloc u) s := by
    intro k hk
    rw [Function.update_of_ne]
    rintro rfl
    exact hfresh.2 hk
  refine ⟨_, ⟨e.wf h.wf, ?_, h1, ?_⟩, hag, ?_, hf.2.1, hf.1.asConst⟩
  · intro c hc
    rw [pushVar_cons] at hc
    obtain ⟨a1, a2, a3⟩ := h.closed c hc
    exact ⟨a1.mono e, a2.mono e, a3.mono e⟩
  · intro c hc
    rw [pushVar_cons] at hc
    exact h.closed.sat h.one h1 hag h.sat c hc
  · rw [hl]; simp [LC.eval]

/-- A constraint that holds. -/
theorem _root_.Fawkes.Solves.enforce {F : Type} [Field F] [DecidableEq F] {w : Index → F} {s s' : CS F} (h : Solves s w) {a b c : CNum F} {t : Unit} (hr : (CS.enforce a b c).run s = .ok (t, s')) (ha : a.lc.Alloc s)
    (hb : b.lc.Alloc s) (hc : c.lc.Alloc s) (he : a.lc.eval w * b.lc.eval w = c.lc.eval w) : Solves s' w := by
  have e := M.run_ext hr
  obtain ⟨rfl, -⟩ := post_enforce _ _ _ _ _ _ hr
  refine ⟨e.wf h.wf, ?_, h.one, ?_⟩
  · intro d hd
    rcases List.mem_append.1 hd with hd | hd
    · obtain ⟨a1, a2, a3⟩ := h.closed d hd
      exact ⟨a1.mono e, a2.mono e, a3.mono e⟩
    · rw [List.mem_singleton] at hd; subst hd
      exact ⟨ha.mono e, hb.mono e, hc.mono e⟩
  · intro d hd
    rcases List.mem_append.1 hd with hd | hd
    · exact h.sat d hd
    · rw [List.mem_singleton] at hd; subst hd
      exact he

theorem _root_.Fawkes.Agree.eval {F : Type} [Field F] [DecidableEq F] {w u : Index → F} {s : CS F} {a : CNum F} (h : Agree w u s) (hw : IsAssignment w)
    (hu : IsAssignment u) (ha : a.lc.Alloc s) : a.lc.eval u = a.lc.eval w := (h.same hw hu ha).symm

/-- C99: a division of zero by zero has any quotient. -/
theorem C99_div_free (h0 : Solves s w) (ha : a.lc.Alloc s) (hb : b.lc.Alloc s) (ca : a.asConst = none)
    (cb : b.asConst = none) (o : CNum F) (h : (CNum.div a b).run s = .ok (o, s')) (a0 : a.lc.eval w = 0) (b0 : b.lc.eval w = 0) (u : F) :
    ∃ w', Solves s' w' ∧ Agree w w' s ∧ o.lc.eval w' = u := by
  unfold CNum.div at h
  rw [ca, cb] at h
  obtain ⟨v, s1, r1, h⟩ := M.bind_ok h
  obtain ⟨x, s2, r2, h⟩ := M.bind_ok h
  obtain ⟨_, s3, r3, h⟩ := M.bind_ok h
  rw [M.run_pure] at h; injection h with h; injection h with e1 e2; subst e1 e2
  have e0 : s1 = s := by
    unfold CNum.divValue at r1
    split at r1
    · split at r1
      · cases r1
      · rw [M.run_pure] at r1; injection r1 with r1; injection r1 with _ r1; exact r1.symm
    · rw [M.run_pure] at r1; injection r1 with r1; injection r1 with _ r1; exact r1.symm
  subst e0
  obtain ⟨w', hs, hag, hx, hxa, -⟩ := h0.alloc r2 u
  have e := M.run_ext r2
  refine ⟨w', hs.enforce r3 hxa (hb.mono e) (ha.mono e) ?_, hag, hx⟩
  rw [hag.eval h0.one hs.one ha, hag.eval h0.one hs.one hb, a0, b0, mul_zero]

/-- C99: a zero test of zero leaves its helper any value but zero: assignments that agree on everything before differ in the variable
that comes next. -/
theorem C99_isZero_free (h0 : Solves s w) (ha : a.lc.Alloc s) (ca : a.asConst = none) (o : CBool F)
    (h : (CNum.isZero a).run s = .ok (o, s')) (a0 : a.lc.eval w = 0) (u : F) (hu : u ≠ 0) :
    ∃ w', Solves s' w' ∧ Agree w w' s ∧ w' s.nextAlloc = u := by
  unfold CNum.isZero at h
  rw [ca] at h
  obtain ⟨x, s1, r1, h⟩ := M.bind_ok h
  obtain ⟨_, s2, r2, h⟩ := M.bind_ok h
  obtain ⟨z, s3, r3, h⟩ := M.bind_ok h
  obtain ⟨_, s4, r4, h⟩ := M.bind_ok h
  rw [M.run_pure] at h; injection h with h; injection h with e1 e2; subst e1 e2
  obtain ⟨w1, hs1, g1, x1, xa, cx⟩ := h0.alloc r1 u
  have lx := (post_alloc _ _ _ _ r1).2.1
  have ke1 := M.run_ext r1
  -- the inverse of the helper
  unfold CNum.assertNonzero at r2
  rw [cx] at r2
  obtain ⟨y, s5, r5, r2⟩ := M.bind_ok r2
  obtain ⟨w2, hs2, g2, y2, ya, -⟩ := hs1.alloc r5 u⁻¹
  have ke5 := M.run_ext r5
  have ke2 := M.run_ext r2
  have one5 : (CNum.one : CNum F).lc.eval w2 = 1 := CNum.eval_one hs2.one
  have hs2 := hs2.enforce r2 (xa.mono ke5) ya (alloc_fromConst 1) (by
    rw [g2.eval hs1.one hs2.one xa, x1, y2, one5, mul_inv_cancel₀ hu])
  -- the product
  unfold CNum.mul at r3
  rw [cx, ca] at r3
  obtain ⟨z', s6, r6, r3⟩ := M.bind_ok r3
  obtain ⟨_, s7, r7, r3⟩ := M.bind_ok r3
  rw [M.run_pure] at r3; injection r3 with r3; injection r3 with e1 e2; subst e1 e2
  obtain ⟨w3, hs3, g3, z3, za, cz⟩ := hs2.alloc r6 0
  have ke6 := M.run_ext r6
  have g03 : Agree w w3 s := (g1.trans_ext ke1 g2).trans_ext (ke1.trans (ke5.trans ke2)) g3
  have g13 : Agree w1 w3 s1 := g2.trans_ext (ke5.trans ke2) g3
  have hs3 := hs3.enforce r7 (((xa.mono ke5).mono ke2).mono ke6) ((((ha.mono ke1).mono ke5).mono ke2).mono ke6) za (by
    rw [g03.eval h0.one hs3.one ha, a0, z3, mul_zero])
  have ke7 := M.run_ext r7
  -- the bit
  unfold CNum.assertBit at r4
  rw [cz] at r4
  have hs4 := hs3.enforce r4 (za.mono ke7) (alloc_subConst (za.mono ke7) 1) (alloc_fromConst 0) (by
    rw [z3, zero_mul]; exact (CNum.eval_fromConst hs3.one 0).symm)
  refine ⟨w3, hs4, g03, ?_⟩
  have := g13.eval hs1.one hs3.one xa
  rw [x1, lx] at this
  simpa [LC.eval] using this

end free

section subgroup
variable {F : Type} [Field F] [DecidableEq F] {C : EdCurve F} {J : JubJubParams F}

open CEdwardsPoint

/-- `assert_in_subgroup` by a client that puts another preimage in its place. -/
def preimageChosen (v : EdwardsPoint F) (p : CEdwardsPoint F) (J : JubJubParams F) : M F Unit := do
  let preimage ← CEdwardsPoint.alloc (some v)
  preimage.assertInCurve J
  let preimage8 ← preimage.mulByCofactor J
  CNum.assertZero (CNum.sub p.x preimage8.x)
  CNum.assertZero (CNum.sub p.y preimage8.y)

theorem rel_preimageChosen [Fact J.l.Prime] (v : EdwardsPoint F) (p : CEdwardsPoint F) :
    Rel (p.assertInSubgroup J) (preimageChosen v p J) (fun _ _ => True) := by
  intro s t hst a s' b t' h1 h2
  unfold assertInSubgroup at h1
  obtain ⟨x, s1, r1, h1⟩ := M.bind_ok h1
  rw [M.run_lift] at r1
  split at r1
  · cases r1
  · injection r1 with r1; injection r1 with _ e; subst e
    refine (?_ : Rel _ _ fun _ _ => True) s t hst a s' b t' h1 h2
    refine Rel.bind (CEdwardsPoint.rel_alloc _ _) fun a a' ha => ?_
    refine Rel.bind (rel_assertInCurve J ha) fun _ _ _ => ?_
    refine Rel.bind (rel_mulByCofactor J ha) fun b b' hb => ?_
    refine Rel.bind (rel_assertZero (shape_sub rfl hb.1)) fun _ _ _ => ?_
    exact rel_assertZero (shape_sub rfl hb.2)

theorem post_alloc_point_next {s : CS F} (v : Option (EdwardsPoint F)) :
    Post s (CEdwardsPoint.alloc v) (fun p _ => p.x.lc = [(s.nextAlloc, 1)]) := by
  unfold CEdwardsPoint.alloc
  refine Post.bind (post_alloc s _) fun x s1 e1 h1 => ?_
  refine Post.bind (post_alloc s1 _) fun y s2 e2 h2 => ?_
  exact Post.pure h1.2.1

/-- C99: `assert_in_subgroup` holds with every point whose eightfold is the argument in place of the one that the library computes. -/
theorem C99_subgroup_free [Fact J.l.Prime] {s s' : CS F} (hs : s.Honest) (hd : J.d = C.d) {p : CEdwardsPoint F} (P : EdPoint C)
    (hx : Has s p.x (8 • P).x) (hy : Has s p.y (8 • P).y) (h : (p.assertInSubgroup J).run s = .ok ((), s')) :
    ∃ w', Solves s' w' ∧ Agree s.assign w' s ∧ w' s.nextAlloc = P.x := by
  have key : Runs s (preimageChosen P.affine p J) (fun _ s' => s'.assign s.nextAlloc = P.x) := by
    have ha := post_alloc_point_next (s := s) (some P.affine)
    refine Runs.bind (((runs_alloc_point hs P.affine).and_post (post_alloc_point hs.wf _)).and_post ha) fun pre s1 e1 hs1 h1 => ?_
    obtain ⟨⟨⟨h1x, h1y⟩, f1x, f1y, -, -⟩, hl⟩ := h1
    refine Runs.bind (runs_assertInCurve hs1 h1x h1y (by rw [hd]; exact P.on)) fun _ s2 e2 hs2 _ => ?_
    refine Runs.bind ((runsMode F).edMulByCofactor (Q := P) hd hs2 ⟨h1x.mono e2, h1y.mono e2⟩ f1x.varies f1y.varies)
      fun p8 s3 e3 hs3 h3 => ?_
    have e03 := (e1.trans e2).trans e3
    have hzx : Has s3 (CNum.sub p.x p8.x) 0 := by
      have := has_sub (hx.mono e03) h3.1.1; rwa [sub_self] at this
    have hzy : Has s3 (CNum.sub p.y p8.y) 0 := by
      have := has_sub (hy.mono e03) h3.1.2; rwa [sub_self] at this
    refine Runs.bind (runs_assertZero hs3 hzx) fun _ s4 e4 hs4 _ => ?_
    refine (runs_assertZero hs4 (hzy.mono e4)).mono fun _ s5 e5 hs5 _ => ?_
    have := (h1x.mono (e2.trans (e3.trans (e4.trans e5)))).eval
    rw [hl] at this
    show s5.assign s.nextAlloc = P.affine.x
    simpa [LC.eval] using this
  obtain ⟨_, t, ht, et, hon, hv⟩ := key
  have hst : s.SameShape s := ⟨Iff.rfl, rfl, rfl, rfl, rfl⟩
  have sh := (rel_preimageChosen P.affine p s s hst _ _ _ _ h ht).1
  have e := M.run_ext h
  have one : IsAssignment t.assign := by simp [IsAssignment, CS.assign]
  have one' : IsAssignment s.assign := by simp [IsAssignment, CS.assign]
  refine ⟨t.assign, ⟨e.wf hs.wf, ?_, one, ?_⟩, ?_, hv⟩
  · intro c hc
    have : c.shape ∈ t.cons.map Constraint.shape := by rw [← sh.cons]; exact List.mem_map_of_mem hc
    obtain ⟨d, hd, he⟩ := List.mem_map.1 this
    have := hon.alloc d hd
    unfold Constraint.shape at he
    injection he with a1 he; injection he with a2 a3
    rw [a1, a2, a3] at this
    unfold LC.Alloc at this ⊢
    rwa [← sh.vars] at this
  · intro c hc
    have : c.shape ∈ t.cons.map Constraint.shape := by rw [← sh.cons]; exact List.mem_map_of_mem hc
    obtain ⟨d, hd, he⟩ := List.mem_map.1 this
    have := hon.sat d hd
    unfold Constraint.shape at he
    injection he with a1 he; injection he with a2 a3
    unfold Constraint.Sat at this ⊢
    rwa [a1, a2, a3] at this
  · intro k hk
    exact (et.assign (Or.inr hk)).symm

theorem eight_torsion2 : 8 • (EdPoint.torsion2 : EdPoint C) = 0 := by
  rw [show 8 = 4 * 2 from rfl, mul_nsmul', EdPoint.two_nsmul_torsion2, nsmul_zero]

/-- C99: for every point of the subgroup but zero there are two satisfying assignments that agree on everything before
`assert_in_subgroup` and differ in the variable that comes next. -/
theorem C99_subgroup_two [Fact J.l.Prime] {s s' : CS F} (hs : s.Honest) (hd : J.d = C.d) (hl : 7 < J.l) {p : CEdwardsPoint F}
    (Q : EdPoint C) (hQ : J.l • Q = 0) (h0 : Q ≠ 0) (hx : Has s p.x Q.x) (hy : Has s p.y Q.y)
    (h : (p.assertInSubgroup J).run s = .ok ((), s')) :
    ∃ w w', Solves s' w ∧ Solves s' w' ∧ Agree w w' s ∧ w s.nextAlloc ≠ w' s.nextAlloc := by
  obtain ⟨P, -, rfl⟩ := eighth_ok hd hl hQ
  have e : 8 • (P + EdPoint.torsion2) = 8 • P := by rw [nsmul_add, eight_torsion2, add_zero]
  obtain ⟨w, h1, g1, v1⟩ := C99_subgroup_free hs hd P hx hy h
  obtain ⟨w', h2, g2, v2⟩ := C99_subgroup_free (p := p) hs hd (P + EdPoint.torsion2) (by rwa [e]) (by rwa [e]) h
  refine ⟨w, w', h1, h2, fun k hk => (g1 k hk).symm.trans (g2 k hk), ?_⟩
  rw [v1, v2, EdPoint.add_torsion2]
  intro hp
  have hp : P.x = -P.x := hp
  have : P.x = 0 := by
    have h2 : (2 : F) * P.x = 0 := by linear_combination hp
    exact (mul_eq_zero.1 h2).resolve_left C.two_ne_zero
  rcases (EdPoint.x_eq_zero_iff P).1 this with rfl | rfl
  · exact h0 (nsmul_zero 8)
  · exact h0 eight_torsion2

end subgroup

/-! ### Cases that meet the hypotheses -/

/-- The multiplication circuit has no exceptions; its two secret numbers are the client's own variables. -/
example (v : Option (ZMod 97 × ZMod 97)) (w : Index → ZMod 97) (b : Backend) : handProduct.Sharp v w [] (CS.new b) := by
  simp [handProduct, Code.Sharp, Call.Own, Call.Sharp]

example : ((handwritten handProduct (some (5, 7))).run (CS.new .prove)).isOk = true := by decide +kernel

/-- Two numbers and a satisfying assignment without constraints. -/
theorem exState_solves : Solves exState exState.assign :=
  ⟨exState_honest.wf, exState_honest.alloc, by simp [IsAssignment, CS.assign], exState_honest.sat⟩

/-- A division by 5, a zero test of 3 and an equality test of 3 and 5 leave no choice; five bits of a number of seven elements do. -/
example : (Call.prim (.div 0 1) : Call 7 Unit).Sharp exState.assign [⟨some 3, [(.aux 0, 1)]⟩, ⟨some 5, [(.aux 1, 1)]⟩] ∧
    (Call.prim (.isZero 0) : Call 7 Unit).Sharp exState.assign [⟨some 3, [(.aux 0, 1)]⟩, ⟨some 5, [(.aux 1, 1)]⟩] ∧
    (Call.prim (.isEq 0 1) : Call 7 Unit).Sharp exState.assign [⟨some 3, [(.aux 0, 1)]⟩, ⟨some 5, [(.aux 1, 1)]⟩] ∧
    ¬ (Call.intoBits 0 5 : Call 7 Unit).Sharp exState.assign [⟨some 3, [(.aux 0, 1)]⟩, ⟨some 5, [(.aux 1, 1)]⟩] ∧
    (Call.intoBits 0 2 : Call 7 Unit).Sharp exState.assign [⟨some 3, [(.aux 0, 1)]⟩, ⟨some 5, [(.aux 1, 1)]⟩] := by
  refine ⟨?_, ?_, ?_, ?_, ?_⟩
  · rintro a b ⟨⟩ ⟨⟩ - -; decide
  · rintro a ⟨⟩ -; decide
  · rintro a b ⟨⟩ ⟨⟩ -; decide
  · intro h
    exact absurd (h _ rfl (by decide)) (by decide)
  · rintro a ⟨⟩ -; decide

example : (((Call.prim (.div 0 1) : Call 7 Unit).exec none [⟨some 3, [(.aux 0, 1)]⟩, ⟨some 5, [(.aux 1, 1)]⟩]).run exState).isOk = true ∧
    (∀ a ∈ [(⟨some 3, [(.aux 0, 1)]⟩ : CNum (ZMod 7)), ⟨some 5, [(.aux 1, 1)]⟩], a.lc.Canonical ∧ a.lc.Alloc exState) := by
  refine ⟨by decide +kernel, ?_⟩
  intro a ha
  rcases List.mem_cons.1 ha with rfl | ha
  · exact ⟨LC.canonical_single _ _ (Or.inr one_ne_zero), exState_x.alloc⟩
  · rw [List.mem_singleton.1 ha]
    exact ⟨LC.canonical_single _ _ (Or.inr one_ne_zero), exState_y.alloc⟩

/-- The circuit of the crate, with the preimage 9 of 27. -/
example (b : Backend) : ∃ s, ((⟨some 27, some 9⟩ : CheckPreimage (ZMod 97)).synthesize smallPoseidon).run (CS.new b) = .ok ((), s) ∧ s.Honest :=
  preimage_runs (by decide +kernel) b

/-- A membership circuit with a proof of one step. -/
example : ((memberCircuit forgeHash97 1 (some (1, 1)) (some (⟨[0]⟩, ⟨[false]⟩))).run (CS.new .prove)).isOk = true := by decide +kernel

/-- A state with two numbers that are zero, as in the key generator: they have no recorded values. -/
def zeroState : CS (ZMod 7) := ⟨.setup, 1, 2, [(.aux 0, none), (.aux 1, none)], []⟩

example : Solves zeroState (fun i => if i = .input 0 then 1 else 0) ∧
    ((CNum.div ⟨none, [(.aux 0, 1)]⟩ ⟨none, [(.aux 1, 1)]⟩).run zeroState).isOk = true ∧
    ((CNum.isZero ⟨none, [(.aux 0, 1)]⟩).run zeroState).isOk = true := by
  refine ⟨⟨⟨by decide, by decide, by simp [zeroState], by simp [zeroState]⟩, by simp [Closed, zeroState], rfl, by simp [CS.Sat, zeroState]⟩,
    by decide +kernel, by decide +kernel⟩

/-- The base point of the shipped curve, allocated as a variable. -/
example : ∃ (p : CEdwardsPoint (ZMod bnR)) (s : CS (ZMod bnR)), s.Honest ∧ bnParams.d = bnCurve.d ∧ 7 < bnParams.l ∧
    bnParams.l • bnG = 0 ∧ bnG ≠ 0 ∧ Has s p.x bnG.x ∧ Has s p.y bnG.y := by
  obtain ⟨p, s, -, hh, hc, -⟩ := alloc_point (CS.honest_new (F := ZMod bnR) .test) bnG.affine
  exact ⟨p, s, hh, rfl, bnParams_valid.l_large, bnG_order, bnG_ne_zero, hc.1, hc.2⟩

end Fawkes.Props
