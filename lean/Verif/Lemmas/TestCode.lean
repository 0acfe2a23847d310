import Verif.Lemmas.TestLink

/-!
# Client code on `TestCS` and on the prover
-/

set_option linter.unusedSectionVars false

namespace Fawkes

variable {r : Nat} [Fact r.Prime] {W : Type}

local notation "F" => ZMod r

theorem rfit_looks {R : Ren} {w : Index → F} {q q' : List (CNum F)} (h : List.Forall₂ (RFit R w) q q') :
    List.Forall₂ LC.LooksLike (q.map CNum.lc) (q'.map CNum.lc) := by
  induction h with
  | nil => exact .nil
  | cons h _ ih => exact .cons ⟨h.length, h.asConst⟩ ih

theorem rfit_values {R : Ren} {w : Index → F} {q q' : List (CNum F)} (h : List.Forall₂ (RFit R w) q q') :
    q'.map CNum.value = q.map CNum.value := by
  induction h with
  | nil => rfl
  | cons h _ ih => rw [List.map_cons, List.map_cons, ih, h.same]

theorem testLink_sees {K : Nat → Bool} {fin : CS F} {hf : fin.WF} (c : Code r W) (hb : c.Blind) : c.Sees (testLink K fin hf) := by
  induction c with
  | done => trivial
  | call c next ih => exact ⟨fun q q' h => hb.1 _ _ (rfit_looks h), fun l => ih l (hb.2 l)⟩

theorem proveLink_sees {fin : CS F} {hf : fin.WF} {hs : fin.Sat fin.assign} (c : Code r W) (hb : c.Blind) :
    c.Sees (proveLink fin hf hs) := by
  induction c with
  | done => trivial
  | call c next ih => exact ⟨fun q q' h => hb.1 _ _ (rfit_looks h), fun l => ih l (hb.2 l)⟩

/-- Which variables are public can be read off the run. -/
theorem kinds_code (c : Code r W) {fin : CS F} (hf : fin.WF) {w : Option W} {q p : List (CNum F)} {s s' : CS F}
    (h : (c.exec w q).run s = .ok (p, s')) (hfin : s'.vars <+: fin.vars) :
    ∃ K' : Nat → Bool, ∀ K : Nat → Bool, (∀ n, s.vars.length ≤ n → n < s'.vars.length → K n = K' n) →
      c.Ok (testLink K fin hf) w q s := by
  induction c generalizing q s with
  | done => exact ⟨fun _ => false, fun _ _ => trivial⟩
  | call c next ih =>
    rw [Code.exec] at h
    obtain ⟨q1, s1, h1, h2⟩ := M.bind_ok h
    obtain ⟨K', hK'⟩ := ih _ h2
    have l1 := (M.run_ext h1).vars.length_le
    have l2 := (M.run_ext h2).vars.length_le
    refine ⟨fun n => if n < s1.vars.length then c.publishes else K' n, fun K hK => ?_⟩
    intro q2 s2 h3
    rw [h1] at h3; injection h3 with h3; injection h3 with e1 e2
    subst e1 e2
    refine ⟨⟨fun n a b => ?_, (M.run_ext h2).vars.trans hfin⟩, hK' K fun n a b => ?_⟩
    · rw [hK n a (by omega)]; simp [b]
    · rw [hK n (by omega) b]; simp [Nat.not_lt.2 a]

/-- What succeeds on `TestCS` succeeds on the prover. -/
theorem test_to_prove (c : Code r W) (hk : c.Known) (hb : c.Blind) (w : W) {p : List (CNum F)} {s : CS F}
    (h : (c.exec (some w) []).run (CS.new .test) = .ok (p, s)) :
    ∃ K p' t, (c.exec (some w) []).run (CS.new .prove) = .ok (p', t) ∧ TestSt K s.assign s t ∧
      List.Forall₂ (RFit (testRen K) s.assign) p p' := by
  have hf : s.WF := (M.run_ext h).wf (wf_new _)
  obtain ⟨K, hK⟩ := kinds_code c hf h List.prefix_rfl
  obtain ⟨p', t, h1, h2, h3⟩ := sim_code (X := testLink K s hf) (Or.inr ⟨rfl, fun _ => by simp⟩) c (fun h => by cases h)
    (fun _ => hk) (testLink_sees c hb) (q := []) (q' := []) .nil _ _ (TestSt.new K s.assign) _ _ h (hK K fun _ _ _ => rfl)
  exact ⟨K, p', t, h1, h2, h3⟩

/-- What succeeds on the prover with values that satisfy the constraints succeeds on `TestCS`. -/
theorem prove_to_test (c : Code r W) (hk : c.Known) (hb : c.Blind) (w : W) {p : List (CNum F)} {s : CS F}
    (h : (c.exec (some w) []).run (CS.new .prove) = .ok (p, s)) (hs : s.Sat s.assign) :
    ∃ p' t, (c.exec (some w) []).run (CS.new .test) = .ok (p', t) ∧ ProveSt s s t ∧
      List.Forall₂ (RFit (proveRen s) s.assign) p p' := by
  have hf : s.WF := (M.run_ext h).wf (wf_new _)
  obtain ⟨p', t, h1, h2, h3⟩ := sim_code (X := proveLink s hf hs) (Or.inr ⟨rfl, fun _ => by simp⟩) c (fun h => by cases h)
    (fun _ => hk) (proveLink_sees c hb) (q := []) (q' := []) .nil _ _ (ProveSt.new s) _ _ h
    (c.ok_of_run h fun b s1 s2 _ e => ⟨e.vars, e.cons⟩)
  exact ⟨p', t, h1, h2, h3⟩

/-! ## Circuits generated by the macros -/

theorem synthesize_ok {P Q : Ty} {main : P.S F → Q.S F → M F Unit} {p : Option (P.V F)} {q : Option (Q.V F)} {s s' : CS F}
    {a : P.S F} (h : (synthesize P Q main p q).run s = .ok (a, s')) : ∃ s1 b s2 s3,
      (P.alloc p).run s = .ok (a, s1) ∧ (Q.alloc q).run s1 = .ok (b, s2) ∧ (main a b).run s2 = .ok ((), s3) ∧
      (P.inputize a).run s3 = .ok ((), s') := by
  unfold synthesize at h
  obtain ⟨a1, s1, h1, h⟩ := M.bind_ok h
  obtain ⟨b, s2, h2, h⟩ := M.bind_ok h
  obtain ⟨_, s3, h3, h⟩ := M.bind_ok h
  obtain ⟨_, s4, h4, h⟩ := M.bind_ok h
  rw [M.run_pure] at h; injection h with h; injection h with e1 e2
  subst e1 e2
  exact ⟨s1, b, s2, s3, h1, h2, h3, h4⟩

theorem synthesize_run {P Q : Ty} {main : P.S F → Q.S F → M F Unit} {p : Option (P.V F)} {q : Option (Q.V F)} {s s1 s2 s3 s' : CS F}
    {a : P.S F} {b : Q.S F} (h1 : (P.alloc p).run s = .ok (a, s1)) (h2 : (Q.alloc q).run s1 = .ok (b, s2))
    (h3 : (main a b).run s2 = .ok ((), s3)) (h4 : (P.inputize a).run s3 = .ok ((), s')) :
    (synthesize P Q main p q).run s = .ok (a, s') := by
  unfold synthesize
  rw [M.run_bind, h1]; simp only
  rw [M.run_bind, h2]; simp only
  rw [M.run_bind, h3]; simp only
  rw [M.run_bind, h4]; rfl

theorem main_ok {code : Code r W} {w : Option W} {l : List (CNum F)} {s s' : CS F}
    (h : (do let _ ← code.exec w l : M F Unit).run s = .ok ((), s')) : ∃ o, (code.exec w l).run s = .ok (o, s') := by
  obtain ⟨o, s1, h1, h⟩ := M.bind_ok h
  rw [M.run_pure] at h; injection h with h; injection h with e1 e2
  subst e2
  exact ⟨o, h1⟩

theorem main_run {code : Code r W} {w : Option W} {l o : List (CNum F)} {s s' : CS F}
    (h : (code.exec w l).run s = .ok (o, s')) : (do let _ ← code.exec w l : M F Unit).run s = .ok ((), s') := by
  rw [M.run_bind, h]; rfl

theorem circuit_test_to_prove (P Q : Ty) (c : Code r W) (hk : c.Known) (hb : c.Blind) (w : W) (p : P.V F) (q : Q.V F)
    {a : P.S F} {s : CS F}
    (h : (synthesize P Q (fun a b => do let _ ← c.exec (some w) (P.linearize a ++ Q.linearize b)) (some p) (some q)).run
      (CS.new .test) = .ok (a, s)) :
    ∃ K a' t, (synthesize P Q (fun a b => do let _ ← c.exec (some w) (P.linearize a ++ Q.linearize b)) (some p) (some q)).run
      (CS.new .prove) = .ok (a', t) ∧ TestSt K s.assign s t := by
  have hf : s.WF := (M.run_ext h).wf (wf_new _)
  obtain ⟨s1, b, s2, s3, h1, h2, h3, h4⟩ := synthesize_ok h
  obtain ⟨o, h3⟩ := main_ok h3
  have e1 := M.run_ext h1
  have e2 := M.run_ext h2
  have e3 := M.run_ext h3
  have e4 := M.run_ext h4
  have l1 := e1.vars.length_le
  have l2 := e2.vars.length_le
  have l3 := e3.vars.length_le
  have l4 := e4.vars.length_le
  obtain ⟨K', hK'⟩ := kinds_code c hf h3 e4.vars
  let K : Nat → Bool := fun n => if n < s2.vars.length then false else if n < s3.vars.length then K' n else true
  have hK := hK' K fun n x y => by simp only [K]; rw [if_neg (by omega), if_pos y]
  obtain ⟨a', t1, g1, st1, f1⟩ := P.sim_alloc (X := testLink K s hf) _ _ (Link.V.some p) _ _ (TestSt.new K s.assign) _ _ h1
    ⟨fun n x y => by simp only [K]; rw [if_pos (by omega)], (e2.vars.trans e3.vars).trans e4.vars⟩
  obtain ⟨b', t2, g2, st2, f2⟩ := Q.sim_alloc (X := testLink K s hf) _ _ (Link.V.some q) _ _ st1 _ _ h2
    ⟨fun n x y => by simp only [K]; rw [if_pos (by omega)], e3.vars.trans e4.vars⟩
  obtain ⟨o', t3, g3, st3, f3⟩ := sim_code (X := testLink K s hf) (Or.inr ⟨rfl, fun _ => by simp⟩) c (fun h => by cases h)
    (fun _ => hk) (testLink_sees c hb) (FitsLcs.append (P.fits_linearize f1) (Q.fits_linearize f2)) _ _ st2 _ _ h3 hK
  obtain ⟨_, t4, g4, st4, -⟩ := P.sim_inputize f1 _ _ st3 _ _ h4
    ⟨fun n x y => by simp only [K]; rw [if_neg (by omega), if_neg (by omega)], List.prefix_rfl⟩
  exact ⟨K, a', t4, synthesize_run g1 g2 (main_run g3) g4, st4⟩

theorem circuit_prove_to_test (P Q : Ty) (c : Code r W) (hk : c.Known) (hb : c.Blind) (w : W) (p : P.V F) (q : Q.V F)
    {a : P.S F} {s : CS F}
    (h : (synthesize P Q (fun a b => do let _ ← c.exec (some w) (P.linearize a ++ Q.linearize b)) (some p) (some q)).run
      (CS.new .prove) = .ok (a, s)) (hs : s.Sat s.assign) :
    ∃ a' t, (synthesize P Q (fun a b => do let _ ← c.exec (some w) (P.linearize a ++ Q.linearize b)) (some p) (some q)).run
      (CS.new .test) = .ok (a', t) ∧ ProveSt s s t := by
  have hf : s.WF := (M.run_ext h).wf (wf_new _)
  obtain ⟨s1, b, s2, s3, h1, h2, h3, h4⟩ := synthesize_ok h
  obtain ⟨o, h3⟩ := main_ok h3
  have e2 := M.run_ext h2
  have e3 := M.run_ext h3
  have e4 := M.run_ext h4
  have e34 := e3.trans e4
  have e24 := e2.trans e34
  obtain ⟨a', t1, g1, st1, f1⟩ := P.sim_alloc (X := proveLink s hf hs) _ _ (Link.V.some p) _ _ (ProveSt.new s) _ _ h1
    ⟨e24.vars, e24.cons⟩
  obtain ⟨b', t2, g2, st2, f2⟩ := Q.sim_alloc (X := proveLink s hf hs) _ _ (Link.V.some q) _ _ st1 _ _ h2 ⟨e34.vars, e34.cons⟩
  obtain ⟨o', t3, g3, st3, f3⟩ := sim_code (X := proveLink s hf hs) (Or.inr ⟨rfl, fun _ => by simp⟩) c (fun h => by cases h)
    (fun _ => hk) (proveLink_sees c hb) (FitsLcs.append (P.fits_linearize f1) (Q.fits_linearize f2)) _ _ st2 _ _ h3
    (c.ok_of_run h3 fun b s1 s2 _ e => ⟨(e.trans e4).vars, (e.trans e4).cons⟩)
  obtain ⟨_, t4, g4, st4, -⟩ := P.sim_inputize f1 _ _ st3 _ _ h4 ⟨List.prefix_rfl, List.prefix_rfl⟩
  exact ⟨a', t4, synthesize_run g1 g2 (main_run g3) g4, st4⟩

/-- Constraints of generated circuits. -/
theorem circuit_good (kn : Bool) (P Q : Ty) (c : Code r W) (w : Option W) (p : Option (P.V F)) (q : Option (Q.V F))
    (hk : kn = true → c.Known ∧ w ≠ none ∧ p ≠ none ∧ q ≠ none) (bk : Backend) {a : P.S F} {s : CS F}
    (h : (synthesize P Q (fun a b => do let _ ← c.exec w (P.linearize a ++ Q.linearize b)) p q).run (CS.new bk) = .ok (a, s)) :
    ConsGood kn s s := by
  have hf : s.WF := (M.run_ext h).wf (wf_new _)
  obtain ⟨s1, b, s2, s3, h1, h2, h3, h4⟩ := synthesize_ok h
  obtain ⟨o, h3⟩ := main_ok h3
  have e2 := M.run_ext h2
  have e3 := M.run_ext h3
  have e4 := M.run_ext h4
  obtain ⟨a', t1, g1, st1, f1⟩ := P.sim_alloc (X := selfLink kn s hf) p p (Or.inr ⟨rfl, fun k => (hk k).2.2.1⟩) _ _
    ⟨rfl, consGood_new kn s bk⟩ _ _ h1 ((e2.vars.trans e3.vars).trans e4.vars)
  obtain ⟨b', t2, g2, st2, f2⟩ := Q.sim_alloc (X := selfLink kn s hf) q q (Or.inr ⟨rfl, fun k => (hk k).2.2.2⟩) _ _ st1 _ _ h2
    (e3.vars.trans e4.vars)
  obtain ⟨o', t3, g3, st3, f3⟩ := sim_code (X := selfLink kn s hf) (w := w) (w' := w) (Or.inr ⟨rfl, fun k => (hk k).2.1⟩) c
    (fun h => by cases h) (fun k => (hk k).1) (selfLink_sees c) (FitsLcs.append (P.fits_linearize f1) (Q.fits_linearize f2))
    _ _ st2 _ _ h3 (c.ok_of_run h3 fun b s1 s2 _ e => e.vars.trans e4.vars)
  obtain ⟨_, t4, g4, st4, -⟩ := P.sim_inputize f1 _ _ st3 _ _ h4 List.prefix_rfl
  exact st4.2

end Fawkes
