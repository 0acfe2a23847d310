import Verif.Lemmas.NativeSignal
import Verif.Lemmas.NativeWitness
import Verif.Props.Handwritten
import Verif.Props.Knowledge
import Verif.Props.Unique

/-!
# A circuit computes what the native code computes: C100

A client is a sequence of calls of the library; `nativeRun` executes the same calls on field elements, by the native functions.
-/

namespace Fawkes.Props

open Groth16

variable {r : Nat} [Fact r.Prime] {W : Type}

/-- C100: let a client run on a constraint system with a satisfying assignment `w`.  Extending `w` to a satisfying assignment in
which the client's own variables are `ins`, its registers are `out` and the new public inputs are `pub` is possible if and only if the
native code computes `out` and publishes `pub` - in that order - from `ins` and the values of the registers that the client was given. -/
theorem C100_program (code : Code r W) (v : Option W) (q o : List (CNum (ZMod r))) (s s' : CS (ZMod r)) (hb : s.backend ≠ .test)
    (w : Index → ZMod r) (hs : Solves s w) (hq : ∀ a ∈ q, a.lc.Canonical ∧ a.lc.Alloc s) (h : (code.exec v q).run s = .ok (o, s'))
    (ins out pub : List (ZMod r)) (hp : code.Proper v q s ins (q.map fun a => a.lc.eval w)) :
    nativeRun (code.calls v q s) ins (q.map fun a => a.lc.eval w) = some (out, pub) ↔
      ∃ w', Agree w w' s ∧ Solves s' w' ∧ (code.ownVars v q s).map w' = ins ∧ (o.map fun a => a.lc.eval w') = out ∧
        publicsBetween w' s s' = pub := by
  have key : ∀ w', Agree w w' s → Solves s' w' → (code.ownVars v q s).map w' = ins →
      nativeRun (code.calls v q s) ins (q.map fun a => a.lc.eval w) = some (o.map fun a => a.lc.eval w', publicsBetween w' s s') := by
    intro w' ha hs' hi
    have hv : valuesOf w' q = q.map fun a => a.lc.eval w :=
      List.map_congr_left fun a h => ha.eval hs.one hs'.one (hq a h).2
    obtain ⟨pubs, h1, h2⟩ := code_sound hs'.one hs.wf hq h hs'.sat (by rw [hi, hv]; exact hp)
    rw [hi, hv] at h1
    rw [h1, (h2 hb).eq]
    rfl
  constructor
  · intro hn
    obtain ⟨w', ha, hs', hi⟩ := code_complete hs hq h hp hn
    have := (key w' ha hs' hi).symm.trans hn
    injection this with this; injection this with h1 h2
    exact ⟨w', ha, hs', hi, h1, h2⟩
  · rintro ⟨w', ha, hs', hi, rfl, rfl⟩
    exact key w' ha hs' hi

/-- C100, on every back end (the test back end keeps no list of the public inputs): the values of the registers. -/
theorem C100_values (code : Code r W) (v : Option W) (q o : List (CNum (ZMod r))) (s s' : CS (ZMod r))
    (w : Index → ZMod r) (hs : Solves s w) (hq : ∀ a ∈ q, a.lc.Canonical ∧ a.lc.Alloc s) (h : (code.exec v q).run s = .ok (o, s'))
    (ins out : List (ZMod r)) (hp : code.Proper v q s ins (q.map fun a => a.lc.eval w)) :
    (∃ pub, nativeRun (code.calls v q s) ins (q.map fun a => a.lc.eval w) = some (out, pub)) ↔
      ∃ w', Agree w w' s ∧ Solves s' w' ∧ (code.ownVars v q s).map w' = ins ∧ (o.map fun a => a.lc.eval w') = out := by
  have key : ∀ w', Agree w w' s → Solves s' w' → (code.ownVars v q s).map w' = ins →
      ∃ pub, nativeRun (code.calls v q s) ins (q.map fun a => a.lc.eval w) = some (o.map fun a => a.lc.eval w', pub) := by
    intro w' ha hs' hi
    have hv : valuesOf w' q = q.map fun a => a.lc.eval w :=
      List.map_congr_left fun a h => ha.eval hs.one hs'.one (hq a h).2
    obtain ⟨pubs, h1, -⟩ := code_sound hs'.one hs.wf hq h hs'.sat (by rw [hi, hv]; exact hp)
    rw [hi, hv] at h1
    exact ⟨pubs, h1⟩
  constructor
  · rintro ⟨pub, hn⟩
    obtain ⟨w', ha, hs', hi⟩ := code_complete hs hq h hp hn
    obtain ⟨pubs, h1⟩ := key w' ha hs' hi
    rw [hn] at h1
    injection h1 with h1; injection h1 with h1 _
    exact ⟨w', ha, hs', hi, h1.symm⟩
  · rintro ⟨w', ha, hs', hi, rfl⟩
    exact key w' ha hs' hi

/-- C100: the public inputs for which a circuit written by hand can be satisfied are those that the native code publishes, with values of
the client's own variables for which it does not stop. -/
theorem C100_circuit (code : Code r W) (v : Option W) (b : Backend) (hb : b ≠ .test) (o : List (CNum (ZMod r))) (s : CS (ZMod r))
    (h : (handwritten code v).run (CS.new b) = .ok (o, s)) (hp : ∀ ins, code.Proper v [] (CS.new b) ins []) (pub : List (ZMod r)) :
    (∃ ins out, nativeRun (code.calls v [] (CS.new b)) ins [] = some (out, pub)) ↔
      ∃ w, IsAssignment w ∧ s.Sat w ∧ (List.range (s.ninputs - 1)).map (fun i => w (.input (1 + i))) = pub := by
  have hnew : ∀ w : Index → ZMod r, IsAssignment w → Solves (CS.new b) w := fun w hw =>
    ⟨wf_new _, by simp [Closed, CS.new], hw, by simp [CS.Sat, CS.new]⟩
  have hpub : ∀ w : Index → ZMod r, publicsBetween w (CS.new b) s = (List.range (s.ninputs - 1)).map (fun i => w (.input (1 + i))) := by
    intro w
    unfold publicsBetween
    rw [show (CS.new b : CS (ZMod r)).ninputs = 1 from rfl, List.range'_eq_map_range, List.map_map]
    rfl
  have key := fun w hw ins out => C100_program code v [] o (CS.new b) s hb w (hnew w hw) (by simp) h ins out pub (hp ins)
  constructor
  · rintro ⟨ins, out, hn⟩
    obtain ⟨w', -, hs', -, -, h5⟩ := (key (fun _ => 1) rfl ins out).1 hn
    exact ⟨w', hs'.one, hs'.sat, (hpub w') ▸ h5⟩
  · rintro ⟨w, hw, hs, rfl⟩
    obtain ⟨pubs, h1, h2⟩ := code_sound (q := []) hw (wf_new b) (by simp [Tidy]) h hs (hp _)
    rw [← hpub, (h2 hb).eq]
    exact ⟨_, _, h1⟩

theorem straight_calls {cs : List (Call r W)} {v : Option W} {q o : List (CNum (ZMod r))} {s s' : CS (ZMod r)}
    (h : ((straight cs).exec v q).run s = .ok (o, s')) : (straight cs).calls v q s = cs := by
  induction cs generalizing q s with
  | nil => rfl
  | cons c cs ih =>
    obtain ⟨q1, s1, r1, h⟩ := M.bind_ok h
    show (Code.call c fun _ => straight cs).calls v q s = _
    rw [Code.calls, r1]
    exact congrArg _ (ih h)

theorem straight_quiet {cs : List (Call r W)} (h : ∀ c ∈ cs, c.publishes = false) : (straight cs).Quiet := by
  induction cs with
  | nil => trivial
  | cons c cs ih => exact ⟨h c (by simp), fun _ => ih fun c hc => h c (by simp [hc])⟩

/-- The variables of the data of a circuit of the macros. -/
theorem data_lcs {P Q : Ty} {be : Backend} (hbe : be ≠ .test) {p : Option (P.V (ZMod r))} {q : Option (Q.V (ZMod r))} {a : P.S (ZMod r)}
    {b : Q.S (ZMod r)} {s1 s2 : CS (ZMod r)} (h1 : (P.alloc p).run (CS.new be) = .ok (a, s1)) (h2 : (Q.alloc q).run s1 = .ok (b, s2)) :
    (P.linearize a ++ Q.linearize b).map CNum.lc = (List.range (P.width + Q.width)).map (fun i => [(.aux i, 1)]) ∧
    (∀ w, P.evals w a = (List.range P.width).map (fun i => w (.aux i))) ∧
    (∀ w, Q.evals w b = (List.range Q.width).map (fun i => w (.aux (P.width + i)))) := by
  have w0 : (CS.new be : CS (ZMod r)).WF := wf_new _
  have w1 := (M.run_ext h1).wf w0
  have hb1 : s1.backend ≠ .test := by rw [(M.run_ext h1).backend]; exact hbe
  obtain ⟨n1, e1⟩ := P.post_alloc_next p (CS.new be) hbe _ _ h1
  obtain ⟨-, e2⟩ := Q.post_alloc_next q s1 hb1 _ _ h2
  have e1' : ∀ w, P.evals w a = (List.range P.width).map (fun i => w (.aux i)) := by
    intro w; rw [e1 w]; simp [CS.new]
  have e2' : ∀ w, Q.evals w b = (List.range Q.width).map (fun i => w (.aux (P.width + i))) := by
    intro w; rw [e2 w, n1]; simp [CS.new]
  refine ⟨?_, e1', e2'⟩
  have hall : ∀ w, (P.linearize a ++ Q.linearize b).map (fun x => x.lc.eval w) =
      (List.range (P.width + Q.width)).map (fun i => w (.aux i)) := by
    intro w
    rw [P.linearize_eq, Q.linearize_eq, List.map_append, List.range_add, List.map_append, List.map_map]
    exact congrArg₂ _ (e1' w) (e2' w)
  have hvar : ∀ x ∈ P.linearize a ++ Q.linearize b, ∃ k, x.lc = [(k, 1)] := by
    intro x hx
    rcases List.mem_append.1 hx with hx | hx
    · obtain ⟨k, hk, -⟩ := (P.post_alloc_new p _ w0 _ _ h1 x hx).2
      exact ⟨k, hk⟩
    · obtain ⟨k, hk, -⟩ := (Q.post_alloc_new q _ w1 _ _ h2 x hx).2
      exact ⟨k, hk⟩
  have hlen : (P.linearize a ++ Q.linearize b).length = P.width + Q.width := by
    simpa using congrArg List.length (hall fun _ => 0)
  refine List.ext_getElem (by simpa using hlen) fun i hi1 hi2 => ?_
  simp only [List.length_map, List.length_range] at hi1 hi2
  simp only [List.getElem_map, List.getElem_range]
  obtain ⟨k, hk⟩ := hvar _ (List.getElem_mem hi1)
  rw [hk]
  have := congrArg (fun l : List (ZMod r) => l[i]?) (hall fun j => if j = .aux i then 1 else 0)
  simp only [List.getElem?_map, List.getElem?_range hi2, List.getElem?_eq_getElem hi1, Option.map_some, hk, if_true] at this
  have : (if k = .aux i then (1 : ZMod r) else 0) = 1 := by simpa [LC.eval] using this
  by_cases hki : k = .aux i
  · rw [hki]
  · rw [if_neg hki] at this
    exact absurd this zero_ne_one

/-- C100: a circuit of the macros, with public data of type `P` and secret data of type `Q`, whose code performs the calls `cs`, can be
satisfied with the public data `xs` and the secret data `ys` if and only if the native code does not stop on them (with some values of
the variables that the code allocates itself). -/
theorem C100_macros (P Q : Ty) (cs : List (Call r W)) (hquiet : ∀ c ∈ cs, c.publishes = false) (v : Option W)
    (p : Option (P.V (ZMod r))) (q : Option (Q.V (ZMod r))) (be : Backend) (hbe : be ≠ .test) (a : P.S (ZMod r)) (s : CS (ZMod r))
    (h : (generated P Q (straight cs) v p q).run (CS.new be) = .ok (a, s)) (xs ys : List (ZMod r)) (hx : xs.length = P.width)
    (hy : ys.length = Q.width)
    (hp : ∀ data t ins, data.map CNum.lc = (List.range (P.width + Q.width)).map (fun i => [(.aux i, 1)]) →
      (straight cs).Proper v data t ins (xs ++ ys)) :
    (∃ ins out, nativeRun cs ins (xs ++ ys) = some (out, [])) ↔
      ∃ w, IsAssignment w ∧ s.Sat w ∧ (List.range P.width).map (fun i => w (.input (1 + i))) = xs ∧
        (List.range Q.width).map (fun i => w (.aux (P.width + i))) = ys := by
  have hmain : ∀ (a : P.S (ZMod r)) (b : Q.S (ZMod r)) (s s' : CS (ZMod r)),
      (do let _ ← (straight cs).exec v (P.linearize a ++ Q.linearize b) : M (ZMod r) Unit).run s = .ok ((), s') →
      s.backend ≠ .test → s'.ninputs = s.ninputs := by
    intro a b s s' h hs
    obtain ⟨q1, s1, h1, h⟩ := M.bind_ok h
    rw [M.run_pure] at h; injection h with h; injection h with _ h; subst h
    exact quiet_ninputs _ (straight_quiet hquiet) h1 hs
  obtain ⟨s1, b, s2, s3, h1, h2, h3, h4⟩ := synthesize_ok h
  obtain ⟨o, s3', r3, h3'⟩ := M.bind_ok h3
  rw [M.run_pure] at h3'; injection h3' with h3'; injection h3' with _ e3; subst e3
  have w0 : (CS.new be : CS (ZMod r)).WF := wf_new _
  have w1 := (M.run_ext h1).wf w0
  have w2 := (M.run_ext h2).wf w1
  have hb2 : s2.backend ≠ .test := by rw [(M.run_ext h2).backend, (M.run_ext h1).backend]; exact hbe
  obtain ⟨hlc, e1, e2⟩ := data_lcs hbe h1 h2
  have hok := (P.post_alloc p _ _ _ h1).1
  have tidy : Tidy s2 (P.linearize a ++ Q.linearize b) := by
    intro x hx
    rcases List.mem_append.1 hx with hx | hx
    · have := (P.post_alloc_tidy p _ w0 _ _ h1 x hx).1
      exact ⟨this.1, this.2.mono (M.run_ext h2)⟩
    · exact (Q.post_alloc_tidy q _ w1 _ _ h2 x hx).1
  have hvals : ∀ w, valuesOf w (P.linearize a ++ Q.linearize b) = P.evals w a ++ Q.evals w b := by
    intro w
    unfold valuesOf
    rw [List.map_append, P.linearize_eq, Q.linearize_eq]; rfl
  obtain ⟨hn, -⟩ := synthesize_values P Q _ p q hmain hbe h
  have hn3 : s3'.ninputs = 1 := by
    have := width_publish P a hok s3' _ _ h4
    omega
  have hpub : ∀ w, IsAssignment w → s.Sat w → (List.range P.width).map (fun i => w (.input (1 + i))) = P.evals w a := by
    intro w hw hs
    have := (C58_inputize_sound P a hok s3' s h4 w hw hs).2
    rwa [hn3] at this
  constructor
  · rintro ⟨ins, out, hrun⟩
    let w : Index → ZMod r := fun k => match k with
      | .input _ => 1
      | .aux i => (xs ++ ys).getD i 0
    have hw : IsAssignment w := rfl
    have hs2 : Solves s2 w := by
      have hc : s2.cons = [] := by
        rw [Q.post_alloc_cons q _ _ _ h2, P.post_alloc_cons p _ _ _ h1]; rfl
      exact ⟨w2, by simp [Closed, hc], hw, by simp [CS.Sat, hc]⟩
    have hP : P.evals w a = xs := by
      rw [e1]
      refine List.ext_getElem (by simp [hx]) fun i hi1 hi2 => ?_
      simp only [List.getElem_map, List.getElem_range]
      show (xs ++ ys).getD i 0 = _
      rw [List.getD_append _ _ _ _ hi2, List.getD_eq_getElem _ _ hi2]
    have hQ : Q.evals w b = ys := by
      rw [e2]
      refine List.ext_getElem (by simp [hy]) fun i hi1 hi2 => ?_
      simp only [List.getElem_map, List.getElem_range]
      show (xs ++ ys).getD (P.width + i) 0 = _
      rw [List.getD_append_right _ _ _ _ (by omega), hx, Nat.add_sub_cancel_left, List.getD_eq_getElem _ _ hi2]
    have hv : valuesOf w (P.linearize a ++ Q.linearize b) = xs ++ ys := by rw [hvals, hP, hQ]
    obtain ⟨w3, a3, g3, -⟩ := code_complete hs2 tidy r3 (ins := ins) (out := out) (pubs := [])
      (by rw [hv]; exact hp _ _ _ hlc) (by rw [hv, straight_calls r3]; exact hrun)
    obtain ⟨w4, a4, g4⟩ := P.complete_inputize g3 (a := a) (fun x hx => by
      have := tidy x (List.mem_append_left _ hx)
      exact ⟨this.1, this.2.mono (M.run_ext r3)⟩) h4
    have a5 := a3.trans_ext (M.run_ext r3) a4
    refine ⟨w4, g4.one, g4.sat, ?_, ?_⟩
    · rw [hpub w4 g4.one g4.sat, P.evals_agree a5 hw g4.one fun x hx => (tidy x (List.mem_append_left _ hx)).2, hP]
    · rw [← e2, Q.evals_agree a5 hw g4.one fun x hx => (tidy x (List.mem_append_right _ hx)).2, hQ]
  · rintro ⟨w, hw, hs, hxs, hys⟩
    have hv : valuesOf w (P.linearize a ++ Q.linearize b) = xs ++ ys := by
      rw [hvals, ← hpub w hw hs, hxs, e2, hys]
    obtain ⟨pubs, g1, g2⟩ := code_sound hw w2 tidy r3 ((M.run_ext h4).sat hs) (by rw [hv]; exact hp _ _ _ hlc)
    have hn2 : s2.ninputs = s3'.ninputs := (quiet_ninputs _ (straight_quiet hquiet) r3 hb2).symm
    have : pubs = [] := by
      have := (g2 hb2).1
      exact List.eq_nil_of_length_eq_zero (by omega)
    rw [this, straight_calls r3, hv] at g1
    exact ⟨_, _, g1⟩

/-- C100: whoever makes an accepted proof for a circuit of the macros by combining the points of the keys knows secret data on which the
native code does not stop, given the public inputs - except for few secrets of the key generator. -/
theorem C100_knowledge {K : TwoAdic (ZMod r)} (hK : LawfulTwoAdic K) (P Q : Ty) (cs : List (Call r W))
    (hquiet : ∀ c ∈ cs, c.publishes = false) (a0 : P.S (ZMod r)) (s0 : CS (ZMod r))
    (hset : (generated P Q (straight cs) none none none).run (CS.new .setup) = .ok (a0, s0)) (S : AlgebraicProver r)
    (inputs : List (ZMod r))
    (hp : ∀ data t ins, data.map CNum.lc = (List.range (P.width + Q.width)).map (fun i => [(.aux i, 1)]) →
      (straight cs).Proper none data t ins (inputs ++ S.secrets P Q)) :
    ∃ bad : Finset (ZMod r × ZMod r × ZMod r × ZMod r × ZMod r),
      bad.card ≤ (4 * (s0.cons.length + P.width + 1) * (P.width + s0.naux + 3) + 8) * r ^ 4 ∧
      ∀ {G1 G2 T : Type} [AddCommGroup G1] [AddCommGroup G2] [DecidableEq G1] [DecidableEq G2] [CommMonoid T] [DecidableEq T]
        {E : Engine G1 G2 T} {e : G1 → G2 → Tˣ} (_ : PairingEngine E e) (_ : ∀ a b b', e a (b + b') = e a b * e a b')
        (t : Toxic G1 G2 r) (_ : r • t.g1 = 0) (_ : r • t.g2 = 0) (_ : e t.g1 t.g2 ≠ 1)
        (_ : (t.alpha, t.beta, t.gamma, t.delta, t.tau) ∉ bad) (params : Parameters G1 G2)
        (_ : generateKeys K t (generated P Q (straight cs) none none none) = .ok params),
        verify E (truncate params.vk) (S.proof t.g1 t.g2 params) inputs = .ok (.ok true) →
          inputs.length = P.width ∧ ∃ ins out, nativeRun cs ins (inputs ++ S.secrets P Q) = some (out, []) := by
  have hmain : ∀ (a : P.S (ZMod r)) (b : Q.S (ZMod r)) (s s' : CS (ZMod r)),
      (do let _ ← (straight cs).exec (none : Option W) (P.linearize a ++ Q.linearize b) : M (ZMod r) Unit).run s = .ok ((), s') →
      s.backend ≠ .test → s'.ninputs = s.ninputs := by
    intro a b s s' h hs
    obtain ⟨q1, s1, h1, h⟩ := M.bind_ok h
    rw [M.run_pure] at h; injection h with h; injection h with _ h; subst h
    exact quiet_ninputs _ (straight_quiet hquiet) h1 hs
  obtain ⟨hn, -⟩ := synthesize_values P Q _ none none hmain (by simp) hset
  obtain ⟨bad, hcard, hbad⟩ := C84_knowledge hK _ a0 s0 hset S inputs
  rw [hn, show s0.cons.length + (1 + P.width) = s0.cons.length + P.width + 1 by omega,
    show 1 + P.width + s0.naux + 2 = P.width + s0.naux + 3 by omega] at hcard
  refine ⟨bad, hcard, ?_⟩
  intro G1 G2 T _ _ _ _ _ _ E e hE hr t h1 h2 hne ht params hk hv
  obtain ⟨hl, hs⟩ := hbad hE hr t h1 h2 hne ht params hk hv
  have hl' : inputs.length = P.width := by omega
  have e1 : (List.range P.width).map (fun i => S.witness inputs (.input (1 + i))) = inputs := by
    refine List.ext_getElem (by simp [hl']) fun i hi hi' => ?_
    simp only [List.getElem_map, List.getElem_range]
    rw [Nat.add_comm]
    show inputs.getD i 0 = _
    rw [List.getD_eq_getElem _ _ hi']
  refine ⟨hl', (C100_macros P Q cs hquiet none none none .setup (by simp) a0 s0 hset inputs (S.secrets P Q) hl'
    (by simp [AlgebraicProver.secrets]) hp).2 ⟨S.witness inputs, rfl, hs, e1, rfl⟩⟩

/-- C100: the assignment that a prover computes satisfies the circuit if and only if the native code does not stop on the values that the
client gave to its own variables; the values that the registers then carry and the public inputs are those of the native code. -/
theorem C100_witness (code : Code r W) (hk : code.Known) (v : W) (b : Backend) (o : List (CNum (ZMod r))) (s : CS (ZMod r))
    (h : (handwritten code (some v)).run (CS.new b) = .ok (o, s))
    (hp : code.Proper (some v) [] (CS.new b) ((code.ownVars (some v) [] (CS.new b)).map s.assign) []) :
    (s.Sat s.assign ↔ ∃ out pub, nativeRun (code.calls (some v) [] (CS.new b)) ((code.ownVars (some v) [] (CS.new b)).map s.assign) [] =
      some (out, pub)) ∧
    ∀ out pub, nativeRun (code.calls (some v) [] (CS.new b)) ((code.ownVars (some v) [] (CS.new b)).map s.assign) [] = some (out, pub) →
      o.map CNum.value = out.map some ∧ (b ≠ .test → publicInputs s = pub) := by
  have hq : ∀ a ∈ ([] : List (CNum (ZMod r))), Good true (CS.new b) a := by simp
  have hon : (CS.new b : CS (ZMod r)).Honest := ⟨wf_new _, by simp [CS.Sat, CS.new], by simp [CS.new]⟩
  have snd : s.Sat s.assign → ∃ pub, nativeRun (code.calls (some v) [] (CS.new b))
      ((code.ownVars (some v) [] (CS.new b)).map s.assign) [] = some (valuesOf s.assign o, pub) ∧ (b ≠ .test → publicInputs s = pub) := by
    intro hs
    obtain ⟨pubs, h1, h2⟩ := code_sound (q := []) s.assign_isAssignment (wf_new b) (by simp [Tidy]) h hs hp
    refine ⟨pubs, h1, fun hb => ?_⟩
    rw [← (h2 hb).eq]
    unfold publicsBetween publicInputs
    rw [show (CS.new b : CS (ZMod r)).ninputs = 1 from rfl, List.range'_eq_map_range, List.map_map]
    rfl
  refine ⟨⟨fun hs => ?_, ?_⟩, ?_⟩
  · obtain ⟨pub, h1, -⟩ := snd hs
    exact ⟨_, _, h1⟩
  · rintro ⟨out, pub, hn⟩
    exact (code_witness hon hq hk h hp hn).1.sat
  · intro out pub hn
    obtain ⟨h1, h2⟩ := code_witness hon hq hk h hp hn
    obtain ⟨pub', h3, h4⟩ := snd h1.sat
    rw [hn] at h3
    injection h3 with h3; injection h3 with h3 h5
    refine ⟨?_, fun hb => (h4 hb).trans h5.symm⟩
    rw [h3]
    unfold valuesOf
    rw [List.map_map]
    exact List.map_congr_left fun a ha => (h2 a ha).value rfl

/-- C100: a proof that `prove` returns is accepted, with the published values, if and only if the native code does not stop on the values
that the client gave to its own variables - except for few secret points of the key generator. -/
theorem C100_proof {K : TwoAdic (ZMod r)} (hK : LawfulTwoAdic K) (code : Code r W) (hw : code.WidthsFit) (hknown : code.Known)
    (o0 : List (CNum (ZMod r))) (s0 : CS (ZMod r)) (hset : (handwritten code none).run (CS.new .setup) = .ok (o0, s0))
    (hone : ConstantOnRight s0) (v : W) (o : List (CNum (ZMod r))) (s : CS (ZMod r))
    (h : (handwritten code (some v)).run (CS.new .prove) = .ok (o, s))
    (hp : code.Proper (some v) [] (CS.new .prove) ((code.ownVars (some v) [] (CS.new .prove)).map s.assign) []) :
    ∃ bad : Finset (ZMod r), bad.card ≤ 2 * (s.cons.length + s.ninputs) * (2 * (s.ninputs + s.naux) + 3) ∧
      ∀ {G1 G2 T : Type} [AddCommGroup G1] [AddCommGroup G2] [DecidableEq G1] [DecidableEq G2] [CommMonoid T] [DecidableEq T]
        {E : Engine G1 G2 T} {e : G1 → G2 → Tˣ} (_ : PairingEngine E e) (_ : ∀ a b b', e a (b + b') = e a b * e a b')
        (t : Toxic G1 G2 r) (_ : r • t.g1 = 0) (_ : r • t.g2 = 0) (_ : e t.g1 t.g2 ≠ 1) (_ : t.tau ∉ bad)
        (params : Parameters G1 G2) (_ : generateKeys K t (handwritten code none) = .ok params) (x y : ZMod r)
        (proof : Proof G1 G2) (_ : prove K params x y (handwritten code (some v)) = .ok proof),
        verify E (truncate params.vk) proof (publicInputs s) = .ok (.ok true) ↔
          ∃ out, nativeRun (code.calls (some v) [] (CS.new .prove)) ((code.ownVars (some v) [] (CS.new .prove)).map s.assign) [] =
            some (out, publicInputs s) := by
  obtain ⟨hiff, hval⟩ := C100_witness code hknown v .prove o s h hp
  have hiff' : s.Sat s.assign ↔ ∃ out, nativeRun (code.calls (some v) [] (CS.new .prove))
      ((code.ownVars (some v) [] (CS.new .prove)).map s.assign) [] = some (out, publicInputs s) := by
    rw [hiff]
    constructor
    · rintro ⟨out, pub, hn⟩
      exact ⟨out, by rw [(hval out pub hn).2 (by simp)]; exact hn⟩
    · rintro ⟨out, hn⟩
      exact ⟨out, _, hn⟩
  by_cases hs : s.Sat s.assign
  · obtain ⟨bad, hcard, hbad⟩ := C85_accepts hK code hw o0 s0 hset hone
    obtain ⟨o', s', hset', hi, ha, hcons, -⟩ := handwritten_shape hw h
    rw [hset] at hset'; injection hset' with hset'; injection hset' with ho hs'; subst ho hs'
    refine ⟨bad, hcard.trans ?_, ?_⟩
    · rw [show s0.cons.length = s.cons.length by simpa using (congrArg List.length hcons).symm, ← hi, ← ha]
      exact Nat.mul_le_mul_left _ (by omega)
    intro G1 G2 T _ _ _ _ _ _ E e hE hr t h1 h2 hne ht params hk x y proof hproof
    obtain ⟨n1, n2⟩ := generators_ne hE.add_left hr hne
    obtain ⟨proof', hp', hv⟩ := hbad hE hr t h1 h2 n1 n2 ht params hk v o s h hs x y
    rw [hproof] at hp'; injection hp' with hp'; subst hp'
    exact ⟨fun _ => hiff'.1 hs, fun _ => hv⟩
  · obtain ⟨bad, hcard, hbad⟩ := C85_rejects hK code hw v o s h hs
    refine ⟨bad, hcard, ?_⟩
    intro G1 G2 T _ _ _ _ _ _ E e hE hr t h1 h2 hne ht params hk x y proof hproof
    rw [hbad hE hr t h1 h2 hne ht params hk x y proof hproof]
    refine ⟨fun h => ?_, fun h => absurd (hiff'.2 h) hs⟩
    injection h with h; injection h with h; cases h

/-- The circuit `handProduct` (a product of two secret numbers is published) meets the hypotheses. -/
theorem handProduct_proper (v : Option (ZMod 97 × ZMod 97)) (s : CS (ZMod 97)) (ins : List (ZMod 97)) : handProduct.Proper v [] s ins [] := by
  refine ⟨trivial, fun _ _ _ _ _ _ _ => ⟨trivial, fun _ _ _ _ _ _ _ => ⟨trivial, fun _ _ _ _ _ _ _ => ⟨trivial, fun _ _ _ _ _ _ _ => trivial⟩⟩⟩⟩

example : handProduct.Known := by simp [handProduct, Code.Known, Call.Known, Op.Known]

/-- The native run on 5 and 7. -/
example : (nativeRun (W := ZMod 97 × ZMod 97) [.alloc [] (fun w _ => .ok w.1), .alloc [] (fun w _ => .ok w.2), .prim (.mul 0 1), .prim (.inputize 2)] [5, 7] [] :
    Option (List (ZMod 97) × List (ZMod 97))) = some ([5, 7, 35], [35]) ∧
    (match (handwritten handProduct (some (5, 7))).run (CS.new .prove) with
      | .ok (o, s) => some (o.map CNum.value, publicInputs s, (handProduct.ownVars (some (5, 7)) [] (CS.new .prove)).map s.assign)
      | .error _ => none) = some ([some 5, some 7, some 35], [35], [5, 7]) := by
  refine ⟨by decide +kernel, by decide +kernel⟩

/-- The public inputs of `handProduct` are the products. -/
example (o : List (CNum (ZMod 97))) (s : CS (ZMod 97)) (h : (handwritten handProduct none).run (CS.new .setup) = .ok (o, s)) :
    ∃ w, IsAssignment w ∧ s.Sat w ∧ (List.range (s.ninputs - 1)).map (fun i => w (.input (1 + i))) = [35] := by
  refine (C100_circuit handProduct none .setup (by simp) o s h (handProduct_proper _ _) [35]).1 ⟨[5, 7], [5, 7, 35], ?_⟩
  have hc : handProduct = straight [.alloc [] (fun w _ => .ok w.1), .alloc [] (fun w _ => .ok w.2), .prim (.mul 0 1), .prim (.inputize 2)] := rfl
  have h' := h
  unfold handwritten at h'
  rw [hc] at h' ⊢
  rw [straight_calls h']
  decide +kernel

/-! ### A client: membership in a Merkle tree -/

/-- Public is a root; secret are a leaf, the `n` siblings and the `n` bits of a path.  Booleans are allocated without a check, so that the
client checks them itself. -/
def membership (P : PoseidonParams (ZMod r)) (n : Nat) : List (Call r Unit) :=
  ((List.range' (2 + n) n).map fun i => .prim (.assertBit i)) ++
    [.merkleProofRoot 1 (List.range' 2 n) (List.range' (2 + n) n) P, .prim (.assertEq 0 (2 + 2 * n))]

theorem pick_range {α : Type} (l : List α) (m k : Nat) (h : k + m ≤ l.length) : pick l (List.range' k m) = some ((l.drop k).take m) := by
  induction m generalizing k with
  | zero => simp [pick]
  | succ m ih =>
    have hk : k < l.length := by omega
    rw [List.range'_succ, pick, ih (k + 1) (by omega), List.getElem?_eq_getElem hk, List.drop_eq_getElem_cons hk]
    rfl

theorem bits_all : ∀ l : List (ZMod r), (∀ x ∈ l, x = 0 ∨ x = 1) → ∃ bs, bits? l = some bs ∧ l = bs.map ofBit
  | [], _ => ⟨[], rfl, rfl⟩
  | x :: l, h => by
    obtain ⟨bs, h1, h2⟩ := bits_all l fun y hy => h y (by simp [hy])
    rcases h x (by simp) with rfl | rfl
    · exact ⟨false :: bs, by simp [bits?, bit?, h1], by simp [ofBit, h2]⟩
    · exact ⟨true :: bs, by simp [bits?, bit?, h1], by simp [ofBit, h2]⟩

theorem bits_ofBit : ∀ bs : List Bool, bits? (bs.map (ofBit : Bool → ZMod r)) = some bs
  | [] => rfl
  | b :: bs => by
    have := bits_ofBit bs
    cases b <;> simp [bits?, bit?, this, ofBit]

theorem proper_assertBits {v : Option W} (is : List Nat) (rest : List (Call r W)) (vals : List (ZMod r))
    (h : AreBits vals is → ∀ q s ins, (straight rest).Proper v q s ins vals) (q : List (CNum (ZMod r))) (s : CS (ZMod r)) (ins : List (ZMod r)) :
    (straight ((is.map fun i => .prim (.assertBit i)) ++ rest)).Proper v q s ins vals := by
  induction is generalizing q s ins with
  | nil => exact h (by simp [AreBits]) q s ins
  | cons i is ih =>
    refine ⟨trivial, ?_⟩
    intro q' s' ins' new pub _ hstep
    obtain ⟨a, ha, he⟩ := get_some hstep
    obtain ⟨x, hx, ha⟩ := get_some ha
    by_cases hb : x = 0 ∨ x = 1
    · rw [if_pos hb] at ha
      injection ha with ha; subst ha
      injection he with he; injection he with _ he; injection he with he _; subst he
      rw [List.append_nil]
      refine ih (fun hbits => h ?_) q' s' ins'
      intro j hj y hy
      rcases List.mem_cons.1 hj with rfl | hj
      · rw [hx] at hy; injection hy with hy; rwa [← hy]
      · exact hbits j hj y hy
    · rw [if_neg hb] at ha; cases ha

theorem native_assertBits (is : List Nat) (rest : List (Call r W)) (ins vals : List (ZMod r)) (o : List (ZMod r) × List (ZMod r)) :
    nativeRun ((is.map fun i => .prim (.assertBit i)) ++ rest) ins vals = some o ↔
      (∀ i ∈ is, vals[i]? = some 0 ∨ vals[i]? = some 1) ∧ nativeRun rest ins vals = some o := by
  induction is with
  | nil => simp
  | cons i is ih =>
    have : nativeRun ((Call.prim (.assertBit i) : Call r W) :: ((is.map fun i => .prim (.assertBit i)) ++ rest)) ins vals = some o ↔
        (vals[i]? = some 0 ∨ vals[i]? = some 1) ∧ nativeRun ((is.map fun i => .prim (.assertBit i)) ++ rest) ins vals = some o := by
      cases hi : vals[i]? with
      | none => simp [nativeRun, Call.step, Call.native, Op.native, hi]
      | some x =>
        by_cases hx : x = 0 ∨ x = 1
        · simp [nativeRun, Call.step, Call.native, Op.native, hi, hx]
        · simp [nativeRun, Call.step, Call.native, Op.native, hi, hx]
    rw [List.map_cons, List.cons_append, this, ih]
    simp [and_assoc]

/-- C100 for this client: the circuit can be satisfied with a root, a leaf, siblings and a path if and only if the path consists of bits
and the native `poseidon_merkle_proof_root` computes the root. -/
theorem C100_membership (P : PoseidonParams (ZMod r)) (n : Nat) (v : Option Unit) (p : Option (ZMod r))
    (q : Option ((Ty.pair .num (.pair (.vec n .num) (.vec n .bool))).V (ZMod r))) (be : Backend) (hbe : be ≠ .test) (a : CNum (ZMod r))
    (s : CS (ZMod r))
    (h : (generated .num (.pair .num (.pair (.vec n .num) (.vec n .bool))) (straight (membership P n)) v p q).run (CS.new be) = .ok (a, s))
    (root leaf : ZMod r) (siblings path : List (ZMod r)) (hs : siblings.length = n) (hl : path.length = n) :
    (∃ w, IsAssignment w ∧ s.Sat w ∧ w (.input 1) = root ∧ (List.range (1 + (n + n))).map (fun i => w (.aux (1 + i))) = leaf :: (siblings ++ path)) ↔
      ∃ bits : List Bool, path = bits.map ofBit ∧ Poseidon.merkleProofRoot leaf siblings bits P = .ok root := by
  have hwidth : (Ty.pair .num (.pair (.vec n .num) (.vec n .bool))).width = 1 + (n + n) := by simp [Ty.width]
  have hquiet : ∀ c ∈ membership P n, c.publishes = false := by
    intro c hc
    rcases List.mem_append.1 hc with hc | hc
    · obtain ⟨i, -, rfl⟩ := List.mem_map.1 hc; rfl
    · simp only [List.mem_cons, List.not_mem_nil, or_false] at hc
      rcases hc with rfl | rfl <;> rfl
  have key := C100_macros .num (.pair .num (.pair (.vec n .num) (.vec n .bool))) (membership P n) hquiet v p q be hbe a s h [root]
    (leaf :: (siblings ++ path)) rfl (by rw [hwidth]; simp [hs, hl]; omega) (fun data t ins _ => by
      unfold membership
      refine proper_assertBits _ _ _ (fun hbits q s ins => ?_) _ _ _
      exact ⟨hbits, fun _ _ _ _ _ _ _ => ⟨trivial, fun _ _ _ _ _ _ _ => trivial⟩⟩)
  have hone : ∀ w : Index → ZMod r, (List.range 1).map (fun i => w (.input (1 + i))) = [root] ↔ w (.input 1) = root := by
    intro w
    show [w (.input (1 + 0))] = [root] ↔ _
    simp
  rw [hwidth] at key
  simp only [show Ty.num.width = 1 from rfl, hone] at key
  rw [← key]
  have hvals : ([root] ++ leaf :: (siblings ++ path)) = root :: leaf :: (siblings ++ path) := rfl
  have hsib : pick (root :: leaf :: (siblings ++ path)) (List.range' 2 n) = some siblings := by
    rw [pick_range _ _ _ (by simp [hs, hl]; omega)]
    simp [← hs]
  have hpath : pick (root :: leaf :: (siblings ++ path)) (List.range' (2 + n) n) = some path := by
    rw [pick_range _ _ _ (by simp [hs, hl]; omega)]
    have : (root :: leaf :: (siblings ++ path)).drop (2 + n) = path := by
      rw [show 2 + n = n + 1 + 1 by omega, List.drop_succ_cons, List.drop_succ_cons, ← hs, List.drop_left]
    rw [this, ← hl, List.take_length]
  have hbit : (∀ i ∈ List.range' (2 + n) n, (root :: leaf :: (siblings ++ path))[i]? = some 0 ∨ (root :: leaf :: (siblings ++ path))[i]? = some 1) ↔
      ∀ x ∈ path, x = 0 ∨ x = 1 := by
    have hget : ∀ j (hj : j < path.length), (root :: leaf :: (siblings ++ path))[2 + n + j]? = some path[j] := by
      intro j hj
      rw [show 2 + n + j = n + j + 1 + 1 by omega, List.getElem?_cons_succ, List.getElem?_cons_succ, ← hs,
        List.getElem?_append_right (by omega), Nat.add_sub_cancel_left, List.getElem?_eq_getElem hj]
    constructor
    · intro hh x hx
      obtain ⟨j, hj, rfl⟩ := List.getElem_of_mem hx
      have := hh (2 + n + j) (by rw [List.mem_range'_1]; omega)
      rw [hget j hj] at this
      simpa using this
    · intro hh i hi
      rw [List.mem_range'_1] at hi
      obtain ⟨j, rfl⟩ := Nat.exists_eq_add_of_le hi.1
      have hj : j < path.length := by omega
      rw [hget j hj]
      simpa using hh _ (List.getElem_mem hj)
  rw [hvals]
  unfold membership
  simp only [native_assertBits, hbit]
  have hlast : ∀ x : ZMod r, ((root :: leaf :: (siblings ++ path)) ++ [x])[2 + 2 * n]? = some x := by
    intro x
    rw [List.getElem?_append_right (by simp [hs, hl]; omega)]
    simp [hs, hl, show 2 + 2 * n - (n + n + 1 + 1) = 0 by omega]
  have htail : ∀ (bits : List Bool) (ins : List (ZMod r)) (o : List (ZMod r) × List (ZMod r)), path = bits.map ofBit →
      (nativeRun (W := Unit) [.merkleProofRoot 1 (List.range' 2 n) (List.range' (2 + n) n) P, .prim (.assertEq 0 (2 + 2 * n))] ins
        (root :: leaf :: (siblings ++ path)) = some o ↔
      Poseidon.merkleProofRoot leaf siblings bits P = .ok root ∧ ins = [] ∧ o = ((root :: leaf :: (siblings ++ path)) ++ [root], [])) := by
    intro bits ins o hb
    have hb' : bits? path = some bits := by rw [hb]; exact bits_ofBit bits
    cases hm : Poseidon.merkleProofRoot leaf siblings bits P with
    | error e =>
      simp [nativeRun, Call.step, Call.native, hsib, hpath, hb', hm, done?]
    | ok x =>
      have e1 : (Call.merkleProofRoot 1 (List.range' 2 n) (List.range' (2 + n) n) P : Call r Unit).step ins
          (root :: leaf :: (siblings ++ path)) = some (ins, [x], []) := by
        simp [Call.step, Call.native, hsib, hpath, hb', hm, done?]
      have e2 : (Call.prim (.assertEq 0 (2 + 2 * n)) : Call r Unit).step ins ((root :: leaf :: (siblings ++ path)) ++ [x]) =
          if root = x then some (ins, [], []) else none := by
        show ((do let a ← ((root :: leaf :: (siblings ++ path)) ++ [x])[0]?; let b ← ((root :: leaf :: (siblings ++ path)) ++ [x])[2 + 2 * n]?
                  if a = b then pure [] else none : Option (List (ZMod r))).bind fun xs => pure (ins, xs, [])) = _
        rw [hlast]
        show (if root = x then some [] else none : Option (List (ZMod r))).bind _ = _
        split <;> rfl
      rw [nativeRun, e1]
      show ((nativeRun [.prim (.assertEq 0 (2 + 2 * n))] ins ((root :: leaf :: (siblings ++ path)) ++ [x])).bind fun o => pure (o.1, [] ++ o.2)) = _ ↔ _
      rw [nativeRun, e2]
      by_cases hx : root = x
      · subst hx
        simp only [if_true]
        by_cases hi : ins = []
        · subst hi
          simp [nativeRun]
          exact eq_comm
        · simp [nativeRun, hi]
      · have : ¬ x = root := fun h => hx h.symm
        simp [hx, this]
  constructor
  · rintro ⟨ins, out, hb, hn⟩
    obtain ⟨bits, -, h2⟩ := bits_all path hb
    exact ⟨bits, h2, ((htail bits ins _ h2).1 hn).1⟩
  · rintro ⟨bits, h2, hm⟩
    refine ⟨[], _, ?_, (htail bits [] _ h2).2 ⟨hm, rfl, rfl⟩⟩
    rw [h2]
    intro x hx
    obtain ⟨b, -, rfl⟩ := List.mem_map.1 hx
    cases b <;> simp [ofBit]

/-- Its hypotheses are met: keys can be generated for paths of length 2, and with a correct path the run of the prover is satisfied. -/
example : ((generated .num (.pair .num (.pair (.vec 2 .num) (.vec 2 .bool)))
      (straight (membership (⟨[3], [[1, 2], [1, 3]], 2, 1, 0⟩ : PoseidonParams (ZMod 97)) 2)) none none none).run (CS.new .setup)).isOk = true ∧
    Poseidon.merkleProofRoot 5 [6, 7] [true, false] (⟨[3], [[1, 2], [1, 3]], 2, 1, 0⟩ : PoseidonParams (ZMod 97)) = .ok 93 := by
  refine ⟨by decide +kernel, by decide +kernel⟩

end Fawkes.Props
