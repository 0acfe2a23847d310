import Verif.Props.Signal
import Verif.Lemmas.Setup
import Verif.Lemmas.CostGadgets
import Verif.Spec.Gadgets

/-!
# Properties C12 and C61 for the whole circuit API: the constraint system does not depend on witness values

Programs over the number API are treated in `Verif.Props.Num`.
-/

set_option linter.unusedSectionVars false

namespace Fawkes.Props

variable {r : Nat} [Fact r.Prime] {W : Type}

/-- C12: run one and the same client code, which may call every circuit function of the library, twice: with any two
witnesses (or without one, as in trusted setup), on any two back ends that number variables alike.  If neither run
panics they allocate the same variables and emit the same constraint matrices, and corresponding signals are the
same linear combinations. -/
theorem C12_gadgets (code : Code r W) (w w' : Option W) (b b' : Backend) (hb : b = .test ↔ b' = .test)
    (q q' : List (CNum (ZMod r))) (s s' : CS (ZMod r)) (h : (code.exec w []).run (CS.new b) = .ok (q, s))
    (h' : (code.exec w' []).run (CS.new b') = .ok (q', s')) :
    s.ninputs = s'.ninputs ∧ s.naux = s'.naux ∧ s.vars.map Prod.fst = s'.vars.map Prod.fst ∧
    s.cons.map Constraint.shape = s'.cons.map Constraint.shape ∧ q.map CNum.lc = q'.map CNum.lc := by
  have hn : (CS.new b : CS (ZMod r)).SameShape (CS.new b') := ⟨hb, rfl, rfl, rfl, rfl⟩
  obtain ⟨hs, hr⟩ := rel_code w w' code (q := []) (q' := []) rfl _ _ hn _ _ _ _ h h'
  exact ⟨hs.ninputs, hs.naux, hs.vars, hs.cons, hr⟩

/-- C12: whenever proving gets through with some witness, trusted setup, which has none, gets through as well and
produces the same variables and matrices; for client code without decompositions wider than the field. -/
theorem C12_setup_follows_proving (code : Code r W) (hc : code.WidthsFit) (w : W) (q : List (CNum (ZMod r)))
    (s : CS (ZMod r)) (h : (code.exec (some w) []).run (CS.new .prove) = .ok (q, s)) :
    ∃ q' s', (code.exec none []).run (CS.new .setup) = .ok (q', s') ∧
      s.ninputs = s'.ninputs ∧ s.naux = s'.naux ∧ s.vars.map Prod.fst = s'.vars.map Prod.fst ∧
      s.cons.map Constraint.shape = s'.cons.map Constraint.shape ∧ q.map CNum.lc = q'.map CNum.lc := by
  have hn : (CS.new .prove : CS (ZMod r)).SameShape (CS.new .setup) := ⟨by simp [CS.new], rfl, rfl, rfl, rfl⟩
  obtain ⟨q', s', h', ⟨hs, -, -⟩, hr⟩ := sim_setup (some w) code hc (q := []) (q' := []) .nil true _ _ ⟨hn, rfl, rfl⟩
    _ _ h trivial
  exact ⟨q', s', h', hs.ninputs, hs.naux, hs.vars, hs.cons, setupLink_lcs hr⟩

/-- C12 for circuits generated by the command-line macros, with public data of any signal type `P` and secret data
of any signal type `Q`: `prove` and the key generator build the same constraint system, and if `prove` gets
through, so does the key generator. -/
theorem C12_circuit (P Q : Ty) (code : Code r W) (hc : code.WidthsFit) (w : W) (p : P.V (ZMod r)) (q : Q.V (ZMod r))
    (a : P.S (ZMod r)) (s : CS (ZMod r))
    (h : (synthesize P Q (fun a b => do let _ ← code.exec (some w) (P.linearize a ++ Q.linearize b))
      (some p) (some q)).run (CS.new .prove) = .ok (a, s)) :
    ∃ a' s', (synthesize P Q (fun a b => do let _ ← code.exec none (P.linearize a ++ Q.linearize b))
        none none).run (CS.new .setup) = .ok (a', s') ∧
      s.ninputs = s'.ninputs ∧ s.naux = s'.naux ∧ s.vars.map Prod.fst = s'.vars.map Prod.fst ∧
      s.cons.map Constraint.shape = s'.cons.map Constraint.shape := by
  have hn : (CS.new .prove : CS (ZMod r)).SameShape (CS.new .setup) := ⟨by simp [CS.new], rfl, rfl, rfl, rfl⟩
  have key : Sim (setupLink (ZMod r)) true (synthesize P Q (fun a b => do let _ ← code.exec (some w) (P.linearize a ++ Q.linearize b))
      (some p) (some q)) (synthesize P Q (fun a b => do let _ ← code.exec none (P.linearize a ++ Q.linearize b))
        none none) (fun _ _ => True) := by
    have hv : ∀ {A : Type} (a : Option A), (setupLink (ZMod r)).V a none := fun a => Or.inl ⟨rfl, rfl⟩
    refine Sim.bind (setupLink_pub (P.sim_alloc _ _ (hv _))) fun x x' hx =>
      Sim.bind (setupLink_pub (Q.sim_alloc _ _ (hv _))) fun y y' hy => ?_
    refine Sim.bind (Q := fun _ _ => True) ?_ fun _ _ _ =>
      Sim.bind (P.sim_inputize hx) fun _ _ _ => Sim.pure trivial
    exact Sim.bind (sim_setup (some w) code hc (FitsLcs.append (P.fits_linearize hx) (Q.fits_linearize hy)) true)
      fun _ _ _ => Sim.pure trivial
  obtain ⟨a', s', h', ⟨hs, -, -⟩, -⟩ := key _ _ ⟨hn, rfl, rfl⟩ _ _ h trivial
  exact ⟨a', s', h', hs.ninputs, hs.naux, hs.vars, hs.cons⟩

/-- C12, the exception: trusted setup panics on every decomposition of a non-constant signal wider than the
field. -/
theorem C12_wide_decomposition_panics (x : CNum (ZMod r)) (hx : x.asConst = none) (hv : x.value = none) (limit : Nat)
    (hl : numBits r < limit) (s : CS (ZMod r)) (hs : s.backend = .setup) :
    (Bitify.intoBitsLE x limit).run s = .error .outOfBounds := by
  have key : ∀ (n i : Nat) (k : ZMod r) (rem : CNum (ZMod r)) (s : CS (ZMod r)), s.backend = .setup → numBits r < i + n →
      i ≤ numBits r → (Bitify.allocLoop (List.replicate (numBits r) none) n i k rem).run s = .error .outOfBounds := by
    intro n
    induction n with
    | zero => intro i k rem s _ h1 h2; omega
    | succ n ih =>
      intro i k rem s hs h1 h2
      unfold Bitify.allocLoop
      rw [List.getElem?_replicate]
      split
      · rfl
      · next v hv =>
        split at hv
        · next hi =>
          have e1 : ∃ c s1, (CBool.alloc v : M (ZMod r) _).run s = .ok (c, s1) ∧ s1.backend = .setup := by
            unfold CBool.alloc CNum.alloc
            simp only [M.run_bind, run_csalloc, hs]
            refine ⟨_, _, rfl, ?_⟩
            unfold CS.pushVar; split <;> exact hs
          obtain ⟨c, s1, h3, hs1⟩ := e1
          have e2 : ∃ s2, (CBool.assert c).run s1 = .ok ((), s2) ∧ s2.backend = .setup := by
            have hnc : c.num.asConst = none := by
              unfold CBool.alloc CNum.alloc at h3
              simp only [M.run_bind, run_csalloc, hs] at h3
              injection h3 with h3; injection h3 with h3 _; subst h3
              simp [CNum.asConst, CNum.fromVar, CS.nextAlloc, hs]
            unfold CBool.assert CNum.assertBit
            rw [hnc]
            simp only [run_enforce, hs1]
            exact ⟨_, rfl, rfl⟩
          obtain ⟨s2, h4, hs2⟩ := e2
          rw [M.run_bind, h3]
          simp only
          rw [M.run_bind, h4]
          simp only
          rw [M.run_bind, ih _ _ _ _ hs2 (by omega) (by omega)]
        · cases hv
  unfold Bitify.intoBitsLE
  have h1 : 1 ≤ numBits r := by have := two_le_numBits (p := r); omega
  rw [hx]
  simp only [Bitify.witnessBits, hv]
  rw [M.run_bind, key (limit - 1) 1 1 x s hs (by omega) h1]

instance setupFact7 : Fact (Nat.Prime 7) := ⟨by decide⟩

/-- A client with private data `w`: allocate it, decompose it, select with a bit, hash-free recomposition. -/
def exCode : Code 7 (ZMod 7) :=
  .call (.alloc [] fun w _ => .ok w) fun _ =>
  .call (.intoBits 0 3) fun _ =>
  .call (.alloc [0] fun _ vs => .ok (vs.headD 0 + 1)) fun _ =>
  .call (.prim (.switch 0 1 4)) fun _ =>
  .call (.fromBits [1, 2, 3]) fun _ =>
  .call (.mux3 [1, 2, 3] [[0, 1, 2, 3, 4, 5, 6, 0]]) fun _ => .done

example : exCode.WidthsFit := by
  have : numBits 7 = 3 := by decide
  simp [exCode, Code.WidthsFit, Call.WidthsFit, this]

/-- All runs of the client succeed. -/
example : ((exCode.exec (some 5) []).run (CS.new .prove)).isOk = true ∧
    ((exCode.exec (some 2) []).run (CS.new .prove)).isOk = true ∧
    ((exCode.exec none []).run (CS.new .setup)).isOk = true := by decide +kernel

/-- A decomposition of width 4 in a field of three-bit numbers: proving succeeds, setup panics. -/
example : ((Code.exec (r := 7) (some (5 : ZMod 7)) [] (.call (.alloc [] fun w _ => .ok w) fun _ =>
      .call (.intoBits 0 4) fun _ => .done)).run (CS.new .prove)).isOk = true ∧
    ((Code.exec (r := 7) (none : Option (ZMod 7)) [] (.call (.alloc [] fun w _ => .ok w) fun _ =>
      .call (.intoBits 0 4) fun _ => .done)).run (CS.new .setup)).isOk = false := by decide +kernel

/-- A generated circuit with two public numbers and a secret bit gets through. -/
example : ((synthesize (F := ZMod 7) (.vec 2 .num) .bool (fun a b => do
      let _ ← Code.exec (r := 7) (some ()) ((Ty.vec 2 .num).linearize a ++ Ty.bool.linearize b)
        (.call (.prim (.switch 0 2 1)) fun _ => .done)) (some ⟨[(3 : ZMod 7), (4 : ZMod 7)]⟩) (some true)).run (CS.new .prove)).isOk = true := by
  decide +kernel

/-! ## C58 for client code -/

/-- Client code that does not call `inputize` or allocate a public input adds no public input. -/
theorem quiet_ninputs (w : Option W) {c : Code r W} (hc : c.Quiet) {q q' : List (CNum (ZMod r))}
    {s s' : CS (ZMod r)} (h : (c.exec w q).run s = .ok (q', s')) (hs : s.backend ≠ .test) : s'.ninputs = s.ninputs := by
  induction c generalizing q q' s s' with
  | done => rw [Code.exec, M.run_pure] at h; injection h with h; injection h with _ h; rw [h]
  | call c k ih =>
    rw [Code.exec] at h
    obtain ⟨q1, s1, h1, h⟩ := M.bind_ok h
    rw [ih _ (hc.2 _) h (by rw [(M.run_ext h1).backend]; exact hs), (cost_call w q c s q1 s1 h1).2 hc.1 hs]

/-- C58: circuits generated from client code over the whole circuit API that publishes nothing itself: the public inputs
of every satisfying assignment are exactly the components of the public signal. -/
theorem C58_client_sound (P Q : Ty) (c : Code r W) (hc : c.Quiet) (w : Option W) (p : Option (P.V (ZMod r)))
    (q : Option (Q.V (ZMod r))) (be : Backend) (hbe : be ≠ .test) (a : P.S (ZMod r)) (s : CS (ZMod r))
    (h : (synthesize P Q (fun a b => do
      let _ ← Code.exec w (P.linearize a ++ Q.linearize b) c) p q).run (CS.new be) = .ok (a, s))
    (v : Index → ZMod r) (hv : IsAssignment v) (hs : s.Sat v) :
    s.ninputs = 1 + P.width ∧ (List.range P.width).map (fun i => v (.input (1 + i))) = P.evals v a := by
  refine C58_circuit_sound P Q _ p q (fun a b s s' h hs => ?_) be hbe a s h v hv hs
  obtain ⟨q1, s1, h1, h⟩ := M.bind_ok h
  rw [M.run_pure] at h; injection h with h; injection h with _ h; subst h
  exact quiet_ninputs w hc h1 hs

example : exCode.Quiet := by simp [exCode, Code.Quiet, Call.publishes, Op.publishes]

/-! ## C61 -/

/-- C61: every circuit function adds at most the number of constraints given by the table `Call.maxConstraints`
(Verif.Spec.Gadgets), on every back end, with or without witness, for all arguments. -/
theorem C61_call_count (w : Option W) (q q' : List (CNum (ZMod r))) (c : Call r W) (s s' : CS (ZMod r))
    (h : (c.exec w q).run s = .ok (q', s')) : s'.cons.length ≤ s.cons.length + c.maxConstraints q :=
  (cost_call w q c s q' s' h).1

/-- C61: the number of constraints a circuit function adds, and the constraints themselves, depend on the linear
combinations of its arguments only: not on witness values, and not on whether there are any. -/
theorem C61_call_shape (w w' : Option W) (q q' p p' : List (CNum (ZMod r))) (c : Call r W)
    (hq : q.map CNum.lc = q'.map CNum.lc) (s s' t t' : CS (ZMod r)) (hb : s.backend = .test ↔ s'.backend = .test)
    (hi : s.ninputs = s'.ninputs) (ha : s.naux = s'.naux) (hc : s.cons.map Constraint.shape = s'.cons.map Constraint.shape)
    (hv : s.vars.map Prod.fst = s'.vars.map Prod.fst)
    (h : (c.exec w q).run s = .ok (p, t)) (h' : (c.exec w' q').run s' = .ok (p', t')) :
    ∃ d d', t.cons = s.cons ++ d ∧ t'.cons = s'.cons ++ d' ∧ d.length = d'.length ∧
      d.map Constraint.shape = d'.map Constraint.shape := by
  obtain ⟨hs, -⟩ := rel_call hq w w' c _ _ ⟨hb, hi, ha, hv, hc⟩ _ _ _ _ h h'
  obtain ⟨d, hd⟩ := (M.run_ext h).cons
  obtain ⟨d', hd'⟩ := (M.run_ext h').cons
  have h1 := hs.cons
  rw [← hd, ← hd', List.map_append, List.map_append, hc] at h1
  have h2 := List.append_cancel_left h1
  exact ⟨d, d', hd.symm, hd'.symm, by simpa using congrArg List.length h2, h2⟩

/-- Concrete: a two-bit decomposition meets the bound 2, with and without witness. -/
example : (((Call.alloc [] fun w _ => .ok w).exec (r := 7) (some (2 : ZMod 7)) [] >>= fun q =>
      (Call.intoBits 0 2).exec (some (2 : ZMod 7)) q).run (CS.new .test)).map (fun a => a.2.cons.length) = .ok 2 ∧
    (((Call.alloc [] fun w _ => .ok w).exec (r := 7) (none : Option (ZMod 7)) [] >>= fun q =>
      (Call.intoBits 0 2).exec (none : Option (ZMod 7)) q).run (CS.new .setup)).map (fun a => a.2.cons.length) = .ok 2 := by
  decide +kernel

/-- The bound for multiplying a variable point by a 251-bit scalar (jubjub over BN256), and for verifying a
signature. -/
example : mulVarCount 251 = 2269 ∧ mulConstCount 251 = 509 ∧ strictCount 254 = 510 := by decide

end Fawkes.Props
