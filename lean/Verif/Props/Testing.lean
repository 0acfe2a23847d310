import Verif.Lemmas.TestCode
import Verif.Props.Proving

/-!
# Clients of the whole circuit API: C02, C03, C11, C13 and C70

Programs over the number API are treated in `Verif.Props.Num`.  Here the client may call every circuit function of the
library.
-/

set_option linter.unusedSectionVars false

namespace Fawkes.Props

open Groth16

variable {r : Nat} [Fact r.Prime] {W : Type}

/-- C02 for client code over the whole circuit API, on every back end, with or without witness: every signal, and every side
of every constraint, is in canonical form. -/
theorem C02_client (code : Code r W) (w : Option W) (b : Backend) (q : List (CNum (ZMod r))) (s : CS (ZMod r))
    (h : (code.exec w []).run (CS.new b) = .ok (q, s)) :
    (∀ x ∈ q, x.lc.Canonical) ∧ ∀ c ∈ s.cons, c.a.lc.Canonical ∧ c.b.lc.Canonical ∧ c.c.lc.Canonical := by
  have hf : s.WF := (M.run_ext h).wf (wf_new _)
  obtain ⟨h1, h2⟩ := good_code false code w (fun k => by cases k) (fun k => by cases k) _ s [] q s hf (by simp)
    (consGood_new false s b) h List.prefix_rfl
  exact ⟨fun x hx => (h2 x hx).canon, fun c hc => ⟨(h1 c hc).1.canon, (h1 c hc).2.1.canon, (h1 c hc).2.2.1.canon⟩⟩

/-- C02 for circuits generated by the command-line macros: every side of every constraint is in canonical form. -/
theorem C02_circuit (P Q : Ty) (code : Code r W) (w : Option W) (p : Option (P.V (ZMod r))) (q : Option (Q.V (ZMod r)))
    (b : Backend) (a : P.S (ZMod r)) (s : CS (ZMod r)) (h : (generated P Q code w p q).run (CS.new b) = .ok (a, s)) :
    ∀ c ∈ s.cons, c.a.lc.Canonical ∧ c.b.lc.Canonical ∧ c.c.lc.Canonical := by
  have h1 := circuit_good false P Q code w p q (fun k => by cases k) b h
  exact fun c hc => ⟨(h1 c hc).1.canon, (h1 c hc).2.1.canon, (h1 c hc).2.2.1.canon⟩

/-- C03 for client code over the whole circuit API: `as_const` recognises exactly the signals that have one and the same
value under all assignments. -/
theorem C03_client (code : Code r W) (w : Option W) (b : Backend) (q : List (CNum (ZMod r))) (s : CS (ZMod r))
    (h : (code.exec w []).run (CS.new b) = .ok (q, s)) (x : CNum (ZMod r)) (hx : x ∈ q) (c : ZMod r) :
    x.asConst = some c ↔ ∀ v, IsAssignment v → x.lc.eval v = c :=
  ⟨fun hc v hv => C03_asConst_sound x c hc v hv, C03_asConst_complete x ((C02_client code w b q s h).1 x hx) c⟩

/-- C13 for client code over the whole circuit API: signals and constraints mention allocated variables only. -/
theorem C13_client_allocated (code : Code r W) (w : Option W) (b : Backend) (q : List (CNum (ZMod r))) (s : CS (ZMod r))
    (h : (code.exec w []).run (CS.new b) = .ok (q, s)) :
    (∀ x ∈ q, ∀ k ∈ x.lc.keys, k = .input 0 ∨ k ∈ s.vars.map Prod.fst) ∧
    ∀ c ∈ s.cons, ∀ k ∈ c.a.lc.keys ++ c.b.lc.keys ++ c.c.lc.keys, k = .input 0 ∨ k ∈ s.vars.map Prod.fst := by
  have hf : s.WF := (M.run_ext h).wf (wf_new _)
  obtain ⟨h1, h2⟩ := good_code false code w (fun k => by cases k) (fun k => by cases k) _ s [] q s hf (by simp)
    (consGood_new false s b) h List.prefix_rfl
  refine ⟨fun x hx => (h2 x hx).alloc, fun c hc k hk => ?_⟩
  rcases List.mem_append.1 hk with hk | hk
  · rcases List.mem_append.1 hk with hk | hk
    · exact (h1 c hc).1.alloc k hk
    · exact (h1 c hc).2.1.alloc k hk
  · exact (h1 c hc).2.2.1.alloc k hk

/-- C11 for client code over the whole circuit API: if building on the test constraint system does not panic, then the
recorded values satisfy every constraint. -/
theorem C11_client_accept (code : Code r W) (hk : code.Known) (w : W) (q : List (CNum (ZMod r))) (s : CS (ZMod r))
    (h : (code.exec (some w) []).run (CS.new .test) = .ok (q, s)) : s.Sat s.assign := by
  have hf : s.WF := (M.run_ext h).wf (wf_new _)
  have h1 := (good_code true code (some w) (fun _ => by simp) (fun _ => hk) _ s [] q s hf (by simp)
    (consGood_new true s .test) h List.prefix_rfl).1
  exact fun c hc => (h1 c hc).2.2.2 rfl (M.run_ext h).backend

/-- C11: on the test constraint system and on the prover, the value of every signal is the value of its linear combination on
the recorded values. -/
theorem C11_client_values (code : Code r W) (hk : code.Known) (w : W) (b : Backend) (q : List (CNum (ZMod r))) (s : CS (ZMod r))
    (h : (code.exec (some w) []).run (CS.new b) = .ok (q, s)) : ∀ x ∈ q, x.value = some (x.lc.eval s.assign) := by
  have hf : s.WF := (M.run_ext h).wf (wf_new _)
  have h1 := (good_code true code (some w) (fun _ => by simp) (fun _ => hk) _ s [] q s hf (by simp)
    (consGood_new true s b) h List.prefix_rfl).2
  exact fun x hx => (h1 x hx).value rfl

/-- C11 for circuits generated by the command-line macros. -/
theorem C11_circuit_accept (P Q : Ty) (code : Code r W) (hk : code.Known) (w : W) (p : P.V (ZMod r)) (q : Q.V (ZMod r))
    (a : P.S (ZMod r)) (s : CS (ZMod r)) (h : (generated P Q code (some w) (some p) (some q)).run (CS.new .test) = .ok (a, s)) :
    s.Sat s.assign := by
  have h1 := circuit_good true P Q code (some w) (some p) (some q) (fun _ => ⟨hk, by simp, by simp, by simp⟩) .test h
  exact fun c hc => (h1 c hc).2.2.2 rfl (M.run_ext h).backend

/-! ## C70 -/

/-- C70: a circuit that does not look at variable numbers builds on the test constraint system if and only if it builds on
the prover with values that satisfy all constraints. -/
theorem C70_test_iff_prove (code : Code r W) (hk : code.Known) (hb : code.Blind) (w : W) :
    (∃ q s, (code.exec (some w) []).run (CS.new .test) = .ok (q, s)) ↔
    ∃ q s, (code.exec (some w) []).run (CS.new .prove) = .ok (q, s) ∧ s.Sat s.assign := by
  constructor
  · rintro ⟨q, s, h⟩
    obtain ⟨K, q', t, h1, h2, -⟩ := test_to_prove code hk hb w h
    exact ⟨q', t, h1, h2.same.sat.1 (C11_client_accept code hk w q s h)⟩
  · rintro ⟨q, s, h, hs⟩
    obtain ⟨q', t, h1, -⟩ := prove_to_test code hk hb w h hs
    exact ⟨q', t, h1⟩

/-- C70: and then the two runs allocate the same number of variables with the same values in the same order, emit the same
number of constraints, and give every signal the same value. -/
theorem C70_same_values (code : Code r W) (hk : code.Known) (hb : code.Blind) (w : W) (q q' : List (CNum (ZMod r)))
    (s s' : CS (ZMod r)) (h : (code.exec (some w) []).run (CS.new .test) = .ok (q, s))
    (h' : (code.exec (some w) []).run (CS.new .prove) = .ok (q', s')) :
    s.vars.map Prod.snd = s'.vars.map Prod.snd ∧ s.cons.length = s'.cons.length ∧ q.map CNum.value = q'.map CNum.value := by
  obtain ⟨K, q1, t, h1, h2, h3⟩ := test_to_prove code hk hb w h
  rw [h'] at h1; injection h1 with h1; injection h1 with e1 e2
  subst e1 e2
  refine ⟨?_, h2.same.cons.length_eq, (rfit_values h3).symm⟩
  rw [h2.same.vars]; simp

/-- C70 for circuits generated by the command-line macros. -/
theorem C70_circuit_iff (P Q : Ty) (code : Code r W) (hk : code.Known) (hb : code.Blind) (w : W) (p : P.V (ZMod r))
    (q : Q.V (ZMod r)) :
    (∃ a s, (generated P Q code (some w) (some p) (some q)).run (CS.new .test) = .ok (a, s)) ↔
    ∃ a s, (generated P Q code (some w) (some p) (some q)).run (CS.new .prove) = .ok (a, s) ∧ s.Sat s.assign := by
  constructor
  · rintro ⟨a, s, h⟩
    obtain ⟨K, a', t, h1, h2⟩ := circuit_test_to_prove P Q code hk hb w p q h
    exact ⟨a', t, h1, h2.same.sat.1 (C11_circuit_accept P Q code hk w p q a s h)⟩
  · rintro ⟨a, s, h, hs⟩
    obtain ⟨a', t, h1, -⟩ := circuit_prove_to_test P Q code hk hb w p q h hs
    exact ⟨a', t, h1⟩

variable {G1 G2 T : Type} [AddCommGroup G1] [AddCommGroup G2] [DecidableEq G1] [DecidableEq G2] [CommMonoid T] [DecidableEq T]

/-- C70: data with which the circuit passes on the test constraint system give an accepted proof, whatever the other random
choices of key generation and proving, unless the secret point of the key generator is one of few. -/
theorem C70_passed_test_gives_proof {K : TwoAdic (ZMod r)} (hK : LawfulTwoAdic K)
    (P Q : Ty) (code : Code r W) (hw : code.WidthsFit) (hc : code.Quiet) (hkn : code.Known) (hb : code.Blind)
    (a0 : P.S (ZMod r)) (s0 : CS (ZMod r)) (hset : (generated P Q code none none none).run (CS.new .setup) = .ok (a0, s0))
    (hone : ConstantOnRight s0) :
    ∃ bad : Finset (ZMod r), bad.card ≤ 2 * (s0.cons.length + s0.ninputs) * (2 * (s0.ninputs + s0.naux) + 1) ∧
      ∀ {G1 G2 T : Type} [AddCommGroup G1] [AddCommGroup G2] [DecidableEq G1] [DecidableEq G2] [CommMonoid T] [DecidableEq T]
        {E : Engine G1 G2 T} {e : G1 → G2 → Tˣ} (_ : PairingEngine E e) (_ : ∀ a b b', e a (b + b') = e a b * e a b')
        (t : Toxic G1 G2 r) (_ : r • t.g1 = 0) (_ : r • t.g2 = 0) (_ : t.g1 ≠ 0) (_ : t.g2 ≠ 0) (_ : t.tau ∉ bad)
        (params : Parameters G1 G2) (_ : generateKeys K t (generated P Q code none none none) = .ok params)
        (w : W) (p : P.V (ZMod r)) (_ : P.okV (ZMod r) p) (q : Q.V (ZMod r)) (a : P.S (ZMod r)) (s : CS (ZMod r))
        (_ : (generated P Q code (some w) (some p) (some q)).run (CS.new .test) = .ok (a, s)) (x y : ZMod r),
        ∃ proof inputs, prove K params x y (generated P Q code (some w) (some p) (some q)) = .ok proof ∧
          getInputs P (some p) = .ok (some inputs) ∧ verify E (truncate params.vk) proof inputs = .ok (.ok true) := by
  obtain ⟨bad, hcard, hbad⟩ := C67_accepts hK P Q code hw hc a0 s0 hset hone
  refine ⟨bad, hcard, ?_⟩
  intro G1 G2 T _ _ _ _ _ _ E e hE hr t h1 h2 n1 n2 ht params hk w p hp q a s h x y
  obtain ⟨a', s', h', hs'⟩ := (C70_circuit_iff P Q code hkn hb w p q).1 ⟨a, s, h⟩
  exact hbad hE hr t h1 h2 n1 n2 ht params hk w p hp q a' s' h' hs' x y

/-- C70: data with which the circuit panics on the test constraint system give no accepted proof: if `prove` returns one,
`verify` rejects it, unless the secret point of the key generator is one of few. -/
theorem C70_failed_test_gives_no_proof {K : TwoAdic (ZMod r)} (hK : LawfulTwoAdic K)
    (P Q : Ty) (code : Code r W) (hw : code.WidthsFit) (hc : code.Quiet) (hkn : code.Known) (hb : code.Blind) (w : W)
    (p : P.V (ZMod r)) (hp : P.okV (ZMod r) p) (q : Q.V (ZMod r)) (e : Panic)
    (h : (generated P Q code (some w) (some p) (some q)).run (CS.new .test) = .error e)
    (a : P.S (ZMod r)) (s : CS (ZMod r)) (hset : (generated P Q code none none none).run (CS.new .setup) = .ok (a, s)) :
    ∃ bad : Finset (ZMod r), bad.card ≤ 2 * (s.cons.length + s.ninputs) * (2 * (s.ninputs + s.naux) + 3) ∧
      ∀ {G1 G2 T : Type} [AddCommGroup G1] [AddCommGroup G2] [DecidableEq G1] [DecidableEq G2] [CommMonoid T] [DecidableEq T]
        {E : Engine G1 G2 T} {e : G1 → G2 → Tˣ} (_ : PairingEngine E e) (_ : ∀ a b b', e a (b + b') = e a b * e a b')
        (t : Toxic G1 G2 r) (_ : r • t.g1 = 0) (_ : r • t.g2 = 0) (_ : e t.g1 t.g2 ≠ 1) (_ : t.tau ∉ bad)
        (params : Parameters G1 G2) (_ : generateKeys K t (generated P Q code none none none) = .ok params) (x y : ZMod r)
        (proof : Proof G1 G2) (_ : prove K params x y (generated P Q code (some w) (some p) (some q)) = .ok proof)
        (inputs : List (ZMod r)) (_ : getInputs P (some p) = .ok (some inputs)),
        verify E (truncate params.vk) proof inputs = .ok (.ok false) := by
  cases hrun : (generated P Q code (some w) (some p) (some q)).run (CS.new .prove) with
  | error e' =>
    refine ⟨∅, by simp, ?_⟩
    intro G1 G2 T _ _ _ _ _ _ E e hE hr t h1 h2 hne ht params hk x y proof hproof
    unfold prove at hproof
    rw [hrun] at hproof
    cases hproof
  | ok res =>
    obtain ⟨a', s'⟩ := res
    have hns : ¬ s'.Sat s'.assign := by
      intro hs
      obtain ⟨a1, s1, h1⟩ := (C70_circuit_iff P Q code hkn hb w p q).2 ⟨a', s', hrun, hs⟩
      rw [h] at h1; cases h1
    obtain ⟨bad, hcard, hbad⟩ := C67_rejects hK P Q code hw hc w p hp q a' s' hrun hns
    obtain ⟨hi, ha, hcons, -⟩ := shape_of_run hw hset hrun
    have hlen := congrArg List.length hcons
    simp only [List.length_map] at hlen
    refine ⟨bad, by rw [← hlen, ← hi, ← ha]; exact hcard, ?_⟩
    intro G1 G2 T _ _ _ _ _ _ E e hE hr t h1 h2 hne ht params hk x y proof hproof inputs hin
    obtain ⟨inputs', hin', hv⟩ := hbad hE hr t h1 h2 hne ht params hk x y proof hproof
    rw [hin] at hin'; injection hin' with e2; injection e2 with e2
    rw [e2]; exact hv

/-! ## C71 -/

section C71

/-- The full claim: `prove` returns a proof with the keys of `generate_keys`, whenever the circuit can be built with the data. -/
def C71_full (r : Nat) [Fact r.Prime] : Prop :=
  ∀ (K : TwoAdic (ZMod r)) (_ : LawfulTwoAdic K) (P Q : Ty) (code : Code r Unit) (_ : code.WidthsFit) (_ : code.Quiet)
    (t : Toxic (ZMod r) (ZMod r) r) (_ : t.g1 ≠ 0) (_ : t.g2 ≠ 0) (params : Parameters (ZMod r) (ZMod r))
    (_ : generateKeys K t (generated P Q code none none none) = .ok params)
    (p : P.V (ZMod r)) (_ : P.okV (ZMod r) p) (q : Q.V (ZMod r)) (a : P.S (ZMod r)) (s : CS (ZMod r))
    (_ : (generated P Q code (some ()) (some p) (some q)).run (CS.new .prove) = .ok (a, s)) (_ : s.Sat s.assign) (x y : ZMod r),
    ∃ proof, prove K params x y (generated P Q code (some ()) (some p) (some q)) = .ok proof

/-- C71, what holds: except for few secret points of the key generator, `prove` returns a proof for all data with which the
circuit can be built, satisfying or not, if the constant one does not occur on the right with the coefficient zero only; and it
fails for all data otherwise. -/
theorem C71_exact_partial {K : TwoAdic (ZMod r)} (hK : LawfulTwoAdic K)
    (P Q : Ty) (code : Code r W) (hw : code.WidthsFit) (hc : code.Quiet) (a0 : P.S (ZMod r)) (s0 : CS (ZMod r))
    (hset : (generated P Q code none none none).run (CS.new .setup) = .ok (a0, s0)) :
    ∃ bad : Finset (ZMod r), bad.card ≤ 2 * (s0.cons.length + s0.ninputs) * (2 * (s0.ninputs + s0.naux) + 1) ∧
      ∀ {G1 G2 : Type} [AddCommGroup G1] [AddCommGroup G2] [DecidableEq G1] [DecidableEq G2] (t : Toxic G1 G2 r)
        (_ : r • t.g1 = 0) (_ : r • t.g2 = 0) (_ : t.g1 ≠ 0) (_ : t.g2 ≠ 0) (_ : t.tau ∉ bad)
        (params : Parameters G1 G2) (_ : generateKeys K t (generated P Q code none none none) = .ok params)
        (w : W) (p : P.V (ZMod r)) (_ : P.okV (ZMod r) p) (q : Q.V (ZMod r)) (a : P.S (ZMod r)) (s : CS (ZMod r))
        (_ : (generated P Q code (some w) (some p) (some q)).run (CS.new .prove) = .ok (a, s)) (x y : ZMod r),
        (ConstantOnRight s0 → ∃ proof, prove K params x y (generated P Q code (some w) (some p) (some q)) = .ok proof) ∧
        (¬ ConstantOnRight s0 →
          prove K params x y (generated P Q code (some w) (some p) (some q)) = .error .unexpectedEof) := by
  obtain ⟨bad, hcard, hbad⟩ := prove_outcome hK hw hc hset
  refine ⟨bad, hcard, ?_⟩
  intro G1 G2 _ _ _ _ t h1 h2 n1 n2 ht params hk w p hp q a s h x y
  obtain ⟨D, -, -, hout⟩ := hbad h1 h2 n1 n2 ht hk hp h
  rw [(hout x y).1]
  exact ⟨fun hone => ⟨_, (hout x y).2.1 hone⟩, (hout x y).2.2⟩

/-- C71 for circuits with at least one public signal: `prove` returns a proof. -/
theorem C71_public_partial {K : TwoAdic (ZMod r)} (hK : LawfulTwoAdic K)
    (P Q : Ty) (hP : 0 < P.width) (code : Code r W) (hw : code.WidthsFit) (hc : code.Quiet) (a0 : P.S (ZMod r))
    (s0 : CS (ZMod r)) (hset : (generated P Q code none none none).run (CS.new .setup) = .ok (a0, s0)) :
    ∃ bad : Finset (ZMod r), bad.card ≤ 2 * (s0.cons.length + s0.ninputs) * (2 * (s0.ninputs + s0.naux) + 1) ∧
      ∀ {G1 G2 : Type} [AddCommGroup G1] [AddCommGroup G2] [DecidableEq G1] [DecidableEq G2] (t : Toxic G1 G2 r)
        (_ : r • t.g1 = 0) (_ : r • t.g2 = 0) (_ : t.g1 ≠ 0) (_ : t.g2 ≠ 0) (_ : t.tau ∉ bad)
        (params : Parameters G1 G2) (_ : generateKeys K t (generated P Q code none none none) = .ok params)
        (w : W) (p : P.V (ZMod r)) (_ : P.okV (ZMod r) p) (q : Q.V (ZMod r)) (a : P.S (ZMod r)) (s : CS (ZMod r))
        (_ : (generated P Q code (some w) (some p) (some q)).run (CS.new .prove) = .ok (a, s)) (x y : ZMod r),
        ∃ proof, prove K params x y (generated P Q code (some w) (some p) (some q)) = .ok proof := by
  obtain ⟨bad, hcard, hbad⟩ := C71_exact_partial hK P Q code hw hc a0 s0 hset
  refine ⟨bad, hcard, ?_⟩
  intro G1 G2 _ _ _ _ t h1 h2 n1 n2 ht params hk w p hp q a s h x y
  exact (hbad t h1 h2 n1 n2 ht params hk w p hp q a s h x y).1 (constantOnRight_of_public hc hP (by simp) hset)

/-- No public signal; the secret is a pair, and the circuit multiplies the first number with the second plus zero. -/
def zeroCode : Code 97 Unit :=
  .call (.prim (.const 0)) fun _ => .call (.prim (.add 1 2)) fun _ => .call (.prim (.mul 0 3)) fun _ => .done

def zeroCircuit (q : Option (ZMod 97 × ZMod 97)) : M (ZMod 97) (SizedVec (CNum (ZMod 97)) 0) :=
  generated (.vec 0 .num) (.pair .num .num) zeroCode (q.map fun _ => ()) (q.map fun _ => (⟨[]⟩ : SizedVec (ZMod 97) 0)) q

theorem zeroCode_fits : zeroCode.WidthsFit ∧ zeroCode.Quiet := by
  constructor
  · simp [zeroCode, Code.WidthsFit, Call.WidthsFit]
  · simp [zeroCode, Code.Quiet, Call.publishes, Op.publishes]

/-- Key generation works for this circuit, and its data always satisfy it; but `prove` fails. -/
theorem zeroCircuit_fails :
    (match generateKeys smallK smallToxic (zeroCircuit none) with
      | .ok params => (match prove smallK params 11 12 (zeroCircuit (some (5, 7))) with
        | .error e => some e
        | .ok _ => none)
      | .error _ => none) = some .unexpectedEof := by
  decide +kernel

/-- C71 is false as stated. -/
theorem C71_refuted : ∃ r, ∃ _ : Fact r.Prime, ¬ C71_full r := by
  refine ⟨97, provingFact97, fun hfull => ?_⟩
  have hf := zeroCircuit_fails
  cases hk : generateKeys smallK smallToxic (zeroCircuit none) with
  | error e => rw [hk] at hf; cases hf
  | ok params =>
    rw [hk] at hf
    simp only at hf
    cases hrun : (zeroCircuit (some (5, 7))).run (CS.new .prove) with
    | error e =>
      have : ((zeroCircuit (some (5, 7))).run (CS.new .prove)).isOk = true := by decide +kernel
      rw [hrun] at this; cases this
    | ok res =>
      obtain ⟨a, s⟩ := res
      have hs : s.Sat s.assign := by
        have hs : ∀ c ∈ (finalState (zeroCircuit (some (5, 7))) (CS.new .prove)).cons,
            c.a.lc.eval (finalState (zeroCircuit (some (5, 7))) (CS.new .prove)).assign *
              c.b.lc.eval (finalState (zeroCircuit (some (5, 7))) (CS.new .prove)).assign =
            c.c.lc.eval (finalState (zeroCircuit (some (5, 7))) (CS.new .prove)).assign := by
          decide +kernel
        unfold finalState at hs
        rw [hrun] at hs
        exact hs
      obtain ⟨proof, hproof⟩ := hfull smallK smallK_lawful (.vec 0 .num) (.pair .num .num) zeroCode zeroCode_fits.1
        zeroCode_fits.2 smallToxic (by decide) (by decide) params hk (⟨[]⟩ : SizedVec (ZMod 97) 0) ⟨rfl, fun x hx => by cases hx⟩
        ((5 : ZMod 97), (7 : ZMod 97)) a s hrun hs 11 12
      have hproof : prove smallK params 11 12 (zeroCircuit (some (5, 7))) = .ok proof := hproof
      rw [hproof] at hf
      cases hf

/-- The circuit fails the condition of `C71_exact_partial`, the one that factors a public number meets it. -/
example : (let s := finalState (zeroCircuit none) (CS.new .setup)
    s.cons.map (fun c => c.b.lc)) = [[(.input 0, 0), (.aux 1, 1)]] := by
  decide +kernel

example : (let s := finalState (generated .num (.pair .num .num) productCode none none none) (CS.new .setup)
    s.cons.map (fun c => c.b.lc)) = [[(.aux 2, 1)], [(.input 0, 1)], [(.input 0, 1)]] := by
  decide +kernel

/-- With the scalar field of BN256 the excluded secret points are few indeed, up to 2^90 constraints and variables. -/
example (c i a : Nat) (hc : c ≤ 2 ^ 90) (hi : i ≤ 2 ^ 90) (ha : a ≤ 2 ^ 90) :
    2 * (c + i) * (2 * (i + a) + 3) < bnR / 2 ^ 66 :=
  lt_of_le_of_lt (Nat.mul_le_mul (show 2 * (c + i) ≤ 2 ^ 92 by omega) (show 2 * (i + a) + 3 ≤ 2 ^ 93 by omega))
    (by decide +kernel)

end C71

/-! ### Instances -/

theorem productCode_client : productCode.Known ∧ productCode.Blind := by
  constructor
  · simp [productCode, Code.Known, Call.Known, Op.Known]
  · simp [productCode, Code.Blind]

/-- Right factors pass on both back ends, wrong ones fail on the test constraint system and give unsatisfied constraints on
the prover. -/
example : ((productCircuit (5, 7)).run (CS.new .test)).isOk = true ∧ ((productCircuit (5, 8)).run (CS.new .test)).isOk = false ∧
    ((productCircuit (5, 8)).run (CS.new .prove)).isOk = true ∧
    ((generated .num (.pair .num .num) productCode none none none).run (CS.new .setup)).isOk = true := by
  decide +kernel

/-- A client that chooses its calls by what it sees: it multiplies only if the signal is not a constant. -/
def watchfulCode : Code 97 (ZMod 97) :=
  .call (.alloc [] fun w _ => .ok w) fun l =>
    if (l.map fun a => (⟨none, a⟩ : CNum (ZMod 97)).asConst) = [none] then .call (.prim (.mul 0 0)) fun _ => .done else .done

theorem watchfulCode_client : watchfulCode.Known ∧ watchfulCode.Blind := by
  constructor
  · simp only [watchfulCode, Code.Known, Call.Known, true_and]
    intro l; split <;> simp [Code.Known, Call.Known, Op.Known]
  · simp only [watchfulCode, Code.Blind]
    refine ⟨?_, ?_⟩
    · intro l l' h
      have e : (l.map fun a => (⟨none, a⟩ : CNum (ZMod 97)).asConst) = l'.map fun a => (⟨none, a⟩ : CNum (ZMod 97)).asConst := by
        induction h with
        | nil => rfl
        | cons h _ ih => rw [List.map_cons, List.map_cons, h.2, ih]
      rw [e]
    · intro l; split <;> simp [Code.Blind]

example : ((watchfulCode.exec (some 5) []).run (CS.new .test)).toOption.map (fun a => a.1.map CNum.value) = some [some 5, some 25] ∧
    ((watchfulCode.exec (some 5) []).run (CS.new .prove)).toOption.map (fun a => a.1.map CNum.lc) =
      some [[(.aux 0, 1)], [(.aux 1, 1)]] := by
  decide +kernel

end Fawkes.Props
