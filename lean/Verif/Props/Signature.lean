import Verif.Lemmas.Plain
import Verif.Props.Knowledge
import Verif.Props.KeysExist
import Verif.Props.HelperVars
import Verif.Props.Eddsa
import Verif.Props.Counts

/-!
# Knowledge of a signature: C94

The circuit for which the signature gadget of src/circuit/eddsaposeidon.rs is made: public are a key and a message, secret is a signature,
and the circuit asserts that the gadget returns true.  Unlike the Merkle proof of C89, nothing can go wrong here: the gadget leaves nothing
for its caller to constrain.
-/

namespace Fawkes.Props

open Groth16

variable {r : Nat} [Fact r.Prime] {C : EdCurve (ZMod r)} {J : JubJubParams (ZMod r)} [Fact J.l.Prime]
  {sqrt : ZMod r → Option (ZMod r)} {P : PoseidonParams (ZMod r)}

/-- A client: public are a key (its abscissa) and a message, secret is a signature `(s, r)`. -/
def signedMain (sqrt : ZMod r → Option (ZMod r)) (J : JubJubParams (ZMod r)) [Fact J.l.Prime] (P : PoseidonParams (ZMod r))
    (a : CNum (ZMod r) × CNum (ZMod r)) (b : CNum (ZMod r) × CNum (ZMod r)) : M (ZMod r) Unit := do
  let ok ← Eddsa.cVerify sqrt J b.1 b.2 a.1 a.2 P
  CBool.assertConst ok true

/-- The circuit object of the macros with `signedMain`. -/
def signedCircuit (sqrt : ZMod r → Option (ZMod r)) (J : JubJubParams (ZMod r)) [Fact J.l.Prime] (P : PoseidonParams (ZMod r))
    (p q : Option (ZMod r × ZMod r)) : M (ZMod r) (CNum (ZMod r) × CNum (ZMod r)) :=
  synthesize (.pair .num .num) (.pair .num .num) (signedMain sqrt J P) p q

/-! ### The circuit as a client program -/

def signedCode (sqrt : ZMod r → Option (ZMod r)) (J : JubJubParams (ZMod r)) [hl : Fact J.l.Prime] (P : PoseidonParams (ZMod r)) : Code r Unit :=
  .call (.eddsaVerify sqrt 2 3 0 1 P J hl) fun _ => .call (.prim (.assertConst 4 1)) fun _ => .done

theorem signedCode_fits : (signedCode sqrt J P).WidthsFit ∧ (signedCode sqrt J P).Quiet := by
  simp [signedCode, Code.WidthsFit, Call.WidthsFit, Code.Quiet, Call.publishes, Op.publishes]

theorem signed_main (w : Option Unit) (x y z u : CNum (ZMod r)) :
    signedMain sqrt J P (x, y) (z, u) = (do let _ ← (signedCode sqrt J P).exec w [x, y, z, u]) := by
  unfold signedCode signedMain
  simp only [Code.exec, Call.exec, Op.exec, reg, List.getElem?_cons_zero, List.getElem?_cons_succ, bind_assoc, pure_bind,
    List.cons_append, List.nil_append, bind_pure_unit]
  rfl

theorem signed_generated (w : Option Unit) (p q : Option (ZMod r × ZMod r)) :
    SameRun Eq (signedCircuit sqrt J P p q) (generated (.pair .num .num) (.pair .num .num) (signedCode sqrt J P) w p q) :=
  sameRun_synthesize (F := ZMod r) (.pair .num .num) (.pair .num .num) _ _ p q fun a b _ => signed_main w a.1 a.2 b.1 b.2

/-! ### What the constraints say -/

/-- The relation of the circuit: the secret data are a signature of the message under the key. -/
def IsSigned (sqrt : ZMod r → Option (ZMod r)) (J : JubJubParams (ZMod r)) [Fact J.l.Prime] (P : PoseidonParams (ZMod r))
    (inputs secrets : List (ZMod r)) : Prop :=
  ∃ key message s rx, inputs = [key, message] ∧ secrets = [s, rx] ∧ s.val < 2 ^ numBits J.l ∧
    Eddsa.verify sqrt J (s.val : ZMod J.l) rx key message P = .ok true

theorem signed_relation (hv : J.Valid C) (hsq : IsSqrt sqrt) (har : Aligned r) (hal : Aligned J.l) (h32 : numBytes r ≤ 32)
    (a b : (Ty.pair .num .num).S (ZMod r)) (s s' : CS (ZMod r)) (w : Index → ZMod r) (hs : s.WF)
    (hx : ∀ x ∈ (Ty.pair .num .num).linearize a ++ (Ty.pair .num .num).linearize b, x.lc.Alloc s ∧ Varies x) (hw : IsAssignment w)
    (h : (signedMain sqrt J P a b).run s = .ok ((), s')) (hsat : s'.Sat w) :
    IsSigned sqrt J P ((Ty.pair .num .num).evals w a) ((Ty.pair .num .num).evals w b) := by
  have key : ∀ a b : CNum (ZMod r) × CNum (ZMod r), (∀ x ∈ [a.1, a.2, b.1, b.2], x.lc.Alloc s ∧ Varies x) →
      (signedMain sqrt J P a b).run s = .ok ((), s') →
      IsSigned sqrt J P [a.1.lc.eval w, a.2.lc.eval w] [b.1.lc.eval w, b.2.lc.eval w] := by
    intro a b hx h
    obtain ⟨o, s1, h1, h2⟩ := M.bind_ok h
    have t1 := (M.run_ext h2).sat hsat
    have e := spec_assertConst hw o.num 1 _ _ h2 hsat
    obtain ⟨hlt, -, v, hv, ho⟩ := C43_sound hv hsq har hal h32 hs (hx b.1 (by simp)).1 (hx b.2 (by simp)).1 (hx a.1 (by simp)).1
      (hx a.2 (by simp)).1 (hx b.1 (by simp)).2.asConst hw h1 t1
    refine ⟨_, _, _, _, rfl, rfl, hlt, ?_⟩
    rw [hv]
    cases v with
    | true => rfl
    | false =>
      have : (0 : ZMod r) = 1 := by rw [← e]; exact (ho.trans (by simp)).symm
      exact absurd this zero_ne_one
  exact key a b hx h

theorem signed_ninputs (a b : CNum (ZMod r) × CNum (ZMod r)) (s s' : CS (ZMod r)) (h : (signedMain sqrt J P a b).run s = .ok ((), s'))
    (hs : s.backend ≠ .test) : s'.ninputs = s.ninputs :=
  ((Cost.bind (Eddsa.cost_cVerify sqrt J _ _ _ _ P) fun _ => cost_assertConst _ _ : Cost (signedMain sqrt J P a b) _) s () s' h).2 rfl hs

/-- C94: whoever makes an accepted proof by combining the points of the keys knows a signature of the public message under the public key:
they are the coefficients `S.secrets`, the first of them taken modulo the order of the curve.  Except for few secrets of the key generator. -/
theorem C94_knowledge {K : TwoAdic (ZMod r)} (hK : LawfulTwoAdic K) (hv : J.Valid C) (hsq : IsSqrt sqrt) (har : Aligned r)
    (hal : Aligned J.l) (h32 : numBytes r ≤ 32) (a0 : CNum (ZMod r) × CNum (ZMod r)) (s0 : CS (ZMod r))
    (hset : (signedCircuit sqrt J P none none).run (CS.new .setup) = .ok (a0, s0)) (S : AlgebraicProver r) (inputs : List (ZMod r)) :
    ∃ bad : Finset (ZMod r × ZMod r × ZMod r × ZMod r × ZMod r),
      bad.card ≤ (4 * (s0.cons.length + 3) * (s0.naux + 5) + 8) * r ^ 4 ∧
      ∀ {G1 G2 T : Type} [AddCommGroup G1] [AddCommGroup G2] [DecidableEq G1] [DecidableEq G2] [CommMonoid T] [DecidableEq T]
        {E : Engine G1 G2 T} {e : G1 → G2 → Tˣ} (_ : PairingEngine E e) (_ : ∀ a b b', e a (b + b') = e a b * e a b')
        (t : Toxic G1 G2 r) (_ : r • t.g1 = 0) (_ : r • t.g2 = 0) (_ : e t.g1 t.g2 ≠ 1)
        (_ : (t.alpha, t.beta, t.gamma, t.delta, t.tau) ∉ bad) (params : Parameters G1 G2)
        (_ : generateKeys K t (signedCircuit sqrt J P none none) = .ok params),
        Groth16.verify E (truncate params.vk) (S.proof t.g1 t.g2 params) inputs = .ok (.ok true) →
          ∃ key message s rx, inputs = [key, message] ∧ S.secrets (.pair .num .num) (.pair .num .num) = [s, rx] ∧
            s.val < 2 ^ numBits J.l ∧ Eddsa.verify sqrt J (s.val : ZMod J.l) rx key message P = .ok true := by
  obtain ⟨bad, hcard, hbad⟩ := C87_knowledge hK (.pair .num .num) (.pair .num .num) (signedMain sqrt J P)
    (fun a b s s' h hs => signed_ninputs a b s s' h hs) (IsSigned sqrt J P)
    (fun a b s s' w _ _ hs hx hw h hsat => signed_relation hv hsq har hal h32 a b s s' w hs hx hw h hsat) a0 s0 hset S inputs
  refine ⟨bad, ?_, ?_⟩
  · refine hcard.trans (Nat.le_of_eq ?_)
    simp only [Ty.width]
    ring
  · intro G1 G2 T _ _ _ _ _ _ E e hE hr t h1 h2 hne ht params hk hv
    exact (hbad hE hr t h1 h2 hne ht params hk hv).2

/-- C94: no proof is accepted for a key and a message for which there is no signature, for example if the key is not the abscissa of a
point of the subgroup, except for few secrets of the key generator. -/
theorem C94_sound {K : TwoAdic (ZMod r)} (hK : LawfulTwoAdic K) (hv : J.Valid C) (hsq : IsSqrt sqrt) (har : Aligned r)
    (hal : Aligned J.l) (h32 : numBytes r ≤ 32) (a0 : CNum (ZMod r) × CNum (ZMod r)) (s0 : CS (ZMod r))
    (hset : (signedCircuit sqrt J P none none).run (CS.new .setup) = .ok (a0, s0)) (key message : ZMod r)
    (hno : ∀ s rx, Eddsa.verify sqrt J s rx key message P ≠ .ok true) (S : AlgebraicProver r) :
    ∃ bad : Finset (ZMod r × ZMod r × ZMod r × ZMod r × ZMod r),
      bad.card ≤ (4 * (s0.cons.length + 3) * (s0.naux + 5) + 8) * r ^ 4 ∧
      ∀ {G1 G2 T : Type} [AddCommGroup G1] [AddCommGroup G2] [DecidableEq G1] [DecidableEq G2] [CommMonoid T] [DecidableEq T]
        {E : Engine G1 G2 T} {e : G1 → G2 → Tˣ} (_ : PairingEngine E e) (_ : ∀ a b b', e a (b + b') = e a b * e a b')
        (t : Toxic G1 G2 r) (_ : r • t.g1 = 0) (_ : r • t.g2 = 0) (_ : e t.g1 t.g2 ≠ 1)
        (_ : (t.alpha, t.beta, t.gamma, t.delta, t.tau) ∉ bad) (params : Parameters G1 G2)
        (_ : generateKeys K t (signedCircuit sqrt J P none none) = .ok params),
        Groth16.verify E (truncate params.vk) (S.proof t.g1 t.g2 params) [key, message] = .ok (.ok false) := by
  obtain ⟨bad, hcard, hbad⟩ := C87_sound hK (.pair .num .num) (.pair .num .num) (signedMain sqrt J P)
    (fun a b s s' h hs => signed_ninputs a b s s' h hs) (IsSigned sqrt J P)
    (fun a b s s' w _ _ hs hx hw h hsat => signed_relation hv hsq har hal h32 a b s s' w hs hx hw h hsat) a0 s0 hset [key, message] rfl
    (by rintro q ⟨k, m, s, rx, e, -, -, h⟩
        simp only [List.cons.injEq, and_true] at e
        obtain ⟨rfl, rfl⟩ := e
        exact hno _ _ h) S
  refine ⟨bad, ?_, ?_⟩
  · refine hcard.trans (Nat.le_of_eq ?_)
    simp only [Ty.width]
    ring
  · intro G1 G2 T _ _ _ _ _ _ E e hE hr t h1 h2 hne ht params hk
    exact hbad hE hr t h1 h2 hne ht params hk

/-! ### The honest prover -/

/-- The run with a signature. -/
theorem signed_runs (hv : J.Valid C) (hsq : IsSqrt sqrt) (har : Aligned r) (hal : Aligned J.l) (h32 : numBytes r ≤ 32)
    (hbits : numBits J.l < numBits r) (hP : PoseidonSpec.Shaped P) (ht : 4 ≤ P.t) (hf : 2 ≤ P.f) (hm : ∀ row ∈ P.m, ∀ c ∈ row, c ≠ 0)
    {s : ZMod J.l} {rx key message : ZMod r} (hok : Eddsa.verify sqrt J s rx key message P = .ok true) (be : Backend) :
    ∃ a st, (signedCircuit sqrt J P (some (key, message)) (some ((s.val : ZMod r), rx))).run (CS.new be) = .ok (a, st) ∧ st.Honest := by
  have h2l : 2 ^ numBits J.l ≤ r := (Nat.pow_le_pow_right (by norm_num) (by omega)).trans (numBits_pos (p := r))
  have hsl : s.val < 2 ^ numBits J.l := (ZMod.val_lt s).trans (lt_two_pow_numBits J.l)
  have hval : ((s.val : Nat) : ZMod r).val = s.val := ZMod.val_natCast_of_lt (by omega)
  obtain ⟨G, hG, -⟩ := hv.base
  obtain ⟨b', hb', hi⟩ := C42_verify_iff hv hsq har hal h32 hP ht hG s rx key message
  rw [hok] at hb'; cases hb'
  obtain ⟨R, A, hR, hA, hrx, hax, -⟩ := hi.1 rfl
  have alloc2 : ∀ (s0 : CS (ZMod r)) (_ : s0.Honest) (v : ZMod r × ZMod r),
      Runs s0 ((Ty.pair .num .num).alloc (some v)) (fun (a : CNum (ZMod r) × CNum (ZMod r)) s' =>
        (Has s' a.1 v.1 ∧ Varies a.1) ∧ (Has s' a.2 v.2 ∧ Varies a.2)) := fun s0 h0 v =>
    Runs.bind (runs_alloc h0 v.1) fun x s1 e1 h1 hx => Runs.bind (runs_alloc h1 v.2) fun y s2 e2 h2 hy =>
      Runs.pure h2 ⟨⟨hx.1.mono e2, hx.2.varies⟩, hy.1, hy.2.varies⟩
  have key' : Runs (CS.new be) (signedCircuit sqrt J P (some (key, message)) (some ((s.val : ZMod r), rx))) (fun _ _ => True) := by
    refine Runs.bind (alloc2 _ (CS.honest_new be) (key, message)) fun (a : CNum (ZMod r) × CNum (ZMod r)) s1 e1 hs1 ha => ?_
    refine Runs.bind (alloc2 _ hs1 ((s.val : ZMod r), rx)) fun (b : CNum (ZMod r) × CNum (ZMod r)) s2 e2 hs2 hb => ?_
    obtain ⟨⟨ha1, va1⟩, ha2, va2⟩ := ha
    obtain ⟨⟨hb1, vb1⟩, hb2, vb2⟩ := hb
    refine Runs.bind (Q := fun _ _ => True) ?_ fun _ s3 e3 hs3 _ => ?_
    · show Runs s2 (signedMain sqrt J P a b) _
      obtain ⟨o, st, v, q1, q2, q3, q4⟩ := C43_complete hv hsq har hal h32 hbits hP ht hs2 hb1 hb2 (ha1.mono e2) (ha2.mono e2)
        vb1.asConst (by rw [hval]; exact hsl) (by rw [← hax]; exact C31_round_trip hsq hv hA)
        (by rw [← hrx]; exact C31_round_trip hsq hv hR) (Or.inr ⟨Or.inl vb2, hf, hm⟩)
      simp only at q3
      rw [hval, ZMod.natCast_zmod_val, hok] at q3
      cases q3
      exact Runs.bind (Q := fun o s' => Has s' o.num 1) ⟨o, st, q1, M.run_ext q1, q2, q4⟩ fun o s' _ hs' ho => runs_assertConst hs' ho
    · refine Runs.bind (Q := fun _ _ => True) (Runs.bind (runs_inputize hs3 ((ha1.mono e2).mono e3)) fun _ s6 e6 hs6 _ =>
        (runs_inputize hs6 (((ha2.mono e2).mono e3).mono e6)).mono fun _ _ _ _ _ => trivial) fun _ s7 e7 hs7 _ => Runs.pure hs7 trivial
  obtain ⟨a, st, h, -, hs, -⟩ := key'
  exact ⟨a, st, h, hs⟩

/-- C94: whoever has a signature can prove it.  `verify` accepts the proof for the key and the message, unless the secret point of the key
generator is one of few. -/
theorem C94_accepts {K : TwoAdic (ZMod r)} (hK : LawfulTwoAdic K) (hv : J.Valid C) (hsq : IsSqrt sqrt) (har : Aligned r)
    (hal : Aligned J.l) (h32 : numBytes r ≤ 32) (hbits : numBits J.l < numBits r) (hP : PoseidonSpec.Shaped P) (ht : 4 ≤ P.t) (hf : 2 ≤ P.f)
    (hm : ∀ row ∈ P.m, ∀ c ∈ row, c ≠ 0) (a0 : CNum (ZMod r) × CNum (ZMod r)) (s0 : CS (ZMod r))
    (hset : (signedCircuit sqrt J P none none).run (CS.new .setup) = .ok (a0, s0)) :
    ∃ bad : Finset (ZMod r), bad.card ≤ 2 * (s0.cons.length + s0.ninputs) * (2 * (s0.ninputs + s0.naux) + 1) ∧
      ∀ {G1 G2 T : Type} [AddCommGroup G1] [AddCommGroup G2] [DecidableEq G1] [DecidableEq G2] [CommMonoid T] [DecidableEq T]
        {E : Engine G1 G2 T} {e : G1 → G2 → Tˣ} (_ : PairingEngine E e) (_ : ∀ a b b', e a (b + b') = e a b * e a b')
        (t : Toxic G1 G2 r) (_ : r • t.g1 = 0) (_ : r • t.g2 = 0) (_ : t.g1 ≠ 0) (_ : t.g2 ≠ 0) (_ : t.tau ∉ bad)
        (params : Parameters G1 G2) (_ : generateKeys K t (signedCircuit sqrt J P none none) = .ok params)
        (key message rx : ZMod r) (s : ZMod J.l) (_ : Eddsa.verify sqrt J s rx key message P = .ok true) (x y : ZMod r),
        ∃ proof, prove K params x y (signedCircuit sqrt J P (some (key, message)) (some ((s.val : ZMod r), rx))) = .ok proof ∧
          Groth16.verify E (truncate params.vk) proof [key, message] = .ok (.ok true) := by
  have hg := signed_generated (sqrt := sqrt) (J := J) (P := P) none none none
  have hset' := (hg.run_eq (CS.new .setup)).symm.trans hset
  obtain ⟨fit, quiet⟩ := signedCode_fits (sqrt := sqrt) (J := J) (P := P)
  obtain ⟨bad, hcard, hbad⟩ := C67_accepts_public hK (.pair .num .num) (.pair .num .num) (by simp [Ty.width])
    (signedCode sqrt J P) fit quiet a0 s0 hset'
  refine ⟨bad, hcard, ?_⟩
  intro G1 G2 T _ _ _ _ _ _ E e hE hr t h1 h2 n1 n2 ht' params hk key message rx s hok x y
  have hk' := (generateKeys_sameRun K t hg).symm.trans hk
  obtain ⟨a, st, hrun, hs⟩ := signed_runs hv hsq har hal h32 hbits hP ht hf hm hok .prove
  have hq := signed_generated (sqrt := sqrt) (J := J) (P := P) (some ()) (some (key, message)) (some ((s.val : ZMod r), rx))
  rw [hq.run_eq] at hrun
  obtain ⟨proof, inputs, q1, q2, q3⟩ := hbad hE hr t h1 h2 n1 n2 ht' params hk' () (key, message) ⟨trivial, trivial⟩ _ a st hrun hs.sat x y
  refine ⟨proof, (prove_sameRun K params x y hq).trans q1, ?_⟩
  have q4 := (keys_of_run (G1 := G1) (G2 := G2) (P := .pair .num .num) fit quiet (p := (key, message)) ⟨trivial, trivial⟩ hrun).2.2.1
  have q5 : inputs = [key, message] := by
    have := q2.symm.trans q4
    exact Option.some.inj (Except.ok.inj this)
  rwa [q5] at q3

/-! ### Keys -/

omit [Fact J.l.Prime] in
/-- The square root of minus one is the abscissa of a point of order four only. -/
theorem no_decompress (hv : J.Valid C) (hsq : IsSqrt sqrt) : ∃ x, EdwardsPoint.subgroupDecompress sqrt x J = .ok none := by
  obtain ⟨i, hi⟩ := C.neg_one_square
  obtain ⟨o, ho, hp⟩ := C31_subgroup_decompress hsq hv i
  refine ⟨i, ?_⟩
  rw [ho]
  cases o with
  | none => rfl
  | some p =>
    exfalso
    obtain ⟨Q, hQ, hx, -⟩ := (hp p).1 rfl
    have hon := Q.on
    unfold OnCurve at hon
    have hi2 : Q.x ^ 2 = -1 := by rw [hx, hi]; ring
    have h1 : Q.y ^ 2 * (1 + C.d) = 0 := by linear_combination hon + (1 + C.d * Q.y ^ 2) * hi2
    have hd : 1 + C.d ≠ 0 := fun h => C.d_nonsquare (by
      have : C.d = -1 := by linear_combination h
      rw [this]; exact C.neg_one_square)
    have hy : Q.y = 0 := by
      rcases mul_eq_zero.1 h1 with h | h
      · exact pow_eq_zero_iff (two_ne_zero) |>.1 h
      · exact absurd h hd
    have hx2 : (Q + Q).x = 0 := by rw [EdPoint.add_x, hy]; simp
    have hy2 : (Q + Q).y = -1 := by rw [EdPoint.add_y, hy]; simp [← sq, hi2]
    have h4 : 4 • Q = 0 := by
      have : 4 • Q = (Q + Q) + (Q + Q) := by abel
      rw [this]
      ext
      · rw [EdPoint.add_x, hx2]; simp
      · rw [EdPoint.add_y, hx2, hy2]; simp
    have hcop : Nat.Coprime 4 J.l := by
      have h2 : Nat.Coprime 2 J.l := (Nat.coprime_primes Nat.prime_two hv.l_prime).2 (by have := hv.l_large; omega)
      exact h2.pow_left 2
    have hQ' : J.l • Q = 0 := hQ
    have d1 := addOrderOf_dvd_of_nsmul_eq_zero h4
    have d2 := addOrderOf_dvd_of_nsmul_eq_zero hQ'
    have d3 := Nat.dvd_gcd d1 d2
    rw [hcop] at d3
    have hQ0 : Q = 0 := AddMonoid.addOrderOf_eq_one_iff.1 (Nat.dvd_one.1 d3)
    rw [hQ0] at hi2
    simp at hi2

/-- A satisfying assignment of a run of the circuit holds a signature. -/
theorem signed_values (hv : J.Valid C) (hsq : IsSqrt sqrt) (har : Aligned r) (hal : Aligned J.l) (h32 : numBytes r ≤ 32)
    {p q : Option (ZMod r × ZMod r)} {be : Backend} (hbe : be ≠ .test) {a : CNum (ZMod r) × CNum (ZMod r)} {s : CS (ZMod r)}
    (h : (signedCircuit sqrt J P p q).run (CS.new be) = .ok (a, s)) :
    s.ninputs = 3 ∧ ∀ w, IsAssignment w → s.Sat w →
      IsSigned sqrt J P [w (.input 1), w (.input 2)] [w (.aux 2), w (.aux 3)] := by
  obtain ⟨hn, b, s2, s3, -, -, hwf, hvars, hrun, hval⟩ := synthesize_values (.pair .num .num) (.pair .num .num) (signedMain sqrt J P) p q
    (fun a b s s' h hs => signed_ninputs a b s s' h hs) hbe h
  refine ⟨hn, fun w hw hs => ?_⟩
  obtain ⟨hs3, hP, hQ⟩ := hval w hw hs
  have := signed_relation hv hsq har hal h32 a b s2 s3 w hwf hvars hw hrun hs3
  rw [hP, hQ] at this
  exact this

/-- C94: the circuit has a run without data, with three inputs (the constant one counts), and every variable occurs in a constraint. -/
theorem C94_setup (hv : J.Valid C) (hsq : IsSqrt sqrt) (har : Aligned r) (hal : Aligned J.l) (h32 : numBytes r ≤ 32)
    (hbits : numBits J.l < numBits r) (hP : PoseidonSpec.Shaped P) (ht : 4 ≤ P.t) (hf : 2 ≤ P.f) (hm : ∀ row ∈ P.m, ∀ c ∈ row, c ≠ 0) :
    ∃ a0 s0, (signedCircuit sqrt J P none none).run (CS.new .setup) = .ok (a0, s0) ∧ s0.ninputs = 3 ∧ AllUsed s0 := by
  obtain ⟨sg, rx, A, -, -, hok⟩ := C41_sign_verifies hv hsq har hal h32 hP ht 1 0
  obtain ⟨a, s, hrun, hs⟩ := signed_runs hv hsq har hal h32 hbits hP ht hf hm hok .prove
  obtain ⟨-, hval⟩ := signed_values hv hsq har hal h32 (by simp) hrun
  have hq := signed_generated (sqrt := sqrt) (J := J) (P := P) (some ()) (some (A.x, 0)) (some ((sg.val : ZMod r), rx))
  rw [hq.run_eq] at hrun
  obtain ⟨a0, s0, hset, -⟩ := C12_circuit (.pair .num .num) (.pair .num .num) _ signedCode_fits.1 _ _ _ a s hrun
  obtain ⟨hi, ha, hshape, -⟩ := shape_of_run signedCode_fits.1 hset hrun
  have hset' := ((signed_generated (sqrt := sqrt) (J := J) (P := P) none none none).run_eq (CS.new .setup)).trans hset
  refine ⟨a0, s0, hset', (signed_values hv hsq har hal h32 (by simp) hset').1, ?_⟩
  have hl4 : 4 ≤ numBits J.l := Nat.lt_size.2 (by have := hv.l_large; omega)
  have h2l : 2 ^ numBits J.l < r := by
    have h2l : 2 ^ numBits J.l ≤ r := (Nat.pow_le_pow_right (by norm_num) (by omega)).trans (numBits_pos (p := r))
    refine lt_of_le_of_ne h2l fun e => ?_
    have hodd : Odd r := (Fact.out : r.Prime).odd_of_ne_two C.r_ne_two
    rw [← e] at hodd
    exact (Nat.not_odd_iff_even.2 ((even_two).pow_of_ne_zero (by omega))) hodd
  have hone : IsAssignment s.assign := by simp [IsAssignment, CS.assign]
  obtain ⟨G, hG, -⟩ := hv.base
  obtain ⟨i, hnone⟩ := no_decompress hv hsq
  have dep : ∀ (j : Nat) (v : ZMod r), (∀ w, IsAssignment w → s.Sat w → w (.aux j) ≠ v) → s0.Occurs (.aux j) := by
    intro j v hno
    refine occurs_shape hshape (occurs_of_depends hs.sat (w' := fun k => if k = .aux j then v else s.assign k) (fun hs' => ?_)
      fun k hk => if_neg hk)
    exact hno _ (by simpa [IsAssignment] using hone) hs' (if_pos rfl)
  obtain ⟨_, _, _, _, -, -, hall⟩ := C90_generated (.pair .num .num) (.pair .num .num) _ a0 s0 hset
  refine hall.2 ⟨fun k hk => ?_, fun j hj => ?_⟩
  · have hk : k < 2 := hk
    obtain rfl | rfl : k = 0 ∨ k = 1 := by omega
    · refine dep 2 ((2 ^ numBits J.l : Nat) : ZMod r) fun w hw hsat e => ?_
      obtain ⟨_, _, s, _, -, e2, hlt, -⟩ := hval w hw hsat
      simp only [List.cons.injEq] at e2
      rw [← e2.1, e, ZMod.val_natCast_of_lt h2l] at hlt
      omega
    · refine dep 3 i fun w hw hsat e => ?_
      obtain ⟨key, m, s, rx', -, e2, -, hver⟩ := hval w hw hsat
      simp only [List.cons.injEq] at e2
      rw [← e2.2.1, e] at hver
      obtain ⟨b', hb', hi⟩ := C42_verify_iff hv hsq har hal h32 hP ht hG (s.val : ZMod J.l) i key m
      rw [hver] at hb'; cases hb'
      obtain ⟨R, A, hR, -, hrx, -⟩ := hi.1 rfl
      have := C31_round_trip hsq hv hR
      rw [hrx, hnone] at this
      cases this
  · exfalso
    unfold signedCode at hj
    cases hj with
    | here hc => exact hc
    | later _ hj =>
      cases hj with
      | here hc => exact hc
      | later _ hj => cases hj

/-- C94, from key generation to the verdict: for all random choices of the key generator except few there are keys; with them, for every
secret key and message, the signature that `sign` returns is turned into a proof, and `verify` accepts it for the key's abscissa and
the message. -/
theorem C94_chain {K : TwoAdic (ZMod r)} (hK : LawfulTwoAdic K) (hv : J.Valid C) (hsq : IsSqrt sqrt) (har : Aligned r)
    (hal : Aligned J.l) (h32 : numBytes r ≤ 32) (hbits : numBits J.l < numBits r) (hP : PoseidonSpec.Shaped P) (ht : 4 ≤ P.t) (hf : 2 ≤ P.f)
    (hm : ∀ row ∈ P.m, ∀ c ∈ row, c ≠ 0) (a0 : CNum (ZMod r) × CNum (ZMod r)) (s0 : CS (ZMod r))
    (hset : (signedCircuit sqrt J P none none).run (CS.new .setup) = .ok (a0, s0)) (hsize : s0.cons.length + 3 ≤ 2 ^ (K.S - 1)) :
    ∃ bad : Finset (ZMod r × ZMod r × ZMod r), bad.card ≤ 2 * (s0.cons.length + 3) * (3 * s0.naux + 7) * r ^ 2 ∧
      ∀ {G1 G2 T : Type} [AddCommGroup G1] [AddCommGroup G2] [DecidableEq G1] [DecidableEq G2] [CommMonoid T] [DecidableEq T]
        {E : Engine G1 G2 T} {e : G1 → G2 → Tˣ} (_ : PairingEngine E e) (_ : ∀ a b b', e a (b + b') = e a b * e a b')
        (t : Toxic G1 G2 r) (_ : r • t.g1 = 0) (_ : r • t.g2 = 0) (_ : t.g1 ≠ 0) (_ : t.g2 ≠ 0) (_ : t.gamma ≠ 0) (_ : t.delta ≠ 0)
        (_ : (t.alpha, t.beta, t.tau) ∉ bad),
        ∃ params, generateKeys K t (signedCircuit sqrt J P none none) = .ok params ∧
          ∀ (sk : ZMod J.l) (message x y : ZMod r), ∃ s rx A proof,
            Eddsa.sign J sk message P = .ok (s, rx) ∧ J.g.mul sk J = .ok A ∧
            prove K params x y (signedCircuit sqrt J P (some (A.x, message)) (some ((s.val : ZMod r), rx))) = .ok proof ∧
            Groth16.verify E (truncate params.vk) proof [A.x, message] = .ok (.ok true) := by
  classical
  obtain ⟨a0', s0', hset', hn, hused⟩ := C94_setup hv hsq har hal h32 hbits hP ht hf hm
  rw [hset] at hset'; injection hset' with hset'; injection hset' with e1 e2; subst e1 e2
  have hg := signed_generated (sqrt := sqrt) (J := J) (P := P) none none none
  obtain ⟨bad, hcard, hbad⟩ := C94_accepts hK hv hsq har hal h32 hbits hP ht hf hm a0 s0 hset
  obtain ⟨bad', hcard', hbad'⟩ := C88_keys hK (.pair .num .num) (.pair .num .num) (signedCode sqrt J P) a0 s0
    ((hg.run_eq (CS.new .setup)).symm.trans hset) hused (by omega)
  rw [hn] at hcard hcard'
  refine ⟨bad' ∪ (Finset.univ ×ˢ Finset.univ ×ˢ bad), ?_, ?_⟩
  · refine (Finset.card_union_le _ _).trans ?_
    rw [Finset.card_product, Finset.card_product, Finset.card_univ, ZMod.card]
    refine (Nat.add_le_add hcard' (Nat.mul_le_mul_left r (Nat.mul_le_mul_left r hcard))).trans (Nat.le_of_eq ?_)
    ring
  · intro G1 G2 T _ _ _ _ _ _ E e hE hr t h1 h2 n1 n2 hgam hdel htau
    rw [Finset.mem_union, not_or] at htau
    obtain ⟨params, hk⟩ := hbad' t h1 n1 hgam hdel htau.1
    have hk' := (generateKeys_sameRun K t hg).trans hk
    refine ⟨params, hk', fun sk message x y => ?_⟩
    obtain ⟨s, rx, A, q1, q2, q3⟩ := C41_sign_verifies hv hsq har hal h32 hP ht sk message
    obtain ⟨proof, q4, q5⟩ := hbad hE hr t h1 h2 n1 n2 (fun h => htau.2 (by simp [h])) params hk' A.x message rx s q3 x y
    exact ⟨s, rx, A, proof, q1, q2, q4, q5⟩

/-! ### The shipped parameters -/

theorem takes_inputize {F : Type} [Field F] [DecidableEq F] {s : CS F} (a : CNum F) : Takes s (CNum.inputize a) 1 (fun _ _ => True) := by
  have h : ∀ v : Option F, Takes s (CS.allocInput v : M F Index) 0 (fun _ _ => True) := by
    intro v i s' h
    rw [run_csallocInput] at h
    split at h
    · cases h
    · injection h with h; injection h with _ h; subst h
      exact ⟨rfl, trivial⟩
  unfold CNum.inputize
  split
  · exact (Takes.bind (h _) fun _ s1 _ _ => takes_enforce _ _ _ : Takes s _ (0 + 1) _)
  · exact (Takes.bind (h _) fun _ s1 _ _ => takes_enforce _ _ _ : Takes s _ (0 + 1) _)

/-- C94: the number of constraints: those of the check (C92), one for the assertion and two for the inputs. -/
theorem C94_count (hv : J.Valid C) (hf : 2 ≤ P.f) (hm : ∀ row ∈ P.m, ∀ c ∈ row, c ≠ 0)
    (hg : ∀ G : EdPoint C, J.g = G.affine → ∀ k, k < numBits J.l / 3 → Generic (8 ^ k • G)) (h4 : 4 ≤ r) (p q : Option (ZMod r × ZMod r))
    (be : Backend) :
    Adds (CS.new be) (signedCircuit sqrt J P p q)
      ((2 * 19 + 3 * (3 + (P.f - 1) * P.t + P.p) + (2 * numBits r + 2) + (9 * numBits r + 10) + numBits J.l + constMulCount (numBits J.l)
        + 6 + 3) + 1 + 2) := by
  have alloc2 : ∀ (s0 : CS (ZMod r)) (_ : s0.WF) (v : Option (ZMod r × ZMod r)),
      Takes s0 ((Ty.pair .num .num).alloc v) 0 (fun (a : CNum (ZMod r) × CNum (ZMod r)) s' =>
        (a.1.lc.Alloc s' ∧ Varies a.1) ∧ (a.2.lc.Alloc s' ∧ Varies a.2)) := fun s0 h0 v =>
    (Takes.bind (takes_alloc h0 (v.map Prod.fst)) fun x s1 e1 hx => Takes.bind (takes_alloc (e1.wf h0) (v.map Prod.snd)) fun y s2 e2 hy =>
      Takes.pure ⟨⟨hx.2.mono e2, hx.1.varies⟩, hy.2, hy.1.varies⟩ : Takes s0 _ (0 + (0 + 0)) _)
  have w0 : (CS.new be : CS (ZMod r)).WF := ⟨le_refl _, by simp [CS.new], by simp [CS.new], by simp [CS.new]⟩
  generalize hn : 2 * 19 + 3 * (3 + (P.f - 1) * P.t + P.p) + (2 * numBits r + 2) + (9 * numBits r + 10) + numBits J.l +
    constMulCount (numBits J.l) + 6 + 3 = n
  refine Takes.adds (Q := fun _ _ => True) (Takes.cast (Takes.bind (alloc2 _ w0 p) fun (a : CNum (ZMod r) × CNum (ZMod r)) s1 e1 ha => ?_)
    (show 0 + (0 + ((n + 1) + ((1 + 1) + 0))) = n + 1 + 2 by omega))
  refine Takes.bind (alloc2 _ (e1.wf w0) q) fun (b : CNum (ZMod r) × CNum (ZMod r)) s2 e2 hb => ?_
  refine Takes.bind (Q := fun _ _ => True) ?_ fun _ s3 e3 _ => ?_
  · show Takes s2 (signedMain sqrt J P a b) _ _
    have h := takes_cVerify sqrt hv P hm hf hg h4 (e2.wf (e1.wf w0)) hb.1.1 hb.2.1 (ha.1.1.mono e2) (ha.2.1.mono e2) hb.1.2 hb.2.2
      ha.1.2 ha.2.2
    rw [hn] at h
    exact Takes.bind h fun o s3 _ ho => takes_assertConst ho.asConst _
  · refine Takes.bind (Q := fun _ _ => True) ?_ fun _ s4 _ _ => Takes.pure trivial
    exact Takes.bind (takes_inputize a.1) fun _ s5 _ _ => takes_inputize a.2

/-- C94 for the parameters of the repository over BN256: the circuit has 3869 constraints, and everything above holds for it. -/
theorem C94_bn {checks : Bool} {tries : Nat} {P : PoseidonParams (ZMod bnR)} (hP : PoseidonParams.new bnR checks tries 4 8 54 = .ok P)
    {sqrt : ZMod bnR → Option (ZMod bnR)} (hsq : IsSqrt sqrt) {K : TwoAdic (ZMod bnR)} (hK : LawfulTwoAdic K) (hS : 13 ≤ K.S) :
    ∃ a0 s0, (signedCircuit sqrt bnParams P none none).run (CS.new .setup) = .ok (a0, s0) ∧ s0.cons.length = 3869 ∧
    ∃ bad : Finset (ZMod bnR × ZMod bnR × ZMod bnR), bad.card ≤ 7744 * (3 * s0.naux + 7) * bnR ^ 2 ∧
      ∀ {G1 G2 T : Type} [AddCommGroup G1] [AddCommGroup G2] [DecidableEq G1] [DecidableEq G2] [CommMonoid T] [DecidableEq T]
        {E : Engine G1 G2 T} {e : G1 → G2 → Tˣ} (_ : PairingEngine E e) (_ : ∀ a b b', e a (b + b') = e a b * e a b')
        (t : Toxic G1 G2 bnR) (_ : bnR • t.g1 = 0) (_ : bnR • t.g2 = 0) (_ : t.g1 ≠ 0) (_ : t.g2 ≠ 0) (_ : t.gamma ≠ 0) (_ : t.delta ≠ 0)
        (_ : (t.alpha, t.beta, t.tau) ∉ bad),
        ∃ params, generateKeys K t (signedCircuit sqrt bnParams P none none) = .ok params ∧
          ∀ (sk : ZMod bnParams.l) (message x y : ZMod bnR), ∃ s rx A proof,
            Eddsa.sign bnParams sk message P = .ok (s, rx) ∧ bnParams.g.mul sk bnParams = .ok A ∧
            prove K params x y (signedCircuit sqrt bnParams P (some (A.x, message)) (some ((s.val : ZMod bnR), rx))) = .ok proof ∧
            Groth16.verify E (truncate params.vk) proof [A.x, message] = .ok (.ok true) := by
  obtain ⟨e1, e2, e3⟩ := new_ok hP
  have hshape : PoseidonSpec.Shaped P := (C60_shape _ _ _ _ _ _ hP).1
  have hm : ∀ row ∈ P.m, ∀ c ∈ row, c ≠ 0 := by rw [bnRM4_eq hP]; exact bnRM4_nonzero
  have hl : numBits bnParams.l = 251 := by decide +kernel
  have hr : numBits bnR = 254 := by decide +kernel
  obtain ⟨a0, s0, hset, -⟩ := C94_setup (C := bnCurve) bnParams_valid hsq aligned_bnR aligned_bnL (by decide +kernel) (by omega) hshape
    (by omega) (by omega) hm
  have hc := C94_count (sqrt := sqrt) bnParams_valid (P := P) (by omega) hm (fun G hG k hk => bn_generic hG k (by rw [hl] at hk; omega))
    (by decide +kernel) none none .setup a0 s0 hset
  rw [e1, e2, e3, hl, hr] at hc
  have hc : s0.cons.length = 3869 := hc
  refine ⟨a0, s0, hset, hc, ?_⟩
  have := C94_chain (C := bnCurve) hK bnParams_valid hsq aligned_bnR aligned_bnL (by decide +kernel) (by omega) hshape
    (by omega) (by omega) hm a0 s0 hset (by
      rw [hc]
      exact le_trans (show 3869 + 3 ≤ 2 ^ 12 by norm_num) (Nat.pow_le_pow_right (by norm_num) (by omega)))
  rw [hc] at this
  exact this

instance blsLFact : Fact blsParams.l.Prime := ⟨blsParams_valid.l_prime⟩

/-- C94 for the parameters of the repository over BLS12-381: the circuit has 3883 constraints, and everything above holds for it. -/
theorem C94_bls {checks : Bool} {tries : Nat} {P : PoseidonParams (ZMod blsR)} (hP : PoseidonParams.new blsR checks tries 4 8 54 = .ok P)
    {sqrt : ZMod blsR → Option (ZMod blsR)} (hsq : IsSqrt sqrt) {K : TwoAdic (ZMod blsR)} (hK : LawfulTwoAdic K) (hS : 13 ≤ K.S) :
    ∃ a0 s0, (signedCircuit sqrt blsParams P none none).run (CS.new .setup) = .ok (a0, s0) ∧ s0.cons.length = 3883 ∧
    ∃ bad : Finset (ZMod blsR × ZMod blsR × ZMod blsR), bad.card ≤ 7772 * (3 * s0.naux + 7) * blsR ^ 2 ∧
      ∀ {G1 G2 T : Type} [AddCommGroup G1] [AddCommGroup G2] [DecidableEq G1] [DecidableEq G2] [CommMonoid T] [DecidableEq T]
        {E : Engine G1 G2 T} {e : G1 → G2 → Tˣ} (_ : PairingEngine E e) (_ : ∀ a b b', e a (b + b') = e a b * e a b')
        (t : Toxic G1 G2 blsR) (_ : blsR • t.g1 = 0) (_ : blsR • t.g2 = 0) (_ : t.g1 ≠ 0) (_ : t.g2 ≠ 0) (_ : t.gamma ≠ 0) (_ : t.delta ≠ 0)
        (_ : (t.alpha, t.beta, t.tau) ∉ bad),
        ∃ params, generateKeys K t (signedCircuit sqrt blsParams P none none) = .ok params ∧
          ∀ (sk : ZMod blsParams.l) (message x y : ZMod blsR), ∃ s rx A proof,
            Eddsa.sign blsParams sk message P = .ok (s, rx) ∧ blsParams.g.mul sk blsParams = .ok A ∧
            prove K params x y (signedCircuit sqrt blsParams P (some (A.x, message)) (some ((s.val : ZMod blsR), rx))) = .ok proof ∧
            Groth16.verify E (truncate params.vk) proof [A.x, message] = .ok (.ok true) := by
  obtain ⟨e1, e2, e3⟩ := new_ok hP
  have hshape : PoseidonSpec.Shaped P := (C60_shape _ _ _ _ _ _ hP).1
  have hm : ∀ row ∈ P.m, ∀ c ∈ row, c ≠ 0 := by rw [blsRM4_eq hP]; exact blsRM4_nonzero
  have hl : numBits blsParams.l = 252 := by decide +kernel
  have hr : numBits blsR = 255 := by decide +kernel
  obtain ⟨a0, s0, hset, -⟩ := C94_setup (C := blsCurve) blsParams_valid hsq aligned_blsR aligned_blsL (by decide +kernel) (by omega) hshape
    (by omega) (by omega) hm
  have hc := C94_count (sqrt := sqrt) blsParams_valid (P := P) (by omega) hm (fun G hG k hk => bls_generic hG k (by rw [hl] at hk; omega))
    (by decide +kernel) none none .setup a0 s0 hset
  rw [e1, e2, e3, hl, hr] at hc
  have hc : s0.cons.length = 3883 := hc
  refine ⟨a0, s0, hset, hc, ?_⟩
  have := C94_chain (C := blsCurve) hK blsParams_valid hsq aligned_blsR aligned_blsL (by decide +kernel) (by omega) hshape
    (by omega) (by omega) hm a0 s0 hset (by
      rw [hc]
      exact le_trans (show 3883 + 3 ≤ 2 ^ 12 by norm_num) (Nat.pow_le_pow_right (by norm_num) (by omega)))
  rw [hc] at this
  exact this

/-- Everything in it exists: the parameters, the square root and the roots of unity of the field. -/
example : ∃ P sqrt, PoseidonParams.new bnR true 20 4 8 54 = .ok P ∧ IsSqrt (F := ZMod bnR) sqrt ∧
    LawfulTwoAdic (⟨28, ((7 : Nat) : ZMod bnR) ^ ((bnR - 1) / 2 ^ 28), ((7 : Nat) : ZMod bnR)⟩ : TwoAdic (ZMod bnR)) := by
  obtain ⟨P, hP⟩ := bn_params_exist
  obtain ⟨sqrt, hs⟩ := exists_isSqrt (ZMod bnR)
  exact ⟨P, sqrt, hP, hs, lawful_of_cert 28 7 256 (by decide) (by decide +kernel) (by decide +kernel) (by decide +kernel) (by decide +kernel)
    (by decide +kernel) (by decide +kernel) (by decide +kernel)⟩

/-- And the hypotheses of `C94_sound`: for the square root of minus one as a key there are no signatures. -/
example (hv : J.Valid C) (hsq : IsSqrt sqrt) (har : Aligned r) (hal : Aligned J.l) (h32 : numBytes r ≤ 32) (hP : PoseidonSpec.Shaped P)
    (ht : 4 ≤ P.t) : ∃ key, ∀ message s rx, Eddsa.verify sqrt J s rx key message P ≠ .ok true := by
  obtain ⟨i, hnone⟩ := no_decompress hv hsq
  obtain ⟨G, hG, -⟩ := hv.base
  refine ⟨i, fun message s rx h => ?_⟩
  obtain ⟨b', hb', hi⟩ := C42_verify_iff hv hsq har hal h32 hP ht hG s rx i message
  rw [h] at hb'; cases hb'
  obtain ⟨R, A, -, hA, -, hax, -⟩ := hi.1 rfl
  have := C31_round_trip hsq hv hA
  rw [hax, hnone] at this
  cases this

end Fawkes.Props
