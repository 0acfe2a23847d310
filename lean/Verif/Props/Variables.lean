import Verif.Lemmas.Slim
import Verif.Props.MembershipKeys

/-!
# The number of variables: C95

No call of the library adds more private variables than constraints, but for `alloc` and for one variable for every point of which a
preimage or a square root is allocated (`Call.surplus`, Lemmas/Slim).  So the number of constraints also bounds the number of variables of
a circuit, and with it the share of the random choices for which key generation or soundness fails.
-/

namespace Fawkes.Props

open Groth16

variable {r : Nat} [Fact r.Prime] {W : Type}

/-- C95: a call of the library adds at most as many private variables as constraints, plus its surplus. -/
theorem C95_call (w : Option W) (q q' : List (CNum (ZMod r))) (c : Call r W) (s s' : CS (ZMod r))
    (h : (c.exec w q).run s = .ok (q', s')) (hb : s.backend ≠ .test) :
    s'.naux + s.cons.length ≤ s.naux + s'.cons.length + c.surplus := by
  have := gains_call w q c s q' s' h hb
  omega

/-- The surplus of all calls of a client, on every path through it, is at most `n`. -/
def _root_.Fawkes.Code.AtMost : Code r W → Nat → Prop
  | .done, _ => True
  | .call c next, n => c.surplus ≤ n ∧ ∀ l, (next l).AtMost (n - c.surplus)

/-- C95 for clients of any length. -/
theorem C95_program (w : Option W) (code : Code r W) (n : Nat) (hn : code.AtMost n) (q o : List (CNum (ZMod r))) (s s' : CS (ZMod r))
    (h : (code.exec w q).run s = .ok (o, s')) (hb : s.backend ≠ .test) :
    s'.naux + s.cons.length ≤ s.naux + s'.cons.length + n := by
  induction code generalizing q s n with
  | done =>
    unfold Code.exec at h
    rw [M.run_pure] at h; injection h with h; injection h with _ h; subst h
    omega
  | call c next ih =>
    unfold Code.exec at h
    obtain ⟨q1, s1, r1, r2⟩ := M.bind_ok h
    have h1 := C95_call w q q1 c s s1 r1 hb
    have h2 := ih _ _ (hn.2 _) _ _ r2 (by rw [(M.run_ext r1).backend]; exact hb)
    have h3 := hn.1
    omega

theorem gains_inputize {F : Type} [Field F] [DecidableEq F] (a : CNum F) : Gains (CNum.inputize a) 1 := by
  unfold CNum.inputize
  split
  · exact Gains.bind (j := 0) (k := 1) (slim_allocInput _) fun _ => gains_enforce _ _ _
  · exact Gains.bind (j := 0) (k := 1) (slim_allocInput _) fun _ => gains_enforce _ _ _

theorem slim_inputize_ty {F : Type} [Field F] [DecidableEq F] (t : Ty) (a : t.S F) (h : t.ok F a) : Gains (t.inputize a) t.width := by
  induction t with
  | num => exact gains_inputize _
  | bool => exact gains_inputize _
  | pair t u iht ihu =>
    refine (Gains.bind (iht _ h.1) fun _ => ihu _ h.2).mono ?_
    show ((t.width + u.width : Nat) : Int) ≤ _
    push_cast; omega
  | vec n t ih =>
    have key : ∀ l : List (t.S F), (∀ b ∈ l, t.ok F b) → Gains (listForM (fun b => t.inputize b) l) ((l.length * t.width : Nat) : Int) := by
      intro l hl
      induction l with
      | nil => exact Slim.pure.mono (by simp)
      | cons b l ihl =>
        refine (Gains.bind (ih b (hl b (by simp))) fun _ => ihl fun c hc => hl c (by simp [hc])).mono ?_
        rw [List.length_cons, Nat.succ_mul]; push_cast; omega
    have := key a.items h.2
    rw [h.1] at this
    exact this

/-- C95 for a circuit of the macros: the private variables are at most the constraints, the secret numbers, and the surplus of the client. -/
theorem C95_generated (P Q : Ty) (code : Code r W) (n : Nat) (hn : code.AtMost n) (w : Option W) (p : Option (P.V (ZMod r)))
    (q : Option (Q.V (ZMod r))) (be : Backend) (hb : be ≠ .test) (a : P.S (ZMod r)) (s : CS (ZMod r))
    (h : (generated P Q code w p q).run (CS.new be) = .ok (a, s)) : s.naux ≤ s.cons.length + Q.width + n := by
  obtain ⟨s1, b, s2, s3, h1, h2, h3, h4⟩ := synthesize_ok h
  have b0 : (CS.new be : CS (ZMod r)).backend ≠ .test := hb
  have b1 : s1.backend ≠ .test := by rw [(M.run_ext h1).backend]; exact b0
  have b2 : s2.backend ≠ .test := by rw [(M.run_ext h2).backend]; exact b1
  have b3 : s3.backend ≠ .test := by rw [(M.run_ext h3).backend]; exact b2
  have n1 := (Ty.post_alloc_next P p _ b0 _ _ h1).1
  have n2 := (Ty.post_alloc_next Q q _ b1 _ _ h2).1
  have w0 : (CS.new be : CS (ZMod r)).WF := ⟨le_refl _, by simp [CS.new], by simp [CS.new], by simp [CS.new]⟩
  have c1 := (Ty.takes_alloc P p _ w0 _ _ h1).1
  have c2 := (Ty.takes_alloc Q q _ ((M.run_ext h1).wf w0) _ _ h2).1
  obtain ⟨o, s3', r3, h5⟩ := M.bind_ok h3
  rw [M.run_pure] at h5; injection h5 with h5; injection h5 with _ h5; subst h5
  have e3 := C95_program w code n hn _ _ _ _ r3 b2
  have e4 := slim_inputize_ty P a (Ty.post_alloc P p _ _ _ h1).1 _ _ _ h4 b3
  have z : (CS.new be : CS (ZMod r)).naux = 0 := rfl
  have z' : (CS.new be : CS (ZMod r)).cons.length = 0 := rfl
  omega

/-- C95 for a circuit written by hand. -/
theorem C95_handwritten (code : Code r W) (n : Nat) (hn : code.AtMost n) (w : Option W) (be : Backend) (hb : be ≠ .test)
    (o : List (CNum (ZMod r))) (s : CS (ZMod r)) (h : (handwritten code w).run (CS.new be) = .ok (o, s)) :
    s.naux ≤ s.cons.length + n := by
  have := C95_program w code n hn _ _ _ _ h hb
  have z : (CS.new be : CS (ZMod r)).naux = 0 := rfl
  have z' : (CS.new be : CS (ZMod r)).cons.length = 0 := rfl
  omega

/-! ## The share of bad choices of the key generator -/

theorem signed_naux {J : JubJubParams (ZMod r)} [Fact J.l.Prime] {sqrt : ZMod r → Option (ZMod r)} {P : PoseidonParams (ZMod r)}
    {a0 : CNum (ZMod r) × CNum (ZMod r)} {s0 : CS (ZMod r)} (hset : (signedCircuit sqrt J P none none).run (CS.new .setup) = .ok (a0, s0)) :
    s0.naux ≤ s0.cons.length + 4 :=
  C95_generated (.pair .num .num) (.pair .num .num) (signedCode sqrt J P) 2
    (by simp [signedCode, Code.AtMost, Call.surplus, Op.surplus]) none none none .setup (by simp) a0 s0
    (((signed_generated none none none).run_eq _).symm.trans hset)

theorem checked_naux {P : PoseidonParams (ZMod r)} {n : Nat} {a0 : CNum (ZMod r) × CNum (ZMod r)} {s0 : CS (ZMod r)}
    (hset : (checkedCircuit P n none none).run (CS.new .setup) = .ok (a0, s0)) : s0.naux ≤ s0.cons.length + 2 * n := by
  have hm : (checkedCode n P).AtMost 0 := by
    have key : ∀ l : List Nat, (checks (memberCode n P) l).AtMost 0 := by
      intro l
      induction l with
      | nil => simp [checks, memberCode, Code.AtMost, Call.surplus, Op.surplus]
      | cons i l ih => simpa [checks, Code.AtMost, Call.surplus, Op.surplus] using ih
    exact key _
  have := C95_generated (.pair .num .num) (.pair (.vec n .num) (.vec n .bool)) (checkedCode n P) 0 hm none none none .setup (by simp) a0 s0
    (((checked_generated P n none none none).run_eq _).symm.trans hset)
  simp only [Ty.width] at this
  omega

theorem share {c a k e m : Nat} {r : Nat} (h : c ≤ a * r ^ e) (hk : a ≤ k) (hr : k * 2 ^ m ≤ r) : c * 2 ^ m ≤ r ^ (e + 1) := by
  calc c * 2 ^ m ≤ k * r ^ e * 2 ^ m := by gcongr; exact h.trans (by gcongr)
    _ = k * 2 ^ m * r ^ e := by ring
    _ ≤ r * r ^ e := by gcongr
    _ = r ^ (e + 1) := by ring

/-- C94 in numbers, for the parameters of the repository over BN256: less than one in `2 ^ 225` of the choices of the key generator is bad.  With
all others, an accepted proof of a prover who combines points of the keys comes with a signature, and every signature of `sign` becomes an
accepted proof. -/
theorem C94_bn_security {checks : Bool} {tries : Nat} {P : PoseidonParams (ZMod bnR)} (hP : PoseidonParams.new bnR checks tries 4 8 54 = .ok P)
    {sqrt : ZMod bnR → Option (ZMod bnR)} (hsq : IsSqrt sqrt) {K : TwoAdic (ZMod bnR)} (hK : LawfulTwoAdic K) (hS : 13 ≤ K.S) :
    (∀ (S : AlgebraicProver bnR) (inputs : List (ZMod bnR)),
      ∃ bad : Finset (ZMod bnR × ZMod bnR × ZMod bnR × ZMod bnR × ZMod bnR), bad.card * 2 ^ 225 ≤ bnR ^ 5 ∧
      ∀ {G1 G2 T : Type} [AddCommGroup G1] [AddCommGroup G2] [DecidableEq G1] [DecidableEq G2] [CommMonoid T] [DecidableEq T]
        {E : Engine G1 G2 T} {e : G1 → G2 → Tˣ} (_ : PairingEngine E e) (_ : ∀ a b b', e a (b + b') = e a b * e a b')
        (t : Toxic G1 G2 bnR) (_ : bnR • t.g1 = 0) (_ : bnR • t.g2 = 0) (_ : e t.g1 t.g2 ≠ 1)
        (_ : (t.alpha, t.beta, t.gamma, t.delta, t.tau) ∉ bad) (params : Parameters G1 G2)
        (_ : generateKeys K t (signedCircuit sqrt bnParams P none none) = .ok params),
        Groth16.verify E (truncate params.vk) (S.proof t.g1 t.g2 params) inputs = .ok (.ok true) →
          ∃ key message s rx, inputs = [key, message] ∧ S.secrets (.pair .num .num) (.pair .num .num) = [s, rx] ∧
            s.val < 2 ^ numBits bnParams.l ∧ Eddsa.verify sqrt bnParams (s.val : ZMod bnParams.l) rx key message P = .ok true) ∧
    ∃ bad : Finset (ZMod bnR × ZMod bnR × ZMod bnR), bad.card * 2 ^ 225 ≤ bnR ^ 3 ∧
      ∀ {G1 G2 T : Type} [AddCommGroup G1] [AddCommGroup G2] [DecidableEq G1] [DecidableEq G2] [CommMonoid T] [DecidableEq T]
        {E : Engine G1 G2 T} {e : G1 → G2 → Tˣ} (_ : PairingEngine E e) (_ : ∀ a b b', e a (b + b') = e a b * e a b')
        (t : Toxic G1 G2 bnR) (_ : bnR • t.g1 = 0) (_ : bnR • t.g2 = 0) (_ : t.g1 ≠ 0) (_ : t.g2 ≠ 0) (_ : t.gamma ≠ 0) (_ : t.delta ≠ 0)
        (_ : (t.alpha, t.beta, t.tau) ∉ bad),
        ∃ params, generateKeys K t (signedCircuit sqrt bnParams P none none) = .ok params ∧
          ∀ (sk : ZMod bnParams.l) (message x y : ZMod bnR), ∃ s rx A proof,
            Eddsa.sign bnParams sk message P = .ok (s, rx) ∧ bnParams.g.mul sk bnParams = .ok A ∧
            prove K params x y (signedCircuit sqrt bnParams P (some (A.x, message)) (some ((s.val : ZMod bnR), rx))) = .ok proof ∧
            Groth16.verify E (truncate params.vk) proof [A.x, message] = .ok (.ok true) := by
  obtain ⟨a0, s0, hset, hc, bad, hcard, hbad⟩ := C94_bn hP hsq hK hS
  have hn := signed_naux hset
  rw [hc] at hn
  refine ⟨fun S inputs => ?_, bad, ?_, hbad⟩
  · obtain ⟨bad, hcard, hbad⟩ := C94_knowledge hK bnParams_valid hsq aligned_bnR aligned_bnL (by decide +kernel) a0 s0 hset S inputs
    refine ⟨bad, share hcard (k := 4 * (3869 + 3) * (3873 + 5) + 8) ?_ (by decide +kernel), hbad⟩
    rw [hc]
    gcongr
  · refine share hcard (k := 7744 * (3 * 3873 + 7)) ?_ (by decide +kernel)
    gcongr

/-- C94 in numbers, for the parameters of the repository over BLS12-381: less than one in `2 ^ 225` of the choices of the key generator is bad.  With
all others, an accepted proof of a prover who combines points of the keys comes with a signature, and every signature of `sign` becomes an
accepted proof. -/
theorem C94_bls_security {checks : Bool} {tries : Nat} {P : PoseidonParams (ZMod blsR)} (hP : PoseidonParams.new blsR checks tries 4 8 54 = .ok P)
    {sqrt : ZMod blsR → Option (ZMod blsR)} (hsq : IsSqrt sqrt) {K : TwoAdic (ZMod blsR)} (hK : LawfulTwoAdic K) (hS : 13 ≤ K.S) :
    (∀ (S : AlgebraicProver blsR) (inputs : List (ZMod blsR)),
      ∃ bad : Finset (ZMod blsR × ZMod blsR × ZMod blsR × ZMod blsR × ZMod blsR), bad.card * 2 ^ 225 ≤ blsR ^ 5 ∧
      ∀ {G1 G2 T : Type} [AddCommGroup G1] [AddCommGroup G2] [DecidableEq G1] [DecidableEq G2] [CommMonoid T] [DecidableEq T]
        {E : Engine G1 G2 T} {e : G1 → G2 → Tˣ} (_ : PairingEngine E e) (_ : ∀ a b b', e a (b + b') = e a b * e a b')
        (t : Toxic G1 G2 blsR) (_ : blsR • t.g1 = 0) (_ : blsR • t.g2 = 0) (_ : e t.g1 t.g2 ≠ 1)
        (_ : (t.alpha, t.beta, t.gamma, t.delta, t.tau) ∉ bad) (params : Parameters G1 G2)
        (_ : generateKeys K t (signedCircuit sqrt blsParams P none none) = .ok params),
        Groth16.verify E (truncate params.vk) (S.proof t.g1 t.g2 params) inputs = .ok (.ok true) →
          ∃ key message s rx, inputs = [key, message] ∧ S.secrets (.pair .num .num) (.pair .num .num) = [s, rx] ∧
            s.val < 2 ^ numBits blsParams.l ∧ Eddsa.verify sqrt blsParams (s.val : ZMod blsParams.l) rx key message P = .ok true) ∧
    ∃ bad : Finset (ZMod blsR × ZMod blsR × ZMod blsR), bad.card * 2 ^ 225 ≤ blsR ^ 3 ∧
      ∀ {G1 G2 T : Type} [AddCommGroup G1] [AddCommGroup G2] [DecidableEq G1] [DecidableEq G2] [CommMonoid T] [DecidableEq T]
        {E : Engine G1 G2 T} {e : G1 → G2 → Tˣ} (_ : PairingEngine E e) (_ : ∀ a b b', e a (b + b') = e a b * e a b')
        (t : Toxic G1 G2 blsR) (_ : blsR • t.g1 = 0) (_ : blsR • t.g2 = 0) (_ : t.g1 ≠ 0) (_ : t.g2 ≠ 0) (_ : t.gamma ≠ 0) (_ : t.delta ≠ 0)
        (_ : (t.alpha, t.beta, t.tau) ∉ bad),
        ∃ params, generateKeys K t (signedCircuit sqrt blsParams P none none) = .ok params ∧
          ∀ (sk : ZMod blsParams.l) (message x y : ZMod blsR), ∃ s rx A proof,
            Eddsa.sign blsParams sk message P = .ok (s, rx) ∧ blsParams.g.mul sk blsParams = .ok A ∧
            prove K params x y (signedCircuit sqrt blsParams P (some (A.x, message)) (some ((s.val : ZMod blsR), rx))) = .ok proof ∧
            Groth16.verify E (truncate params.vk) proof [A.x, message] = .ok (.ok true) := by
  obtain ⟨a0, s0, hset, hc, bad, hcard, hbad⟩ := C94_bls hP hsq hK hS
  have hn := signed_naux hset
  rw [hc] at hn
  refine ⟨fun S inputs => ?_, bad, ?_, hbad⟩
  · obtain ⟨bad, hcard, hbad⟩ := C94_knowledge hK blsParams_valid hsq aligned_blsR aligned_blsL (by decide +kernel) a0 s0 hset S inputs
    refine ⟨bad, share hcard (k := 4 * (3883 + 3) * (3887 + 5) + 8) ?_ (by decide +kernel), hbad⟩
    rw [hc]
    gcongr
  · refine share hcard (k := 7772 * (3 * 3887 + 7)) ?_ (by decide +kernel)
    gcongr

/-- C89 in numbers, for the parameters of the repository over BN256 and trees of depth up to 1024: for the circuit with the assertions less
than one in `2 ^ 214` of the choices of the key generator is bad.  With all others, an accepted proof of a prover who combines points of the
keys comes with a proof of membership, and every proof of membership becomes an accepted proof. -/
theorem C89_bn_security {checks : Bool} {tries : Nat} {P : PoseidonParams (ZMod bnR)} (hP : PoseidonParams.new bnR checks tries 3 8 53 = .ok P)
    {K : TwoAdic (ZMod bnR)} (hK : LawfulTwoAdic K) (n : Nat) (hn : 230 * n + 6 ≤ 2 ^ (K.S - 1)) (hn' : n ≤ 1024) :
    (∀ (S : AlgebraicProver bnR) (inputs : List (ZMod bnR)),
      ∃ bad : Finset (ZMod bnR × ZMod bnR × ZMod bnR × ZMod bnR × ZMod bnR), bad.card * 2 ^ 214 ≤ bnR ^ 5 ∧
      ∀ {G1 G2 T : Type} [AddCommGroup G1] [AddCommGroup G2] [DecidableEq G1] [DecidableEq G2] [CommMonoid T] [DecidableEq T]
        {E : Engine G1 G2 T} {e : G1 → G2 → Tˣ} (_ : PairingEngine E e) (_ : ∀ a b b', e a (b + b') = e a b * e a b')
        (t : Toxic G1 G2 bnR) (_ : bnR • t.g1 = 0) (_ : bnR • t.g2 = 0) (_ : e t.g1 t.g2 ≠ 1)
        (_ : (t.alpha, t.beta, t.gamma, t.delta, t.tau) ∉ bad) (params : Parameters G1 G2)
        (_ : generateKeys K t (checkedCircuit P n none none) = .ok params),
        Groth16.verify E (truncate params.vk) (S.proof t.g1 t.g2 params) inputs = .ok (.ok true) →
          ∃ root leaf sibling path, inputs = [root, leaf] ∧ sibling.length = n ∧ path.length = n ∧
            S.secrets (.pair .num .num) (.pair (.vec n .num) (.vec n .bool)) = sibling ++ path.map (fun b => if b then 1 else 0) ∧
            Poseidon.merkleProofRoot leaf sibling path P = .ok root) ∧
    ∃ bad : Finset (ZMod bnR × ZMod bnR × ZMod bnR), bad.card * 2 ^ 214 ≤ bnR ^ 3 ∧
      ∀ {G1 G2 T : Type} [AddCommGroup G1] [AddCommGroup G2] [DecidableEq G1] [DecidableEq G2] [CommMonoid T] [DecidableEq T]
        {E : Engine G1 G2 T} {e : G1 → G2 → Tˣ} (_ : PairingEngine E e) (_ : ∀ a b b', e a (b + b') = e a b * e a b')
        (t : Toxic G1 G2 bnR) (_ : bnR • t.g1 = 0) (_ : bnR • t.g2 = 0) (_ : t.g1 ≠ 0) (_ : t.g2 ≠ 0) (_ : t.gamma ≠ 0) (_ : t.delta ≠ 0)
        (_ : (t.alpha, t.beta, t.tau) ∉ bad),
        ∃ params, generateKeys K t (checkedCircuit P n none none) = .ok params ∧
          ∀ (leaf : ZMod bnR) (sibling : List (ZMod bnR)) (path : List Bool) (_ : sibling.length = n) (_ : path.length = n)
            (x y : ZMod bnR), ∃ root proof, Poseidon.merkleProofRoot leaf sibling path P = .ok root ∧
              prove K params x y (checkedCircuit P n (some (root, leaf)) (some (⟨sibling⟩, ⟨path⟩))) = .ok proof ∧
              Groth16.verify E (truncate params.vk) proof [root, leaf] = .ok (.ok true) := by
  obtain ⟨a0, s0, hset, hc, bad, hcard, hbad⟩ := C89_bn hP hK n hn
  have hx := checked_naux hset
  have hc' : s0.cons.length ≤ 235523 := by omega
  have hx' : s0.naux ≤ 237571 := by omega
  have hd : 230 * n + 6 ≤ 235526 := by omega
  refine ⟨fun S inputs => ?_, bad, ?_, hbad⟩
  · obtain ⟨bad, hcard, hbad⟩ := C89_asserted_partial hK P n a0 s0 hset S inputs
    refine ⟨bad, share hcard (k := 4 * (235523 + 3) * (237571 + 5) + 8) ?_ (by decide +kernel), hbad⟩
    gcongr
  · refine share hcard (k := 2 * 235526 * (3 * 237571 + 7)) ?_ (by decide +kernel)
    gcongr

/-- C89 in numbers, for the parameters of the repository over BLS12-381 and trees of depth up to 1024: for the circuit with the assertions less
than one in `2 ^ 214` of the choices of the key generator is bad.  With all others, an accepted proof of a prover who combines points of the
keys comes with a proof of membership, and every proof of membership becomes an accepted proof. -/
theorem C89_bls_security {checks : Bool} {tries : Nat} {P : PoseidonParams (ZMod blsR)} (hP : PoseidonParams.new blsR checks tries 3 8 53 = .ok P)
    {K : TwoAdic (ZMod blsR)} (hK : LawfulTwoAdic K) (n : Nat) (hn : 230 * n + 6 ≤ 2 ^ (K.S - 1)) (hn' : n ≤ 1024) :
    (∀ (S : AlgebraicProver blsR) (inputs : List (ZMod blsR)),
      ∃ bad : Finset (ZMod blsR × ZMod blsR × ZMod blsR × ZMod blsR × ZMod blsR), bad.card * 2 ^ 214 ≤ blsR ^ 5 ∧
      ∀ {G1 G2 T : Type} [AddCommGroup G1] [AddCommGroup G2] [DecidableEq G1] [DecidableEq G2] [CommMonoid T] [DecidableEq T]
        {E : Engine G1 G2 T} {e : G1 → G2 → Tˣ} (_ : PairingEngine E e) (_ : ∀ a b b', e a (b + b') = e a b * e a b')
        (t : Toxic G1 G2 blsR) (_ : blsR • t.g1 = 0) (_ : blsR • t.g2 = 0) (_ : e t.g1 t.g2 ≠ 1)
        (_ : (t.alpha, t.beta, t.gamma, t.delta, t.tau) ∉ bad) (params : Parameters G1 G2)
        (_ : generateKeys K t (checkedCircuit P n none none) = .ok params),
        Groth16.verify E (truncate params.vk) (S.proof t.g1 t.g2 params) inputs = .ok (.ok true) →
          ∃ root leaf sibling path, inputs = [root, leaf] ∧ sibling.length = n ∧ path.length = n ∧
            S.secrets (.pair .num .num) (.pair (.vec n .num) (.vec n .bool)) = sibling ++ path.map (fun b => if b then 1 else 0) ∧
            Poseidon.merkleProofRoot leaf sibling path P = .ok root) ∧
    ∃ bad : Finset (ZMod blsR × ZMod blsR × ZMod blsR), bad.card * 2 ^ 214 ≤ blsR ^ 3 ∧
      ∀ {G1 G2 T : Type} [AddCommGroup G1] [AddCommGroup G2] [DecidableEq G1] [DecidableEq G2] [CommMonoid T] [DecidableEq T]
        {E : Engine G1 G2 T} {e : G1 → G2 → Tˣ} (_ : PairingEngine E e) (_ : ∀ a b b', e a (b + b') = e a b * e a b')
        (t : Toxic G1 G2 blsR) (_ : blsR • t.g1 = 0) (_ : blsR • t.g2 = 0) (_ : t.g1 ≠ 0) (_ : t.g2 ≠ 0) (_ : t.gamma ≠ 0) (_ : t.delta ≠ 0)
        (_ : (t.alpha, t.beta, t.tau) ∉ bad),
        ∃ params, generateKeys K t (checkedCircuit P n none none) = .ok params ∧
          ∀ (leaf : ZMod blsR) (sibling : List (ZMod blsR)) (path : List Bool) (_ : sibling.length = n) (_ : path.length = n)
            (x y : ZMod blsR), ∃ root proof, Poseidon.merkleProofRoot leaf sibling path P = .ok root ∧
              prove K params x y (checkedCircuit P n (some (root, leaf)) (some (⟨sibling⟩, ⟨path⟩))) = .ok proof ∧
              Groth16.verify E (truncate params.vk) proof [root, leaf] = .ok (.ok true) := by
  obtain ⟨a0, s0, hset, hc, bad, hcard, hbad⟩ := C89_bls hP hK n hn
  have hx := checked_naux hset
  have hc' : s0.cons.length ≤ 235523 := by omega
  have hx' : s0.naux ≤ 237571 := by omega
  have hd : 230 * n + 6 ≤ 235526 := by omega
  refine ⟨fun S inputs => ?_, bad, ?_, hbad⟩
  · obtain ⟨bad, hcard, hbad⟩ := C89_asserted_partial hK P n a0 s0 hset S inputs
    refine ⟨bad, share hcard (k := 4 * (235523 + 3) * (237571 + 5) + 8) ?_ (by decide +kernel), hbad⟩
    gcongr
  · refine share hcard (k := 2 * 235526 * (3 * 237571 + 7)) ?_ (by decide +kernel)
    gcongr

/-! ## Hypotheses -/

/-- The clients of C94 and C89 have the surplus the theorems ask for; a client that allocates one number has surplus one. -/
example (P : PoseidonParams (ZMod bnR)) (sqrt : ZMod bnR → Option (ZMod bnR)) [Fact bnParams.l.Prime] :
    (signedCode sqrt bnParams P).AtMost 2 ∧ (Code.call (.alloc [] fun _ _ => .ok 0) fun _ => .done : Code bnR Unit).AtMost 1 ∧
    ¬ (Code.call (.alloc [] fun _ _ => .ok 0) fun _ => .done : Code bnR Unit).AtMost 0 := by
  simp [signedCode, Code.AtMost, Call.surplus, Op.surplus]

/-- The allowance is needed: `alloc` alone adds a variable and no constraint. -/
example : ∃ o s, (handwritten (Code.call (.prim (.alloc none)) fun _ => .done : Code 7681 Unit) none).run (CS.new .setup) = .ok (o, s) ∧
    s.naux = 1 ∧ s.cons.length = 0 := ⟨_, _, rfl, rfl, rfl⟩

end Fawkes.Props
