import Verif.Props.Session
import Verif.Props.Native

/-!
# C106: a verdict on the files of a stranger

Somebody runs `setup`; later the files with the proof and the public inputs come from anywhere, and `verify` prints "true".
-/

namespace Fawkes.Props

open Fawkes.Groth16 Fawkes.Cli Fawkes.Cli.Cmd Fawkes.Serde

section formats

variable {G1 G2 : Type} {r : Nat} [Fact r.Prime] {q : Nat} [Fact q.Prime]

/-- If the text of a key can be read at all, then it is read as that key. -/
def ReadsBack (f : Format G1 G2 r) : Prop :=
  ∀ vk text vk', vk.ic.length < 2 ^ 32 → f.vkTo vk = .ok text → f.vkOf text = .ok vk' → vk' = vk

theorem readsBack_of_keeps {f : Format G1 G2 r}
    (h : ∀ vk : VK G1 G2, vk.ic.length < 2 ^ 32 → ∃ t, f.vkTo vk = .ok t ∧ f.vkOf t = .ok vk) : ReadsBack f := by
  intro vk text vk' hl h1 h2
  obtain ⟨t, a, b⟩ := h vk hl
  rw [h1] at a; injection a with a; subst a
  rw [h2] at b; injection b

/-- C106: the format of the Ethereum binding. -/
theorem C106_ethereum_format {c : Coords G1 G2 q} (hc : LawfulCoords c) (hq : Aligned q) : ReadsBack (jsonFormat c r) := by
  refine readsBack_of_keeps fun vk _ => ?_
  obtain ⟨t1, a1, b1⟩ := C73_vk hq (c.vkData vk)
  refine ⟨t1, a1, ?_⟩
  show (unwrapE (ofText (Serde.vkOf q) t1) >>= fun d => vkFromData c.into1 c.into2 d) = _
  rw [b1]
  exact vkFromData_vkData hc vk

/-- C106: the format of the Near binding. -/
theorem C106_near_format {c : Coords G1 G2 q} (hc : LawfulCoords c) : ReadsBack (nearFormat c r) := by
  refine readsBack_of_keeps fun vk hl => ?_
  refine ⟨_, rfl, ?_⟩
  show (unwrapE (Base64.decode (Base64.encode _)) >>= fun bs => unwrapE (tryFromSlice (vkDeserialize q) bs) >>= fun d =>
    vkFromData c.into1 c.into2 d) = _
  rw [C72_base64_round_trip]
  have := (C53_vk (vkSerialize (c.vkData vk)) [] (c.vkData vk)).2 ⟨by simpa [Coords.vkData, vkIntoData] using hl, by simp⟩
  show (unwrapE (tryFromSlice (vkDeserialize q) _) >>= _) = _
  unfold tryFromSlice
  rw [this]
  exact vkFromData_vkData hc vk

omit [Fact q.Prime] in
/-- C106: the format of the Waves binding (a key with a point at infinity is written, but not read). -/
theorem C106_waves_format {c1 : Codec G1} {c2 : Codec G2} (h1 : LawfulCodec c1) (h2 : LawfulCodec c2) :
    ReadsBack (wavesFormat c1 c2 r) := by
  intro vk text vk' hl ht hr
  have ht' : Base64.encode (vkWrite c1 c2 vk) = text := Except.ok.inj ht
  subst ht'
  have hr' : (unwrapE (Base64.decode (Base64.encode (vkWrite c1 c2 vk))) >>= fun bs => unwrapE (vkRead c1 c2 bs)) = .ok vk' := hr
  rw [C72_base64_round_trip] at hr'
  have hr' : unwrapE (vkRead c1 c2 (vkWrite c1 c2 vk)) = .ok vk' := hr'
  have hj : ([] : List UInt8).length < c1.size := by have := h1.size_pos; simpa using this
  by_cases hn : NoInfinity c1 c2 vk
  · have := C54_round_trip h1 h2 vk hn [] hj
    rw [List.append_nil] at this
    rw [this] at hr'
    exact (Except.ok.inj hr').symm
  · have := C54_write_infinity h1 h2 vk hn [] hj
    rw [List.append_nil] at this
    rw [this] at hr'
    cases hr'

end formats

section

variable {r : Nat} [Fact r.Prime] {W : Type}

/-- The proof and the inputs that the files hold. -/
def ProofFiles {G1 G2 : Type} (f : Format G1 G2 r) (o : Files) (w : Cli.World) (proof : Proof G1 G2) (inputs : List (ZMod r)) : Prop :=
  ∃ t1 t2, textAt w o.proof t1 ∧ textAt w o.inputs t2 ∧ f.proofOf t1 = .ok proof ∧ f.inputsOf t2 = .ok inputs

theorem ic_length {G1 G2 : Type} [AddCommGroup G1] [AddCommGroup G2] [DecidableEq G1] [DecidableEq G2] {K : TwoAdic (ZMod r)}
    {t : Toxic G1 G2 r} {s : CS (ZMod r)} {params : Parameters G1 G2} (hk : generateParameters K t s = .ok params) :
    (truncate params.vk).ic.length = s.ninputs := by
  obtain ⟨-, -, -, D, hD, rfl, -⟩ := generateParameters_ok hk
  simp [truncate, keysOf, inputVars]

/-- What a "true" says about files and keys. -/
theorem verdict_of_setup {G1 G2 T : Type} [AddCommGroup G1] [AddCommGroup G2] [DecidableEq G1] [DecidableEq G2] [CommMonoid T]
    [DecidableEq T] {g : Program G1 G2 T r} {e : G1 → G2 → Tˣ} (he : PairingEngine g.engine e) (hf : ReadsBack g.format)
    {a0 : g.pub.ty.S (ZMod r)} {s0 : CS (ZMod r)} (hset : (g.circuit none none).run (CS.new .setup) = .ok (a0, s0))
    (hn : s0.ninputs < 2 ^ 32) (t : Toxic G1 G2 r) (o : Files) (ho : o.params ≠ o.vk) (setup : Cmd Unit)
    (hs : setup = setupEthereum g t o ∨ setup = setupText g t o) (w w' : Cli.World) (hok : (setup.run w).1 = .ok ())
    (hvk : w'.files o.vk = (setup.run w).2.files o.vk)
    (hv : ((verifyCmd g o).run w').2.printed = w'.printed ++ [verdictLine true]) :
    ∃ params proof inputs, generateKeys g.field t (g.circuit none none) = .ok params ∧ ProofFiles g.format o w' proof inputs ∧
      verify g.engine (truncate params.vk) proof inputs = .ok (.ok true) := by
  have hfiles : SetupFiles g t o (setup.run w).2 := by
    have h : Honest [o.params, o.vk] (chars! "setup OK") (SetupFiles g t o) w (setup.run w) := by
      rcases hs with rfl | rfl
      · exact C76_setup_ethereum g t o ho w
      · exact C76_setup_text g t o ho w
    rcases h.2 with ⟨-, -, h⟩ | ⟨e, h, -⟩
    · exact h
    · rw [hok] at h; cases h
  obtain ⟨params, text, hk, htext, -, hfvk⟩ := hfiles
  obtain ⟨vk, proof, inputs, ic0, ics, ⟨t1, t2, t3, x1, x2, x3, y1, y2, y3⟩, hic, hlen, heq⟩ := (C77_true g he o w').1 hv
  have hl : (truncate params.vk).ic.length < 2 ^ 32 := by
    have hk0 := hk
    unfold generateKeys at hk0
    rw [hset] at hk0
    rw [ic_length hk0]
    exact hn
  have ht1 : t1 = text := by
    obtain ⟨bs, b1, b2⟩ := x1
    rw [hvk, hfvk] at b1
    injection b1 with b1
    subst b1
    rw [fromUtf8_intoBytes] at b2
    injection b2 with b2
    exact b2.symm
  subst ht1
  have hvk' := hf _ _ _ hl htext y1
  subst hvk'
  exact ⟨params, proof, inputs, hk, ⟨t2, t3, x2, x3, y2, y3⟩, (C55_accepts he _ _ _).2 ⟨ic0, ics, hic, hlen, heq⟩⟩

/-- C106: if `setup` has ended well, if the file with the verifying key has not changed since, and if `verify` prints "true" for whatever
is in the files of the proof and of the inputs (and whatever the disk does), then the values read off the coefficients by which the proof
was combined from the points of the keys satisfy the circuit for these inputs - or the secrets of the setup are among few that are
determined by the coefficients and the inputs. -/
theorem C106_verdict {K : TwoAdic (ZMod r)} (hK : LawfulTwoAdic K) (pub sec : Layout) (code : Code r W) (a0 : pub.ty.S (ZMod r))
    (s0 : CS (ZMod r)) (hset : (generated pub.ty sec.ty code none none none).run (CS.new .setup) = .ok (a0, s0))
    (hn : s0.ninputs < 2 ^ 32) :
    ∃ bad : AlgebraicProver r → List (ZMod r) → Finset (ZMod r × ZMod r × ZMod r × ZMod r × ZMod r),
      (∀ S inputs, (bad S inputs).card ≤ (4 * (s0.cons.length + s0.ninputs) * (s0.ninputs + s0.naux + 2) + 8) * r ^ 4) ∧
      ∀ {G1 G2 T : Type} [AddCommGroup G1] [AddCommGroup G2] [DecidableEq G1] [DecidableEq G2] [CommMonoid T] [DecidableEq T]
        {E : Engine G1 G2 T} {e : G1 → G2 → Tˣ} (_ : PairingEngine E e) (_ : ∀ a b b', e a (b + b') = e a b * e a b')
        (u1 : RawCodec G1) (u2 : RawCodec G2) (f : Format G1 G2 r) (_ : ReadsBack f)
        (wit : pub.ty.V (ZMod r) → sec.ty.V (ZMod r) → W) (t : Toxic G1 G2 r) (_ : r • t.g1 = 0) (_ : r • t.g2 = 0) (_ : e t.g1 t.g2 ≠ 1)
        (o : Files) (_ : o.params ≠ o.vk) (setup : Cmd Unit)
        (_ : setup = setupEthereum (clientProgram K u1 u2 f E pub sec code wit) t o ∨
          setup = setupText (clientProgram K u1 u2 f E pub sec code wit) t o) (w w' : Cli.World) (_ : (setup.run w).1 = .ok ())
        (_ : w'.files o.vk = (setup.run w).2.files o.vk)
        (_ : ((verifyCmd (clientProgram K u1 u2 f E pub sec code wit) o).run w').2.printed = w'.printed ++ [verdictLine true]),
        ∃ params proof inputs, generateKeys K t (generated pub.ty sec.ty code none none none) = .ok params ∧ ProofFiles f o w' proof inputs ∧
          ∀ S : AlgebraicProver r, proof = S.proof t.g1 t.g2 params →
            (inputs.length + 1 = s0.ninputs ∧ s0.Sat (S.witness inputs)) ∨ (t.alpha, t.beta, t.gamma, t.delta, t.tau) ∈ bad S inputs := by
  choose bad hcard hbad using fun S inputs => C84_knowledge hK _ a0 s0 hset S inputs
  refine ⟨bad, hcard, ?_⟩
  intro G1 G2 T _ _ _ _ _ _ E e hE hr u1 u2 f hf wit t h1 h2 hne o ho setup hs w w' hok hvk hv
  obtain ⟨params, proof, inputs, hk, hh, hver⟩ :=
    verdict_of_setup (g := clientProgram K u1 u2 f E pub sec code wit) hE hf hset hn t o ho setup hs w w' hok hvk hv
  refine ⟨params, proof, inputs, hk, hh, fun S hS => ?_⟩
  by_cases ht : (t.alpha, t.beta, t.gamma, t.delta, t.tau) ∈ bad S inputs
  · exact .inr ht
  · rw [hS] at hver
    exact .inl (hbad S inputs hE hr t h1 h2 hne ht params hk hver)

/-- C106: the same in terms of the native code: the secret data that the coefficients contain and the inputs are such that the native
functions run through, with all checks. -/
theorem C106_native {K : TwoAdic (ZMod r)} (hK : LawfulTwoAdic K) (pub sec : Layout) (cs : List (Call r W))
    (hquiet : ∀ c ∈ cs, c.publishes = false) (a0 : pub.ty.S (ZMod r)) (s0 : CS (ZMod r))
    (hset : (generated pub.ty sec.ty (straight cs) none none none).run (CS.new .setup) = .ok (a0, s0)) (hn : s0.ninputs < 2 ^ 32)
    (hp : ∀ values data t ins, data.map CNum.lc = (List.range (pub.ty.width + sec.ty.width)).map (fun i => [(.aux i, 1)]) →
      (straight cs).Proper none data t ins values) :
    ∃ bad : AlgebraicProver r → List (ZMod r) → Finset (ZMod r × ZMod r × ZMod r × ZMod r × ZMod r),
      (∀ S inputs, (bad S inputs).card ≤ (4 * (s0.cons.length + pub.ty.width + 1) * (pub.ty.width + s0.naux + 3) + 8) * r ^ 4) ∧
      ∀ {G1 G2 T : Type} [AddCommGroup G1] [AddCommGroup G2] [DecidableEq G1] [DecidableEq G2] [CommMonoid T] [DecidableEq T]
        {E : Engine G1 G2 T} {e : G1 → G2 → Tˣ} (_ : PairingEngine E e) (_ : ∀ a b b', e a (b + b') = e a b * e a b')
        (u1 : RawCodec G1) (u2 : RawCodec G2) (f : Format G1 G2 r) (_ : ReadsBack f)
        (wit : pub.ty.V (ZMod r) → sec.ty.V (ZMod r) → W) (t : Toxic G1 G2 r) (_ : r • t.g1 = 0) (_ : r • t.g2 = 0) (_ : e t.g1 t.g2 ≠ 1)
        (o : Files) (_ : o.params ≠ o.vk) (setup : Cmd Unit)
        (_ : setup = setupEthereum (clientProgram K u1 u2 f E pub sec (straight cs) wit) t o ∨
          setup = setupText (clientProgram K u1 u2 f E pub sec (straight cs) wit) t o) (w w' : Cli.World) (_ : (setup.run w).1 = .ok ())
        (_ : w'.files o.vk = (setup.run w).2.files o.vk)
        (_ : ((verifyCmd (clientProgram K u1 u2 f E pub sec (straight cs) wit) o).run w').2.printed = w'.printed ++ [verdictLine true]),
        ∃ params proof inputs, generateKeys K t (generated pub.ty sec.ty (straight cs) none none none) = .ok params ∧
          ProofFiles f o w' proof inputs ∧ ∀ S : AlgebraicProver r, proof = S.proof t.g1 t.g2 params →
            (inputs.length = pub.ty.width ∧
              ∃ ins out, nativeRun cs ins (inputs ++ S.secrets pub.ty sec.ty) = some (out, [])) ∨
            (t.alpha, t.beta, t.gamma, t.delta, t.tau) ∈ bad S inputs := by
  choose bad hcard hbad using fun (S : AlgebraicProver r) (inputs : List (ZMod r)) =>
    C100_knowledge hK pub.ty sec.ty cs hquiet a0 s0 hset S inputs (hp _)
  refine ⟨bad, hcard, ?_⟩
  intro G1 G2 T _ _ _ _ _ _ E e hE hr u1 u2 f hf wit t h1 h2 hne o ho setup hs w w' hok hvk hv
  obtain ⟨params, proof, inputs, hk, hh, hver⟩ :=
    verdict_of_setup (g := clientProgram K u1 u2 f E pub sec (straight cs) wit) hE hf hset hn t o ho setup hs w w' hok hvk hv
  refine ⟨params, proof, inputs, hk, hh, fun S hS => ?_⟩
  by_cases ht : (t.alpha, t.beta, t.gamma, t.delta, t.tau) ∈ bad S inputs
  · exact .inr ht
  · rw [hS] at hver
    exact .inl (hbad S inputs hE hr t h1 h2 hne ht params hk hver)

end

/-! ### The hypotheses are met: after a session of the four commands -/

/-- A session that ends with "true" goes through worlds that meet the hypotheses about `setup` and `verify`. -/
theorem session_reaches {r : Nat} [Fact r.Prime] {G1 G2 T : Type} [AddCommGroup G1] [AddCommGroup G2] [DecidableEq G1] [DecidableEq G2]
    [One T] [DecidableEq T] {g : Program G1 G2 T r} {t : Toxic G1 G2 r} {data : g.pub.ty.V (ZMod r) × g.sec.ty.V (ZMod r)} {x y : ZMod r}
    (h : Completes g t data x y true) (o : Files) (ho : Distinct o) (setup : Cmd Unit)
    (hs : setup = setupEthereum g t o ∨ setup = setupText g t o) (w : Cli.World) (hp : w.plan = []) :
    ∃ w', (setup.run w).1 = .ok () ∧ w'.files o.vk = (setup.run w).2.files o.vk ∧
      ((verifyCmd g o).run w').2.printed = w'.printed ++ [verdictLine true] := by
  obtain ⟨h1, h2, -⟩ := h o ho setup hs w hp
  unfold session at h1 h2
  unfold Distinct at ho
  simp only [List.nodup_cons, List.mem_cons, List.not_mem_nil, or_false, not_or] at ho
  rcases e1 : setup.run w with ⟨_ | _, w1⟩
  · rw [run_bind_error e1] at h1; cases h1
  rw [run_bind_ok e1] at h1 h2
  have f2 := (C76_test_data g data o w1).1 o.vk (by simp [ho.2.1.1])
  rcases e2 : (generateTestData g data o).run w1 with ⟨_ | _, w2⟩
  · rw [run_bind_error e2] at h1; cases h1
  rw [run_bind_ok e2] at h1 h2
  rw [e2] at f2
  have f3 := (C76_prove g x y o ho.2.2.2.1 w2).1 o.vk (by simp [ho.2.1.2.1, ho.2.1.2.2])
  rcases e3 : (proveCmd g x y o).run w2 with ⟨_ | _, w3⟩
  · rw [run_bind_error e3] at h1; cases h1
  rw [run_bind_ok e3] at h1 h2
  rw [e3] at f3
  refine ⟨w3, rfl, f3.trans f2, ?_⟩
  rcases (C77_verify g o w3).2.1 with ⟨vk, proof, inputs, res, -, -, -, hpr⟩ | ⟨e, he, -⟩
  · rw [hpr] at h2 ⊢
    have := congrArg List.getLast? h2
    simp only [List.getLast?_append, List.getLast?_singleton, Option.some_or, List.getLast?_cons_cons] at this
    injection this with this
    rw [this]
    rfl
  · rw [h1] at he; cases he

/-! ### Example: the factors of 35 (Props/Session) -/

section

/-- The circuit of the example in Props/Session as a list of calls. -/
def demoCalls : List (Call bnR Unit) := [.prim (.mul 1 2), .prim (.assertEq 0 3)]

/-- What the native run of these calls says: the first number is the product of the other two. -/
theorem demoCalls_native (x y z : ZMod bnR) (ins : List (ZMod bnR)) :
    (∃ out, nativeRun demoCalls ins [x, y, z] = some (out, [])) → y * z = x := by
  rintro ⟨out, h⟩
  by_contra hne
  have : ¬ x = y * z := fun h => hne h.symm
  simp [demoCalls, nativeRun, Call.step, Call.native, Op.native, this] at h

theorem demoCalls_native_iff (x y z : ZMod bnR) :
    (∃ out, nativeRun demoCalls [] [x, y, z] = some (out, [])) ↔ y * z = x := by
  refine ⟨demoCalls_native x y z [], ?_⟩
  rintro rfl
  simp [demoCalls, nativeRun, Call.step, Call.native, Op.native]

/-- C106 for the program of Props/Session, which checks that a secret pair of numbers multiplies to a public number: a "true" on the files
of a stranger means that the numbers in the coefficients of the proof do, with few exceptions for the secrets of the setup. -/
theorem C106_factors : ∃ bad : AlgebraicProver bnR → List (ZMod bnR) → Finset (ZMod bnR × ZMod bnR × ZMod bnR × ZMod bnR × ZMod bnR),
    (∀ S inputs, (bad S inputs).card ≤ 200 * bnR ^ 4) ∧
    ∀ f, ReadsBack f → ∀ t : Toxic Demo Demo bnR, demoPairing t.g1 t.g2 ≠ 1 → ∀ o : Files, o.params ≠ o.vk → ∀ setup : Cmd Unit,
      setup = setupEthereum (demoProgram f) t o ∨ setup = setupText (demoProgram f) t o → ∀ w w' : Cli.World, (setup.run w).1 = .ok () →
      w'.files o.vk = (setup.run w).2.files o.vk → ((verifyCmd (demoProgram f) o).run w').2.printed = w'.printed ++ [verdictLine true] →
      ∃ params proof inputs, generateKeys demoK t (generated demoPub.ty demoSec.ty demoCode none none none) = .ok params ∧
        ProofFiles f o w' proof inputs ∧ ∀ S : AlgebraicProver bnR, proof = S.proof t.g1 t.g2 params →
          (∃ x, inputs = [x] ∧ S.c.l.getD 1 0 * S.c.l.getD 2 0 = x) ∨ (t.alpha, t.beta, t.gamma, t.delta, t.tau) ∈ bad S inputs := by
  obtain ⟨a0, s0, hset, h1, h2, h3⟩ : ∃ a0 s0,
      (generated demoPub.ty demoSec.ty demoCode none none none).run (CS.new .setup) = .ok (a0, s0) ∧ s0.ninputs < 2 ^ 32 ∧
      s0.cons.length ≤ 4 ∧ s0.naux ≤ 4 := by
    have h : (match (generated demoPub.ty demoSec.ty demoCode none none none).run (CS.new .setup) with
      | .ok (_, s0) => decide (s0.ninputs < 2 ^ 32 ∧ s0.cons.length ≤ 4 ∧ s0.naux ≤ 4)
      | .error _ => false) = true := by decide +kernel
    split at h
    · rename_i a0 s0 e
      exact ⟨a0, s0, e, of_decide_eq_true h⟩
    · cases h
  obtain ⟨bad, hcard, hbad⟩ := C106_native demoK_lawful demoPub demoSec demoCalls (by simp [demoCalls, Call.publishes, Op.publishes]) a0 s0 hset h1
    (fun _ _ _ _ _ => ⟨trivial, fun _ _ _ _ _ _ _ => ⟨trivial, fun _ _ _ _ _ _ _ => trivial⟩⟩)
  refine ⟨bad, fun S inputs => (hcard S inputs).trans (Nat.mul_le_mul_right _ ?_), ?_⟩
  · show 4 * (s0.cons.length + 1 + 1) * (1 + s0.naux + 3) + 8 ≤ 200
    nlinarith [Nat.mul_le_mul (show s0.cons.length + 1 + 1 ≤ 6 by omega) (show 1 + s0.naux + 3 ≤ 8 by omega)]
  · intro f hf t hne o ho setup hs w w' hok hvk hv
    have hz : ∀ g : Demo, bnR • g = 0 := fun g => by
      refine congrArg Demo.mk ?_
      show ((bnR : Nat) : ZMod bnR) * g.val = 0
      rw [ZMod.natCast_self, zero_mul]
    obtain ⟨params, proof, inputs, hk, hh, hS⟩ := hbad demoEngine_computes demoPairing_right demoRaw demoRaw f hf (fun _ _ => ()) t (hz _) (hz _) hne
      o ho setup hs w w' hok hvk hv
    refine ⟨params, proof, inputs, hk, hh, fun S e => (hS S e).imp_left ?_⟩
    rintro ⟨hl, ins, out, hr⟩
    match inputs, hl with
    | [x], _ => exact ⟨x, rfl, demoCalls_native x _ _ ins ⟨out, hr⟩⟩

/-- The three formats meet the hypothesis, and a session meets the others. -/
example : ∀ f ∈ [jsonFormat demoCoords bnR, nearFormat demoCoords bnR, wavesFormat demoCodec demoCodec bnR],
    ReadsBack f ∧ demoPairing demoToxic.g1 demoToxic.g2 ≠ 1 ∧ ∀ w : Cli.World, w.plan = [] →
      ∃ w', ((setupText (demoProgram f) demoToxic textFiles).run w).1 = .ok () ∧
        w'.files textFiles.vk = ((setupText (demoProgram f) demoToxic textFiles).run w).2.files textFiles.vk ∧
        ((verifyCmd (demoProgram f) textFiles).run w').2.printed = w'.printed ++ [verdictLine true] := by
  have hd : Distinct textFiles := by unfold Distinct; decide +kernel
  have hne : demoPairing demoToxic.g1 demoToxic.g2 ≠ 1 := by decide +kernel
  have key : ∀ f, Lossless f ∨ LosslessFinite f → ∀ w : Cli.World, w.plan = [] → _ := fun f hf w hp =>
    session_reaches (completes_of_outcome demo_true aligned_bnR demoLayouts.1 demoLayouts.2 demoRaw_lawful demoRaw_lawful hf) textFiles hd
      (setupText (demoProgram f) demoToxic textFiles) (.inr rfl) w hp
  simp only [List.forall_mem_cons, List.not_mem_nil, false_imp_iff, implies_true, and_true]
  exact ⟨⟨C106_ethereum_format demoCoords_lawful aligned_bnQ, hne, key _ (.inl (C78_ethereum_format demoCoords_lawful aligned_bnQ aligned_bnR))⟩,
    ⟨C106_near_format demoCoords_lawful, hne, key _ (.inl (C78_near_format demoCoords_lawful))⟩,
    ⟨C106_waves_format demoCodec_lawful demoCodec_lawful, hne,
      key _ (.inr (C78_waves_format demoCodec_lawful demoCodec_lawful (fun _ => of_decide_eq_true) fun _ => of_decide_eq_true))⟩⟩

end

end Fawkes.Props
