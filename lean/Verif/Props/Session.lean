import Verif.Props.Cli
import Verif.Props.Infinity
import Verif.Props.Base64
import Verif.Props.NumConv
import Verif.Props.Contract

/-!
# C78: a whole session of a generated program
-/

namespace Fawkes.Props

open Fawkes.Groth16 Fawkes.Groth16.Contract Fawkes.Cli Fawkes.Cli.Cmd Fawkes.Serde

/-! ## Formats -/

section formats

variable {G1 G2 : Type} {r : Nat}

/-- The texts of a key, a proof and a list of inputs are read back as what they are texts of. -/
structure Keeps (f : Format G1 G2 r) (vk : VK G1 G2) (proof : Proof G1 G2) (inputs : List (ZMod r)) : Prop where
  vk : ∃ t, f.vkTo vk = .ok t ∧ f.vkOf t = .ok vk
  proof : ∃ t, f.proofTo proof = .ok t ∧ f.proofOf t = .ok proof
  inputs : ∃ t, f.inputsTo inputs = .ok t ∧ f.inputsOf t = .ok inputs

/-- Points are determined by the coordinates that are written. -/
structure LawfulCoords {q : Nat} [Fact q.Prime] (c : Coords G1 G2 q) : Prop where
  g1 : ∀ g, c.into1 (g1From (c.coords1 g)) = .ok g
  g2 : ∀ g, c.into2 (g2From (c.coords2 g)) = .ok g

variable {q : Nat} [Fact q.Prime] [Fact r.Prime]

omit [Fact r.Prime] in
theorem vkFromData_vkData {c : Coords G1 G2 q} (hc : LawfulCoords c) (v : VK G1 G2) :
    vkFromData c.into1 c.into2 (c.vkData v) = .ok v := by
  have hm : ∀ l : List G1, mapE c.into1 ((l.map c.coords1).map g1From) = .ok l := by
    intro l
    induction l with
    | nil => rfl
    | cons a l ih =>
      simp only [List.map_cons, mapE]
      rw [hc.g1, ih]
      rfl
  unfold vkFromData Coords.vkData vkIntoData
  rw [hc.g1, hc.g2, hc.g2, hc.g2, hm]
  rfl

omit [Fact r.Prime] in
theorem proofFromData_proofData {c : Coords G1 G2 q} (hc : LawfulCoords c) (p : Proof G1 G2) :
    proofFromData c.into1 c.into2 (c.proofData p) = .ok p := by
  unfold proofFromData Coords.proofData proofIntoData
  rw [hc.g1, hc.g2, hc.g1]
  rfl

/-- JSON (Ethereum). -/
theorem keeps_json {c : Coords G1 G2 q} (hc : LawfulCoords c) (hq : Aligned q) (hr : Aligned r) (vk : VK G1 G2) (proof : Proof G1 G2)
    (inputs : List (ZMod r)) : Keeps (jsonFormat c r) vk proof inputs := by
  obtain ⟨t1, a1, b1⟩ := C73_vk hq (c.vkData vk)
  obtain ⟨t2, a2, b2⟩ := C73_proof hq (c.proofData proof)
  obtain ⟨t3, a3, b3⟩ := C73_inputs hr inputs
  refine ⟨⟨t1, a1, ?_⟩, ⟨t2, a2, ?_⟩, ⟨t3, a3, ?_⟩⟩
  · show (unwrapE (ofText (Serde.vkOf q) t1) >>= fun d => vkFromData c.into1 c.into2 d) = _
    rw [b1]
    exact vkFromData_vkData hc vk
  · show (unwrapE (ofText (Serde.proofOf q) t2) >>= fun d => proofFromData c.into1 c.into2 d) = _
    rw [b2]
    exact proofFromData_proofData hc proof
  · show unwrapE (ofText (vecOf (numOf r)) t3) = _
    rw [b3]; rfl

/-- Compressed points in base64 (Waves): without the point at infinity. -/
theorem keeps_waves {c1 : Codec G1} {c2 : Codec G2} (h1 : LawfulCodec c1) (h2 : LawfulCodec c2) (vk : VK G1 G2) (proof : Proof G1 G2)
    (inputs : List (ZMod r)) (hvk : NoInfinity c1 c2 vk)
    (hproof : c1.isZero proof.a = false ∧ c2.isZero proof.b = false ∧ c1.isZero proof.c = false) :
    Keeps (wavesFormat c1 c2 r) vk proof inputs := by
  refine ⟨⟨_, rfl, ?_⟩, ⟨_, rfl, ?_⟩, ⟨_, rfl, ?_⟩⟩
  · show (unwrapE (Base64.decode (Base64.encode _)) >>= fun bs => unwrapE (vkRead c1 c2 bs)) = _
    rw [C72_base64_round_trip]
    have := C54_round_trip h1 h2 vk hvk [] (by have := h1.size_pos; simpa using this)
    rw [List.append_nil] at this
    show unwrapE (vkRead c1 c2 _) = _
    rw [this]; rfl
  · show (unwrapE (Base64.decode (Base64.encode _)) >>= fun bs => unwrapE (proofRead c1 c2 bs)) = _
    rw [C72_base64_round_trip]
    have := C74_proof_round_trip h1 h2 proof hproof []
    rw [List.append_nil] at this
    show unwrapE (proofRead c1 c2 _) = _
    rw [this]; rfl
  · show (unwrapE (Base64.decode (Base64.encode _)) >>= fun bs => unwrapE (Num.readNumVec r bs)) = _
    rw [C72_base64_round_trip]
    show unwrapE (Num.readNumVec r _) = _
    rw [C51_round_trip]; rfl

/-- Borsh in base64 (Near). -/
theorem keeps_near {c : Coords G1 G2 q} (hc : LawfulCoords c) (vk : VK G1 G2) (proof : Proof G1 G2) (inputs : List (ZMod r))
    (hvk : vk.ic.length < 2 ^ 32) (hin : inputs.length < 2 ^ 32) : Keeps (nearFormat c r) vk proof inputs := by
  refine ⟨⟨_, rfl, ?_⟩, ⟨_, rfl, ?_⟩, ⟨_, rfl, ?_⟩⟩
  · show (unwrapE (Base64.decode (Base64.encode _)) >>= fun bs => unwrapE (tryFromSlice (vkDeserialize q) bs) >>= fun d =>
      vkFromData c.into1 c.into2 d) = _
    rw [C72_base64_round_trip]
    have := (C53_vk (vkSerialize (c.vkData vk)) [] (c.vkData vk)).2 ⟨by simpa [Coords.vkData, vkIntoData] using hvk, by simp⟩
    show (unwrapE (tryFromSlice (vkDeserialize q) _) >>= _) = _
    unfold tryFromSlice
    rw [this]
    exact vkFromData_vkData hc vk
  · show (unwrapE (Base64.decode (Base64.encode _)) >>= fun bs => unwrapE (tryFromSlice (proofDeserialize q) bs) >>= fun d =>
      proofFromData c.into1 c.into2 d) = _
    rw [C72_base64_round_trip]
    have := (C53_proof (proofSerialize (c.proofData proof)) [] (c.proofData proof)).2 (by simp)
    show (unwrapE (tryFromSlice (proofDeserialize q) _) >>= _) = _
    unfold tryFromSlice
    rw [this]
    exact proofFromData_proofData hc proof
  · show (unwrapE (Base64.decode (Base64.encode _)) >>= fun bs => unwrapE (tryFromSlice (vecDeserialize (Num.borshDeserialize r)) bs)) = _
    rw [C72_base64_round_trip]
    show unwrapE (tryFromSlice (vecDeserialize (Num.borshDeserialize r)) _) = _
    have hu := (u32_iff (vecSerialize Num.borshSerialize inputs) (inputs.flatMap Num.borshSerialize) inputs.length).2
      ⟨hin, by unfold vecSerialize; rw [Nat.mod_eq_of_lt hin]⟩
    have hd : ∀ l : List (ZMod r), decodeN (Num.borshDeserialize r) l.length (l.flatMap Num.borshSerialize) = some (l, []) := by
      intro l
      induction l with
      | nil => rfl
      | cons a l ih =>
        simp only [List.length_cons, decodeN, List.flatMap_cons, C49_round_trip, Option.bind_eq_bind, Option.bind_some, ih]
        rfl
    unfold tryFromSlice vecDeserialize
    simp only [hu, Option.bind_eq_bind, Option.bind_some, hd]
    rfl

/-- The text format loses nothing, whatever the points. -/
def Lossless (f : Format G1 G2 r) : Prop :=
  ∀ vk proof inputs, vk.ic.length < 2 ^ 32 → inputs.length < 2 ^ 32 → Keeps f vk proof inputs

/-- The text format loses nothing, if none of the points is infinity. -/
def LosslessFinite [Zero G1] [Zero G2] (f : Format G1 G2 r) : Prop :=
  ∀ vk proof inputs, (vk.alphaG1 ≠ 0 ∧ vk.betaG2 ≠ 0 ∧ vk.gammaG2 ≠ 0 ∧ vk.deltaG2 ≠ 0 ∧ ∀ g ∈ vk.ic, g ≠ 0) → FiniteProof proof →
    vk.ic.length < 2 ^ 32 → inputs.length < 2 ^ 32 → Keeps f vk proof inputs

/-- C78: the format of the Ethereum binding. -/
theorem C78_ethereum_format {c : Coords G1 G2 q} (hc : LawfulCoords c) (hq : Aligned q) (hr : Aligned r) : Lossless (jsonFormat c r) :=
  fun vk proof inputs _ _ => keeps_json hc hq hr vk proof inputs

/-- C78: the format of the Near binding. -/
theorem C78_near_format {c : Coords G1 G2 q} (hc : LawfulCoords c) : Lossless (nearFormat c r) :=
  fun vk proof inputs h h' => keeps_near hc vk proof inputs h h'

omit [Fact q.Prime] in
/-- C78: the format of the Waves binding. -/
theorem C78_waves_format [Zero G1] [Zero G2] {c1 : Codec G1} {c2 : Codec G2} (h1 : LawfulCodec c1) (h2 : LawfulCodec c2)
    (z1 : ∀ g, c1.isZero g = true → g = 0) (z2 : ∀ g, c2.isZero g = true → g = 0) : LosslessFinite (wavesFormat c1 c2 r) := by
  have Z1 : ∀ {g}, g ≠ 0 → c1.isZero g = false := fun {g} hg => by
    cases hz : c1.isZero g with
    | false => rfl
    | true => exact absurd (z1 g hz) hg
  have Z2 : ∀ {g}, g ≠ 0 → c2.isZero g = false := fun {g} hg => by
    cases hz : c2.isZero g with
    | false => rfl
    | true => exact absurd (z2 g hz) hg
  rintro vk proof inputs ⟨a, b, c, d, e⟩ ⟨pa, pb, pc⟩ _ _
  exact keeps_waves h1 h2 vk proof inputs ⟨Z1 a, Z2 b, Z2 c, Z2 d, fun g hg => Z1 (e g hg)⟩ ⟨Z1 pa, Z2 pb, Z1 pc⟩

end formats

/-! ## C78: sessions -/

section session

variable {G1 G2 T : Type} [AddCommGroup G1] [AddCommGroup G2] [DecidableEq G1] [DecidableEq G2] [One T] [DecidableEq T]
  {r : Nat} [Fact r.Prime]

/-- The four commands one after the other. -/
def session (setup : Cmd Unit) (g : Program G1 G2 T r) (data : g.pub.ty.V (ZMod r) × g.sec.ty.V (ZMod r)) (x y : ZMod r) (o : Files) :
    Cmd Unit := do
  setup
  generateTestData g data o
  proveCmd g x y o
  verifyCmd g o

/-- The five files are different. -/
def Distinct (o : Files) : Prop := [o.params, o.vk, o.object, o.proof, o.inputs].Nodup

/-- What a session does, in terms of the computations. -/
theorem session_run (setup : Cmd Unit) (g : Program G1 G2 T r) (t : Toxic G1 G2 r) (o : Files)
    (hsetup : setup = setupEthereum g t o ∨ setup = setupText g t o) (ho : Distinct o) (w : Cli.World) (hp : w.plan = [])
    (h1 : LawfulRaw g.raw1) (h2 : LawfulRaw g.raw2) {params : Parameters G1 G2} (hk : generateKeys g.field t (g.circuit none none) = .ok params)
    (hst : Storable g.raw1 g.raw2 params) (data : g.pub.ty.V (ZMod r) × g.sec.ty.V (ZMod r))
    (hobj : ∃ text, toText (pairTo g.pub.to g.sec.to) data = .ok text ∧ ofText (pairOf (g.pub.of r) (g.sec.of r)) text = some data)
    (x y : ZMod r) {proof : Proof G1 G2} (hpr : prove g.field params x y (g.circuit (some data.1) (some data.2)) = .ok proof)
    {inputs : List (ZMod r)} (hin : getInputs g.pub.ty (some data.1) = .ok (some inputs))
    (hkeep : Keeps g.format (truncate params.vk) proof inputs) {res : Except VerifyError Bool}
    (hv : verify g.engine (truncate params.vk) proof inputs = .ok res) :
    ((session setup g data x y o).run w).1 = .ok () ∧
    ((session setup g data x y o).run w).2.printed = w.printed ++
      [chars! "setup OK", chars! "Test data generated", chars! "Proved", verdictLine (decide (res = .ok true))] ∧
    (∀ p ∉ [o.params, o.vk, o.object, o.proof, o.inputs], ((session setup g data x y o).run w).2.files p = w.files p) := by
  obtain ⟨text, ht1, ht2⟩ := hobj
  obtain ⟨⟨vkText, kv1, kv2⟩, ⟨proofText, kp1, kp2⟩, ⟨inputsText, ki1, ki2⟩⟩ := hkeep
  unfold Distinct at ho
  simp only [List.nodup_cons, List.mem_cons, List.not_mem_nil, or_false, not_or, not_false_eq_true, List.nodup_nil, and_true] at ho
  obtain ⟨⟨d12, d13, d14, d15⟩, ⟨d23, d24, d25⟩, ⟨d34, d35⟩, d45⟩ := ho
  -- setup
  have hS : Honest [o.params, o.vk] (chars! "setup OK") (SetupFiles g t o) w (setup.run w) ∧ (setup.run w).1 = .ok () ∧
      (setup.run w).2.plan = [] := by
    have hc := C76_setup_calm g t o d12 w hp params hk vkText kv1
    rcases hsetup with rfl | rfl
    · exact ⟨C76_setup_ethereum g t o d12 w, hc.1⟩
    · exact ⟨C76_setup_text g t o d12 w, hc.2⟩
  obtain ⟨⟨sf, hS⟩, sok, sp⟩ := hS
  have hS : (setup.run w).2.printed = w.printed ++ [chars! "setup OK"] ∧ SetupFiles g t o (setup.run w).2 := by
    rcases hS with ⟨-, a, b⟩ | ⟨e, a, -⟩
    · exact ⟨a, b⟩
    · rw [sok] at a; cases a
  obtain ⟨spr, params', vkText', hk', hv', sparams, svk⟩ := hS
  rw [hk] at hk'; injection hk' with hk'; subst hk'
  rw [kv1] at hv'; injection hv' with hv'; subst hv'
  cases e1 : setup.run w with
  | mk res1 w1 =>
  rw [e1] at sok sp sf spr sparams svk
  cases sok
  -- test data
  obtain ⟨tok, tp⟩ := C76_test_data_calm g data o w1 sp text ht1
  obtain ⟨tf, hT⟩ := C76_test_data g data o w1
  have hT : ((generateTestData g data o).run w1).2.printed = w1.printed ++ [chars! "Test data generated"] ∧
      ((generateTestData g data o).run w1).2.files o.object = some (intoBytes text) := by
    rcases hT with ⟨-, a, text', ht', b⟩ | ⟨e, a, -⟩
    · rw [ht1] at ht'; injection ht' with ht'; subst ht'
      exact ⟨a, b⟩
    · rw [tok] at a; cases a
  obtain ⟨tpr, tobj⟩ := hT
  cases e2 : (generateTestData g data o).run w1 with
  | mk res2 w2 =>
  rw [e2] at tok tp tf tpr tobj
  cases tok
  have fparams : w2.files o.params = some (paramsBytes g.raw1 g.raw2 params) := by
    rw [← sparams]; exact tf _ (by simpa using d13)
  have fvk : w2.files o.vk = some (intoBytes vkText) := by
    rw [← svk]; exact tf _ (by simpa using d23)
  -- prove
  have hread := C74_params_round_trip h1 h2 false params hst []
  rw [List.append_nil] at hread
  obtain ⟨pok, pp⟩ := C76_prove_calm g x y o d45 w2 tp fparams hread tobj ht2 hpr hin kp1 ki1
  obtain ⟨pf, hP⟩ := C76_prove g x y o d45 w2
  have hP : ((proveCmd g x y o).run w2).2.printed = w2.printed ++ [chars! "Proved"] ∧
      ((proveCmd g x y o).run w2).2.files o.proof = some (intoBytes proofText) ∧
      ((proveCmd g x y o).run w2).2.files o.inputs = some (intoBytes inputsText) := by
    rcases hP with ⟨-, a, bytes, rest, params', object, p, s, proof', inputs', pt, it, c1, c2, c3, c4, c5, c6, c7, c8, c9, c10⟩ | ⟨e, a, -⟩
    · rw [fparams] at c1; injection c1 with c1; subst c1
      rw [hread] at c2; injection c2 with c2; injection c2 with c2 _; subst c2
      rw [tobj] at c3; injection c3 with c3; subst c3
      rw [fromUtf8_intoBytes, Option.bind_some, ht2] at c4; injection c4 with c4
      subst c4
      rw [hpr] at c5; injection c5 with c5; subst c5
      rw [hin] at c6; injection c6 with c6; injection c6 with c6; subst c6
      rw [kp1] at c7; injection c7 with c7; subst c7
      rw [ki1] at c8; injection c8 with c8; subst c8
      exact ⟨a, c9, c10⟩
    · rw [pok] at a; cases a
  obtain ⟨ppr, pproof, pinputs⟩ := hP
  cases e3 : (proveCmd g x y o).run w2 with
  | mk res3 w3 =>
  rw [e3] at pok pp pf ppr pproof pinputs
  cases pok
  have fvk3 : w3.files o.vk = some (intoBytes vkText) := by
    rw [← fvk]; exact pf _ (by simpa using ⟨d24, d25⟩)
  -- verify
  have hold : FilesHold g o w3 (truncate params.vk) proof inputs :=
    ⟨vkText, proofText, inputsText, ⟨_, fvk3, fromUtf8_intoBytes _⟩, ⟨_, pproof, fromUtf8_intoBytes _⟩, ⟨_, pinputs, fromUtf8_intoBytes _⟩,
      kv2, kp2, ki2⟩
  obtain ⟨vf, hV, hVc⟩ := C77_verify g o w3
  have vok := hVc pp _ _ _ _ hold hv
  have hV : ((verifyCmd g o).run w3).2.printed = w3.printed ++ [verdictLine (decide (res = .ok true))] := by
    rcases hV with ⟨vk', proof', inputs', res', hh, hv', -, hpr'⟩ | ⟨e, a, -⟩
    · obtain ⟨rfl, rfl, rfl⟩ := filesHold_unique hold hh
      rw [hv] at hv'; injection hv' with hv'; subst hv'
      exact hpr'
    · rw [vok] at a; cases a
  have hrun : (session setup g data x y o).run w = (verifyCmd g o).run w3 := by
    unfold session
    rw [run_bind_ok e1, run_bind_ok e2, run_bind_ok e3]
  rw [hrun]
  refine ⟨vok, ?_, fun p hp => ?_⟩
  · rw [hV, ppr, tpr, spr]
    simp
  · simp only [List.mem_cons, List.not_mem_nil, or_false, not_or] at hp
    obtain ⟨n1, n2, n3, n4, n5⟩ := hp
    rw [vf]
    exact (pf p (by simpa using ⟨n4, n5⟩)).trans ((tf p (by simpa using n3)).trans (sf p (by simpa using ⟨n1, n2⟩)))

end session

section client

variable {r : Nat} [Fact r.Prime] {W : Type}

/-- A program generated for a circuit that is written with the signal API: `code` is the circuit, `wit` what it computes from the data
besides the signals. -/
def clientProgram {G1 G2 T : Type} (K : TwoAdic (ZMod r)) (u1 : RawCodec G1) (u2 : RawCodec G2) (f : Format G1 G2 r) (E : Engine G1 G2 T)
    (pub sec : Layout) (code : Code r W) (wit : pub.ty.V (ZMod r) → sec.ty.V (ZMod r) → W) : Program G1 G2 T r :=
  ⟨K, u1, u2, f, E, pub, sec, fun p q => generated pub.ty sec.ty code (match p, q with | some p, some q => some (wit p q) | _, _ => none) p q⟩

/-- The uncompressed encoding of points that the parameter files use: it can be read back, and only the point at infinity is taken for
it. -/
structure LawfulRawZero {G : Type} [Zero G] (u : RawCodec G) : Prop extends LawfulRaw u where
  zero : ∀ g, u.isZero g = true → g = 0

/-- The session succeeds, prints its four lines, the last one the verdict, and changes no other files. -/
def Completes {G1 G2 T : Type} [AddCommGroup G1] [AddCommGroup G2] [DecidableEq G1] [DecidableEq G2] [One T] [DecidableEq T]
    (g : Program G1 G2 T r) (t : Toxic G1 G2 r) (data : g.pub.ty.V (ZMod r) × g.sec.ty.V (ZMod r)) (x y : ZMod r) (verdict : Bool) : Prop :=
  ∀ o : Files, Distinct o → ∀ setup : Cmd Unit, setup = setupEthereum g t o ∨ setup = setupText g t o → ∀ w : Cli.World, w.plan = [] →
    ((session setup g data x y o).run w).1 = .ok () ∧
    ((session setup g data x y o).run w).2.printed = w.printed ++
      [chars! "setup OK", chars! "Test data generated", chars! "Proved",
        if verdict then chars! "Verify result is true." else chars! "Verify result is false."] ∧
    ∀ p ∉ [o.params, o.vk, o.object, o.proof, o.inputs], ((session setup g data x y o).run w).2.files p = w.files p

theorem storable_of_finite {G1 G2 : Type} [AddCommGroup G1] [AddCommGroup G2] [DecidableEq G1] [DecidableEq G2] {K : TwoAdic (ZMod r)}
    {t : Toxic G1 G2 r} {s : CS (ZMod r)} {params : Parameters G1 G2} (hk : generateParameters K t s = .ok params)
    (hn : 1 ≤ s.ninputs) (hsize : 2 * (s.cons.length + s.ninputs) ≤ 2 ^ 32 ∧ s.ninputs + s.naux < 2 ^ 32) (hf : FiniteParameters params)
    {u1 : RawCodec G1} {u2 : RawCodec G2} (h1 : LawfulRawZero u1) (h2 : LawfulRawZero u2) : Storable u1 u2 params := by
  have Z1 : ∀ {g}, g ≠ 0 → u1.isZero g = false := fun {g} hg => by
    cases hz : u1.isZero g with
    | false => rfl
    | true => exact absurd (h1.zero g hz) hg
  have Z2 : ∀ {g}, g ≠ 0 → u2.isZero g = false := fun {g} hg => by
    cases hz : u2.isZero g with
    | false => rfl
    | true => exact absurd (h2.zero g hz) hg
  obtain ⟨-, -, -, D, hD, rfl, -⟩ := generateParameters_ok hk
  have hlen : (rows s).length = s.cons.length + s.ninputs := by simp [rows]
  have hm : D.m ≤ 2 * (rows s).length := domain_le (by omega) hD
  rw [hlen] at hm
  obtain ⟨-, hl, hb2⟩ := hf
  refine ⟨fun l hlm => ⟨?_, fun g hg => Z1 (hl l hlm g hg)⟩, ?_, fun g hg => Z2 (hb2 g hg)⟩
  · simp only [List.mem_cons, List.not_mem_nil, or_false] at hlm
    rcases hlm with rfl | rfl | rfl | rfl | rfl
    · simp [keysOf, inputVars]; omega
    · simp [keysOf]; omega
    · simp [keysOf, auxVars]; omega
    · refine lt_of_le_of_lt (List.length_filter_le _ _) ?_
      simp [inputVars, auxVars]; omega
    · refine lt_of_le_of_lt (List.length_filter_le _ _) ?_
      simp [inputVars, auxVars]; omega
  · refine lt_of_le_of_lt (List.length_filter_le _ _) ?_
    simp [inputVars, auxVars]; omega

theorem verify_length {G1 G2 T : Type} [AddCommGroup G1] [One T] [DecidableEq T] {E : Engine G1 G2 T} {tvk : VK G1 G2} {proof : Proof G1 G2}
    {inputs : List (ZMod r)} {b : Bool} (h : verify E tvk proof inputs = .ok (.ok b)) : inputs.length + 1 = tvk.ic.length := by
  by_contra hne
  unfold verify at h
  rw [if_pos hne] at h
  cases h

/-- A session with sound keys. -/
theorem completes_of {G1 G2 T : Type} [AddCommGroup G1] [AddCommGroup G2] [DecidableEq G1] [DecidableEq G2] [CommMonoid T] [DecidableEq T]
    {K : TwoAdic (ZMod r)} {pub sec : Layout} {code : Code r W} {a0 : pub.ty.S (ZMod r)} {s0 : CS (ZMod r)}
    (hset : (generated pub.ty sec.ty code none none none).run (CS.new .setup) = .ok (a0, s0))
    (hsize : 2 * (s0.cons.length + s0.ninputs) ≤ 2 ^ 32 ∧ s0.ninputs + s0.naux < 2 ^ 32)
    (hr : Aligned r) (hpub : Layout.Named pub ∧ Layout.depth pub ≤ 126) (hsec : Layout.Named sec ∧ Layout.depth sec ≤ 126)
    {u1 : RawCodec G1} {u2 : RawCodec G2} (h1 : LawfulRawZero u1) (h2 : LawfulRawZero u2) (f : Format G1 G2 r) (E : Engine G1 G2 T)
    (wit : pub.ty.V (ZMod r) → sec.ty.V (ZMod r) → W) (t : Toxic G1 G2 r) {params : Parameters G1 G2}
    (hk : generateKeys K t (generated pub.ty sec.ty code none none none) = .ok params) (hf : FiniteParameters params)
    (data : pub.ty.V (ZMod r) × sec.ty.V (ZMod r)) (x y : ZMod r) {proof : Proof G1 G2}
    (hpr : prove K params x y (generated pub.ty sec.ty code (some (wit data.1 data.2)) (some data.1) (some data.2)) = .ok proof)
    {inputs : List (ZMod r)} (hin : getInputs pub.ty (some data.1) = .ok (some inputs))
    (hkeep : (truncate params.vk).ic.length < 2 ^ 32 → inputs.length < 2 ^ 32 → Keeps f (truncate params.vk) proof inputs) {b : Bool}
    (hv : verify E (truncate params.vk) proof inputs = .ok (.ok b)) :
    Completes (clientProgram K u1 u2 f E pub sec code wit) t data x y b := by
  intro o ho setup hsetup w hp
  have hk0 := hk
  unfold generateKeys at hk0
  rw [hset] at hk0
  have hst := storable_of_finite hk0 (ninputs_pos hset) hsize hf h1 h2
  have hl : (truncate params.vk).ic.length < 2 ^ 32 := (hst.1 params.vk.ic (by simp)).1
  have hil := verify_length hv
  have := session_run setup (clientProgram K u1 u2 f E pub sec code wit) t o hsetup ho w hp h1.toLawfulRaw h2.toLawfulRaw hk hst data
    (C73_object hr pub sec hpub.1 hsec.1 hpub.2 hsec.2 data) x y hpr hin (hkeep hl (by omega)) hv
  have e : verdictLine (decide ((.ok b : Except VerifyError Bool) = .ok true)) =
      if b then chars! "Verify result is true." else chars! "Verify result is false." := by
    cases b <;> decide +kernel
  rw [e] at this
  exact this

theorem finite_vk {G1 G2 : Type} [AddCommGroup G1] [AddCommGroup G2] {params : Parameters G1 G2} (hf : FiniteParameters params) :
    (truncate params.vk).alphaG1 ≠ 0 ∧ (truncate params.vk).betaG2 ≠ 0 ∧ (truncate params.vk).gammaG2 ≠ 0 ∧
      (truncate params.vk).deltaG2 ≠ 0 ∧ ∀ g ∈ (truncate params.vk).ic, g ≠ 0 :=
  ⟨hf.1.1, hf.1.2.2.1, hf.1.2.2.2.1, hf.1.2.2.2.2.2, hf.2.1 params.vk.ic (by simp)⟩

/-- C78: setup, test data, proof and verification of a generated program, on a disk without faults and on data that satisfy the
circuit, end with the verdict "true", except for few random choices of the setup; and, with compressed points, of the prover. -/
theorem C78_true {K : TwoAdic (ZMod r)} (hK : LawfulTwoAdic K) (hr : Aligned r) (pub sec : Layout) (hpub : Layout.Named pub ∧ Layout.depth pub ≤ 126)
    (hsec : Layout.Named sec ∧ Layout.depth sec ≤ 126) (code : Code r W) (hw : code.WidthsFit) (hc : code.Quiet) (a0 : pub.ty.S (ZMod r)) (s0 : CS (ZMod r))
    (hset : (generated pub.ty sec.ty code none none none).run (CS.new .setup) = .ok (a0, s0)) (hone : ConstantOnRight s0)
    (hsize : 2 * (s0.cons.length + s0.ninputs) ≤ 2 ^ 32 ∧ s0.ninputs + s0.naux < 2 ^ 32) :
    ∃ bad : Finset (ZMod r), bad.card ≤ 2 * (s0.cons.length + s0.ninputs) * (2 * (s0.ninputs + s0.naux) + 1) ∧
      ∀ tau ∉ bad, ∀ alpha ≠ 0, ∃ bad' : Finset (ZMod r), bad'.card ≤ s0.ninputs + 1 ∧
        ∀ {G1 G2 T : Type} [AddCommGroup G1] [AddCommGroup G2] [DecidableEq G1] [DecidableEq G2] [CommMonoid T] [DecidableEq T]
          {E : Engine G1 G2 T} {e : G1 → G2 → Tˣ} (_ : PairingEngine E e) (_ : ∀ a b b', e a (b + b') = e a b * e a b')
          {u1 : RawCodec G1} {u2 : RawCodec G2} (_ : LawfulRawZero u1) (_ : LawfulRawZero u2) (f : Format G1 G2 r)
          (wit : pub.ty.V (ZMod r) → sec.ty.V (ZMod r) → W) (t : Toxic G1 G2 r) (_ : r • t.g1 = 0) (_ : r • t.g2 = 0) (_ : t.g1 ≠ 0)
          (_ : t.g2 ≠ 0) (_ : t.tau = tau) (_ : t.alpha = alpha) (_ : t.beta ∉ bad') (params : Parameters G1 G2)
          (_ : generateKeys K t (generated pub.ty sec.ty code none none none) = .ok params)
          (data : pub.ty.V (ZMod r) × sec.ty.V (ZMod r)) (_ : pub.ty.okV (ZMod r) data.1) (a : pub.ty.S (ZMod r)) (s : CS (ZMod r))
          (_ : (generated pub.ty sec.ty code (some (wit data.1 data.2)) (some data.1) (some data.2)).run (CS.new .prove) = .ok (a, s))
          (_ : s.Sat s.assign),
          (Lossless f → ∀ x y, Completes (clientProgram K u1 u2 f E pub sec code wit) t data x y true) ∧
          (LosslessFinite f → ∃ y0, ∀ y ≠ y0, ∃ bad'' : Finset (ZMod r), bad''.card ≤ 2 ∧ ∀ x ∉ bad'',
            Completes (clientProgram K u1 u2 f E pub sec code wit) t data x y true) := by
  obtain ⟨bad, hcard, hbad⟩ := cleanSetup_few hK (ninputs_pos hset)
  refine ⟨bad, hcard, fun tau ht alpha ha => ?_⟩
  obtain ⟨bad', hcard', hbad'⟩ := parameters_of_clean hset (hbad tau ht) ha
  refine ⟨bad', hcard', ?_⟩
  intro G1 G2 T _ _ _ _ _ _ E e hE hri u1 u2 h1 h2 f wit t o1 o2 n1 n2 e1 e2 hb params hk data hp a s h hs
  have hf := hbad' t o1 o2 n1 n2 e1 e2 hb params hk
  subst e1
  have key : ∀ x y, (∀ proof inputs, prove K params x y (generated pub.ty sec.ty code (some (wit data.1 data.2)) (some data.1) (some data.2)) =
      .ok proof → (truncate params.vk).ic.length < 2 ^ 32 → inputs.length < 2 ^ 32 → Keeps f (truncate params.vk) proof inputs) →
      Completes (clientProgram K u1 u2 f E pub sec code wit) t data x y true := by
    intro x y hkeep
    obtain ⟨proof, inputs, hpr, hin, hv⟩ := accepts_of_clean hK hw hc hset hone hE hri o1 o2 n1 n2 (hbad _ ht) hk hp h hs x y
    exact completes_of hset hsize hr hpub hsec h1 h2 f E wit t hk hf data x y hpr hin (hkeep proof inputs hpr) hv
  refine ⟨fun hl x y => key x y fun proof inputs _ => hl _ proof inputs, fun hl => ?_⟩
  obtain ⟨y0, hy0⟩ := proof_of_clean hK hw hc hset o1 o2 n1 n2 (hbad _ ht) hk hp (wit data.1 data.2) data.2
  refine ⟨y0, fun y hy => ?_⟩
  obtain ⟨bad'', hcard'', hbad''⟩ := hy0 y hy
  exact ⟨bad'', hcard'', fun x hx => key x y fun proof inputs hpr => hl _ proof inputs (finite_vk hf) (hbad'' x hx proof hpr)⟩

/-- C78: on data that do not satisfy the circuit such a session ends with the verdict "false", if a proof can be made at all. -/
theorem C78_false {K : TwoAdic (ZMod r)} (hK : LawfulTwoAdic K) (hr : Aligned r) (pub sec : Layout) (hpub : Layout.Named pub ∧ Layout.depth pub ≤ 126)
    (hsec : Layout.Named sec ∧ Layout.depth sec ≤ 126) (code : Code r W) (hw : code.WidthsFit) (hc : code.Quiet) (a0 : pub.ty.S (ZMod r))
    (s0 : CS (ZMod r)) (hset : (generated pub.ty sec.ty code none none none).run (CS.new .setup) = .ok (a0, s0)) (hone : ConstantOnRight s0)
    (hsize : 2 * (s0.cons.length + s0.ninputs) ≤ 2 ^ 32 ∧ s0.ninputs + s0.naux < 2 ^ 32)
    (wit : pub.ty.V (ZMod r) → sec.ty.V (ZMod r) → W) (data : pub.ty.V (ZMod r) × sec.ty.V (ZMod r)) (hp : pub.ty.okV (ZMod r) data.1)
    (a : pub.ty.S (ZMod r)) (s : CS (ZMod r))
    (h : (generated pub.ty sec.ty code (some (wit data.1 data.2)) (some data.1) (some data.2)).run (CS.new .prove) = .ok (a, s))
    (hs : ¬ s.Sat s.assign) :
    ∃ bad : Finset (ZMod r), bad.card ≤ 2 * (s.cons.length + s.ninputs) * (2 * (s.ninputs + s.naux) + 1) +
        2 * (s.cons.length + s.ninputs) * (2 * (s.ninputs + s.naux) + 3) ∧
      ∀ tau ∉ bad, ∀ alpha ≠ 0, ∃ bad' : Finset (ZMod r), bad'.card ≤ s.ninputs + 1 ∧
        ∀ {G1 G2 T : Type} [AddCommGroup G1] [AddCommGroup G2] [DecidableEq G1] [DecidableEq G2] [CommMonoid T] [DecidableEq T]
          {E : Engine G1 G2 T} {e : G1 → G2 → Tˣ} (_ : PairingEngine E e) (_ : ∀ a b b', e a (b + b') = e a b * e a b')
          {u1 : RawCodec G1} {u2 : RawCodec G2} (_ : LawfulRawZero u1) (_ : LawfulRawZero u2) (f : Format G1 G2 r)
          (t : Toxic G1 G2 r) (_ : r • t.g1 = 0) (_ : r • t.g2 = 0) (_ : e t.g1 t.g2 ≠ 1)
          (_ : t.tau = tau) (_ : t.alpha = alpha) (_ : t.beta ∉ bad') (params : Parameters G1 G2)
          (_ : generateKeys K t (generated pub.ty sec.ty code none none none) = .ok params),
          (Lossless f → ∀ x y, Completes (clientProgram K u1 u2 f E pub sec code wit) t data x y false) ∧
          (LosslessFinite f → ∃ y0, ∀ y ≠ y0, ∃ bad'' : Finset (ZMod r), bad''.card ≤ 2 ∧ ∀ x ∉ bad'',
            Completes (clientProgram K u1 u2 f E pub sec code wit) t data x y false) := by
  classical
  obtain ⟨hi, ha', hcons, -⟩ := shape_of_run hw hset h
  have hl0 : s0.cons.length = s.cons.length := by simpa using (congrArg List.length hcons).symm
  obtain ⟨bad1, hcard1, hbad1⟩ := cleanSetup_few hK (ninputs_pos hset)
  obtain ⟨bad2, hcard2, hbad2⟩ := C67_rejects hK pub.ty sec.ty code hw hc (wit data.1 data.2) data.1 hp data.2 a s h hs
  rw [hl0, ← hi, ← ha'] at hcard1
  refine ⟨bad1 ∪ bad2, (Finset.card_union_le _ _).trans (Nat.add_le_add hcard1 hcard2), fun tau ht alpha ha => ?_⟩
  rw [Finset.mem_union, not_or] at ht
  obtain ⟨ht1, ht2⟩ := ht
  obtain ⟨bad', hcard', hbad'⟩ := parameters_of_clean hset (hbad1 tau ht1) ha
  refine ⟨bad', by rw [hi]; exact hcard', ?_⟩
  intro G1 G2 T _ _ _ _ _ _ E e hE hri u1 u2 h1 h2 f t o1 o2 hne e1 e2 hb params hk
  obtain ⟨n1, n2⟩ := generators_ne hE.add_left hri hne
  have hf := hbad' t o1 o2 n1 n2 e1 e2 hb params hk
  subst e1
  have key : ∀ x y, (∀ proof inputs, prove K params x y (generated pub.ty sec.ty code (some (wit data.1 data.2)) (some data.1) (some data.2)) =
      .ok proof → (truncate params.vk).ic.length < 2 ^ 32 → inputs.length < 2 ^ 32 → Keeps f (truncate params.vk) proof inputs) →
      Completes (clientProgram K u1 u2 f E pub sec code wit) t data x y false := by
    intro x y hkeep
    obtain ⟨D, -, -, hout⟩ := prove_outcome_of_clean hw hc hset o1 o2 n1 n2 (hbad1 _ ht1) hk hp h
    have hpr := (hout x y).1.trans ((hout x y).2.1 hone)
    obtain ⟨inputs, hin, hv⟩ := hbad2 hE hri t o1 o2 hne ht2 params hk x y _ hpr
    exact completes_of hset hsize hr hpub hsec h1 h2 f E wit t hk hf data x y hpr hin (hkeep _ inputs hpr) hv
  refine ⟨fun hl x y => key x y fun proof inputs _ => hl _ proof inputs, fun hl => ?_⟩
  obtain ⟨y0, hy0⟩ := proof_of_clean hK hw hc hset o1 o2 n1 n2 (hbad1 _ ht1) hk hp (wit data.1 data.2) data.2
  refine ⟨y0, fun y hy => ?_⟩
  obtain ⟨bad'', hcard'', hbad''⟩ := hy0 y hy
  exact ⟨bad'', hcard'', fun x hx => key x y fun proof inputs hpr => hl _ proof inputs (finite_vk hf) (hbad'' x hx proof hpr)⟩

end client

/-! ## The groups of BN256 -/

section coords

/-- Coordinates of a point of a curve, as the external crate keeps them. -/
def affineOf {L : Type} [Field L] {b : L} : PointsOf b → Affine L
  | .zero => ⟨0, 1, true⟩
  | .some x y _ => ⟨x, y, false⟩

theorem affinePoint_affineOf {L : Type} [Field L] {b : L} (P : PointsOf b) : affinePoint (affineOf P) = coords P := by
  cases P <;> rfl

/-- The groups of BN256 with the conversions of src/helpers/groth16/mod.rs:109-163. -/
noncomputable def bnCoords : Coords E1 E2 bnQ where
  coords1 := affineOf
  coords2 := affineOf
  into1 d := (g1Into bnB d).map (toGroup bnB)
  into2 d := (g2Into bnB2 d).map (toGroup bnB2)

/-- C78: the conversions of BN256 points are as the formats need them. -/
theorem C78_bn256_coords : LawfulCoords bnCoords where
  g1 P := by
    have hon : Groth16.OnCurve bnB (affinePoint (affineOf P)) := by
      cases P with
      | zero => trivial
      | some x y hxy => exact (nonsingular_iff two_ne_zero_bnQ three_ne_zero_bnQ bnB_ne_zero x y).1 hxy
    obtain ⟨a, ha, hP⟩ := (g1Into_iff (g1From (affineOf P)) P).2 (by rw [C52_g1_from bnB_ne_zero _ hon, affinePoint_affineOf])
    show (g1Into bnB (g1From (affineOf P))).map (toGroup bnB) = _
    rw [ha]
    exact congrArg _ hP
  g2 P := by
    have hon : Groth16.OnCurve bnB2 (affinePoint (affineOf P)) := by
      cases P with
      | zero => trivial
      | some x y hxy => exact (nonsingular_iff two_ne_zero_fq2 three_ne_zero_fq2 bnB2_ne_zero x y).1 hxy
    obtain ⟨a, ha, hP⟩ := (g2Into_iff (g2From (affineOf P)) P).2 (by rw [C52_g2_from bnB2_ne_zero _ hon, affinePoint_affineOf])
    show (g2Into bnB2 (g2From (affineOf P))).map (toGroup bnB2) = _
    rw [ha]
    exact congrArg _ hP

end coords

/-! ## A program computed -/

section demo

/-- A root of unity of order 32 of the scalar field of BN256. -/
def demoK : TwoAdic (ZMod bnR) :=
  ⟨5, ((4419234939496763621076330863786513495701855246241724391626358375488475697872 : Nat) : ZMod bnR), ((7 : Nat) : ZMod bnR)⟩

theorem demoK_lawful : LawfulTwoAdic demoK := by
  have h := lawful_of_cert (r := bnR) 5 7 256 (by decide) (by decide +kernel) (by decide +kernel) (by decide +kernel) (by decide +kernel)
    (by decide +kernel) (by decide +kernel) (by decide +kernel)
  have e : powMod bnR 256 7 ((bnR - 1) / 2 ^ 5) = 4419234939496763621076330863786513495701855246241724391626358375488475697872 := by
    decide +kernel
  unfold demoK
  rw [← e, powMod_eq _ _ _ _ (by decide +kernel), ZMod.natCast_mod, Nat.cast_pow]
  exact h

/-- The additive group of the field, as a group of points. -/
structure Demo where
  val : ZMod bnR

theorem demo_injective : Function.Injective Demo.val := fun a b h => by cases a; cases b; cases h; rfl

instance : DecidableEq Demo := fun a b => decidable_of_iff (a.val = b.val) demo_injective.eq_iff
instance : Zero Demo := ⟨⟨0⟩⟩
instance : Add Demo := ⟨fun a b => ⟨a.val + b.val⟩⟩
instance : Neg Demo := ⟨fun a => ⟨-a.val⟩⟩
instance : Sub Demo := ⟨fun a b => ⟨a.val - b.val⟩⟩
instance : SMul ℕ Demo := ⟨fun n a => ⟨(n : ZMod bnR) * a.val⟩⟩
instance : SMul ℤ Demo := ⟨fun n a => ⟨(n : ZMod bnR) * a.val⟩⟩

instance : AddCommGroup Demo :=
  demo_injective.addCommGroup Demo.val rfl (fun _ _ => rfl) (fun _ => rfl) (fun _ _ => rfl) (fun a n => (nsmul_eq_mul n a.val).symm)
    (fun a n => (zsmul_eq_mul a.val n).symm)

/-- Its pairing with itself. -/
def demoPairing (a b : Demo) : (Multiplicative (ZMod bnR))ˣ := toUnits (Multiplicative.ofAdd (a.val * b.val))

def demoEngine : Engine Demo Demo (Multiplicative (ZMod bnR)) where
  millerLoop l := ((l.map fun q => demoPairing q.1 q.2).prod : (Multiplicative (ZMod bnR))ˣ)
  finalExponentiation t := some t

theorem demoEngine_computes : PairingEngine demoEngine demoPairing where
  product _ := rfl
  add_left a a' b := by
    unfold demoPairing
    rw [← map_mul, ← ofAdd_add, ← add_mul]
    rfl

theorem demoPairing_right (a b b' : Demo) : demoPairing a (b + b') = demoPairing a b * demoPairing a b' := by
  unfold demoPairing
  rw [← map_mul, ← ofAdd_add, ← mul_add]
  rfl

/-- Points as 32 bytes. -/
def demoRaw : RawCodec Demo where
  size := 32
  encode g := Num.borshSerialize g.val
  decode bs := (tryFromSlice (Num.borshDeserialize bnR) bs).map Demo.mk
  decodeUnchecked bs := (tryFromSlice (Num.borshDeserialize bnR) bs).map Demo.mk
  isZero g := decide (g = 0)

theorem demo_decode (g : Demo) : (tryFromSlice (Num.borshDeserialize bnR) (Num.borshSerialize g.val)).map Demo.mk = some g := by
  have := C49_round_trip g.val []
  rw [List.append_nil] at this
  unfold tryFromSlice
  rw [this]
  rfl

theorem demo_length (g : Demo) : (Num.borshSerialize g.val).length = 32 := by
  unfold Num.borshSerialize; rw [writeLE_length, intoRepr_length]; decide +kernel

theorem demoRaw_lawful : LawfulRawZero demoRaw := by
  refine ⟨⟨?_, ?_, ?_⟩, ?_⟩ <;> intro g <;> unfold demoRaw <;> dsimp only
  · exact demo_length g
  · exact demo_decode g
  · exact demo_decode g
  · exact of_decide_eq_true

/-- The same for compressed points. -/
def demoCodec : Codec Demo where
  size := 32
  encode g := Num.borshSerialize g.val
  decode bs := (tryFromSlice (Num.borshDeserialize bnR) bs).map Demo.mk
  isZero g := decide (g = 0)

theorem demoCodec_lawful : LawfulCodec demoCodec := by
  refine ⟨by decide, ?_, ?_⟩ <;> intro g <;> unfold demoCodec <;> dsimp only
  · exact demo_length g
  · exact demo_decode g

/-- Made-up coordinates. -/
def demoCoords : Coords Demo Demo bnQ where
  coords1 g := ⟨(g.val.val : ZMod bnQ), 0, false⟩
  coords2 g := ⟨⟨(g.val.val : ZMod bnQ), 0⟩, 0, false⟩
  into1 d := .ok ⟨(d.p0.val : ZMod bnR)⟩
  into2 d := .ok ⟨(d.p0.2.val : ZMod bnR)⟩

theorem demo_coordinate (g : ZMod bnR) : (((g.val : ZMod bnQ)).val : ZMod bnR) = g := by
  rw [ZMod.val_natCast, Nat.mod_eq_of_lt (lt_trans (ZMod.val_lt g) (by decide +kernel)), ZMod.natCast_zmod_val]

theorem demoCoords_lawful : LawfulCoords demoCoords where
  g1 g := congrArg (fun x => Except.ok (Demo.mk x)) (demo_coordinate g.val)
  g2 g := congrArg (fun x => Except.ok (Demo.mk x)) (demo_coordinate g.val)

/-- Public: a number.  Secret: two factors of it. -/
def demoCode : Code bnR Unit :=
  .call (.prim (.mul 1 2)) fun _ => .call (.prim (.assertEq 0 3)) fun _ => .done

theorem demoCode_fits : demoCode.WidthsFit ∧ demoCode.Quiet := by
  constructor
  · simp [demoCode, Code.WidthsFit, Call.WidthsFit]
  · simp [demoCode, Code.Quiet, Call.publishes, Op.publishes]

def demoToxic : Toxic Demo Demo bnR := ⟨⟨1⟩, ⟨1⟩, 3, 4, 5, 6, 7⟩

def demoPub : Layout := .num
def demoSec : Layout := .pair .num .num

/-- Keys exist. -/
example : (generateKeys demoK demoToxic (generated demoPub.ty demoSec.ty demoCode none none none)).isOk = true := by
  decide +kernel

/-- The circuit with data. -/
def demoCircuit (p : ZMod bnR) (q : ZMod bnR × ZMod bnR) : M (ZMod bnR) (CNum (ZMod bnR)) :=
  generated demoPub.ty demoSec.ty demoCode (some ()) (some p) (some q)

/-- The hypotheses of `C78_true` about the circuit and the right factors of 35, and those of `C78_false` about wrong ones. -/
example :
    (let s0 := finalState (generated demoPub.ty demoSec.ty demoCode none none none) (CS.new .setup)
     2 * (s0.cons.length + s0.ninputs) ≤ 2 ^ 32 ∧ s0.ninputs + s0.naux < 2 ^ 32) ∧
    ((demoCircuit 35 (5, 7)).run (CS.new .prove)).isOk = true ∧ ((demoCircuit 35 (5, 8)).run (CS.new .prove)).isOk = true ∧
    (let s := finalState (demoCircuit 35 (5, 7)) (CS.new .prove)
     ∀ c ∈ s.cons, c.a.lc.eval s.assign * c.b.lc.eval s.assign = c.c.lc.eval s.assign) ∧
    (let s := finalState (demoCircuit 35 (5, 8)) (CS.new .prove)
     ¬ ∀ c ∈ s.cons, c.a.lc.eval s.assign * c.b.lc.eval s.assign = c.c.lc.eval s.assign) := by
  decide +kernel

/-- The three bindings of the program. -/
def demoProgram (f : Format Demo Demo bnR) : Program Demo Demo (Multiplicative (ZMod bnR)) bnR :=
  clientProgram demoK demoRaw demoRaw f demoEngine demoPub demoSec demoCode fun _ _ => ()

/-- The outcome of a whole session with given random choices, computed. -/
def outcome {G1 G2 T W : Type} [AddCommGroup G1] [AddCommGroup G2] [DecidableEq G1] [DecidableEq G2] [CommMonoid T] [DecidableEq T] {r : Nat}
    [Fact r.Prime] (K : TwoAdic (ZMod r)) (E : Engine G1 G2 T) (pub sec : Layout) (code : Code r W)
    (wit : pub.ty.V (ZMod r) → sec.ty.V (ZMod r) → W) (t : Toxic G1 G2 r) (data : pub.ty.V (ZMod r) × sec.ty.V (ZMod r)) (x y : ZMod r) :
    Option Bool :=
  match (generated pub.ty sec.ty code none none none).run (CS.new .setup), generateKeys K t (generated pub.ty sec.ty code none none none),
      getInputs pub.ty (some data.1) with
  | .ok (_, s0), .ok params, .ok (some inputs) =>
    match prove K params x y (generated pub.ty sec.ty code (some (wit data.1 data.2)) (some data.1) (some data.2)) with
    | .ok proof =>
      match verify E (truncate params.vk) proof inputs with
      | .ok (.ok b) =>
        if 2 * (s0.cons.length + s0.ninputs) ≤ 2 ^ 32 ∧ s0.ninputs + s0.naux < 2 ^ 32 ∧ FiniteParameters params ∧ FiniteProof proof then some b
        else none
      | _ => none
    | _ => none
  | _, _, _ => none

theorem completes_of_outcome {G1 G2 T W : Type} [AddCommGroup G1] [AddCommGroup G2] [DecidableEq G1] [DecidableEq G2] [CommMonoid T]
    [DecidableEq T] {r : Nat} [Fact r.Prime] {K : TwoAdic (ZMod r)} {E : Engine G1 G2 T} {pub sec : Layout} {code : Code r W}
    {wit : pub.ty.V (ZMod r) → sec.ty.V (ZMod r) → W} {t : Toxic G1 G2 r} {data : pub.ty.V (ZMod r) × sec.ty.V (ZMod r)} {x y : ZMod r}
    {b : Bool} (h : outcome K E pub sec code wit t data x y = some b) (hr : Aligned r) (hpub : Layout.Named pub ∧ Layout.depth pub ≤ 126)
    (hsec : Layout.Named sec ∧ Layout.depth sec ≤ 126) {u1 : RawCodec G1} {u2 : RawCodec G2} (h1 : LawfulRawZero u1) (h2 : LawfulRawZero u2)
    {f : Format G1 G2 r} (hf : Lossless f ∨ LosslessFinite f) : Completes (clientProgram K u1 u2 f E pub sec code wit) t data x y b := by
  unfold outcome at h
  split at h
  case h_2 => cases h
  rename_i a0 s0 params inputs hset hk hin
  split at h
  case h_2 => cases h
  rename_i proof hpr
  split at h
  case h_2 => cases h
  rename_i b' hv
  split at h
  case isFalse => cases h
  rename_i hc
  cases h
  refine completes_of hset ⟨hc.1, hc.2.1⟩ hr hpub hsec h1 h2 f E wit t hk hc.2.2.1 data x y hpr hin (fun hl hl' => ?_) hv
  rcases hf with hf | hf
  · exact hf _ _ _ hl hl'
  · exact hf _ _ _ (finite_vk hc.2.2.1) hc.2.2.2 hl hl'

theorem demoLayouts : (Layout.Named demoPub ∧ Layout.depth demoPub ≤ 126) ∧ (Layout.Named demoSec ∧ Layout.depth demoSec ≤ 126) := by
  refine ⟨⟨?_, by decide⟩, ?_, by decide⟩ <;> simp [demoPub, demoSec, Layout.Named]

/-- Right and wrong factors of 35, with made-up random choices. -/
def demoData (q1 q2 : Nat) : demoPub.ty.V (ZMod bnR) × demoSec.ty.V (ZMod bnR) :=
  (((35 : Nat) : ZMod bnR), (((q1 : Nat) : ZMod bnR), ((q2 : Nat) : ZMod bnR)))

theorem demo_true : outcome demoK demoEngine demoPub demoSec demoCode (fun _ _ => ()) demoToxic (demoData 5 7) 11 12 = some true := by
  decide +kernel

theorem demo_false : outcome demoK demoEngine demoPub demoSec demoCode (fun _ _ => ()) demoToxic (demoData 5 8) 11 12 = some false := by
  decide +kernel

/-- All three bindings print "true" for the right factors of 35 and "false" for wrong ones. -/
example : ∀ f ∈ [jsonFormat demoCoords bnR, nearFormat demoCoords bnR, wavesFormat demoCodec demoCodec bnR],
    Completes (demoProgram f) demoToxic (demoData 5 7) 11 12 true ∧ Completes (demoProgram f) demoToxic (demoData 5 8) 11 12 false := by
  have key : ∀ f, Lossless f ∨ LosslessFinite f →
      Completes (demoProgram f) demoToxic (demoData 5 7) 11 12 true ∧ Completes (demoProgram f) demoToxic (demoData 5 8) 11 12 false :=
    fun f hf => ⟨completes_of_outcome demo_true aligned_bnR demoLayouts.1 demoLayouts.2 demoRaw_lawful demoRaw_lawful hf,
      completes_of_outcome demo_false aligned_bnR demoLayouts.1 demoLayouts.2 demoRaw_lawful demoRaw_lawful hf⟩
  simp only [List.forall_mem_cons, List.not_mem_nil, false_imp_iff, implies_true, and_true]
  exact ⟨key _ (.inl (C78_ethereum_format demoCoords_lawful aligned_bnQ aligned_bnR)), key _ (.inl (C78_near_format demoCoords_lawful)),
    key _ (.inr (C78_waves_format demoCodec_lawful demoCodec_lawful (fun _ => of_decide_eq_true) fun _ => of_decide_eq_true))⟩

/-- The files of the options' default values are different. -/
example : Distinct ethereumFiles ∧ Distinct textFiles := by
  unfold Distinct; decide +kernel

end demo
end Fawkes.Props
