import Verif.Lemmas.Cli
import Verif.Props.KeyFiles
import Verif.Props.Json
import Verif.Props.Solidity

/-!
# C75, C76, C77: what the generated commands do to files and what they print

The theorems quantify over all worlds, that is over all contents of files and over everything the disk may do: fail at any
call, or take a part of what is to be written.
-/

namespace Fawkes.Props

open Fawkes.Groth16 Fawkes.Cli Fawkes.Cli.Cmd Fawkes.Serde

section

variable {G1 G2 T : Type} [AddCommGroup G1] [AddCommGroup G2] [DecidableEq G1] [DecidableEq G2] [One T] [DecidableEq T]
  {r : Nat} [Fact r.Prime]

/-! ## C76 -/

/-- What a command may do: other files than its outputs stay as they are; either it returns, has printed one line, and the
outputs are as they should be, or it panics and has printed nothing, and then no file at all has changed unless the disk failed. -/
def Honest (outputs : List Path) (line : List Char) (done : World → Prop) (w : World) (res : Except Panic Unit × World) : Prop :=
  (∀ p ∉ outputs, res.2.files p = w.files p) ∧
  ((res.1 = .ok () ∧ res.2.printed = w.printed ++ [line] ∧ done res.2) ∨
    (∃ e, res.1 = .error e ∧ res.2.printed = w.printed ∧ (w.plan = [] → res.2.files = w.files)))

theorem honest_same {outputs : List Path} {line : List Char} {done : World → Prop} {w w' : World} {e : Panic}
    (h : Step [] w w') : Honest outputs line done w (.error e, w') :=
  ⟨fun p _ => h.files p (by simp), .inr ⟨e, rfl, h.printed, fun _ => funext fun p => h.files p (by simp)⟩⟩

theorem honest_io {outputs : List Path} {line : List Char} {done : World → Prop} {w w0 : World} {c : Cmd Unit}
    (h0 : Step [] w0 w) (h : Io outputs c w fun _ w' => ∀ w'', w''.files = w'.files → done w'') :
    Honest outputs line done w0 ((c >>= fun _ => println line).run w) := by
  cases e : c.run w with
  | mk res w' =>
    obtain ⟨hs, hok, hc⟩ := h
    rw [e] at hs hok hc
    have ht := (h0.mono (by simp)).trans hs
    cases res with
    | error err =>
      rw [run_bind_error e]
      refine ⟨ht.files, .inr ⟨err, rfl, ht.printed, fun hp => ?_⟩⟩
      obtain ⟨a, ha⟩ := hc (h0.calm hp)
      cases ha
    | ok a =>
      rw [run_bind_ok e]
      refine ⟨ht.files, .inl ⟨rfl, ?_, hok a rfl _ rfl⟩⟩
      show w'.printed ++ [line] = _
      rw [ht.printed]

/-- Writing and then the message succeeds on a calm disk. -/
theorem calm_io {outputs : List Path} {line : List Char} {w : World} {c : Cmd Unit} {Q : Unit → World → Prop} (hp : w.plan = [])
    (h : Io outputs c w Q) : ((c >>= fun _ => println line).run w).1 = .ok () ∧ ((c >>= fun _ => println line).run w).2.plan = [] := by
  obtain ⟨hs, hok, hc⟩ := h
  obtain ⟨a, ha⟩ := hc hp
  cases e : c.run w with
  | mk res w' =>
    rw [e] at ha hs
    cases ha
    rw [run_bind_ok e]
    exact ⟨rfl, hs.calm hp⟩

/-- The two files of the setup: parameters and key come from one and the same run of the key generator. -/
def SetupFiles (g : Program G1 G2 T r) (t : Toxic G1 G2 r) (o : Files) (w : World) : Prop :=
  ∃ params text, generateKeys g.field t (g.circuit none none) = .ok params ∧ g.format.vkTo (truncate params.vk) = .ok text ∧
    w.files o.params = some (paramsBytes g.raw1 g.raw2 params) ∧ w.files o.vk = some (intoBytes text)

theorem keyResult_ok {α : Type} {x : Except KeyError α} {a : α} : keyResult x = .ok a ↔ x = .ok a := by
  constructor
  · intro h
    unfold keyResult at h
    split at h <;> first | (cases h; done) | skip
    cases h; rfl
  · rintro rfl; rfl

theorem setupEthereum_io (g : Program G1 G2 T r) (o : Files) (ho : o.params ≠ o.vk)
    (params : Parameters G1 G2) (text : List Char) (w : World) :
    Io [o.params, o.vk] (create o.params >>= fun _ => writeChunks o.params (paramsChunks g.raw1 g.raw2 params) >>= fun _ =>
      fsWrite o.vk (intoBytes text)) w fun _ w' => w'.files o.params = some (paramsBytes g.raw1 g.raw2 params) ∧
        w'.files o.vk = some (intoBytes text) := by
  refine ((create_io o.params w).mono (by simp) fun _ _ _ h => h).bind fun _ w1 _ h1 => ?_
  refine ((writeChunks_io o.params _ [] w1 h1).mono (by simp) fun _ _ _ h => h).bind fun _ w2 _ h2 => ?_
  refine (fsWrite_io o.vk _ w2).mono (by simp) fun _ w3 hs h3 => ⟨?_, h3⟩
  rw [hs.files _ (by simpa using ho), h2]
  rfl

theorem setupText_io (g : Program G1 G2 T r) (o : Files) (ho : o.params ≠ o.vk)
    (params : Parameters G1 G2) (text : List Char) (w : World) :
    Io [o.params, o.vk] (fsWrite o.vk (intoBytes text) >>= fun _ => create o.params >>= fun _ =>
      writeChunks o.params (paramsChunks g.raw1 g.raw2 params)) w fun _ w' =>
        w'.files o.params = some (paramsBytes g.raw1 g.raw2 params) ∧ w'.files o.vk = some (intoBytes text) := by
  refine ((fsWrite_io o.vk _ w).mono (by simp) fun _ _ _ h => h).bind fun _ w1 _ h1 => ?_
  refine ((create_io o.params w1).mono (S' := [o.params, o.vk]) (by simp) fun _ w2 hs h2 =>
    (⟨h2, by rw [hs.files _ (by simpa using Ne.symm ho), h1]⟩ : w2.files o.params = some [] ∧ w2.files o.vk = some (intoBytes text))).bind
      fun _ w2 _ h2 => ?_
  refine (writeChunks_io o.params _ [] w2 h2.1).mono (by simp) fun _ w3 hs h3 => ⟨h3, ?_⟩
  rw [hs.files _ (by simpa using Ne.symm ho), h2.2]

/-- C76: `setup` (Ethereum). -/
theorem C76_setup_ethereum (g : Program G1 G2 T r) (t : Toxic G1 G2 r) (o : Files) (ho : o.params ≠ o.vk) (w : World) :
    Honest [o.params, o.vk] (chars! "setup OK") (SetupFiles g t o) w ((setupEthereum g t o).run w) := by
  unfold setupEthereum
  cases hk : keyResult (generateKeys g.field t (g.circuit none none)) with
  | error e => rw [run_lift_error rfl]; exact honest_same (.refl _ _)
  | ok params =>
    rw [run_lift_ok rfl]
    cases hv : g.format.vkTo (truncate params.vk) with
    | error e => rw [run_lift_error rfl]; exact honest_same (.refl _ _)
    | ok text =>
      rw [run_lift_ok rfl, bind_assoc4]
      refine honest_io (.refl _ _) ((setupEthereum_io g o ho params text w).mono (fun _ h => h) fun _ w' _ h w'' hw => ?_)
      exact ⟨params, text, keyResult_ok.1 hk, hv, by rw [hw]; exact h.1, by rw [hw]; exact h.2⟩

/-- C76: `setup` (Waves, Near). -/
theorem C76_setup_text (g : Program G1 G2 T r) (t : Toxic G1 G2 r) (o : Files) (ho : o.params ≠ o.vk) (w : World) :
    Honest [o.params, o.vk] (chars! "setup OK") (SetupFiles g t o) w ((setupText g t o).run w) := by
  unfold setupText
  cases hk : keyResult (generateKeys g.field t (g.circuit none none)) with
  | error e => rw [run_lift_error rfl]; exact honest_same (.refl _ _)
  | ok params =>
    rw [run_lift_ok rfl]
    cases hv : g.format.vkTo (truncate params.vk) with
    | error e => rw [run_lift_error rfl]; exact honest_same (.refl _ _)
    | ok text =>
      rw [run_lift_ok rfl, bind_assoc4]
      refine honest_io (.refl _ _) ((setupText_io g o ho params text w).mono (fun _ h => h) fun _ w' _ h w'' hw => ?_)
      exact ⟨params, text, keyResult_ok.1 hk, hv, by rw [hw]; exact h.1, by rw [hw]; exact h.2⟩

/-- C76: on a calm disk the setup succeeds whenever a key can be generated and has a text. -/
theorem C76_setup_calm (g : Program G1 G2 T r) (t : Toxic G1 G2 r) (o : Files) (ho : o.params ≠ o.vk) (w : World) (hp : w.plan = [])
    (params : Parameters G1 G2) (hk : generateKeys g.field t (g.circuit none none) = .ok params) (text : List Char)
    (hv : g.format.vkTo (truncate params.vk) = .ok text) :
    (((setupEthereum g t o).run w).1 = .ok () ∧ ((setupEthereum g t o).run w).2.plan = []) ∧
    (((setupText g t o).run w).1 = .ok () ∧ ((setupText g t o).run w).2.plan = []) := by
  constructor
  · unfold setupEthereum
    rw [run_lift_ok (keyResult_ok.2 hk), run_lift_ok hv, bind_assoc4]
    exact calm_io hp (setupEthereum_io g o ho params text w)
  · unfold setupText
    rw [run_lift_ok (keyResult_ok.2 hk), run_lift_ok hv, bind_assoc4]
    exact calm_io hp (setupText_io g o ho params text w)

/-- C76: `generate-test-data`. -/
theorem C76_test_data (g : Program G1 G2 T r) (data : g.pub.ty.V (ZMod r) × g.sec.ty.V (ZMod r)) (o : Files) (w : World) :
    Honest [o.object] (chars! "Test data generated") (fun w' => ∃ text, toText (pairTo g.pub.to g.sec.to) data = .ok text ∧
      w'.files o.object = some (intoBytes text)) w ((generateTestData g data o).run w) := by
  unfold generateTestData
  cases hk : toText (pairTo g.pub.to g.sec.to) data with
  | error e => rw [run_lift_error rfl]; exact honest_same (.refl _ _)
  | ok text =>
    rw [run_lift_ok rfl]
    refine honest_io (.refl _ _) ((fsWrite_io o.object _ w).mono (fun _ h => h) fun _ w' _ h w'' hw => ?_)
    exact ⟨text, rfl, by rw [hw]; exact h⟩

/-- C76: on a calm disk `generate-test-data` succeeds whenever the data have a text. -/
theorem C76_test_data_calm (g : Program G1 G2 T r) (data : g.pub.ty.V (ZMod r) × g.sec.ty.V (ZMod r)) (o : Files) (w : World)
    (hp : w.plan = []) (text : List Char) (ht : toText (pairTo g.pub.to g.sec.to) data = .ok text) :
    ((generateTestData g data o).run w).1 = .ok () ∧ ((generateTestData g data o).run w).2.plan = [] := by
  unfold generateTestData
  rw [run_lift_ok ht]
  exact calm_io hp (fsWrite_io o.object _ w)

theorem prove_io (o : Files) (ho : o.proof ≠ o.inputs) (t1 t2 : List Char) (w : World) :
    Io [o.proof, o.inputs] (fsWrite o.proof (intoBytes t1) >>= fun _ => fsWrite o.inputs (intoBytes t2)) w fun _ w' =>
      w'.files o.proof = some (intoBytes t1) ∧ w'.files o.inputs = some (intoBytes t2) := by
  refine ((fsWrite_io o.proof _ w).mono (by simp) fun _ _ _ h => h).bind fun _ w1 _ h1 => ?_
  refine (fsWrite_io o.inputs _ w1).mono (by simp) fun _ w2 hs h2 => ⟨?_, h2⟩
  rw [hs.files _ (by simpa using ho), h1]

/-- What `prove` has read, and the two files it has written from it. -/
def ProveFiles (g : Program G1 G2 T r) (x y : ZMod r) (o : Files) (w0 w : World) : Prop :=
  ∃ bytes rest params object p s proof inputs proofText inputsText,
    w0.files o.params = some bytes ∧ paramsRead g.raw1 g.raw2 false bytes = some (params, rest) ∧
    w0.files o.object = some object ∧ (fromUtf8 object).bind (ofText (pairOf (g.pub.of r) (g.sec.of r))) = some (p, s) ∧
    prove g.field params x y (g.circuit (some p) (some s)) = .ok proof ∧ getInputs g.pub.ty (some p) = .ok (some inputs) ∧
    g.format.proofTo proof = .ok proofText ∧ g.format.inputsTo inputs = .ok inputsText ∧
    w.files o.proof = some (intoBytes proofText) ∧ w.files o.inputs = some (intoBytes inputsText)

/-- C76: `prove`. -/
theorem C76_prove (g : Program G1 G2 T r) (x y : ZMod r) (o : Files) (ho : o.proof ≠ o.inputs) (w : World) :
    Honest [o.proof, o.inputs] (chars! "Proved") (ProveFiles g x y o w) w ((proveCmd g x y o).run w) := by
  unfold proveCmd
  rcases readBytes_run o.params w with ⟨bytes, w1, h1, s1, f1, b1⟩ | ⟨w1, h1, s1, f1, b1⟩
  swap
  · rw [run_bind_error h1]; exact honest_same s1
  rw [run_bind_ok h1]
  cases hp : paramsRead g.raw1 g.raw2 false bytes with
  | none => rw [run_unwrap_none rfl]; exact honest_same s1
  | some pr =>
    obtain ⟨params, rest⟩ := pr
    rw [run_unwrap_ok rfl]
    rcases readToString_run o.object w1 with ⟨text, object, w2, h2, s2, f2, b2, t2⟩ | ⟨w2, h2, s2, f2, b2⟩
    swap
    · simp only; rw [run_bind_error h2]; exact honest_same (s1.trans s2)
    simp only
    rw [run_bind_ok h2]
    have hs := s1.trans s2
    cases hd : ofText (pairOf (g.pub.of r) (g.sec.of r)) text with
    | none => rw [run_unwrap_none rfl]; exact honest_same hs
    | some d =>
      obtain ⟨p, s⟩ := d
      rw [run_unwrap_ok rfl]
      simp only
      cases hk : keyResult (prove g.field params x y (g.circuit (some p) (some s))) with
      | error e => rw [run_lift_error rfl]; exact honest_same hs
      | ok proof =>
        rw [run_lift_ok rfl]
        cases hi : getInputs g.pub.ty (some p) with
        | error e => rw [run_lift_error rfl]; exact honest_same hs
        | ok oi =>
          rw [run_lift_ok rfl]
          cases oi with
          | none => rw [run_unwrap_none rfl]; exact honest_same hs
          | some inputs =>
            rw [run_unwrap_ok rfl]
            cases hpt : g.format.proofTo proof with
            | error e => rw [run_lift_error rfl]; exact honest_same hs
            | ok proofText =>
              rw [run_lift_ok rfl]
              cases hit : g.format.inputsTo inputs with
              | error e => rw [run_lift_error rfl]; exact honest_same hs
              | ok inputsText =>
                rw [run_lift_ok rfl, bind_assoc3]
                refine honest_io hs ((prove_io o ho proofText inputsText w2).mono (fun _ h => h) fun _ w' _ h w'' hw => ?_)
                refine ⟨bytes, rest, params, object, p, s, proof, inputs, proofText, inputsText, b1, hp, ?_, ?_, keyResult_ok.1 hk, hi,
                  hpt, hit, by rw [hw]; exact h.1, by rw [hw]; exact h.2⟩
                · rw [← f1]; exact b2
                · rw [t2]; exact hd

/-- C76: on a calm disk `prove` succeeds whenever the two files can be read and a proof can be made and has a text. -/
theorem C76_prove_calm (g : Program G1 G2 T r) (x y : ZMod r) (o : Files) (ho : o.proof ≠ o.inputs) (w : World) (hp : w.plan = [])
    {bytes rest : List UInt8} {params : Parameters G1 G2} {object : List Char} {p : g.pub.ty.V (ZMod r)} {s : g.sec.ty.V (ZMod r)}
    {proof : Proof G1 G2} {inputs : List (ZMod r)} {proofText inputsText : List Char}
    (h1 : w.files o.params = some bytes) (h2 : paramsRead g.raw1 g.raw2 false bytes = some (params, rest))
    (h3 : w.files o.object = some (intoBytes object)) (h4 : ofText (pairOf (g.pub.of r) (g.sec.of r)) object = some (p, s))
    (h5 : prove g.field params x y (g.circuit (some p) (some s)) = .ok proof) (h6 : getInputs g.pub.ty (some p) = .ok (some inputs))
    (h7 : g.format.proofTo proof = .ok proofText) (h8 : g.format.inputsTo inputs = .ok inputsText) :
    ((proveCmd g x y o).run w).1 = .ok () ∧ ((proveCmd g x y o).run w).2.plan = [] := by
  obtain ⟨w1, e1, s1, f1⟩ := readBytes_bytes hp h1
  have hp1 := s1.calm hp
  obtain ⟨w2, e2, s2, f2⟩ := readToString_text (t := object) hp1 (by rw [f1]; exact h3)
  unfold proveCmd
  rw [run_bind_ok e1, run_unwrap_ok h2]
  simp only
  rw [run_bind_ok e2, run_unwrap_ok h4]
  simp only
  rw [run_lift_ok (keyResult_ok.2 h5), run_lift_ok h6, run_unwrap_ok rfl, run_lift_ok h7, run_lift_ok h8, bind_assoc3]
  exact calm_io (s2.calm hp1) (prove_io o ho _ _ w2)

/-! ## C77: `verify` -/

/-- The line `verify` prints. -/
def verdictLine (b : Bool) : List Char := chars! "Verify result is " ++ (if b then chars! "true" else chars! "false") ++ chars! "."

/-- The text in a file. -/
def textAt (w : World) (p : Path) (t : List Char) : Prop := ∃ bs, w.files p = some bs ∧ fromUtf8 bs = some t

/-- The key, the proof and the inputs that the three files hold. -/
def FilesHold (g : Program G1 G2 T r) (o : Files) (w : World) (vk : VK G1 G2) (proof : Proof G1 G2) (inputs : List (ZMod r)) : Prop :=
  ∃ t1 t2 t3, textAt w o.vk t1 ∧ textAt w o.proof t2 ∧ textAt w o.inputs t3 ∧
    g.format.vkOf t1 = .ok vk ∧ g.format.proofOf t2 = .ok proof ∧ g.format.inputsOf t3 = .ok inputs

theorem textAt_unique {w : World} {p : Path} {t t' : List Char} (h : textAt w p t) (h' : textAt w p t') : t = t' := by
  obtain ⟨bs, h1, h2⟩ := h
  obtain ⟨bs', h1', h2'⟩ := h'
  rw [h1] at h1'; injection h1' with e; subst e
  rw [h2] at h2'; injection h2'

theorem filesHold_unique {g : Program G1 G2 T r} {o : Files} {w : World} {vk vk' : VK G1 G2} {proof proof' : Proof G1 G2}
    {inputs inputs' : List (ZMod r)} (h : FilesHold g o w vk proof inputs) (h' : FilesHold g o w vk' proof' inputs') :
    vk = vk' ∧ proof = proof' ∧ inputs = inputs' := by
  obtain ⟨t1, t2, t3, x1, x2, x3, z1, z2, z3⟩ := h
  obtain ⟨t1', t2', t3', y1, y2, y3, u1, u2, u3⟩ := h'
  rw [textAt_unique x1 y1, u1] at z1
  rw [textAt_unique x2 y2, u2] at z2
  rw [textAt_unique x3 y3, u3] at z3
  cases z1; cases z2; cases z3
  exact ⟨rfl, rfl, rfl⟩

/-- C77: `verify` never changes a file.  If it returns it has printed exactly one verdict, the one of the verifier on what the
files hold; if it panics it has printed nothing.  On a calm disk it returns whenever the files hold a key, a proof and inputs on which
the verifier does not panic. -/
theorem C77_verify (g : Program G1 G2 T r) (o : Files) (w : World) :
    ((verifyCmd g o).run w).2.files = w.files ∧
    ((∃ vk proof inputs res, FilesHold g o w vk proof inputs ∧ verify g.engine vk proof inputs = .ok res ∧
        ((verifyCmd g o).run w).1 = .ok () ∧ ((verifyCmd g o).run w).2.printed = w.printed ++ [verdictLine (decide (res = .ok true))]) ∨
      (∃ e, ((verifyCmd g o).run w).1 = .error e ∧ ((verifyCmd g o).run w).2.printed = w.printed)) ∧
    (w.plan = [] → ∀ vk proof inputs res, FilesHold g o w vk proof inputs → verify g.engine vk proof inputs = .ok res →
      ((verifyCmd g o).run w).1 = .ok ()) := by
  unfold verifyCmd
  rcases readToString_run o.vk w with ⟨t1, b1, w1, e1, s1, f1, g1, u1⟩ | ⟨w1, e1, s1, f1, u1⟩
  swap
  · rw [run_bind_error e1]
    refine ⟨f1, .inr ⟨_, rfl, s1.printed⟩, ?_⟩
    rintro hp vk proof inputs res ⟨_, _, _, ⟨bs, h1, h2⟩, -⟩
    rw [u1 hp bs h1] at h2; cases h2
  rw [run_bind_ok e1]
  rcases readToString_run o.proof w1 with ⟨t2, b2, w2, e2, s2, f2, g2, u2⟩ | ⟨w2, e2, s2, f2, u2⟩
  swap
  · rw [run_bind_error e2]
    refine ⟨f2.trans f1, .inr ⟨_, rfl, (s1.trans s2).printed⟩, ?_⟩
    rintro hp vk proof inputs res ⟨_, _, _, -, ⟨bs, h1, h2⟩, -⟩
    rw [u2 (s1.calm hp) bs (by rw [f1]; exact h1)] at h2; cases h2
  rw [run_bind_ok e2]
  rcases readToString_run o.inputs w2 with ⟨t3, b3, w3, e3, s3, f3, g3, u3⟩ | ⟨w3, e3, s3, f3, u3⟩
  swap
  · rw [run_bind_error e3]
    refine ⟨f3.trans (f2.trans f1), .inr ⟨_, rfl, ((s1.trans s2).trans s3).printed⟩, ?_⟩
    rintro hp vk proof inputs res ⟨_, _, _, -, -, ⟨bs, h1, h2⟩, -⟩
    rw [u3 (s2.calm (s1.calm hp)) bs (by rw [f2, f1]; exact h1)] at h2; cases h2
  rw [run_bind_ok e3]
  have hf := f3.trans (f2.trans f1)
  have hpr := ((s1.trans s2).trans s3).printed
  have x1 : textAt w o.vk t1 := ⟨b1, g1, u1⟩
  have x2 : textAt w o.proof t2 := ⟨b2, by rw [← f1]; exact g2, u2⟩
  have x3 : textAt w o.inputs t3 := ⟨b3, by rw [← f1, ← f2]; exact g3, u3⟩
  have huniq : ∀ vk proof inputs, FilesHold g o w vk proof inputs →
      g.format.vkOf t1 = .ok vk ∧ g.format.proofOf t2 = .ok proof ∧ g.format.inputsOf t3 = .ok inputs := by
    rintro vk proof inputs ⟨t1', t2', t3', y1, y2, y3, z⟩
    rw [textAt_unique x1 y1, textAt_unique x2 y2, textAt_unique x3 y3]
    exact z
  cases h1 : g.format.vkOf t1 with
  | error e =>
    rw [run_lift_error rfl]
    refine ⟨hf, .inr ⟨_, rfl, hpr⟩, fun _ vk proof inputs res hh => ?_⟩
    have := (huniq _ _ _ hh).1; rw [h1] at this; cases this
  | ok vk =>
    rw [run_lift_ok rfl]
    cases h2 : g.format.proofOf t2 with
    | error e =>
      rw [run_lift_error rfl]
      refine ⟨hf, .inr ⟨_, rfl, hpr⟩, fun _ vk proof inputs res hh => ?_⟩
      have := (huniq _ _ _ hh).2.1; rw [h2] at this; cases this
    | ok proof =>
      rw [run_lift_ok rfl]
      cases h3 : g.format.inputsOf t3 with
      | error e =>
        rw [run_lift_error rfl]
        refine ⟨hf, .inr ⟨_, rfl, hpr⟩, fun _ vk proof inputs res hh => ?_⟩
        have := (huniq _ _ _ hh).2.2; rw [h3] at this; cases this
      | ok inputs =>
        rw [run_lift_ok rfl]
        cases h4 : verify g.engine vk proof inputs with
        | error e =>
          rw [run_lift_error rfl]
          refine ⟨hf, .inr ⟨_, rfl, hpr⟩, fun _ vk' proof' inputs' res hh hv => ?_⟩
          obtain ⟨k1, k2, k3⟩ := huniq _ _ _ hh
          rw [h1] at k1; rw [h2] at k2; rw [h3] at k3
          cases k1; cases k2; cases k3
          rw [h4] at hv; cases hv
        | ok res =>
          rw [run_lift_ok rfl]
          refine ⟨hf, .inl ⟨vk, proof, inputs, res, ⟨t1, t2, t3, x1, x2, x3, h1, h2, h3⟩, h4, rfl, ?_⟩, fun _ _ _ _ _ _ _ => rfl⟩
          show w3.printed ++ [_] = _
          rw [hpr]
          congr 3
          cases res with
          | error e => rfl
          | ok b => cases b <;> rfl

end

/-! ## C77 with a pairing -/

section

variable {G1 G2 T : Type} [AddCommGroup G1] [AddCommGroup G2] [DecidableEq G1] [DecidableEq G2] [CommMonoid T] [DecidableEq T]
  {r : Nat} [Fact r.Prime]

theorem verdictLine_ne : verdictLine true ≠ verdictLine false := by decide +kernel

/-- C77: with a pairing.  Whatever the disk does, `verify` prints "true" only if the files hold a key, a proof and as many inputs as
the key wants that satisfy the equation of Groth16; on a calm disk it does so exactly then. -/
theorem C77_true (g : Program G1 G2 T r) {e : G1 → G2 → Tˣ} (he : PairingEngine g.engine e) (o : Files) (w : World) :
    let good := ∃ vk proof inputs ic0 ics, FilesHold g o w vk proof inputs ∧ vk.ic = ic0 :: ics ∧ inputs.length = ics.length ∧
      Groth16Equation e vk.alphaG1 vk.betaG2 vk.gammaG2 vk.deltaG2 ic0 ics proof.a proof.b proof.c inputs
    (((verifyCmd g o).run w).2.printed = w.printed ++ [verdictLine true] → good) ∧
    (w.plan = [] → good → ((verifyCmd g o).run w).2.printed = w.printed ++ [verdictLine true]) := by
  intro good
  obtain ⟨-, h2, h3⟩ := C77_verify g o w
  constructor
  · intro hp
    rcases h2 with ⟨vk, proof, inputs, res, hh, hv, -, hpr⟩ | ⟨e, -, hpr⟩
    · rw [hp] at hpr
      have hl := List.append_cancel_left hpr
      injection hl with hl _
      by_cases hres : res = .ok true
      · subst hres
        obtain ⟨ic0, ics, a, b, c⟩ := (C55_accepts he vk proof inputs).1 hv
        exact ⟨vk, proof, inputs, ic0, ics, hh, a, b, c⟩
      · rw [decide_eq_false hres] at hl
        exact absurd hl verdictLine_ne
    · rw [hp] at hpr
      simp at hpr
  · rintro hp ⟨vk, proof, inputs, ic0, ics, hh, a, b, c⟩
    have hv := (C55_accepts he vk proof inputs).2 ⟨ic0, ics, a, b, c⟩
    have hok := h3 hp vk proof inputs _ hh hv
    rcases h2 with ⟨vk', proof', inputs', res, hh', hv', -, hpr⟩ | ⟨e, hpe, -⟩
    · obtain ⟨rfl, rfl, rfl⟩ := filesHold_unique hh hh'
      rw [hv] at hv'; injection hv' with hv'; subst hv'
      rw [hpr, decide_eq_true rfl]
    · rw [hok] at hpe; cases hpe

/-- C77: on a calm disk `verify` panics exactly if the files do not hold a key, a proof and inputs. -/
theorem C77_panics (g : Program G1 G2 T r) {e : G1 → G2 → Tˣ} (he : PairingEngine g.engine e) (o : Files) (w : World) (hp : w.plan = []) :
    (∃ err, ((verifyCmd g o).run w).1 = .error err) ↔ ¬ ∃ vk proof inputs, FilesHold g o w vk proof inputs := by
  obtain ⟨-, h2, h3⟩ := C77_verify g o w
  constructor
  · rintro ⟨err, h⟩ ⟨vk, proof, inputs, hh⟩
    obtain ⟨res, hres⟩ := (C55_error he vk proof inputs).1
    rw [h3 hp vk proof inputs res hh hres] at h
    cases h
  · intro h
    rcases h2 with ⟨vk, proof, inputs, res, hh, -⟩ | ⟨e, hpe, -⟩
    · exact absurd ⟨vk, proof, inputs, hh⟩ h
    · exact ⟨e, hpe⟩

end

/-! ## C75: `generate-verifier` -/

/-- What the file of the contract should hold in the end. -/
def VerifierFile (q : Nat) [Fact q.Prime] (checked : Bool) (o : Files) (w0 w : World) : Prop :=
  ∃ text vk sol, textAt w0 o.vk text ∧ ofText (Serde.vkOf q) text = some vk ∧ generateSolData checked vk = .ok sol ∧
    w.files o.solidity = some (intoBytes sol)

/-- C75, as one would like to have it: if `generate-verifier` reports success the file holds the whole contract. -/
def C75_full : Prop :=
  ∀ (q : Nat) [Fact q.Prime] (checked : Bool) (o : Files) (w : World), Honest [o.solidity] (chars! "solidity verifier generated")
    (VerifierFile q checked o w) w ((generateVerifier q checked o).run w)

theorem intoBytes_nil {t : List Char} (h : intoBytes t = []) : t = [] := by
  have h1 := fromUtf8_intoBytes t
  rw [h, show ([] : List UInt8) = intoBytes [] from rfl, fromUtf8_intoBytes] at h1
  injection h1 with h1
  exact h1.symm

theorem contract_ne_nil (a b c d e f i : List Char) : contract a b c d e f i ≠ [] := by
  unfold contract
  simp only [List.append_assoc]
  intro h
  have := (List.append_eq_nil_iff.1 h).1
  have h2 : part1.isEmpty = false := by decide +kernel
  rw [this] at h2
  cases h2

/-- C75 is false: the command calls `write` once, and `write` may take a part only; here the disk takes nothing. -/
theorem C75_refuted : ¬ C75_full := by
  intro h
  have hex : ∃ (d : VKData (ZMod bnQ)) (sol : List Char), generateSolData true d = .ok sol ∧ sol ≠ [] :=
    ⟨⟨⟨1, 2⟩, ⟨(1, 2), (3, 4)⟩, ⟨(1, 2), (3, 4)⟩, ⟨(1, 2), (3, 4)⟩, [⟨1, 2⟩]⟩, _, C56_contract aligned_bnQ true _ (by simp), contract_ne_nil _ _ _ _ _ _ _⟩
  obtain ⟨d, sol, hsol, hne⟩ := hex
  obtain ⟨t, ht1, ht2⟩ := C73_vk aligned_bnQ d
  let w : World := ⟨fun p => if p = ethereumFiles.vk then some (intoBytes t) else none, [], [.full, .full, .upTo 0]⟩
  have hh := h bnQ true ethereumFiles w
  have hf : w.files ethereumFiles.vk = some (intoBytes t) := by
    show (if ethereumFiles.vk = ethereumFiles.vk then some (intoBytes t) else none) = _
    rw [if_pos rfl]
  have hr : (readToString ethereumFiles.vk).run w = (.ok t, { w with plan := [.full, .upTo 0] }) := by
    have hb : (readBytes ethereumFiles.vk).run w = (.ok (intoBytes t), { w with plan := [.full, .upTo 0] }) := by
      unfold readBytes
      rw [run_bind_ok (show outcome.run w = (.ok .full, { w with plan := [.full, .upTo 0] }) from rfl)]
      show contents ethereumFiles.vk ({ w with plan := [.full, .upTo 0] } : World) = _
      unfold contents
      rw [show ({ w with plan := [.full, .upTo 0] } : World).files ethereumFiles.vk = some (intoBytes t) from hf]
    unfold readToString
    rw [run_bind_ok hb, fromUtf8_intoBytes]
    rfl
  unfold generateVerifier at hh
  rw [run_bind_ok hr, run_unwrap_ok ht2, run_lift_ok hsol] at hh
  have hc : (create ethereumFiles.solidity).run { w with plan := [.full, .upTo 0] } = (.ok (), ⟨fun p => if p = ethereumFiles.solidity then some [] else w.files p,
      [], [.upTo 0]⟩) := rfl
  have hw : (writeOnce ethereumFiles.solidity (intoBytes sol)).run ⟨fun p => if p = ethereumFiles.solidity then some [] else w.files p,
      [], [.upTo 0]⟩ = (.ok (min 0 (intoBytes sol).length), ⟨fun p => if p = ethereumFiles.solidity then some [] else
        if p = ethereumFiles.solidity then some [] else w.files p, [], []⟩) := rfl
  rw [run_bind_ok hc, run_bind_ok hw] at hh
  rcases hh.2 with ⟨-, -, text, vk, sol', h1, h2, h3, h4⟩ | ⟨e, he, -⟩
  · have h4 : (if ethereumFiles.solidity = ethereumFiles.solidity then some [] else
      if ethereumFiles.solidity = ethereumFiles.solidity then some [] else w.files ethereumFiles.solidity) = some (intoBytes sol') := h4
    rw [if_pos rfl] at h4
    injection h4 with h4
    rw [textAt_unique h1 ⟨_, hf, fromUtf8_intoBytes t⟩, ht2] at h2
    injection h2 with h2; subst h2
    rw [hsol] at h3; injection h3 with h3; subst h3
    exact hne (intoBytes_nil h4.symm)
  · cases he

section

variable (q : Nat) [Fact q.Prime]

/-- C75, the part that is true: other files stay as they are; if the command reports success, the file holds a beginning of the contract, and
all of it if the disk took everything; if it panics nothing is printed and, on a calm disk, nothing is changed. -/
theorem C75_partial (checked : Bool) (o : Files) (w : World) : Honest [o.solidity] (chars! "solidity verifier generated")
    (fun w' => ∃ text vk sol n, textAt w o.vk text ∧ ofText (Serde.vkOf q) text = some vk ∧ generateSolData checked vk = .ok sol ∧
      w'.files o.solidity = some ((intoBytes sol).take n) ∧ (w.plan = [] → n = (intoBytes sol).length)) w
      ((generateVerifier q checked o).run w) := by
  unfold generateVerifier
  rcases readToString_run o.vk w with ⟨t1, b1, w1, e1, s1, f1, g1, u1⟩ | ⟨w1, e1, s1, f1, u1⟩
  swap
  · rw [run_bind_error e1]; exact honest_same s1
  rw [run_bind_ok e1]
  cases hd : ofText (Serde.vkOf q) t1 with
  | none => rw [run_unwrap_none rfl]; exact honest_same s1
  | some vk =>
    rw [run_unwrap_ok rfl]
    cases hs : generateSolData checked vk with
    | error e => rw [run_lift_error rfl]; exact honest_same s1
    | ok sol =>
      rw [run_lift_ok rfl]
      have key : (create o.solidity >>= fun _ => writeOnce o.solidity (intoBytes sol) >>= fun _ =>
          println (chars! "solidity verifier generated")) = ((create o.solidity >>= fun _ => writeOnce o.solidity (intoBytes sol) >>= fun _ =>
            (pure () : Cmd Unit)) >>= fun _ => println (chars! "solidity verifier generated")) := by
        rw [bind_assoc]
        congr 1
        funext _
        rw [bind_assoc]
        rfl
      rw [key]
      refine honest_io s1 ?_
      refine (create_io o.solidity w1).bind fun _ w2 hs2 h2 => ?_
      refine (writeOnce_io o.solidity (intoBytes sol) [] w2 h2).1.bind fun n w3 hs3 h3 => Io.pure ?_
      intro w'' hw
      exact ⟨t1, vk, sol, n, ⟨b1, g1, u1⟩, hd, hs, by rw [hw, h3.2.1, List.nil_append], fun hp => h3.2.2 (hs2.calm (s1.calm hp))⟩

end

/-- The default paths are different. -/
example : ethereumFiles.params ≠ ethereumFiles.vk ∧ ethereumFiles.proof ≠ ethereumFiles.inputs ∧ textFiles.params ≠ textFiles.vk ∧
    textFiles.proof ≠ textFiles.inputs := by decide +kernel

end Fawkes.Props
