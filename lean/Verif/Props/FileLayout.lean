import Verif.Spec.Files
import Verif.Props.NearLayout
import Verif.Props.Base64
import Verif.Props.JsonGrammar
import Verif.Props.Stranger

/-!
# C118: what the files of keys, proofs and public inputs contain

The round trips of C53, C54, C73 and C106 would hold as well if writer and reader agreed on another form.  The contracts on the chains
read the form stated here.
-/

namespace Fawkes.Props

open Groth16 Cli Cli.Cmd Serde Files Json Json.Grammar

/-! ### The numbers -/

theorem decimal_eq (n : Nat) : Num.decimal n = Nat.toDigits 10 n := by
  induction n using Nat.strongRecOn with
  | _ n ih =>
    by_cases h0 : n = 0
    · subst h0; rfl
    have hd : Num.decimal n = (if n / 10 = 0 then [] else Num.decimal (n / 10)) ++ [Nat.digitChar (n % 10)] := by
      unfold Num.decimal
      rw [if_neg h0, Nat.digits_def' (by omega) (by omega)]
      by_cases h1 : n / 10 = 0
      · simp [h1]
      · simp [h1]
    rw [hd]
    by_cases h1 : n / 10 = 0
    · rw [if_pos h1, Nat.toDigits_of_lt_base (by omega), Nat.mod_eq_of_lt (by omega)]; rfl
    · rw [if_neg h1, ih _ (by omega), Nat.toDigits_eq_if (b := 10) (n := n) (by omega), if_neg (by omega)]

section

variable {q : Nat} [Fact q.Prime]

theorem numTo_eq (ha : Aligned q) (x : ZMod q) : numTo x = .ok (jsonNumber x.val) := by
  unfold numTo Num.serdeSerialize
  rw [intoBigUint_ok ha]
  show Except.ok (Json.str (Num.decimal x.val)) = _
  rw [decimal_eq]; rfl

theorem mapE_total {A B : Type} {f : A → Except Panic B} {g : A → B} (h : ∀ a, f a = .ok (g a)) (l : List A) : mapE f l = .ok (l.map g) := by
  induction l with
  | nil => rfl
  | cons a l ih => rw [mapE, h, ih]; rfl

theorem g1To_eq (ha : Aligned q) (P : Affine (ZMod q)) : g1To (g1From P) = .ok (jsonPoint1 P) := by
  unfold g1To pairTo
  simp only [numTo_eq ha]
  unfold g1From jsonPoint1
  split <;> simp [bind, Except.bind, pure, Except.pure]

theorem g2To_eq (ha : Aligned q) (P : Affine (Fq2 (ZMod q))) : g2To (g2From P) = .ok (jsonPoint2 P) := by
  unfold g2To pairTo
  simp only [pairTo, numTo_eq ha]
  unfold g2From jsonPoint2
  split <;> simp [bind, Except.bind, pure, Except.pure]

theorem vkTo_eq (ha : Aligned q) (v : VK (Affine (ZMod q)) (Affine (Fq2 (ZMod q)))) : Serde.vkTo (vkIntoData v) = .ok (jsonKey v) := by
  unfold Serde.vkTo vecTo vkIntoData jsonKey
  have : mapE g1To (v.ic.map g1From) = .ok (v.ic.map jsonPoint1) := by
    induction v.ic with
    | nil => rfl
    | cons a l ih => rw [List.map_cons, mapE, g1To_eq ha, ih]; rfl
  simp only [g1To_eq ha, g2To_eq ha, this]
  rfl

theorem proofTo_eq (ha : Aligned q) (P : Proof (Affine (ZMod q)) (Affine (Fq2 (ZMod q)))) :
    Serde.proofTo (proofIntoData P) = .ok (jsonProof P) := by
  unfold Serde.proofTo proofIntoData jsonProof
  simp only [g1To_eq ha, g2To_eq ha]
  rfl

theorem spelled {A : Type} {f : A → Except Panic Json} {g : Json → Option A} {n : Nat} (h : Faithful f g n) (hn : n ≤ 127) (a : A) {j : Json}
    (hj : f a = .ok j) : ∃ t, toText f a = .ok t ∧ Text t j := by
  obtain ⟨j', h1, -, h3, h4⟩ := h a
  rw [hj] at h1; injection h1 with h1; subst h1
  exact ⟨j.pretty 0, by unfold toText; rw [hj]; rfl, ((C91_text _ _).1 (parse_pretty j h3 (by omega))).1⟩

theorem waves_number (x : ZMod q) : Num.writeBE (Num.intoRepr x) = (Near.number (8 * nLimbs q) x.val).reverse := by
  rw [← number_bytes]
  unfold Num.borshSerialize Num.writeBE Num.writeLE
  rw [List.reverse_flatMap]
  rfl

end

variable {G1 G2 : Type} {q r : Nat} [Fact q.Prime] [Fact r.Prime]

/-- The coordinates of the points of a key. -/
def keyCoords (c : Coords G1 G2 q) (v : VK G1 G2) : VK (Affine (ZMod q)) (Affine (Fq2 (ZMod q))) :=
  ⟨c.coords1 v.alphaG1, c.coords2 v.betaG2, c.coords2 v.gammaG2, c.coords2 v.deltaG2, v.ic.map c.coords1⟩

/-- The coordinates of the points of a proof. -/
def proofCoords (c : Coords G1 G2 q) (P : Proof G1 G2) : Proof (Affine (ZMod q)) (Affine (Fq2 (ZMod q))) :=
  ⟨c.coords1 P.a, c.coords2 P.b, c.coords1 P.c⟩

/-- C118: the Ethereum binding writes the JSON values of the specification. -/
theorem C118_ethereum (c : Coords G1 G2 q) (hq : Aligned q) (hr : Aligned r) :
    (∀ v, ∃ t, (jsonFormat c r).vkTo v = .ok t ∧ Text t (jsonKey (keyCoords c v))) ∧
    (∀ P, ∃ t, (jsonFormat c r).proofTo P = .ok t ∧ Text t (jsonProof (proofCoords c P))) ∧
    ∀ l : List (ZMod r), ∃ t, (jsonFormat c r).inputsTo l = .ok t ∧ Text t (jsonInputs l) := by
  refine ⟨fun v => ?_, fun P => ?_, fun l => ?_⟩
  · exact spelled (vk_faithful hq) (by omega) _ (vkTo_eq hq (keyCoords c v))
  · exact spelled (proof_faithful hq) (by omega) _ (proofTo_eq hq (proofCoords c P))
  · refine spelled (vec_faithful (num_faithful hr)) (by omega) l ?_
    unfold vecTo
    rw [mapE_total (numTo_eq hr)]; rfl

omit [Fact q.Prime] in
/-- C118: the Waves binding writes the compressed points and the public inputs, in base64. -/
theorem C118_waves (c1 : Codec G1) (c2 : Codec G2) :
    (∀ v, ∃ t, (wavesFormat c1 c2 r).vkTo v = .ok t ∧ Base64.IsBase64 t (wavesKey c1.encode c2.encode v)) ∧
    (∀ P, ∃ t, (wavesFormat c1 c2 r).proofTo P = .ok t ∧ Base64.IsBase64 t (wavesProof c1.encode c2.encode P)) ∧
    ∀ l : List (ZMod r), ∃ t, (wavesFormat c1 c2 r).inputsTo l = .ok t ∧ Base64.IsBase64 t (wavesInputs l) := by
  refine ⟨fun v => ⟨_, rfl, (C72_base64_encode _ _).1 ?_⟩, fun P => ⟨_, rfl, (C72_base64_encode _ _).1 rfl⟩,
    fun l => ⟨_, rfl, (C72_base64_encode _ _).1 ?_⟩⟩
  · rw [vkWrite, wavesKey, List.flatMap_def]
  · rw [numVecToBuf_eq, wavesInputs]
    simp only [waves_number]

/-- C118: the Near binding writes the numbers of the specification, in base64. -/
theorem C118_near (c : Coords G1 G2 q) :
    (∀ v : VK G1 G2, v.ic.length < 2 ^ 32 → ∃ t, (nearFormat c r).vkTo v = .ok t ∧ Base64.IsBase64 t (nearKey (keyCoords c v))) ∧
    (∀ P, ∃ t, (nearFormat c r).proofTo P = .ok t ∧ Base64.IsBase64 t (nearProof (proofCoords c P))) ∧
    ∀ l : List (ZMod r), l.length < 2 ^ 32 → ∃ t, (nearFormat c r).inputsTo l = .ok t ∧ Base64.IsBase64 t (nearInputs l) := by
  refine ⟨fun v hv => ⟨_, rfl, (C72_base64_encode _ _).1 ?_⟩, fun P => ⟨_, rfl, (C72_base64_encode _ _).1 ?_⟩,
    fun l hl => ⟨_, rfl, (C72_base64_encode _ _).1 ?_⟩⟩
  · exact congrArg Base64.encode (C53_vk_layout (keyCoords c v) (by simpa [keyCoords] using hv))
  · exact congrArg Base64.encode (C53_proof_layout (proofCoords c P))
  · unfold vecSerialize nearInputs
    rw [Nat.mod_eq_of_lt hl, show Num.borshSerialize = fun x : ZMod r => Near.number (8 * nLimbs r) x.val from funext number_bytes]
    rfl

theorem layout_to_eq (hr : Aligned r) (l : Layout) (hl : Layout.Named l) (v : l.ty.V (ZMod r)) : l.to (p := r) v = .ok (jsonData l v) := by
  induction l with
  | num => exact numTo_eq hr v
  | bool => rfl
  | vec n a ih =>
    show vecTo a.to v.items = _
    unfold vecTo
    rw [mapE_total (ih hl)]
    rfl
  | pair a b iha ihb =>
    show pairTo a.to b.to v = _
    unfold pairTo
    rw [iha hl.1, ihb hl.2]
    rfl
  | one name a ih =>
    have h : a.to (p := r) v = .ok (jsonData a v) := ih hl v
    exact congrArg (fun x : Except Panic Json => x >>= fun j => pure (Json.obj [(name, j)])) h
  | more f name a ihf iha =>
    obtain ⟨h1, h2, -, h4⟩ := hl
    show (f.to v.1 >>= fun u => a.to v.2 >>= fun j =>
      (match u with
      | Json.obj l => pure (Json.obj (l ++ [(name, j)]))
      | _ => Except.error Panic.unwrap : Except Panic Json)) = _
    rw [ihf h1, iha h4]
    cases f with
    | one => rfl
    | more => rfl
    | num => exact absurd rfl h2
    | bool => exact absurd rfl h2
    | vec => exact absurd rfl h2
    | pair => exact absurd rfl h2

/-- C118: the public and secret data of a circuit are written as an array of the two, whatever the structs they are made of. -/
theorem C118_object (hr : Aligned r) (l l' : Layout) (hl : Layout.Named l) (hl' : Layout.Named l') (hd : Layout.depth l ≤ 126)
    (hd' : Layout.depth l' ≤ 126) (v : l.ty.V (ZMod r) × l'.ty.V (ZMod r)) :
    ∃ t, toText (pairTo l.to l'.to) v = .ok t ∧ Text t (.arr [jsonData l v.1, jsonData l' v.2]) := by
  refine spelled (pair_faithful ((layout_faithful' hr l hl).mono hd) ((layout_faithful' hr l' hl').mono hd')) (by omega) v ?_
  unfold pairTo
  rw [layout_to_eq hr l hl, layout_to_eq hr l' hl']
  rfl

/-! ### The commands -/

section

variable {T : Type} [AddCommGroup G1] [AddCommGroup G2] [DecidableEq G1] [DecidableEq G2] [One T] [DecidableEq T]

/-- The file holds the text of a value. -/
def FileIs (w : Cli.World) (path : Path) (is : List Char → Prop) : Prop := ∃ t, w.files path = some (intoBytes t) ∧ is t

/-- C118: after a `setup` that ends well, the file of the key holds the key in the form of the binding. -/
theorem C118_setup (g : Program G1 G2 T r) (t : Toxic G1 G2 r) (o : Files) (ho : o.params ≠ o.vk) (w : Cli.World) (setup : Cmd Unit)
    (hs : setup = setupEthereum g t o ∨ setup = setupText g t o) (hok : (setup.run w).1 = .ok ()) :
    ∃ params, generateKeys g.field t (g.circuit none none) = .ok params ∧
      (∀ c : Coords G1 G2 q, g.format = jsonFormat c r → Aligned q →
        FileIs (setup.run w).2 o.vk fun t => Text t (jsonKey (keyCoords c (truncate params.vk)))) ∧
      (∀ c1 c2, g.format = wavesFormat c1 c2 r →
        FileIs (setup.run w).2 o.vk fun t => Base64.IsBase64 t (wavesKey c1.encode c2.encode (truncate params.vk))) ∧
      (∀ c : Coords G1 G2 q, g.format = nearFormat c r → params.vk.ic.length < 2 ^ 32 →
        FileIs (setup.run w).2 o.vk fun t => Base64.IsBase64 t (nearKey (keyCoords c (truncate params.vk)))) := by
  have hd : SetupFiles g t o (setup.run w).2 := by
    rcases hs with rfl | rfl
    · rcases (C76_setup_ethereum g t o ho w).2 with ⟨-, -, h⟩ | ⟨e, h, -⟩
      · exact h
      · rw [hok] at h; cases h
    · rcases (C76_setup_text g t o ho w).2 with ⟨-, -, h⟩ | ⟨e, h, -⟩
      · exact h
      · rw [hok] at h; cases h
  obtain ⟨params, text, h1, h2, -, h4⟩ := hd
  refine ⟨params, h1, fun c hf hq => ?_, fun c1 c2 hf => ?_, fun c hf hl => ?_⟩
  · obtain ⟨t', e, h⟩ := spelled (vk_faithful hq) (by omega) _ (vkTo_eq hq (keyCoords c (truncate params.vk)))
    rw [hf] at h2
    rw [show (jsonFormat c r).vkTo (truncate params.vk) = .ok t' from e] at h2
    injection h2 with h2; subst h2
    exact ⟨_, h4, h⟩
  · obtain ⟨t', e, h⟩ := (C118_waves (r := r) c1 c2).1 (truncate params.vk)
    rw [hf, e] at h2
    injection h2 with h2; subst h2
    exact ⟨_, h4, h⟩
  · obtain ⟨t', e, h⟩ := (C118_near (r := r) c).1 (truncate params.vk) hl
    rw [hf, e] at h2
    injection h2 with h2; subst h2
    exact ⟨_, h4, h⟩

/-- C118: after a `prove` that ends well, the files of the proof and of the public inputs hold, in the form of the
binding, what `prove` computes from the files of the parameters and of the data. -/
theorem C118_prove (g : Program G1 G2 T r) (x y : ZMod r) (o : Files) (ho : o.proof ≠ o.inputs) (w : Cli.World)
    (hok : ((proveCmd g x y o).run w).1 = .ok ()) :
    ∃ bytes rest params object p s proof inputs, w.files o.params = some bytes ∧
      paramsRead g.raw1 g.raw2 false bytes = some (params, rest) ∧ w.files o.object = some object ∧
      (fromUtf8 object).bind (ofText (pairOf (g.pub.of r) (g.sec.of r))) = some (p, s) ∧
      prove g.field params x y (g.circuit (some p) (some s)) = .ok proof ∧
      getInputs g.pub.ty (some p) = .ok (some inputs) ∧
      (∀ c : Coords G1 G2 q, g.format = jsonFormat c r → Aligned q → Aligned r →
        FileIs ((proveCmd g x y o).run w).2 o.proof (fun t => Text t (jsonProof (proofCoords c proof))) ∧
        FileIs ((proveCmd g x y o).run w).2 o.inputs (fun t => Text t (jsonInputs inputs))) ∧
      (∀ c1 c2, g.format = wavesFormat c1 c2 r →
        FileIs ((proveCmd g x y o).run w).2 o.proof (fun t => Base64.IsBase64 t (wavesProof c1.encode c2.encode proof)) ∧
        FileIs ((proveCmd g x y o).run w).2 o.inputs (fun t => Base64.IsBase64 t (wavesInputs inputs))) ∧
      (∀ c : Coords G1 G2 q, g.format = nearFormat c r → inputs.length < 2 ^ 32 →
        FileIs ((proveCmd g x y o).run w).2 o.proof (fun t => Base64.IsBase64 t (nearProof (proofCoords c proof))) ∧
        FileIs ((proveCmd g x y o).run w).2 o.inputs (fun t => Base64.IsBase64 t (nearInputs inputs))) := by
  have hd : ProveFiles g x y o w ((proveCmd g x y o).run w).2 := by
    rcases (C76_prove g x y o ho w).2 with ⟨-, -, h⟩ | ⟨e, h, -⟩
    · exact h
    · rw [hok] at h; cases h
  obtain ⟨bytes, rest, params, object, p, s, proof, inputs, t1, t2, h1, h2, h3, h4, h5, h6, h7, h8, h9, h10⟩ := hd
  have key : ∀ (f : Format G1 G2 r) (is is' : List Char → Prop), g.format = f → (∃ t, f.proofTo proof = .ok t ∧ is t) →
      (∃ t, f.inputsTo inputs = .ok t ∧ is' t) → FileIs ((proveCmd g x y o).run w).2 o.proof is ∧
        FileIs ((proveCmd g x y o).run w).2 o.inputs is' := by
    rintro f is is' rfl ⟨u, e, h⟩ ⟨u', e', h'⟩
    rw [h7] at e; injection e with e; subst e
    rw [h8] at e'; injection e' with e'; subst e'
    exact ⟨⟨_, h9, h⟩, ⟨_, h10, h'⟩⟩
  exact ⟨bytes, rest, params, object, p, s, proof, inputs, h1, h2, h3, h4, h5, h6,
    fun c hf hq hr => key _ _ _ hf ((C118_ethereum c hq hr).2.1 proof) ((C118_ethereum c hq hr).2.2 inputs),
    fun c1 c2 hf => key _ _ _ hf ((C118_waves c1 c2).2.1 proof) ((C118_waves c1 c2).2.2 inputs),
    fun c hf hl => key _ _ _ hf ((C118_near c).2.1 proof) ((C118_near c).2.2 inputs hl)⟩

/-- C118: after a `generate-test-data` that ends well, the file holds the data. -/
theorem C118_test_data (g : Program G1 G2 T r) (hr : Aligned r) (hl : Layout.Named g.pub ∧ Layout.depth g.pub ≤ 126)
    (hl' : Layout.Named g.sec ∧ Layout.depth g.sec ≤ 126) (data : g.pub.ty.V (ZMod r) × g.sec.ty.V (ZMod r)) (o : Files) (w : Cli.World)
    (hok : ((generateTestData g data o).run w).1 = .ok ()) :
    FileIs ((generateTestData g data o).run w).2 o.object fun t => Text t (.arr [jsonData g.pub data.1, jsonData g.sec data.2]) := by
  rcases (C76_test_data g data o w).2 with ⟨-, -, text, h1, h2⟩ | ⟨e, h, -⟩
  · obtain ⟨t, h3, h4⟩ := C118_object hr g.pub g.sec hl.1 hl'.1 hl.2 hl'.2 data
    rw [h1] at h3; injection h3 with h3; subst h3
    exact ⟨_, h2, h4⟩
  · rw [hok] at h; cases h

end

/-! ### Examples -/

local instance instPrime101 : Fact (Nat.Prime 101) := ⟨by norm_num⟩

/-- The order of the parts, the byte order and the length differ between the bindings. -/
example : nearInputs ([7, 100] : List (ZMod 101)) = [2, 0, 0, 0, 7, 0, 0, 0, 0, 0, 0, 0, 100, 0, 0, 0, 0, 0, 0, 0] ∧
    wavesInputs ([7, 100] : List (ZMod 101)) = [0, 0, 0, 0, 0, 0, 0, 7, 0, 0, 0, 0, 0, 0, 0, 100] ∧
    Near.numbers2 (⟨⟨1, 2⟩, ⟨3, 4⟩, false⟩ : Affine (Fq2 (ZMod 101))) = [1, 2, 3, 4] := by decide +kernel

/-- The imaginary part first. -/
example : jsonPoint2 (⟨⟨1, 2⟩, ⟨3, 40⟩, false⟩ : Affine (Fq2 (ZMod 101))) =
    .arr [.arr [.str ['2'], .str ['1']], .arr [.str ['4', '0'], .str ['3']]] := by
  have : (2 : ZMod 101).val = 2 ∧ (1 : ZMod 101).val = 1 ∧ (40 : ZMod 101).val = 40 ∧ (3 : ZMod 101).val = 3 := by decide +kernel
  simp only [jsonPoint2, jsonNumber, this]
  rfl

/-- A struct with two fields, one of them a vector. -/
example : jsonData (r := 101) sampleLayout ((5 : ZMod 101), (⟨[true, false]⟩ : SizedVec Bool 2)) =
    .obj [(chars! "root", .str ['5']), (chars! "path", .arr [.bool true, .bool false])] := by
  have : ZMod.val (n := 101) (5 : ZMod 101) = 5 := by decide +kernel
  show Json.obj [(_, jsonNumber (ZMod.val (n := 101) (5 : ZMod 101))), _] = _
  rw [this]
  rfl

/-- A `setup` that ends well: the program of Props/Session, with the format of Near. -/
example (w : Cli.World) (hp : w.plan = []) :
    ∃ params, generateKeys demoK demoToxic ((demoProgram (nearFormat demoCoords bnR)).circuit none none) = .ok params ∧
      (params.vk.ic.length < 2 ^ 32 →
        FileIs ((setupText (demoProgram (nearFormat demoCoords bnR)) demoToxic textFiles).run w).2 textFiles.vk fun t =>
          Base64.IsBase64 t (nearKey (keyCoords demoCoords (truncate params.vk)))) := by
  have hd : Distinct textFiles := by unfold Distinct; decide +kernel
  obtain ⟨-, hok, -⟩ := session_reaches (completes_of_outcome demo_true aligned_bnR demoLayouts.1 demoLayouts.2 demoRaw_lawful demoRaw_lawful
    (.inl (C78_near_format demoCoords_lawful))) textFiles hd (setupText (demoProgram (nearFormat demoCoords bnR)) demoToxic textFiles)
    (.inr rfl) w hp
  obtain ⟨params, h1, -, -, h⟩ := C118_setup (q := bnQ) (demoProgram (nearFormat demoCoords bnR)) demoToxic textFiles (by decide +kernel) w _
    (.inr rfl) hok
  exact ⟨params, h1, h demoCoords rfl⟩

end Fawkes.Props
