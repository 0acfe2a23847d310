import Verif.Model.KeyFiles
import Verif.Model.Serde
import Verif.Model.Base64
import Verif.Model.Solidity
import Verif.Spec.Chars

/-!
# The commands generated by the binding macros (src/macros.rs:224-1157)

`groth16_ethereum_bindings!`, `groth16_waves_bindings!`, `groth16_waves_bn256_bindings!` and `groth16_near_bindings!` generate
a command line program each.  Here a command gets the paths it works with; for the command line see Model/CommandLine.lean.
-/

namespace Fawkes.Cli

open Fawkes.Groth16 Fawkes.Serde

/-! ### Files -/

abbrev Path := List Char

/-- What the operating system does with one call: fail, do all of it, or (for `write`) take at most so many bytes.
Simplification: calls that are interrupted and tried again are not visible. -/
inductive Outcome where
  | fault
  | full
  | upTo (n : Nat)
deriving DecidableEq

/-- The contents of the files, the lines printed, and what will happen to the next calls (all of them succeed after the end of
the list).  Two paths are the same file only if they are equal. -/
structure World where
  files : Path → Option (List UInt8)
  printed : List (List Char)
  plan : List Outcome

/-- A piece of a command: it changes the world even if it panics in the end. -/
def Cmd (α : Type) : Type := World → Except Panic α × World

namespace Cmd

def run {α : Type} (c : Cmd α) (w : World) : Except Panic α × World := c w

instance instMonad : Monad Cmd where
  pure a := fun w => (.ok a, w)
  bind c f := fun w => match c w with
    | (.ok a, w) => f a w
    | (.error e, w) => (.error e, w)

/-- A computation without effects on the world. -/
def lift {α : Type} (x : Except Panic α) : Cmd α := fun w => (x, w)

/-- `unwrap` -/
def unwrap {α : Type} : Option α → Cmd α
  | some a => lift (.ok a)
  | none => lift (.error .unwrap)

/-- The outcome of the next call. -/
def outcome : Cmd Outcome := fun w =>
  match w.plan with
  | [] => (.ok .full, w)
  | o :: os => (.ok o, { w with plan := os })

def setFile (p : Path) (bs : List UInt8) : Cmd Unit := fun w =>
  (.ok (), { w with files := fun p' => if p' = p then some bs else w.files p' })

/-- The contents of a file; panics if there is none. -/
def contents (p : Path) : Cmd (List UInt8) := fun w =>
  match w.files p with
  | none => (.error .unwrap, w)
  | some bs => (.ok bs, w)

/-- `File::create(path).unwrap()`: a new, empty file. -/
def create (p : Path) : Cmd Unit := do
  match ← outcome with
  | .fault => lift (.error .unwrap)
  | _ => setFile p []

/-- `file.write(bytes).unwrap()`: the number of bytes taken. -/
def writeOnce (p : Path) (bs : List UInt8) : Cmd Nat := do
  match ← outcome with
  | .fault => lift (.error .unwrap)
  | .full => do
    let old ← contents p
    setFile p (old ++ bs)
    pure bs.length
  | .upTo n => do
    let old ← contents p
    setFile p (old ++ bs.take n)
    pure (min n bs.length)

/-- `file.write_all(bytes).unwrap()`: calls `write` until all is written; to take no byte is an error.  `fuel` bounds the number
of calls. -/
def writeLoop (p : Path) : (fuel : Nat) → List UInt8 → Cmd Unit
  | _, [] => pure ()
  | 0, _ => pure ()
  | fuel + 1, bs => do
    let n ← writeOnce p bs
    if n = 0 then lift (.error .unwrap) else writeLoop p fuel (bs.drop n)

def writeAll (p : Path) (bs : List UInt8) : Cmd Unit := writeLoop p bs.length bs

/-- `write_all` for one buffer after the other. -/
def writeChunks (p : Path) : List (List UInt8) → Cmd Unit
  | [] => pure ()
  | c :: cs => do
    writeAll p c
    writeChunks p cs

/-- `std::fs::write(path, bytes).unwrap()` -/
def fsWrite (p : Path) (bs : List UInt8) : Cmd Unit := do
  create p
  writeAll p bs

/-- All bytes of a file (`File::open(path).unwrap()`, then reading). -/
def readBytes (p : Path) : Cmd (List UInt8) := do
  match ← outcome with
  | .fault => lift (.error .unwrap)
  | _ => contents p

end Cmd

/-- `String::into_bytes` -/
def intoBytes (t : List Char) : List UInt8 := t.flatMap String.utf8EncodeChar

/-- `String::from_utf8`, as in `std::fs::read_to_string` -/
def fromUtf8 (bs : List UInt8) : Option (List Char) :=
  match (ByteArray.mk bs.toArray).utf8Decode? with
  | none => none
  | some a => some a.toList

namespace Cmd

/-- `std::fs::read_to_string(path).unwrap()` -/
def readToString (p : Path) : Cmd (List Char) := do
  let bs ← readBytes p
  unwrap (fromUtf8 bs)

/-- `println!` (it panics if the output is closed; not modelled). -/
def println (line : List Char) : Cmd Unit := fun w => (.ok (), { w with printed := w.printed ++ [line] })

end Cmd

/-! ### Text formats -/

/-- How keys, proofs and inputs are turned into text and back. -/
structure Format (G1 G2 : Type) (r : Nat) where
  vkTo : VK G1 G2 → Except Panic (List Char)
  vkOf : List Char → Except Panic (VK G1 G2)
  proofTo : Proof G1 G2 → Except Panic (List Char)
  proofOf : List Char → Except Panic (Proof G1 G2)
  inputsTo : List (ZMod r) → Except Panic (List Char)
  inputsOf : List Char → Except Panic (List (ZMod r))

/-- `unwrap` -/
def unwrapE {α : Type} : Option α → Except Panic α
  | none => .error .unwrap
  | some a => .ok a

/-- Coordinates of the points of the external crate, and the conversions back (`g1Into`, `g2Into` or the versions with subgroup
check of Model/Groth16.lean, followed by the passage to the group). -/
structure Coords (G1 G2 : Type) (q : Nat) [Fact q.Prime] where
  coords1 : G1 → Affine (ZMod q)
  coords2 : G2 → Affine (Fq2 (ZMod q))
  into1 : G1PointData (ZMod q) → Except Panic G1
  into2 : G2PointData (ZMod q) → Except Panic G2

section formats

variable {G1 G2 : Type} {q : Nat} [Fact q.Prime]

/-- src/helpers/groth16/verifier.rs:35-43: `into_data` -/
def Coords.vkData (c : Coords G1 G2 q) (v : VK G1 G2) : VKData (ZMod q) :=
  vkIntoData ⟨c.coords1 v.alphaG1, c.coords2 v.betaG2, c.coords2 v.gammaG2, c.coords2 v.deltaG2, v.ic.map c.coords1⟩

/-- src/helpers/groth16/prover.rs:28-34: `into_data` -/
def Coords.proofData (c : Coords G1 G2 q) (p : Proof G1 G2) : ProofData (ZMod q) :=
  proofIntoData ⟨c.coords1 p.a, c.coords2 p.b, c.coords1 p.c⟩

/-- src/macros.rs:363-365, 387-389 (key), 424, 390 (proof), 425, 391-395 (inputs): JSON. -/
def jsonFormat (c : Coords G1 G2 q) (r : Nat) : Format G1 G2 r where
  vkTo v := toText vkTo (c.vkData v)
  vkOf t := do
    let d ← unwrapE (ofText (vkOf q) t)
    vkFromData c.into1 c.into2 d
  proofTo p := toText proofTo (c.proofData p)
  proofOf t := do
    let d ← unwrapE (ofText (proofOf q) t)
    proofFromData c.into1 c.into2 d
  inputsTo l := toText (vecTo numTo) l
  inputsOf t := unwrapE (ofText (vecOf (numOf r)) t)

/-- src/macros.rs:608-612, 623-625 (key), 659-662, 626 (proof), 663-667, 627-631 (inputs), and the copy for BN256 (src/macros.rs:
846-850, 861-863, 897-900, 864, 901-905, 865-869): compressed points in base64. -/
def wavesFormat (c1 : Codec G1) (c2 : Codec G2) (r : Nat) : Format G1 G2 r where
  vkTo v := .ok (Base64.encode (vkWrite c1 c2 v))
  vkOf t := do
    let bs ← unwrapE (Base64.decode t)
    unwrapE (vkRead c1 c2 bs)
  proofTo p := .ok (Base64.encode (proofWrite c1 c2 p))
  proofOf t := do
    let bs ← unwrapE (Base64.decode t)
    unwrapE (proofRead c1 c2 bs)
  inputsTo l := .ok (Base64.encode (Num.numVecToBuf l))
  inputsOf t := do
    let bs ← unwrapE (Base64.decode t)
    unwrapE (Num.readNumVec r bs)

/-- Borsh `try_from_slice`: all bytes must be used. -/
def tryFromSlice {α : Type} (f : Decoder α) (bs : List UInt8) : Option α :=
  match f bs with
  | some (a, []) => some a
  | _ => none

/-- src/macros.rs:1084-1087, 1097-1099 (key), 1136, 1138, 1100-1102 (proof), 1137, 1139, 1103-1110 (inputs): Borsh in base64. -/
def nearFormat (c : Coords G1 G2 q) (r : Nat) : Format G1 G2 r where
  vkTo v := .ok (Base64.encode (vkSerialize (c.vkData v)))
  vkOf t := do
    let bs ← unwrapE (Base64.decode t)
    let d ← unwrapE (tryFromSlice (vkDeserialize q) bs)
    vkFromData c.into1 c.into2 d
  proofTo p := .ok (Base64.encode (proofSerialize (c.proofData p)))
  proofOf t := do
    let bs ← unwrapE (Base64.decode t)
    let d ← unwrapE (tryFromSlice (proofDeserialize q) bs)
    proofFromData c.into1 c.into2 d
  inputsTo l := .ok (Base64.encode (vecSerialize Num.borshSerialize l))
  inputsOf t := do
    let bs ← unwrapE (Base64.decode t)
    unwrapE (tryFromSlice (vecDeserialize (Num.borshDeserialize r)) bs)

end formats

/-! ### Commands -/

/-- The paths that the options of the commands give. -/
structure Files where
  params : Path
  object : Path
  proof : Path
  inputs : Path
  vk : Path
  solidity : Path

/-- src/macros.rs:269-328: the default values of the options, Ethereum -/
def ethereumFiles : Files where
  params := chars! "params.bin"
  object := chars! "object.json"
  proof := chars! "proof.json"
  inputs := chars! "inputs.json"
  vk := chars! "verification_key.json"
  solidity := chars! "verifier.sol"

/-- src/macros.rs:525-572, 763-810, 1003-1050: the default values of the options, the other bindings (no contract there) -/
def textFiles : Files where
  params := chars! "params.bin"
  object := chars! "object.json"
  proof := chars! "proof.txt"
  inputs := chars! "inputs.txt"
  vk := chars! "verification_key.txt"
  solidity := []

section commands

variable {G1 G2 T : Type} [AddCommGroup G1] [AddCommGroup G2] [DecidableEq G1] [DecidableEq G2] [One T] [DecidableEq T]
  {r : Nat} [Fact r.Prime]

/-- The parts of a generated program that depend on the macro and its arguments: the constants of the scalar field, the binary
and the text formats, the pairing, the layout of public and secret data, and the circuit. -/
structure Program (G1 G2 T : Type) (r : Nat) where
  field : TwoAdic (ZMod r)
  raw1 : RawCodec G1
  raw2 : RawCodec G2
  format : Format G1 G2 r
  engine : Engine G1 G2 T
  pub : Layout
  sec : Layout
  circuit : Option (pub.ty.V (ZMod r)) → Option (sec.ty.V (ZMod r)) → M (ZMod r) (pub.ty.S (ZMod r))

/-- Errors of key generation and proving become panics (src/helpers/groth16/prover.rs:102, 110). -/
def keyResult {α : Type} : Except KeyError α → Except Panic α
  | .ok a => .ok a
  | .error (.circuit p) => .error p
  | .error .outOfBounds => .error .outOfBounds
  | .error _ => .error .unwrap

open Cmd

/-- src/macros.rs:361-369: `cli_setup`, Ethereum; `t` are the random choices. -/
def setupEthereum (g : Program G1 G2 T r) (t : Toxic G1 G2 r) (o : Files) : Cmd Unit := do
  let params ← lift (keyResult (generateKeys g.field t (g.circuit none none)))
  let vk ← lift (g.format.vkTo (truncate params.vk))
  create o.params
  writeChunks o.params (paramsChunks g.raw1 g.raw2 params)
  fsWrite o.vk (intoBytes vk)
  println (chars! "setup OK")

/-- src/macros.rs:606-616, 844-854, 1082-1091: `cli_setup`, the other bindings. -/
def setupText (g : Program G1 G2 T r) (t : Toxic G1 G2 r) (o : Files) : Cmd Unit := do
  let params ← lift (keyResult (generateKeys g.field t (g.circuit none none)))
  let vk ← lift (g.format.vkTo (truncate params.vk))
  fsWrite o.vk (intoBytes vk)
  create o.params
  writeChunks o.params (paramsChunks g.raw1 g.raw2 params)
  println (chars! "setup OK")

/-- src/macros.rs:371-380: `cli_generate_verifier`; `checked`: see `generateSolData`. -/
def generateVerifier (q : Nat) [Fact q.Prime] (checked : Bool) (o : Files) : Cmd Unit := do
  let text ← readToString o.vk
  let vk ← unwrap (ofText (Serde.vkOf q) text)
  let sol ← lift (generateSolData checked vk)
  create o.solidity
  let _ ← writeOnce o.solidity (intoBytes sol)
  println (chars! "solidity verifier generated")

/-- src/macros.rs:382-401, 618-637, 856-875, 1093-1116: `cli_verify` -/
def verifyCmd (g : Program G1 G2 T r) (o : Files) : Cmd Unit := do
  let vkText ← readToString o.vk
  let proofText ← readToString o.proof
  let inputsText ← readToString o.inputs
  let vk ← lift (g.format.vkOf vkText)
  let proof ← lift (g.format.proofOf proofText)
  let inputs ← lift (g.format.inputsOf inputsText)
  let res ← lift (verify g.engine vk proof inputs)
  println (chars! "Verify result is " ++ (if res.toOption.getD false then chars! "true" else chars! "false") ++ chars! ".")

/-- src/macros.rs:403-408, 639-644, 877-882, 1118-1123: `cli_generate_test_data`; `data` is what the user's function returns. -/
def generateTestData (g : Program G1 G2 T r) (data : g.pub.ty.V (ZMod r) × g.sec.ty.V (ZMod r)) (o : Files) : Cmd Unit := do
  let text ← lift (toText (pairTo g.pub.to g.sec.to) data)
  fsWrite o.object (intoBytes text)
  println (chars! "Test data generated")

/-- src/macros.rs:410-430, 646-669, 884-907, 1125-1142: `cli_prove`; `x` and `y` are the random choices.  (In the Waves bindings
the text of the inputs is made after the proof has been written; this makes no difference since it cannot fail there.) -/
def proveCmd (g : Program G1 G2 T r) (x y : ZMod r) (o : Files) : Cmd Unit := do
  let bytes ← readBytes o.params
  let (params, _) ← unwrap (paramsRead g.raw1 g.raw2 false bytes)
  let text ← readToString o.object
  let (p, s) ← unwrap (ofText (pairOf (g.pub.of r) (g.sec.of r)) text)
  let proof ← lift (keyResult (prove g.field params x y (g.circuit (some p) (some s))))
  let inputs ← lift (getInputs g.pub.ty (some p))
  let inputs ← unwrap inputs
  let proofText ← lift (g.format.proofTo proof)
  let inputsText ← lift (g.format.inputsTo inputs)
  fsWrite o.proof (intoBytes proofText)
  fsWrite o.inputs (intoBytes inputsText)
  println (chars! "Proved")

end commands

end Fawkes.Cli
