import Verif.Model.Cli

/-!
# The command lines of the generated programs (src/macros.rs:249-328, 432-441 and the corresponding lines of the other bindings)

`cli_main` lets `clap` read the command line into the structs `Opts`, `ProveOpts` etc. and runs the command.  The options, their names and
their default values are those of the source; what `clap` does with them is modelled after its documentation: the name of a subcommand is
the name of the variant in lower case with hyphens; an option is `--long value`, `--long=value`, `-s value`, `-svalue` or `-s=value`; an
option that is given twice, an unknown option, a word that is no option, a missing value, a value in a word of its own that looks like an
option, `--help` and `--version` end the program.  Simplifications: the arguments are Unicode text; the text that `clap` prints and the exit
code are not modelled.
-/

namespace Fawkes.Cli

open Fawkes.Groth16 Fawkes.Serde

/-- The four macros: `groth16_ethereum_bindings!`, `groth16_waves_bindings!`, `groth16_waves_bn256_bindings!`, `groth16_near_bindings!` -/
inductive Binding where
  | ethereum
  | waves
  | wavesBn256
  | near
deriving DecidableEq

/-- src/macros.rs:256-267, 514-523, 752-761, 992-1001: the variants of `SubCommand` -/
inductive Command where
  | prove
  | verify
  | setup
  | generateVerifier
  | generateTestData
deriving DecidableEq

/-- The fields of the structs. -/
inductive Field where
  | params
  | object
  | proof
  | inputs
  | vk
  | solidity
deriving DecidableEq

/-- A field of a struct with its attribute `#[clap(short, long, default_value)]`. -/
structure Opt where
  field : Field
  short : Char
  long : List Char
  default : Path
deriving DecidableEq

/-- src/macros.rs:256-267, 514-523, 752-761, 992-1001 -/
def Binding.commands : Binding → List Command
  | .ethereum => [.prove, .verify, .setup, .generateVerifier, .generateTestData]
  | .waves | .wavesBn256 | .near => [.prove, .verify, .setup, .generateTestData]

/-- src/macros.rs:256-267: the names that `clap` derives. -/
def Command.name : Command → List Char
  | .prove => chars! "prove"
  | .verify => chars! "verify"
  | .setup => chars! "setup"
  | .generateVerifier => chars! "generate-verifier"
  | .generateTestData => chars! "generate-test-data"

/-- src/macros.rs:269-328, 525-572, 763-810, 1003-1050: `ProveOpts`, `VerifyOpts`, `SetupOpts`, `GenerateVerifierOpts`,
`GenerateTestDataOpts` -/
def options : Binding → Command → List Opt
  | .ethereum, .prove =>
    [⟨.params, 'p', chars! "params", chars! "params.bin"⟩, ⟨.object, 'o', chars! "object", chars! "object.json"⟩,
      ⟨.proof, 'r', chars! "proof", chars! "proof.json"⟩, ⟨.inputs, 'i', chars! "inputs", chars! "inputs.json"⟩]
  | .ethereum, .verify =>
    [⟨.vk, 'v', chars! "vk", chars! "verification_key.json"⟩, ⟨.proof, 'r', chars! "proof", chars! "proof.json"⟩,
      ⟨.inputs, 'i', chars! "inputs", chars! "inputs.json"⟩]
  | .ethereum, .setup =>
    [⟨.params, 'p', chars! "params", chars! "params.bin"⟩, ⟨.vk, 'v', chars! "vk", chars! "verification_key.json"⟩]
  | .ethereum, .generateVerifier =>
    [⟨.vk, 'v', chars! "vk", chars! "verification_key.json"⟩, ⟨.solidity, 's', chars! "solidity", chars! "verifier.sol"⟩]
  | .ethereum, .generateTestData => [⟨.object, 'o', chars! "object", chars! "object.json"⟩]
  | _, .prove =>
    [⟨.params, 'p', chars! "params", chars! "params.bin"⟩, ⟨.object, 'o', chars! "object", chars! "object.json"⟩,
      ⟨.proof, 'r', chars! "proof", chars! "proof.txt"⟩, ⟨.inputs, 'i', chars! "inputs", chars! "inputs.txt"⟩]
  | _, .verify =>
    [⟨.vk, 'v', chars! "vk", chars! "verification_key.txt"⟩, ⟨.proof, 'r', chars! "proof", chars! "proof.txt"⟩,
      ⟨.inputs, 'i', chars! "inputs", chars! "inputs.txt"⟩]
  | _, .setup =>
    [⟨.params, 'p', chars! "params", chars! "params.bin"⟩, ⟨.vk, 'v', chars! "vk", chars! "verification_key.txt"⟩]
  | _, .generateVerifier => []
  | _, .generateTestData => [⟨.object, 'o', chars! "object", chars! "object.json"⟩]

/-! ### Reading the words (`clap`) -/

/-- The part before the first `=`, and the part after it. -/
def splitEq : List Char → List Char × Option (List Char)
  | [] => ([], none)
  | c :: cs => if c = '=' then ([], some cs) else (c :: (splitEq cs).1, (splitEq cs).2)

/-- What a word is. -/
inductive Word where
  /-- an option, with its value if that is in the same word -/
  | option (o : Opt) (value : Option Path)
  /-- `--`: no more options -/
  | stop
  /-- anything else, also `--help` and `--version` -/
  | other

/-- `-p`: the option with its value, if there is one: `-pvalue`, `-p=value` -/
def attached : List Char → Option Path
  | [] => none
  | '=' :: x => some x
  | x => some x

/-- `clap`: what a word is. -/
def word (opts : List Opt) : List Char → Word
  | ['-', '-'] => .stop
  | '-' :: '-' :: name =>
    match opts.find? (fun o => o.long = (splitEq name).1) with
    | some o => .option o (splitEq name).2
    | none => .other
  | '-' :: c :: rest =>
    match opts.find? (fun o => o.short = c) with
    | some o => .option o (attached rest)
    | none => .other
  | _ => .other

/-- `clap`: a word of its own is not taken for a value if it begins with a hyphen, except a single one. -/
def looksLikeOption : List Char → Bool
  | '-' :: _ :: _ => true
  | _ => false

/-- The values given so far. -/
abbrev Chosen := Field → Option Path

def Chosen.set (v : Chosen) (f : Field) (x : Path) : Chosen := fun f' => if f' = f then some x else v f'

/-- `clap`: the words after the subcommand; `none`: the program ends with a message. -/
def parseOptions (opts : List Opt) : List (List Char) → Chosen → Option Chosen
  | [], v => some v
  | w :: ws, v =>
    match word opts w with
    | .other => none
    | .stop => if ws = [] then some v else none
    | .option o (some x) => if (v o.field).isSome then none else parseOptions opts ws (v.set o.field x)
    | .option o none =>
      match ws with
      | [] => none
      | x :: ws => if looksLikeOption x || (v o.field).isSome then none else parseOptions opts ws (v.set o.field x)

/-- The value of a field: the one given, or the default value.  Fields that the struct does not have: empty (they are not used). -/
def fieldValue (opts : List Opt) (v : Chosen) (f : Field) : Path :=
  match v f with
  | some x => x
  | none =>
    match opts.find? (fun o => o.field = f) with
    | some o => o.default
    | none => []

/-- The struct that `clap` fills. -/
def filesOf (opts : List Opt) (v : Chosen) : Files where
  params := fieldValue opts v .params
  object := fieldValue opts v .object
  proof := fieldValue opts v .proof
  inputs := fieldValue opts v .inputs
  vk := fieldValue opts v .vk
  solidity := fieldValue opts v .solidity

/-- src/macros.rs:433: `Opts::parse()`, for the words after the name of the program -/
def parseLine (b : Binding) : List (List Char) → Option (Command × Files)
  | [] => none
  | name :: ws =>
    match b.commands.find? (fun c => c.name = name) with
    | none => none
    | some c => (parseOptions (options b c) ws fun _ => none).map fun v => (c, filesOf (options b c) v)

/-! ### Running the command -/

/-- How `cli_main` ends if it does not panic: a command has been run, or `clap` has printed a message. -/
inductive Exit where
  | done
  | message
deriving DecidableEq

section

variable {G1 G2 T : Type} [AddCommGroup G1] [AddCommGroup G2] [DecidableEq G1] [DecidableEq G2] [One T] [DecidableEq T]
  {r : Nat} [Fact r.Prime]

/-- What a run depends on besides command line and files: the random choices of `setup` and of `prove`, the test data of the user, the
modulus of the coordinates in the contract, and whether arithmetic overflow is checked (see `generateSolData`). -/
structure Circumstances (g : Program G1 G2 T r) where
  toxic : Toxic G1 G2 r
  x : ZMod r
  y : ZMod r
  data : g.pub.ty.V (ZMod r) × g.sec.ty.V (ZMod r)
  q : Nat
  prime : Fact q.Prime
  checked : Bool

/-- src/macros.rs:434-440, 673-678, 911-916, 1148-1153: the arms of `cli_main` -/
def dispatch (b : Binding) (g : Program G1 G2 T r) (k : Circumstances g) (o : Files) : Command → Cmd Unit
  | .prove => proveCmd g k.x k.y o
  | .verify => verifyCmd g o
  | .setup => if b = .ethereum then setupEthereum g k.toxic o else setupText g k.toxic o
  | .generateVerifier => @generateVerifier k.q k.prime k.checked o
  | .generateTestData => generateTestData g k.data o

/-- src/macros.rs:432-441, 671-679, 909-917, 1146-1154: `cli_main` -/
def cliMain (b : Binding) (g : Program G1 G2 T r) (k : Circumstances g) (argv : List (List Char)) : Cmd Exit :=
  match parseLine b argv with
  | none => pure .message
  | some (c, o) => do
    dispatch b g k o c
    pure .done

end

end Fawkes.Cli
