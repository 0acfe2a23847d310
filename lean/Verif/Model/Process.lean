import Verif.Model.Cli

/-!
# Several commands at the same time (src/macros.rs:224-1157)

Model/Cli.lean runs one command from its beginning to its end.  Here the same commands are given as sequences of calls to the
operating system, and several of them run at the same time on the same files: a schedule says which one makes the next call and
what becomes of it.  A process that is no longer scheduled has been killed, or hangs.

Simplifications: no process deletes or renames a file; two paths are the same file only if they are equal; a reader reads to the
end of the file (`Parameters::read` stops after the last byte it needs).
-/

namespace Fawkes.Cli

open Fawkes.Groth16 Fawkes.Serde

/-- A command as the calls it makes, each with what follows it. -/
inductive Prog (α : Type) where
  | ret (res : Except Panic α)
  | create (p : Path) (next : Prog α)
  | writeAll (p : Path) (bs : List UInt8) (next : Prog α)
  | writeOnce (p : Path) (bs : List UInt8) (next : Nat → Prog α)
  | readAll (p : Path) (next : List UInt8 → Prog α)
  | println (line : List Char) (next : Prog α)

namespace Prog

/-- One piece after the other; a panic ends it. -/
def bind {α β : Type} : Prog α → (α → Prog β) → Prog β
  | .ret (.ok a), f => f a
  | .ret (.error e), _ => .ret (.error e)
  | .create p next, f => .create p (next.bind f)
  | .writeAll p bs next, f => .writeAll p bs (next.bind f)
  | .writeOnce p bs next, f => .writeOnce p bs fun n => (next n).bind f
  | .readAll p next, f => .readAll p fun bs => (next bs).bind f
  | .println line next, f => .println line (next.bind f)

instance instMonad : Monad Prog where
  pure a := .ret (.ok a)
  bind := bind

/-- A computation without calls. -/
def lift {α : Type} (x : Except Panic α) : Prog α := .ret x

/-- `unwrap` -/
def unwrap {α : Type} (x : Option α) : Prog α := lift (unwrapE x)

/-- `File::create(path).unwrap()` -/
def createFile (p : Path) : Prog Unit := .create p (pure ())

/-- `write_all` for one buffer after the other (`Parameters::write`). -/
def writeChunks (p : Path) : List (List UInt8) → Prog Unit
  | [] => pure ()
  | c :: cs => .writeAll p c (writeChunks p cs)

/-- `std::fs::write(path, bytes).unwrap()` -/
def fsWrite (p : Path) (bs : List UInt8) : Prog Unit := do
  createFile p
  .writeAll p bs (pure ())

/-- All bytes of a file. -/
def readBytes (p : Path) : Prog (List UInt8) := .readAll p pure

/-- `std::fs::read_to_string(path).unwrap()` -/
def readToString (p : Path) : Prog (List Char) := do
  let bs ← readBytes p
  unwrap (fromUtf8 bs)

/-- `println!` -/
def printLine (line : List Char) : Prog Unit := .println line (pure ())

end Prog

/-! ### The commands -/

section commands

variable {G1 G2 T : Type} [AddCommGroup G1] [AddCommGroup G2] [DecidableEq G1] [DecidableEq G2] [One T] [DecidableEq T]
  {r : Nat} [Fact r.Prime]

/-- A command line: which command, with which paths, and the random choices it will make. -/
inductive Task (g : Program G1 G2 T r) where
  | setupEthereum (t : Toxic G1 G2 r) (o : Files)
  | setupText (t : Toxic G1 G2 r) (o : Files)
  | generateVerifier (q : Nat) (hq : Fact q.Prime) (checked : Bool) (o : Files)
  | verify (o : Files)
  | generateTestData (data : g.pub.ty.V (ZMod r) × g.sec.ty.V (ZMod r)) (o : Files)
  | prove (x y : ZMod r) (o : Files)

open Prog

/-- src/macros.rs:361-430, 606-669, 844-907, 1082-1142: the calls that the command makes. -/
def Task.prog {g : Program G1 G2 T r} : Task g → Prog Unit
  | .setupEthereum t o => do
    let params ← lift (keyResult (generateKeys g.field t (g.circuit none none)))
    let vk ← lift (g.format.vkTo (truncate params.vk))
    createFile o.params
    writeChunks o.params (paramsChunks g.raw1 g.raw2 params)
    fsWrite o.vk (intoBytes vk)
    printLine (chars! "setup OK")
  | .setupText t o => do
    let params ← lift (keyResult (generateKeys g.field t (g.circuit none none)))
    let vk ← lift (g.format.vkTo (truncate params.vk))
    fsWrite o.vk (intoBytes vk)
    createFile o.params
    writeChunks o.params (paramsChunks g.raw1 g.raw2 params)
    printLine (chars! "setup OK")
  | .generateVerifier q _ checked o => do
    let text ← readToString o.vk
    let vk ← unwrap (ofText (Serde.vkOf q) text)
    let sol ← lift (generateSolData checked vk)
    createFile o.solidity
    let _ ← Prog.writeOnce o.solidity (intoBytes sol) pure
    printLine (chars! "solidity verifier generated")
  | .verify o => do
    let vkText ← readToString o.vk
    let proofText ← readToString o.proof
    let inputsText ← readToString o.inputs
    let vk ← lift (g.format.vkOf vkText)
    let proof ← lift (g.format.proofOf proofText)
    let inputs ← lift (g.format.inputsOf inputsText)
    let res ← lift (Groth16.verify g.engine vk proof inputs)
    printLine (chars! "Verify result is " ++ (if res.toOption.getD false then chars! "true" else chars! "false") ++ chars! ".")
  | .generateTestData data o => do
    let text ← lift (toText (pairTo g.pub.to g.sec.to) data)
    fsWrite o.object (intoBytes text)
    printLine (chars! "Test data generated")
  | .prove x y o => do
    let bytes ← readBytes o.params
    let (params, _) ← unwrap (paramsRead g.raw1 g.raw2 false bytes)
    let text ← readToString o.object
    let (p, s) ← unwrap (ofText (pairOf (g.pub.of r) (g.sec.of r)) text)
    let proof ← lift (keyResult (Groth16.prove g.field params x y (g.circuit (some p) (some s))))
    let inputs ← lift (getInputs g.pub.ty (some p))
    let inputs ← unwrap inputs
    let proofText ← lift (g.format.proofTo proof)
    let inputsText ← lift (g.format.inputsTo inputs)
    fsWrite o.proof (intoBytes proofText)
    fsWrite o.inputs (intoBytes inputsText)
    printLine (chars! "Proved")

/-- The same command as a whole (Model/Cli.lean). -/
def Task.cmd {g : Program G1 G2 T r} : Task g → Cmd Unit
  | .setupEthereum t o => Cli.setupEthereum g t o
  | .setupText t o => Cli.setupText g t o
  | .generateVerifier q hq checked o => @Cli.generateVerifier q hq checked o
  | .verify o => verifyCmd g o
  | .generateTestData data o => Cli.generateTestData g data o
  | .prove x y o => proveCmd g x y o

/-- src/macros.rs:361-430: the files that the command creates. -/
def Task.writes {g : Program G1 G2 T r} : Task g → List Path
  | .setupEthereum _ o => [o.params, o.vk]
  | .setupText _ o => [o.params, o.vk]
  | .generateVerifier _ _ _ o => [o.solidity]
  | .verify _ => []
  | .generateTestData _ o => [o.object]
  | .prove _ _ o => [o.proof, o.inputs]

/-- src/macros.rs:361-430: the files that the command reads. -/
def Task.reads {g : Program G1 G2 T r} : Task g → List Path
  | .setupEthereum _ _ => []
  | .setupText _ _ => []
  | .generateVerifier _ _ _ o => [o.vk]
  | .verify o => [o.vk, o.proof, o.inputs]
  | .generateTestData _ _ => []
  | .prove _ _ o => [o.params, o.object]

end commands

/-! ### Processes -/

abbrev Disk := Path → Option (List UInt8)

/-- A running command: the calls still to be made, the bytes of the file that it is reading, where its next bytes go in the
files it has created, and the lines it has printed. -/
structure Proc where
  code : Prog Unit
  reading : Option (List UInt8)
  offset : Path → Nat
  printed : List (List Char)

/-- The contents of a file after bytes have been written at an offset. -/
def overwrite (old : List UInt8) (off : Nat) (bs : List UInt8) : List UInt8 :=
  if bs = [] then old
  else (old ++ List.replicate (off - old.length) 0).take off ++ bs ++ old.drop (off + bs.length)

/-- A file gets new contents. -/
def Disk.set (d : Disk) (p : Path) (bs : List UInt8) : Disk := fun p' => if p' = p then some bs else d p'

namespace Proc

/-- The command as it starts. -/
def start (c : Prog Unit) : Proc := ⟨c, none, fun _ => 0, []⟩

/-- `unwrap` of an error: the process ends. -/
def fail (P : Proc) : Proc := { P with code := .ret (.error .unwrap), reading := none }

/-- Some bytes are written where the last write ended. -/
def write (P : Proc) (d : Disk) (p : Path) (bs : List UInt8) (next : Prog Unit) : Disk × Proc :=
  match d p with
  | none => (d, P.fail)
  | some old =>
    (d.set p (overwrite old (P.offset p) bs),
      { P with code := next, offset := fun p' => if p' = p then P.offset p + bs.length else P.offset p' })

/-- One call, with the outcome that the operating system has chosen.  `std::io::Write::write_all` and the functions that read
whole files make as many calls as it takes; a read of at least one byte is tried unless the end of the file is reached. -/
def step (o : Outcome) (d : Disk) (P : Proc) : Disk × Proc :=
  match P.code with
  | .ret _ => (d, P)
  | .create p next =>
    if o = .fault then (d, P.fail)
    else (d.set p [], { P with code := next, offset := fun p' => if p' = p then 0 else P.offset p' })
  | .writeAll p bs next =>
    if bs = [] then (d, { P with code := next })
    else match o with
    | .fault => (d, P.fail)
    | .full => P.write d p bs next
    | .upTo n => if n = 0 then (d, P.fail) else P.write d p (bs.take n) (.writeAll p (bs.drop n) next)
  | .writeOnce p bs next =>
    match o with
    | .fault => (d, P.fail)
    | .full => P.write d p bs (next bs.length)
    | .upTo n => P.write d p (bs.take n) (next (min n bs.length))
  | .readAll p next =>
    if o = .fault then (d, P.fail)
    else match d p with
    | none => (d, P.fail)
    | some bs =>
      match P.reading with
      | none => (d, { P with reading := some [] })
      | some acc =>
        let rest := bs.drop acc.length
        if rest = [] then (d, { P with code := next acc, reading := none })
        else match o with
        | .upTo n => (d, { P with reading := some (acc ++ rest.take (max n 1)) })
        | _ => (d, { P with reading := some (acc ++ rest) })
  | .println line next => (d, { P with code := next, printed := P.printed ++ [line] })

end Proc

/-- The files and the running commands. -/
structure Sys (ι : Type) where
  disk : Disk
  procs : ι → Proc

namespace Sys

variable {ι : Type} [DecidableEq ι]

/-- All commands start with the same files. -/
def start (d : Disk) (cs : ι → Prog Unit) : Sys ι := ⟨d, fun i => Proc.start (cs i)⟩

/-- The next call of one of the commands. -/
def step (s : Sys ι) (e : ι × Outcome) : Sys ι :=
  let res := (s.procs e.1).step e.2 s.disk
  ⟨res.1, fun j => if j = e.1 then res.2 else s.procs j⟩

/-- A schedule. -/
def run (s : Sys ι) (sched : List (ι × Outcome)) : Sys ι := sched.foldl step s

end Sys

end Fawkes.Cli
