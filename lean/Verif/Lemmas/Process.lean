import Verif.Model.Process
import Verif.Lemmas.Cli

/-!
# Commands as sequences of calls
-/

namespace Fawkes.Cli

open Fawkes.Groth16 Fawkes.Serde

namespace Prog

/-- The whole command. -/
def cmd {α : Type} : Prog α → Cmd α
  | .ret res => Cmd.lift res
  | .create p next => Cmd.create p >>= fun _ => next.cmd
  | .writeAll p bs next => Cmd.writeAll p bs >>= fun _ => next.cmd
  | .writeOnce p bs next => Cmd.writeOnce p bs >>= fun n => (next n).cmd
  | .readAll p next => Cmd.readBytes p >>= fun bs => (next bs).cmd
  | .println line next => Cmd.println line >>= fun _ => next.cmd

/-- Which files the calls write and read. -/
def Within {α : Type} (W R : Path → Prop) : Prog α → Prop
  | .ret _ => True
  | .create p next => W p ∧ next.Within W R
  | .writeAll p _ next => W p ∧ next.Within W R
  | .writeOnce p _ next => W p ∧ ∀ n, (next n).Within W R
  | .readAll p next => R p ∧ ∀ bs, (next bs).Within W R
  | .println _ next => next.Within W R

/-- Only files that have been created before (or are in `S`) are written. -/
def Opened {α : Type} (S : Path → Prop) : Prog α → Prop
  | .ret _ => True
  | .create p next => next.Opened fun p' => S p' ∨ p' = p
  | .writeAll p _ next => S p ∧ next.Opened S
  | .writeOnce p _ next => S p ∧ ∀ n, (next n).Opened S
  | .readAll _ next => ∀ bs, (next bs).Opened S
  | .println _ next => next.Opened S

variable {α β : Type}

theorem bind_def (c : Prog α) (f : α → Prog β) : (c >>= f) = c.bind f := rfl

theorem cmd_bind (c : Prog α) (f : α → Prog β) : (c >>= f).cmd = c.cmd >>= fun a => (f a).cmd := by
  rw [bind_def]
  induction c with
  | ret res => cases res <;> rfl
  | create p next ih => simp only [bind, cmd, ih, Cli.bind_assoc]
  | writeAll p bs next ih => simp only [bind, cmd, ih, Cli.bind_assoc]
  | writeOnce p bs next ih => simp only [bind, cmd, ih, Cli.bind_assoc]
  | readAll p next ih => simp only [bind, cmd, ih, Cli.bind_assoc]
  | println line next ih => simp only [bind, cmd, ih, Cli.bind_assoc]

theorem within_bind {W R : Path → Prop} (c : Prog α) (f : α → Prog β) (hc : c.Within W R) (hf : ∀ a, (f a).Within W R) :
    (c >>= f).Within W R := by
  rw [bind_def]
  induction c with
  | ret res => cases res with
    | error e => trivial
    | ok a => exact hf a
  | create p next ih => exact ⟨hc.1, ih hc.2⟩
  | writeAll p bs next ih => exact ⟨hc.1, ih hc.2⟩
  | writeOnce p bs next ih => exact ⟨hc.1, fun n => ih n (hc.2 n)⟩
  | readAll p next ih => exact ⟨hc.1, fun n => ih n (hc.2 n)⟩
  | println line next ih => exact ih hc

theorem opened_mono {S S' : Path → Prop} (c : Prog α) (h : c.Opened S) (hs : ∀ p, S p → S' p) : c.Opened S' := by
  induction c generalizing S S' with
  | ret res => trivial
  | create p next ih => exact ih h (fun p' hp' => hp'.imp (hs p') id)
  | writeAll p bs next ih => exact ⟨hs _ h.1, ih h.2 hs⟩
  | writeOnce p bs next ih => exact ⟨hs _ h.1, fun n => ih n (h.2 n) hs⟩
  | readAll p next ih => exact fun bs => ih bs (h bs) hs
  | println line next ih => exact ih h hs

theorem opened_bind {S : Path → Prop} (c : Prog α) (f : α → Prog β) (hc : c.Opened S) (hf : ∀ a, (f a).Opened S) :
    (c >>= f).Opened S := by
  rw [bind_def]
  induction c generalizing S with
  | ret res => cases res with
    | error e => trivial
    | ok a => exact hf a
  | create p next ih => exact ih hc (fun a => opened_mono _ (hf a) fun _ h => .inl h)
  | writeAll p bs next ih => exact ⟨hc.1, ih hc.2 hf⟩
  | writeOnce p bs next ih => exact ⟨hc.1, fun n => ih n (hc.2 n) hf⟩
  | readAll p next ih => exact fun n => ih n (hc n) hf
  | println line next ih => exact ih hc hf

theorem bind_pure_unit (c : Cmd α) : (c >>= fun a => Cmd.lift (.ok a)) = c := by
  funext w
  show (match c w with | (.ok a, w) => _ | (.error e, w) => _) = c w
  rcases h : c w with ⟨_ | a, w'⟩ <;> rfl

theorem cmd_lift (x : Except Panic α) : (lift x).cmd = Cmd.lift x := rfl

theorem cmd_unwrap (x : Option α) : (unwrap x).cmd = Cmd.unwrap x := by cases x <;> rfl

theorem cmd_createFile (p : Path) : (createFile p).cmd = Cmd.create p := bind_pure_unit _

theorem cmd_writeChunks (p : Path) (cs : List (List UInt8)) : (writeChunks p cs).cmd = Cmd.writeChunks p cs := by
  induction cs with
  | nil => rfl
  | cons c cs ih => simp only [writeChunks, cmd, ih, Cmd.writeChunks]

theorem cmd_writeAll (p : Path) (bs : List UInt8) : (Prog.writeAll p bs (pure ())).cmd = Cmd.writeAll p bs := bind_pure_unit _

theorem cmd_writeOnce (p : Path) (bs : List UInt8) : (Prog.writeOnce p bs pure).cmd = Cmd.writeOnce p bs := bind_pure_unit _

theorem cmd_fsWrite (p : Path) (bs : List UInt8) : (fsWrite p bs).cmd = Cmd.fsWrite p bs := by
  rw [fsWrite, cmd_bind, cmd_createFile, cmd_writeAll]; rfl

theorem cmd_readBytes (p : Path) : (readBytes p).cmd = Cmd.readBytes p := bind_pure_unit _

theorem cmd_readToString (p : Path) : (readToString p).cmd = Cmd.readToString p := by
  rw [readToString, cmd_bind, cmd_readBytes]
  simp only [cmd_unwrap]; rfl

theorem cmd_printLine (line : List Char) : (printLine line).cmd = Cmd.println line := bind_pure_unit _

end Prog

section commands

variable {G1 G2 T : Type} [AddCommGroup G1] [AddCommGroup G2] [DecidableEq G1] [DecidableEq G2] [One T] [DecidableEq T]
  {r : Nat} [Fact r.Prime]

open Prog in
theorem Task.prog_cmd {g : Program G1 G2 T r} (k : Task g) : k.prog.cmd = k.cmd := by
  cases k <;> simp only [Task.prog, Task.cmd, cmd_bind, cmd_lift, cmd_unwrap, cmd_createFile, cmd_writeChunks, cmd_writeOnce,
    cmd_fsWrite, cmd_readBytes, cmd_readToString, cmd_printLine] <;> rfl

theorem within_createFile {W R : Path → Prop} {p : Path} (h : W p) : (Prog.createFile p).Within W R := ⟨h, trivial⟩

theorem within_writeChunks {W R : Path → Prop} {p : Path} (h : W p) (cs : List (List UInt8)) :
    (Prog.writeChunks p cs).Within W R := by
  induction cs with
  | nil => trivial
  | cons c cs ih => exact ⟨h, ih⟩

theorem within_fsWrite {W R : Path → Prop} {p : Path} (h : W p) (bs : List UInt8) : (Prog.fsWrite p bs).Within W R :=
  Prog.within_bind _ _ (within_createFile h) fun _ => ⟨h, trivial⟩

theorem within_lift {α : Type} {W R : Path → Prop} (x : Except Panic α) : (Prog.lift x).Within W R := trivial

theorem within_unwrap {α : Type} {W R : Path → Prop} (x : Option α) : (Prog.unwrap x).Within W R := trivial

theorem within_readBytes {W R : Path → Prop} {p : Path} (h : R p) : (Prog.readBytes p).Within W R := ⟨h, fun _ => trivial⟩

theorem within_readToString {W R : Path → Prop} {p : Path} (h : R p) : (Prog.readToString p).Within W R :=
  Prog.within_bind _ _ (within_readBytes h) fun _ => within_unwrap _

theorem within_printLine {W R : Path → Prop} (l : List Char) : (Prog.printLine l).Within W R := trivial

open Prog in
theorem Task.prog_within {g : Program G1 G2 T r} (k : Task g) : k.prog.Within (· ∈ k.writes) (· ∈ k.reads) := by
  cases k with
  | setupEthereum t o =>
    refine within_bind _ _ (within_lift _) fun _ => within_bind _ _ (within_lift _) fun _ => ?_
    refine within_bind _ _ (within_createFile (by simp [Task.writes])) fun _ => ?_
    refine within_bind _ _ (within_writeChunks (by simp [Task.writes]) _) fun _ => ?_
    exact within_bind _ _ (within_fsWrite (by simp [Task.writes]) _) fun _ => within_printLine _
  | setupText t o =>
    refine within_bind _ _ (within_lift _) fun _ => within_bind _ _ (within_lift _) fun _ => ?_
    refine within_bind _ _ (within_fsWrite (by simp [Task.writes]) _) fun _ => ?_
    refine within_bind _ _ (within_createFile (by simp [Task.writes])) fun _ => ?_
    exact within_bind _ _ (within_writeChunks (by simp [Task.writes]) _) fun _ => within_printLine _
  | generateVerifier q hq checked o =>
    refine within_bind _ _ (within_readToString (by simp [Task.reads])) fun _ => ?_
    refine within_bind _ _ (within_unwrap _) fun _ => within_bind _ _ (within_lift _) fun _ => ?_
    refine within_bind _ _ (within_createFile (by simp [Task.writes])) fun _ => ?_
    exact within_bind _ _ ⟨by simp [Task.writes], fun _ => trivial⟩ fun _ => within_printLine _
  | verify o =>
    refine within_bind _ _ (within_readToString (by simp [Task.reads])) fun _ => ?_
    refine within_bind _ _ (within_readToString (by simp [Task.reads])) fun _ => ?_
    refine within_bind _ _ (within_readToString (by simp [Task.reads])) fun _ => ?_
    refine within_bind _ _ (within_lift _) fun _ => within_bind _ _ (within_lift _) fun _ => ?_
    exact within_bind _ _ (within_lift _) fun _ => within_bind _ _ (within_lift _) fun _ => within_printLine _
  | generateTestData data o =>
    refine within_bind _ _ (within_lift _) fun _ => ?_
    exact within_bind _ _ (within_fsWrite (by simp [Task.writes]) _) fun _ => within_printLine _
  | prove x y o =>
    refine within_bind _ _ (within_readBytes (by simp [Task.reads])) fun _ => ?_
    refine within_bind _ _ (within_unwrap _) fun ⟨_, _⟩ => ?_
    refine within_bind _ _ (within_readToString (by simp [Task.reads])) fun _ => ?_
    refine within_bind _ _ (within_unwrap _) fun ⟨_, _⟩ => ?_
    refine within_bind _ _ (within_lift _) fun _ => within_bind _ _ (within_lift _) fun _ => ?_
    refine within_bind _ _ (within_unwrap _) fun _ => ?_
    refine within_bind _ _ (within_lift _) fun _ => within_bind _ _ (within_lift _) fun _ => ?_
    refine within_bind _ _ (within_fsWrite (by simp [Task.writes]) _) fun _ => ?_
    exact within_bind _ _ (within_fsWrite (by simp [Task.writes]) _) fun _ => within_printLine _

theorem opened_createFile {S : Path → Prop} {p : Path} {β : Type} {f : Unit → Prog β}
    (h : (f ()).Opened fun p' => S p' ∨ p' = p) : (Prog.createFile p >>= f).Opened S := h

theorem opened_writeChunks {S : Path → Prop} {p : Path} (h : S p) (cs : List (List UInt8)) :
    (Prog.writeChunks p cs).Opened S := by
  induction cs with
  | nil => trivial
  | cons c cs ih => exact ⟨h, ih⟩

theorem opened_fsWrite {S : Path → Prop} {p : Path} (bs : List UInt8) : (Prog.fsWrite p bs).Opened S :=
  opened_createFile ⟨.inr rfl, trivial⟩

theorem opened_lift {α : Type} {S : Path → Prop} (x : Except Panic α) : (Prog.lift x).Opened S := trivial

theorem opened_unwrap {α : Type} {S : Path → Prop} (x : Option α) : (Prog.unwrap x).Opened S := trivial

theorem opened_readBytes {S : Path → Prop} {p : Path} : (Prog.readBytes p).Opened S := fun _ => trivial

theorem opened_readToString {S : Path → Prop} {p : Path} : (Prog.readToString p).Opened S :=
  Prog.opened_bind _ _ opened_readBytes fun _ => opened_unwrap _

theorem opened_printLine {S : Path → Prop} (l : List Char) : (Prog.printLine l).Opened S := trivial

open Prog in
theorem Task.prog_opened {g : Program G1 G2 T r} (k : Task g) : k.prog.Opened fun _ => False := by
  cases k with
  | setupEthereum t o =>
    refine opened_bind _ _ (opened_lift _) fun _ => opened_bind _ _ (opened_lift _) fun _ => ?_
    refine opened_createFile ?_
    refine opened_bind _ _ (opened_writeChunks (.inr rfl) _) fun _ => ?_
    exact opened_bind _ _ (opened_fsWrite _) fun _ => opened_printLine _
  | setupText t o =>
    refine opened_bind _ _ (opened_lift _) fun _ => opened_bind _ _ (opened_lift _) fun _ => ?_
    refine opened_bind _ _ (opened_fsWrite _) fun _ => ?_
    refine opened_createFile ?_
    exact opened_bind _ _ (opened_writeChunks (.inr rfl) _) fun _ => opened_printLine _
  | generateVerifier q hq checked o =>
    refine opened_bind _ _ opened_readToString fun _ => ?_
    refine opened_bind _ _ (opened_unwrap _) fun _ => opened_bind _ _ (opened_lift _) fun _ => ?_
    refine opened_createFile ?_
    exact opened_bind _ _ ⟨.inr rfl, fun _ => trivial⟩ fun _ => opened_printLine _
  | verify o =>
    refine opened_bind _ _ opened_readToString fun _ => ?_
    refine opened_bind _ _ opened_readToString fun _ => ?_
    refine opened_bind _ _ opened_readToString fun _ => ?_
    refine opened_bind _ _ (opened_lift _) fun _ => opened_bind _ _ (opened_lift _) fun _ => ?_
    exact opened_bind _ _ (opened_lift _) fun _ => opened_bind _ _ (opened_lift _) fun _ => opened_printLine _
  | generateTestData data o =>
    refine opened_bind _ _ (opened_lift _) fun _ => ?_
    exact opened_bind _ _ (opened_fsWrite _) fun _ => opened_printLine _
  | prove x y o =>
    refine opened_bind _ _ opened_readBytes fun _ => ?_
    refine opened_bind _ _ (opened_unwrap _) fun ⟨_, _⟩ => ?_
    refine opened_bind _ _ opened_readToString fun _ => ?_
    refine opened_bind _ _ (opened_unwrap _) fun ⟨_, _⟩ => ?_
    refine opened_bind _ _ (opened_lift _) fun _ => opened_bind _ _ (opened_lift _) fun _ => ?_
    refine opened_bind _ _ (opened_unwrap _) fun _ => ?_
    refine opened_bind _ _ (opened_lift _) fun _ => opened_bind _ _ (opened_lift _) fun _ => ?_
    refine opened_bind _ _ (opened_fsWrite _) fun _ => ?_
    exact opened_bind _ _ (opened_fsWrite _) fun _ => opened_printLine _

end commands

/-! ### Steps -/

/-- Some calls of one process that runs alone. -/
def Proc.alone (os : List Outcome) (d : Disk) (P : Proc) : Disk × Proc :=
  match os with
  | [] => (d, P)
  | o :: os => let res := P.step o d; alone os res.1 res.2

theorem Proc.alone_append (os os' : List Outcome) (d : Disk) (P : Proc) :
    P.alone (os ++ os') d = (P.alone os d).2.alone os' (P.alone os d).1 := by
  induction os generalizing d P with
  | nil => rfl
  | cons o os ih => exact ih _ _

/-- Disks that agree on some files. -/
def Agree (S : Path → Prop) (d d' : Disk) : Prop := ∀ p, S p → d p = d' p

theorem agree_set {S : Path → Prop} {d d' : Disk} (h : Agree S d d') (p : Path) (bs : List UInt8) :
    Agree S (d.set p bs) (d'.set p bs) := by
  intro p' hp'
  simp only [Disk.set]
  split
  · rfl
  · exact h p' hp'

theorem write_congr {S : Path → Prop} {d d' : Disk} (h : Agree S d d') (P : Proc) {p : Path} (hp : S p) (bs : List UInt8)
    (next : Prog Unit) : (P.write d p bs next).2 = (P.write d' p bs next).2 ∧
    Agree S (P.write d p bs next).1 (P.write d' p bs next).1 := by
  simp only [Proc.write, ← h p hp]
  cases d p with
  | none => exact ⟨rfl, h⟩
  | some old => exact ⟨rfl, agree_set h _ _⟩

theorem step_congr {W R : Path → Prop} {d d' : Disk} (h : Agree (fun p => W p ∨ R p) d d') (P : Proc) (hP : P.code.Within W R)
    (o : Outcome) : (P.step o d).2 = (P.step o d').2 ∧ Agree (fun p => W p ∨ R p) (P.step o d).1 (P.step o d').1 := by
  unfold Proc.step
  split
  · exact ⟨rfl, h⟩
  · split
    · exact ⟨rfl, h⟩
    · exact ⟨rfl, agree_set h _ _⟩
  · rename_i p bs next hc
    rw [hc] at hP
    split
    · exact ⟨rfl, h⟩
    · split
      · exact ⟨rfl, h⟩
      · exact write_congr h _ (.inl hP.1) _ _
      · split
        · exact ⟨rfl, h⟩
        · exact write_congr h _ (.inl hP.1) _ _
  · rename_i p bs next hc
    rw [hc] at hP
    split
    · exact ⟨rfl, h⟩
    · exact write_congr h _ (.inl hP.1) _ _
    · exact write_congr h _ (.inl hP.1) _ _
  · rename_i p next hc
    rw [hc] at hP
    rw [← h p (.inr hP.1)]
    split
    · exact ⟨rfl, h⟩
    · cases d p with
      | none => exact ⟨rfl, h⟩
      | some bs =>
        cases P.reading with
        | none => exact ⟨rfl, h⟩
        | some acc =>
          dsimp only
          split
          · exact ⟨rfl, h⟩
          · split <;> exact ⟨rfl, h⟩
  · exact ⟨rfl, h⟩

theorem set_ne {d : Disk} {p p' : Path} (h : p' ≠ p) (bs : List UInt8) : d.set p bs p' = d p' := if_neg h

theorem write_frame (d : Disk) (P : Proc) {p p' : Path} (h : p' ≠ p) (bs : List UInt8) (next : Prog Unit) :
    (P.write d p bs next).1 p' = d p' := by
  unfold Proc.write
  cases d p with
  | none => rfl
  | some old => exact set_ne h _

theorem step_frame {W R : Path → Prop} (d : Disk) (P : Proc) (hP : P.code.Within W R) (o : Outcome) {p' : Path} (h : ¬ W p') :
    (P.step o d).1 p' = d p' := by
  unfold Proc.step
  split
  · rfl
  · rename_i p next hc
    rw [hc] at hP
    have hne : p' ≠ p := fun e => h (e ▸ hP.1)
    split
    · rfl
    · exact set_ne hne _
  · rename_i p bs next hc
    rw [hc] at hP
    have hne : p' ≠ p := fun e => h (e ▸ hP.1)
    split
    · rfl
    · split
      · rfl
      · exact write_frame _ _ hne _ _
      · split
        · rfl
        · exact write_frame _ _ hne _ _
  · rename_i p bs next hc
    rw [hc] at hP
    have hne : p' ≠ p := fun e => h (e ▸ hP.1)
    split
    · rfl
    · exact write_frame _ _ hne _ _
    · exact write_frame _ _ hne _ _
  · split
    · rfl
    · split
      · rfl
      · split
        · rfl
        · dsimp only
          split
          · rfl
          · split <;> rfl
  · rfl

theorem write_within {W R : Path → Prop} (d : Disk) (P : Proc) (p : Path) (bs : List UInt8) (next : Prog Unit)
    (h : next.Within W R) : (P.write d p bs next).2.code.Within W R := by
  unfold Proc.write
  cases d p with
  | none => trivial
  | some old => exact h

theorem step_within {W R : Path → Prop} (d : Disk) (P : Proc) (hP : P.code.Within W R) (o : Outcome) :
    (P.step o d).2.code.Within W R := by
  unfold Proc.step
  split
  · exact hP
  · rename_i p next hc
    rw [hc] at hP
    split
    · trivial
    · exact hP.2
  · rename_i p bs next hc
    rw [hc] at hP
    split
    · exact hP.2
    · split
      · trivial
      · exact write_within _ _ _ _ _ hP.2
      · split
        · trivial
        · exact write_within _ _ _ _ _ ⟨hP.1, hP.2⟩
  · rename_i p bs next hc
    rw [hc] at hP
    split
    · trivial
    · exact write_within _ _ _ _ _ (hP.2 _)
    · exact write_within _ _ _ _ _ (hP.2 _)
  · rename_i p next hc
    have hP' := hP
    rw [hc] at hP'
    split
    · trivial
    · split
      · trivial
      · split
        · exact hP
        · dsimp only
          split
          · exact hP'.2 _
          · split <;> exact hP
  · rename_i l next hc
    rw [hc] at hP
    exact hP

/-! ### Isolation -/

section isolation

variable {ι : Type} [DecidableEq ι]

/-- The outcomes of the calls of one process. -/
def own (i : ι) (sched : List (ι × Outcome)) : List Outcome := (sched.filter fun e => e.1 = i).map Prod.snd

theorem run_isolated (W R : ι → Path → Prop) (hd : ∀ i j, i ≠ j → ∀ p, W j p → ¬ W i p ∧ ¬ R i p) (i : ι)
    (sched : List (ι × Outcome)) (s : Sys ι) (hw : ∀ j, (s.procs j).code.Within (W j) (R j)) (d : Disk)
    (ha : Agree (fun p => W i p ∨ R i p) s.disk d) :
    (s.run sched).procs i = ((s.procs i).alone (own i sched) d).2 ∧
      Agree (fun p => W i p ∨ R i p) (s.run sched).disk ((s.procs i).alone (own i sched) d).1 := by
  induction sched generalizing s d with
  | nil => exact ⟨rfl, ha⟩
  | cons e sched ih =>
    have hw' : ∀ j, ((s.step e).procs j).code.Within (W j) (R j) := by
      intro j
      by_cases hj : j = e.1
      · subst hj
        simp only [Sys.step, if_true]
        exact step_within _ _ (hw _) _
      · simp only [Sys.step, if_neg hj]
        exact hw j
    by_cases he : e.1 = i
    · have hown : own i (e :: sched) = e.2 :: own i sched := by simp [own, he]
      obtain ⟨h1, h2⟩ := step_congr ha (s.procs i) (hw i) e.2
      have := ih (s.step e) hw' ((s.procs i).step e.2 d).1 (by
        simpa only [Sys.step, he] using h2)
      have hp : (s.step e).procs i = ((s.procs i).step e.2 d).2 := by
        simp only [Sys.step, he, if_true]; exact h1
      rw [hp] at this
      rw [hown]
      exact this
    · have hown : own i (e :: sched) = own i sched := by simp [own, he]
      have hp : (s.step e).procs i = s.procs i := by
        simp only [Sys.step, if_neg (Ne.symm he)]
      have := ih (s.step e) hw' d (by
        intro p hp'
        rw [← ha p hp']
        refine step_frame _ _ (hw e.1) _ fun hW => ?_
        have := hd i e.1 (Ne.symm he) p hW
        exact hp'.elim this.1 this.2)
      rw [hp] at this
      rw [hown]
      exact this

theorem run_untouched (W R : ι → Path → Prop) (sched : List (ι × Outcome)) (s : Sys ι)
    (hw : ∀ j, (s.procs j).code.Within (W j) (R j)) (p : Path) (hp : ∀ j, ¬ W j p) : (s.run sched).disk p = s.disk p := by
  induction sched generalizing s with
  | nil => rfl
  | cons e sched ih =>
    have hw' : ∀ j, ((s.step e).procs j).code.Within (W j) (R j) := by
      intro j
      by_cases hj : j = e.1
      · subst hj
        simp only [Sys.step, if_true]
        exact step_within _ _ (hw _) _
      · simp only [Sys.step, if_neg hj]
        exact hw j
    exact (ih (s.step e) hw').trans (step_frame _ _ (hw e.1) _ (hp e.1))

/-- Only one of the processes is scheduled. -/
theorem run_one (i : ι) (os : List Outcome) (s : Sys ι) :
    s.run (os.map fun o => (i, o)) = ⟨((s.procs i).alone os s.disk).1,
      fun j => if j = i then ((s.procs i).alone os s.disk).2 else s.procs j⟩ := by
  induction os generalizing s with
  | nil =>
    show s = _
    cases s with
    | mk d ps =>
      simp only [Proc.alone, Sys.mk.injEq, true_and]
      funext j
      split
      · subst_vars; rfl
      · rfl
  | cons o os ih =>
    show (s.step (i, o)).run _ = _
    rw [ih]
    simp only [Sys.step, if_true, Proc.alone, Sys.mk.injEq, true_and]
    funext j
    split <;> rfl

end isolation

end Fawkes.Cli
