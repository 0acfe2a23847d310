import Verif.Lemmas.ProcessRun
import Verif.Props.Session

/-!
# C105: commands that run at the same time, or are killed

The theorems quantify over all schedules: at every call any of the running commands may be next, and the call may fail, be done in
part or be done.  A schedule that stops scheduling a command before its end has killed it.
-/

namespace Fawkes.Props

open Fawkes.Groth16 Fawkes.Cli Fawkes.Cli.Cmd Fawkes.Serde

section

variable {G1 G2 T : Type} [AddCommGroup G1] [AddCommGroup G2] [DecidableEq G1] [DecidableEq G2] [One T] [DecidableEq T]
  {r : Nat} [Fact r.Prime] {g : Program G1 G2 T r} {ι : Type} [DecidableEq ι]

/-- No command writes a file that another one writes or reads. -/
def Apart (tasks : ι → Task g) : Prop :=
  ∀ i j, i ≠ j → ∀ p ∈ (tasks j).writes, p ∉ (tasks i).writes ∧ p ∉ (tasks i).reads

/-- The commands, started together, after some calls. -/
def after (d : Disk) (tasks : ι → Task g) (sched : List (ι × Outcome)) : Sys ι := (Sys.start d fun i => (tasks i).prog).run sched

/-- The command has ended, with this result. -/
def Ended (s : Sys ι) (i : ι) (res : Except Panic Unit) : Prop := (s.procs i).code = .ret res

theorem start_within (d : Disk) (tasks : ι → Task g) (j : ι) :
    ((Sys.start d fun i => (tasks i).prog).procs j).code.Within (· ∈ (tasks j).writes) (· ∈ (tasks j).reads) :=
  (tasks j).prog_within

/-- C105: commands that run at the same time, none of which writes a file that another one uses, do not disturb each other.  Under
every schedule each of them does what it does when it runs alone (under some behaviour of the disk): the files it writes have the
same contents, and if it has ended it has ended with the same result and has printed the same lines.  If it has been killed, then its
files are as after a call that failed, and it has not printed more. -/
theorem C105_isolated (tasks : ι → Task g) (h : Apart tasks) (d : Disk) (sched : List (ι × Outcome)) (i : ι) :
    ∃ plan, let alone := (tasks i).cmd.run ⟨d, [], plan⟩
      (∀ p ∈ (tasks i).writes, (after d tasks sched).disk p = alone.2.files p) ∧
      ((after d tasks sched).procs i).printed <+: alone.2.printed ∧
      ∀ res, Ended (after d tasks sched) i res → alone.1 = res ∧ ((after d tasks sched).procs i).printed = alone.2.printed := by
  obtain ⟨h1, h2⟩ := run_isolated (fun j p => p ∈ (tasks j).writes) (fun j p => p ∈ (tasks j).reads)
    (fun i j hij p hp => h i j hij p hp) i sched (Sys.start d fun i => (tasks i).prog) (start_within d tasks) d (fun _ _ => rfl)
  obtain ⟨plan, h3, h4, h5⟩ := alone_cmd (S := fun _ => False) (own i sched) d (Proc.start (tasks i).prog) (tasks i).prog_opened
    (fun _ hp => hp.elim) (readOk_none rfl)
  have hc : (Proc.start (tasks i).prog).code.cmd = (tasks i).cmd := (tasks i).prog_cmd
  rw [hc] at h3 h4 h5
  refine ⟨plan, fun p hp => ?_, ?_, fun res hres => ?_⟩
  · exact (h2 p (.inl hp)).trans (congrFun h3 p).symm
  · show ((Sys.run _ sched).procs i).printed <+: _
    rw [h1]
    exact h4
  · have hres' : (((Sys.start d fun i => (tasks i).prog).run sched).procs i).code = .ret res := hres
    rw [h1] at hres'
    obtain ⟨ha, hb⟩ := h5 res hres'
    refine ⟨ha, ?_⟩
    show ((Sys.run _ sched).procs i).printed = _
    rw [h1]
    exact hb.symm

/-- C105: other commands have no influence at all.  A command that runs among these others or among those others, on disks with the same contents
of the files that it reads or writes, prints the same lines, ends with the same result and leaves the same contents in its files after every
schedule in which its own calls have the same outcomes. -/
theorem C105_noninterference {κ : Type} [DecidableEq κ] (tasks : ι → Task g) (tasks' : κ → Task g) (h : Apart tasks) (h' : Apart tasks')
    (i : ι) (k : κ) (ht : tasks i = tasks' k) (d d' : Disk) (hd : ∀ p, p ∈ (tasks i).writes ∨ p ∈ (tasks i).reads → d p = d' p)
    (sched : List (ι × Outcome)) (sched' : List (κ × Outcome))
    (ho : (sched.filter fun e => e.1 = i).map Prod.snd = (sched'.filter fun e => e.1 = k).map Prod.snd) :
    ((after d tasks sched).procs i).printed = ((after d' tasks' sched').procs k).printed ∧
    (∀ res, Ended (after d tasks sched) i res ↔ Ended (after d' tasks' sched') k res) ∧
    ∀ p, p ∈ (tasks i).writes ∨ p ∈ (tasks i).reads → (after d tasks sched).disk p = (after d' tasks' sched').disk p := by
  obtain ⟨h1, h2⟩ := run_isolated (fun j p => p ∈ (tasks j).writes) (fun j p => p ∈ (tasks j).reads)
    (fun i j hij p hp => h i j hij p hp) i sched (Sys.start d fun i => (tasks i).prog) (start_within d tasks) d (fun _ _ => rfl)
  obtain ⟨h3, h4⟩ := run_isolated (fun j p => p ∈ (tasks' j).writes) (fun j p => p ∈ (tasks' j).reads)
    (fun i j hij p hp => h' i j hij p hp) k sched' (Sys.start d' fun i => (tasks' i).prog) (start_within d' tasks') d
    (fun p hp => (hd p (by rw [ht]; exact hp)).symm)
  have e : ((Sys.start d fun i => (tasks i).prog).procs i).alone (own i sched) d =
      ((Sys.start d' fun i => (tasks' i).prog).procs k).alone (own k sched') d := by
    rw [show own i sched = own k sched' from ho]
    show (Proc.start (tasks i).prog).alone _ d = (Proc.start (tasks' k).prog).alone _ d
    rw [ht]
  have hp : (after d tasks sched).procs i = (after d' tasks' sched').procs k := h1.trans ((congrArg Prod.snd e).trans h3.symm)
  refine ⟨by rw [hp], fun res => by unfold Ended; rw [hp], fun p hp => ?_⟩
  exact (h2 p hp).trans ((congrFun (congrArg Prod.fst e) p).trans (h4 p (by rw [ht] at hp; exact hp)).symm)

/-- C105: files that no command writes stay as they are (whether or not the commands are apart). -/
theorem C105_untouched (tasks : ι → Task g) (d : Disk) (sched : List (ι × Outcome)) (p : Path) (hp : ∀ j, p ∉ (tasks j).writes) :
    (after d tasks sched).disk p = d p :=
  run_untouched (fun j p => p ∈ (tasks j).writes) (fun j p => p ∈ (tasks j).reads) sched _ (start_within d tasks) p hp

theorem prog_bind_ret {α : Type} (c : Prog α) : c.bind (fun a => .ret (.ok a)) = c := by
  induction c with
  | ret res => cases res <;> rfl
  | create p next ih => simp only [Prog.bind, ih]
  | writeAll p bs next ih => simp only [Prog.bind, ih]
  | writeOnce p bs next ih => simp only [Prog.bind, ih]
  | readAll p next ih => simp only [Prog.bind, ih]
  | println line next ih => simp only [Prog.bind, ih]

theorem prog_bind_assoc {α β γ : Type} (c : Prog α) (f : α → Prog β) (k : β → Prog γ) :
    (c.bind f).bind k = c.bind fun a => (f a).bind k := by
  induction c with
  | ret res => cases res <;> rfl
  | create p next ih => simp only [Prog.bind, ih]
  | writeAll p bs next ih => simp only [Prog.bind, ih]
  | writeOnce p bs next ih => simp only [Prog.bind, ih]
  | readAll p next ih => simp only [Prog.bind, ih]
  | println line next ih => simp only [Prog.bind, ih]

/-- A whole command whose calls are all done. -/
theorem alone_whole (c : Prog Unit) (hc : c.Opened fun _ => False) (d : Disk) (off : Path → Nat) (pr : List (List Char)) :
    ∃ N off', ∀ n, N ≤ n → Proc.alone (List.replicate n .full) d ⟨c, none, off, pr⟩ =
      ((c.cmd.run ⟨d, pr, []⟩).2.files, ⟨.ret (c.cmd.run ⟨d, pr, []⟩).1, none, off', (c.cmd.run ⟨d, pr, []⟩).2.printed⟩) := by
  obtain ⟨N, off', S', -, -, h⟩ := alone_full c (S := fun _ => False) (fun a => .ret (.ok a)) d off pr hc (fun _ hp => hp.elim)
  rw [prog_bind_ret] at h
  refine ⟨N, off', fun n hn => ?_⟩
  obtain ⟨m, rfl⟩ := Nat.exists_eq_add_of_le hn
  rw [List.replicate_add, Proc.alone_append, h]
  generalize c.cmd.run ⟨d, pr, []⟩ = R
  rcases R with ⟨_ | _, w⟩
  · exact alone_ret _ _ _ _ rfl
  · exact alone_ret _ _ _ _ rfl

/-- C105: a command whose calls all succeed comes to its end, however the others are scheduled and whatever happens to their calls,
and does what it does when it runs alone. -/
theorem C105_finishes (tasks : ι → Task g) (h : Apart tasks) (d : Disk) (i : ι) :
    ∃ N, ∀ sched : List (ι × Outcome), (∀ o, (i, o) ∈ sched → o = .full) → N ≤ sched.countP (fun e => e.1 = i) →
      let alone := (tasks i).cmd.run ⟨d, [], []⟩
      Ended (after d tasks sched) i alone.1 ∧ ((after d tasks sched).procs i).printed = alone.2.printed ∧
        ∀ p ∈ (tasks i).writes, (after d tasks sched).disk p = alone.2.files p := by
  obtain ⟨N, off', hN⟩ := alone_whole (tasks i).prog (tasks i).prog_opened d (fun _ => 0) []
  refine ⟨N, fun sched hfull hcount => ?_⟩
  have hown : own i sched = List.replicate (sched.countP fun e => e.1 = i) .full := by
    rw [List.eq_replicate_iff]
    constructor
    · simp [own, List.countP_eq_length_filter]
    · intro o ho
      simp only [own, List.mem_map, List.mem_filter, decide_eq_true_eq] at ho
      obtain ⟨⟨j, o'⟩, ⟨hmem, hj⟩, ho'⟩ := ho
      simp only at hj ho'
      subst hj; subst ho'
      exact hfull _ hmem
  obtain ⟨h1, h2⟩ := run_isolated (fun j p => p ∈ (tasks j).writes) (fun j p => p ∈ (tasks j).reads)
    (fun i j hij p hp => h i j hij p hp) i sched (Sys.start d fun i => (tasks i).prog) (start_within d tasks) d (fun _ _ => rfl)
  have hp : (Sys.start d fun i => (tasks i).prog).procs i = ⟨(tasks i).prog, none, fun _ => 0, []⟩ := rfl
  rw [hown, hp, hN _ hcount, (tasks i).prog_cmd] at h1 h2
  refine ⟨?_, ?_, fun p hp => h2 p (.inl hp)⟩
  · show (((Sys.start d fun i => (tasks i).prog).run sched).procs i).code = _
    rw [h1]
  · show (((Sys.start d fun i => (tasks i).prog).run sched).procs i).printed = _
    rw [h1]

/-- C105: what `setup` says can be relied on if it is killed or other commands run: if it has printed "setup OK", then the two files
belong together. -/
theorem C105_setup (tasks : ι → Task g) (h : Apart tasks) (d : Disk) (sched : List (ι × Outcome)) (i : ι) (t : Toxic G1 G2 r)
    (o : Files) (ho : o.params ≠ o.vk) (hi : tasks i = .setupEthereum t o ∨ tasks i = .setupText t o)
    (hp : ((after d tasks sched).procs i).printed ≠ []) : SetupFiles g t o ⟨(after d tasks sched).disk, [], []⟩ := by
  obtain ⟨plan, h1, h2, -⟩ := C105_isolated tasks h d sched i
  have key : ∀ res : Except Panic Unit × Cli.World, Honest [o.params, o.vk] (chars! "setup OK") (SetupFiles g t o) ⟨d, [], plan⟩ res →
      (∀ p ∈ [o.params, o.vk], (after d tasks sched).disk p = res.2.files p) →
      ((after d tasks sched).procs i).printed <+: res.2.printed → SetupFiles g t o ⟨(after d tasks sched).disk, [], []⟩ := by
    intro res hres hf hpre
    rcases hres.2 with ⟨-, -, params, text, hk, hv, hA, hB⟩ | ⟨e, -, hpr, -⟩
    · exact ⟨params, text, hk, hv, (hf _ (by simp)).trans hA, (hf _ (by simp)).trans hB⟩
    · rw [hpr] at hpre
      exact absurd (List.prefix_nil.1 hpre) hp
  rcases hi with hi | hi
  · rw [hi] at h1 h2
    exact key _ (C76_setup_ethereum g t o ho _) h1 h2
  · rw [hi] at h1 h2
    exact key _ (C76_setup_text g t o ho _) h1 h2

/-! ### Two commands that write the same files -/

/-- C105: a write replaces the bytes at its offset, and fills a gap after the end of the file with zeros. -/
theorem C105_write (old : List UInt8) (off : Nat) (bs : List UInt8) (hb : bs ≠ []) (k : Nat) :
    (overwrite old off bs)[k]? = if k < off then (if k < old.length then old[k]? else some 0)
      else if k < off + bs.length then bs[k - off]? else old[k]? := by
  unfold overwrite
  rw [if_neg hb, List.append_assoc, List.getElem?_append]
  have hlen : ((old ++ List.replicate (off - old.length) 0).take off).length = off := by
    rw [List.length_take, List.length_append, List.length_replicate]; omega
  rw [hlen]
  by_cases h1 : k < off
  · rw [if_pos h1, if_pos h1, List.getElem?_take_of_lt h1, List.getElem?_append]
    split
    · rfl
    · rw [List.getElem?_replicate, if_pos (by omega)]
  · rw [if_neg h1, if_neg h1, List.getElem?_append]
    by_cases h2 : k < off + bs.length
    · rw [if_pos h2, if_pos (by omega)]
    · rw [if_neg h2, if_neg (by omega), List.getElem?_drop]
      congr 1
      omega

/-- The second command is stopped after a piece, the first one runs to its end, then the second one goes on. -/
theorem interleave (c A : Prog Unit) (B : Unit → Prog Unit) (hc : c.Opened fun _ => False) (hA : A.Opened fun _ => False)
    (hB : (B ()).Opened fun _ => False) (d : Disk) (wA w1 w2 : Cli.World) (eA : A.cmd.run ⟨d, [], []⟩ = (.ok (), wA))
    (e1 : c.cmd.run ⟨wA.files, [], []⟩ = (.ok (), w1)) (e2 : (B ()).cmd.run ⟨w1.files, wA.printed, []⟩ = (.ok (), w2)) :
    ∃ sched : List (Bool × Outcome), let s := (Sys.start d fun b => cond b c (A.bind B)).run sched
      s.disk = w2.files ∧ Ended s true (.ok ()) ∧ (s.procs true).printed = w1.printed ∧
        Ended s false (.ok ()) ∧ (s.procs false).printed = w2.printed := by
  obtain ⟨N1, off1, -, -, -, h1⟩ := alone_full A (S := fun _ => False) B d (fun _ => 0) [] hA (fun _ hp => hp.elim)
  rw [eA] at h1
  obtain ⟨N2, off2, h2⟩ := alone_whole c hc wA.files (fun _ => 0) []
  have h2 := h2 N2 le_rfl
  rw [e1] at h2
  obtain ⟨N3, off3, h3⟩ := alone_whole (B ()) hB w1.files off1 wA.printed
  have h3 := h3 N3 le_rfl
  rw [e2] at h3
  refine ⟨(List.replicate N1 .full).map (fun o => (false, o)) ++ ((List.replicate N2 .full).map (fun o => (true, o)) ++
    (List.replicate N3 .full).map fun o => (false, o)), ?_⟩
  have hrun : (Sys.start d fun b => cond b c (A.bind B)).run ((List.replicate N1 .full).map (fun o => (false, o)) ++
      ((List.replicate N2 .full).map (fun o => (true, o)) ++ (List.replicate N3 .full).map fun o => (false, o))) =
      (((Sys.start d fun b => cond b c (A.bind B)).run ((List.replicate N1 .full).map fun o => (false, o))).run
        ((List.replicate N2 .full).map fun o => (true, o))).run ((List.replicate N3 .full).map fun o => (false, o)) := by
    simp only [Sys.run, List.foldl_append]
  let Q1 : Proc := ⟨B (), none, off1, wA.printed⟩
  let Q2 : Proc := ⟨.ret (.ok ()), none, off2, w1.printed⟩
  let Q3 : Proc := ⟨.ret (.ok ()), none, off3, w2.printed⟩
  have r1 : (Sys.start d fun b => cond b c (A.bind B)).run ((List.replicate N1 .full).map fun o => (false, o)) =
      ⟨wA.files, fun j => if j = false then Q1 else Proc.start (cond j c (A.bind B))⟩ := by
    rw [run_one]
    have : ((Sys.start d fun b => cond b c (A.bind B)).procs false).alone (List.replicate N1 .full)
      (Sys.start d fun b => cond b c (A.bind B)).disk = (wA.files, Q1) := h1
    rw [this]
    rfl
  have r2 : Sys.run ⟨wA.files, fun j => if j = false then Q1 else Proc.start (cond j c (A.bind B))⟩
      ((List.replicate N2 .full).map fun o => (true, o)) = ⟨w1.files, fun j => if j = true then Q2 else Q1⟩ := by
    rw [run_one]
    have : Proc.alone (List.replicate N2 .full) wA.files (if true = false then Q1 else Proc.start (cond true c (A.bind B))) =
      (w1.files, Q2) := h2
    rw [this]
    congr 1
    funext j
    cases j <;> rfl
  have r3 : Sys.run ⟨w1.files, fun j => if j = true then Q2 else Q1⟩ ((List.replicate N3 .full).map fun o => (false, o)) =
      ⟨w2.files, fun j => if j = true then Q2 else Q3⟩ := by
    rw [run_one]
    have : Proc.alone (List.replicate N3 .full) w1.files (if false = true then Q2 else Q1) = (w2.files, Q3) := h3
    rw [this]
    congr 1
    funext j
    cases j <;> rfl
  rw [hrun, r1, r2, r3]
  exact ⟨rfl, rfl, rfl, rfl, rfl⟩

theorem io_run {S : List Path} {c : Cmd Unit} {w : Cli.World} {Q : Unit → Cli.World → Prop} (h : Io S c w Q) (hp : w.plan = []) :
    ∃ w', c.run w = (.ok (), w') ∧ Step S w w' ∧ Q () w' := by
  obtain ⟨hs, hok, hc⟩ := h
  obtain ⟨⟨⟩, ha⟩ := hc hp
  exact ⟨(c.run w).2, by rw [← ha], hs, hok () ha⟩

theorem world_calm {w : Cli.World} (hp : w.plan = []) : w = ⟨w.files, w.printed, []⟩ := by
  cases w; subst hp; rfl

/-- C105: two runs of `setup` (Ethereum) at the same time on the same files may both print "setup OK" and leave the proving key of one
of them and the verification key of the other one. -/
theorem C105_two_setups (t1 t2 : Toxic G1 G2 r) (o : Files) (ho : o.params ≠ o.vk) (d : Disk) (params1 params2 : Parameters G1 G2)
    (text1 text2 : List Char) (hk1 : generateKeys g.field t1 (g.circuit none none) = .ok params1)
    (hk2 : generateKeys g.field t2 (g.circuit none none) = .ok params2) (hv1 : g.format.vkTo (truncate params1.vk) = .ok text1)
    (hv2 : g.format.vkTo (truncate params2.vk) = .ok text2) :
    ∃ sched : List (Bool × Outcome),
      let s := after d (fun b => cond b (Task.setupEthereum (g := g) t1 o) (Task.setupEthereum t2 o)) sched
      (∀ b, Ended s b (.ok ()) ∧ (s.procs b).printed = [chars! "setup OK"]) ∧
        s.disk o.params = some (paramsBytes g.raw1 g.raw2 params1) ∧ s.disk o.vk = some (intoBytes text2) := by
  let A : Prog Unit := Prog.createFile o.params >>= fun _ => Prog.writeChunks o.params (paramsChunks g.raw1 g.raw2 params2)
  let B : Unit → Prog Unit := fun _ => Prog.fsWrite o.vk (intoBytes text2) >>= fun _ => Prog.printLine (chars! "setup OK")
  have hA : A.Opened fun _ => False := opened_createFile (opened_writeChunks (.inr rfl) _)
  have hB : (B ()).Opened fun _ => False := Prog.opened_bind _ _ (opened_fsWrite _) fun _ => opened_printLine _
  have hprog : (Task.setupEthereum (g := g) t2 o).prog = A.bind B := by
    show (Prog.lift _ >>= _) = _
    rw [keyResult_ok.2 hk2]
    show (Prog.lift (g.format.vkTo (truncate params2.vk)) >>= _) = _
    rw [hv2]
    show _ = Prog.bind (Prog.bind _ _) B
    rw [prog_bind_assoc]
    rfl
  have cA : A.cmd = (create o.params >>= fun _ => writeChunks o.params (paramsChunks g.raw1 g.raw2 params2)) := by
    simp only [A, Prog.cmd_bind, Prog.cmd_createFile, Prog.cmd_writeChunks]
  have cB : (B ()).cmd = (fsWrite o.vk (intoBytes text2) >>= fun _ => println (chars! "setup OK")) := by
    simp only [B, Prog.cmd_bind, Prog.cmd_fsWrite, Prog.cmd_printLine]
  obtain ⟨wA, eA, sA, -⟩ := io_run (w := ⟨d, [], []⟩) (((create_io o.params ⟨d, [], []⟩).mono (S' := [o.params]) (by simp) fun _ _ _ h => h).bind
    fun _ w1 _ h1 => writeChunks_io o.params (paramsChunks g.raw1 g.raw2 params2) [] w1 h1) rfl
  have h1 := C76_setup_calm g t1 o ho ⟨wA.files, [], []⟩ rfl params1 hk1 text1 hv1
  have h1' := C76_setup_ethereum g t1 o ho ⟨wA.files, [], []⟩
  obtain ⟨w1, e1⟩ : ∃ w1, (setupEthereum g t1 o).run ⟨wA.files, [], []⟩ = (.ok (), w1) := ⟨_, by rw [← h1.1.1]⟩
  rw [e1] at h1'
  obtain ⟨-, h1' | ⟨e, he, -⟩⟩ := h1'
  swap
  · cases he
  obtain ⟨-, hp1, params', text', hk', hv', f1, -⟩ := h1'
  rw [hk1] at hk'; injection hk' with hk'; subst hk'
  obtain ⟨w2, e2, s2, f2⟩ := io_run (fsWrite_io o.vk (intoBytes text2) ⟨w1.files, wA.printed, []⟩) rfl
  obtain ⟨sched, hd, a1, a2, a3, a4⟩ := interleave (Task.setupEthereum (g := g) t1 o).prog A B (Task.prog_opened _) hA hB d wA w1
    ⟨w2.files, w2.printed ++ [chars! "setup OK"], w2.plan⟩ (by rw [cA]; exact eA) (by rw [Task.prog_cmd]; exact e1)
    (by rw [cB, run_bind_ok e2]; rfl)
  have hsys : (Sys.start d fun b => cond b (Task.setupEthereum (g := g) t1 o).prog (A.bind B)).run sched =
      after d (fun b => cond b (Task.setupEthereum (g := g) t1 o) (Task.setupEthereum t2 o)) sched := by
    unfold after
    congr 2
    funext b
    cases b
    · exact hprog.symm
    · rfl
  rw [hsys] at hd a1 a2 a3 a4
  refine ⟨sched, ?_, ?_, ?_⟩
  · intro b
    cases b
    · exact ⟨a3, by rw [a4]; show w2.printed ++ _ = _; rw [s2.printed]; show wA.printed ++ _ = _; rw [sA.printed]; rfl⟩
    · exact ⟨a1, by rw [a2, hp1]; rfl⟩
  · rw [hd]
    show w2.files o.params = _
    rw [s2.files _ (by simpa using ho)]
    exact f1
  · rw [hd]
    exact f2

/-- C105: the same for the other bindings, which write the files in the other order. -/
theorem C105_two_setups_text (t1 t2 : Toxic G1 G2 r) (o : Files) (ho : o.params ≠ o.vk) (d : Disk) (params1 params2 : Parameters G1 G2)
    (text1 text2 : List Char) (hk1 : generateKeys g.field t1 (g.circuit none none) = .ok params1)
    (hk2 : generateKeys g.field t2 (g.circuit none none) = .ok params2) (hv1 : g.format.vkTo (truncate params1.vk) = .ok text1)
    (hv2 : g.format.vkTo (truncate params2.vk) = .ok text2) :
    ∃ sched : List (Bool × Outcome),
      let s := after d (fun b => cond b (Task.setupText (g := g) t1 o) (Task.setupText t2 o)) sched
      (∀ b, Ended s b (.ok ()) ∧ (s.procs b).printed = [chars! "setup OK"]) ∧
        s.disk o.params = some (paramsBytes g.raw1 g.raw2 params2) ∧ s.disk o.vk = some (intoBytes text1) := by
  let A : Prog Unit := Prog.fsWrite o.vk (intoBytes text2)
  let B : Unit → Prog Unit := fun _ => Prog.createFile o.params >>= fun _ =>
    Prog.writeChunks o.params (paramsChunks g.raw1 g.raw2 params2) >>= fun _ => Prog.printLine (chars! "setup OK")
  have hA : A.Opened fun _ => False := opened_fsWrite _
  have hB : (B ()).Opened fun _ => False :=
    opened_createFile (Prog.opened_bind _ _ (opened_writeChunks (.inr rfl) _) fun _ => opened_printLine _)
  have hprog : (Task.setupText (g := g) t2 o).prog = A.bind B := by
    show (Prog.lift _ >>= _) = _
    rw [keyResult_ok.2 hk2]
    show (Prog.lift (g.format.vkTo (truncate params2.vk)) >>= _) = _
    rw [hv2]
    rfl
  have cA : A.cmd = fsWrite o.vk (intoBytes text2) := Prog.cmd_fsWrite _ _
  have cB : (B ()).cmd = ((create o.params >>= fun _ => writeChunks o.params (paramsChunks g.raw1 g.raw2 params2)) >>= fun _ =>
      println (chars! "setup OK")) := by
    simp only [B, Prog.cmd_bind, Prog.cmd_createFile, Prog.cmd_writeChunks, Prog.cmd_printLine, Cli.bind_assoc]
  obtain ⟨wA, eA, sA, -⟩ := io_run (fsWrite_io o.vk (intoBytes text2) ⟨d, [], []⟩) rfl
  have h1 := C76_setup_calm g t1 o ho ⟨wA.files, [], []⟩ rfl params1 hk1 text1 hv1
  have h1' := C76_setup_text g t1 o ho ⟨wA.files, [], []⟩
  obtain ⟨w1, e1⟩ : ∃ w1, (setupText g t1 o).run ⟨wA.files, [], []⟩ = (.ok (), w1) := ⟨_, by rw [← h1.2.1]⟩
  rw [e1] at h1'
  obtain ⟨-, h1' | ⟨e, he, -⟩⟩ := h1'
  swap
  · cases he
  obtain ⟨-, hp1, params', text', hk', hv', -, f1⟩ := h1'
  rw [hk1] at hk'; injection hk' with hk'; subst hk'
  rw [hv1] at hv'; injection hv' with hv'; subst hv'
  obtain ⟨w2, e2, s2, f2⟩ := io_run (w := ⟨w1.files, wA.printed, []⟩) (((create_io o.params ⟨w1.files, wA.printed, []⟩).mono
    (S' := [o.params]) (by simp) fun _ _ _ h => h).bind fun _ w1 _ h1 =>
      writeChunks_io o.params (paramsChunks g.raw1 g.raw2 params2) [] w1 h1) rfl
  obtain ⟨sched, hd, a1, a2, a3, a4⟩ := interleave (Task.setupText (g := g) t1 o).prog A B (Task.prog_opened _) hA hB d wA w1
    ⟨w2.files, w2.printed ++ [chars! "setup OK"], w2.plan⟩ (by rw [cA]; exact eA) (by rw [Task.prog_cmd]; exact e1)
    (by rw [cB, run_bind_ok e2]; rfl)
  have hsys : (Sys.start d fun b => cond b (Task.setupText (g := g) t1 o).prog (A.bind B)).run sched =
      after d (fun b => cond b (Task.setupText (g := g) t1 o) (Task.setupText t2 o)) sched := by
    unfold after
    congr 2
    funext b
    cases b
    · exact hprog.symm
    · rfl
  rw [hsys] at hd a1 a2 a3 a4
  refine ⟨sched, ?_, ?_, ?_⟩
  · intro b
    cases b
    · exact ⟨a3, by rw [a4]; show w2.printed ++ _ = _; rw [s2.printed]; show wA.printed ++ _ = _; rw [sA.printed]; rfl⟩
    · exact ⟨a1, by rw [a2, hp1]; rfl⟩
  · rw [hd]
    exact f2
  · rw [hd]
    show w2.files o.vk = _
    rw [s2.files _ (by simpa using ho.symm)]
    exact f1

end

section verdict

variable {G1 G2 T : Type} [AddCommGroup G1] [AddCommGroup G2] [DecidableEq G1] [DecidableEq G2] [CommMonoid T] [DecidableEq T]
  {r : Nat} [Fact r.Prime] {g : Program G1 G2 T r} {ι : Type} [DecidableEq ι]

/-- C105: a "true" from `verify` means what it means when nothing else runs (C77), for the files as they were at the start. -/
theorem C105_verdict {e : G1 → G2 → Tˣ} (he : PairingEngine g.engine e) (tasks : ι → Task g) (h : Apart tasks) (d : Disk)
    (sched : List (ι × Outcome)) (i : ι) (o : Files) (hi : tasks i = .verify o) (res : Except Panic Unit)
    (hend : Ended (after d tasks sched) i res) (hp : ((after d tasks sched).procs i).printed = [verdictLine true]) :
    ∃ vk proof inputs ic0 ics, FilesHold g o ⟨d, [], []⟩ vk proof inputs ∧ vk.ic = ic0 :: ics ∧ inputs.length = ics.length ∧
      Groth16Equation e vk.alphaG1 vk.betaG2 vk.gammaG2 vk.deltaG2 ic0 ics proof.a proof.b proof.c inputs := by
  obtain ⟨plan, -, -, h3⟩ := C105_isolated tasks h d sched i
  obtain ⟨-, h4⟩ := h3 res hend
  rw [hp, hi] at h4
  exact (C77_true g he o ⟨d, [], plan⟩).1 h4.symm

end verdict

/-! ### Examples -/

/-- Two proofs and two verifications at the same time: the proving key is shared, the outputs are different. -/
def pairFiles (b : Bool) : Files :=
  { ethereumFiles with proof := (cond b 'a' 'b') :: ethereumFiles.proof, inputs := (cond b 'a' 'b') :: ethereumFiles.inputs }

example (f : Format Demo Demo bnR) : Apart (g := demoProgram f) fun b : Bool => .prove 11 12 (pairFiles b) :=
  show ∀ i j : Bool, i ≠ j → ∀ p ∈ [(pairFiles j).proof, (pairFiles j).inputs],
    p ∉ [(pairFiles i).proof, (pairFiles i).inputs] ∧ p ∉ [(pairFiles i).params, (pairFiles i).object] by decide +kernel

/-- A verification with the default files, and a proof for other files. -/
example (f : Format Demo Demo bnR) :
    Apart (g := demoProgram f) fun b : Bool => cond b (.verify ethereumFiles) (.prove 11 12 (pairFiles true)) := by
  have h : ∀ p ∈ [(pairFiles true).proof, (pairFiles true).inputs],
      p ∉ [ethereumFiles.vk, ethereumFiles.proof, ethereumFiles.inputs] := by decide +kernel
  intro i j hij p hp
  cases i <;> cases j
  · exact absurd rfl hij
  · cases hp
  · exact ⟨List.not_mem_nil, h p hp⟩
  · exact absurd rfl hij

/-- Two runs of `setup` with different random choices get different keys. -/
def demoToxic' : Toxic Demo Demo bnR := ⟨⟨1⟩, ⟨1⟩, 8, 9, 10, 11, 12⟩

example : ∃ params1 params2, generateKeys demoK demoToxic (generated demoPub.ty demoSec.ty demoCode none none none) = .ok params1 ∧
    generateKeys demoK demoToxic' (generated demoPub.ty demoSec.ty demoCode none none none) = .ok params2 ∧
    truncate params1.vk ≠ truncate params2.vk := by
  have h : (match generateKeys demoK demoToxic (generated demoPub.ty demoSec.ty demoCode none none none),
      generateKeys demoK demoToxic' (generated demoPub.ty demoSec.ty demoCode none none none) with
    | .ok p1, .ok p2 => decide ((truncate p1.vk).alphaG1 ≠ (truncate p2.vk).alphaG1)
    | _, _ => false) = true := by decide +kernel
  split at h
  · rename_i p1 p2 h1 h2
    exact ⟨p1, p2, h1, h2, fun e => of_decide_eq_true h (congrArg _ e)⟩
  · cases h

end Fawkes.Props
