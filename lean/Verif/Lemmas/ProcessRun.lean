import Verif.Lemmas.Process

/-!
# A process that runs alone does what the whole command does
-/

namespace Fawkes.Cli

open Cmd

/-- The next write to an opened file goes to its end. -/
def Ready (S : Path → Prop) (d : Disk) (P : Proc) : Prop := ∀ p, S p → ∃ bs, d p = some bs ∧ P.offset p = bs.length

/-- What has been read is a beginning of the file. -/
def ReadOk (d : Disk) (P : Proc) : Prop :=
  ∀ acc, P.reading = some acc → ∃ p next bs, P.code = .readAll p next ∧ d p = some bs ∧ acc <+: bs

theorem overwrite_end (old bs : List UInt8) : overwrite old old.length bs = old ++ bs := by
  unfold overwrite
  split
  · simp [*]
  · simp

theorem run_create (p : Path) (w : World) (o : Outcome) (plan : List Outcome) (ho : o ≠ .fault) :
    (create p).run { w with plan := o :: plan } = (.ok (), ⟨Disk.set w.files p [], w.printed, plan⟩) := by
  cases o with
  | fault => exact absurd rfl ho
  | full => rfl
  | upTo n => rfl

theorem outcome_cons (o : Outcome) (f : Disk) (pr : List (List Char)) (plan : List Outcome) :
    outcome.run ⟨f, pr, o :: plan⟩ = (.ok o, ⟨f, pr, plan⟩) := rfl

theorem outcome_nil (f : Disk) (pr : List (List Char)) : outcome.run ⟨f, pr, []⟩ = (.ok .full, ⟨f, pr, []⟩) := rfl

theorem contents_some {p : Path} {bs : List UInt8} {f : Disk} {pr : List (List Char)} {plan : List Outcome} (h : f p = some bs) :
    (contents p).run ⟨f, pr, plan⟩ = (.ok bs, ⟨f, pr, plan⟩) := by
  show contents p ⟨f, pr, plan⟩ = _
  simp only [contents, h]

theorem contents_none {p : Path} {f : Disk} {pr : List (List Char)} {plan : List Outcome} (h : f p = none) :
    (contents p).run ⟨f, pr, plan⟩ = (.error .unwrap, ⟨f, pr, plan⟩) := by
  show contents p ⟨f, pr, plan⟩ = _
  simp only [contents, h]

theorem run_writeOnce_full (p : Path) (bs old : List UInt8) (f : Disk) (pr : List (List Char)) (plan : List Outcome)
    (h : f p = some old) :
    (writeOnce p bs).run ⟨f, pr, .full :: plan⟩ = (.ok bs.length, ⟨Disk.set f p (old ++ bs), pr, plan⟩) := by
  show (outcome >>= _ : Cmd Nat).run _ = _
  rw [run_bind_ok (outcome_cons _ _ _ _)]
  show (contents p >>= _ : Cmd Nat).run _ = _
  rw [run_bind_ok (contents_some h)]
  rfl

theorem run_writeOnce_upTo (p : Path) (bs old : List UInt8) (f : Disk) (pr : List (List Char)) (plan : List Outcome) (n : Nat)
    (h : f p = some old) :
    (writeOnce p bs).run ⟨f, pr, .upTo n :: plan⟩ = (.ok (min n bs.length), ⟨Disk.set f p (old ++ bs.take n), pr, plan⟩) := by
  show (outcome >>= _ : Cmd Nat).run _ = _
  rw [run_bind_ok (outcome_cons _ _ _ _)]
  show (contents p >>= _ : Cmd Nat).run _ = _
  rw [run_bind_ok (contents_some h)]
  rfl

theorem run_writeOnce_fault (p : Path) (bs : List UInt8) (f : Disk) (pr : List (List Char)) (plan : List Outcome) :
    (writeOnce p bs).run ⟨f, pr, .fault :: plan⟩ = (.error .unwrap, ⟨f, pr, plan⟩) := rfl

theorem writeLoop_nil (p : Path) (fuel : Nat) : writeLoop p fuel [] = pure () := by cases fuel <;> rfl

theorem writeLoop_cons (p : Path) (fuel : Nat) (bs : List UInt8) (h : bs ≠ []) :
    writeLoop p (fuel + 1) bs = writeOnce p bs >>= fun n =>
      if n = 0 then lift (.error .unwrap) else writeLoop p fuel (bs.drop n) := by
  cases bs with
  | nil => exact absurd rfl h
  | cons b bs => rfl

theorem writeLoop_fuel (p : Path) (bs : List UInt8) (fuel fuel' : Nat) (h : bs.length ≤ fuel) (h' : bs.length ≤ fuel') :
    writeLoop p fuel bs = writeLoop p fuel' bs := by
  induction fuel generalizing bs fuel' with
  | zero =>
    rw [List.length_eq_zero_iff.1 (Nat.le_zero.1 h), writeLoop_nil, writeLoop_nil]
  | succ fuel ih =>
    by_cases hb : bs = []
    · rw [hb, writeLoop_nil, writeLoop_nil]
    · have hpos : 0 < bs.length := List.length_pos_iff.2 hb
      obtain ⟨f', rfl⟩ : ∃ f', fuel' = f' + 1 := ⟨fuel' - 1, by omega⟩
      rw [writeLoop_cons p _ _ hb, writeLoop_cons p _ _ hb]
      congr 1
      funext n
      split
      · rfl
      · exact ih _ _ (by rw [List.length_drop]; omega) (by rw [List.length_drop]; omega)

theorem writeAll_cons (p : Path) (bs : List UInt8) (h : bs ≠ []) :
    writeAll p bs = writeOnce p bs >>= fun n => if n = 0 then lift (.error .unwrap) else writeAll p (bs.drop n) := by
  have hpos : 0 < bs.length := List.length_pos_iff.2 h
  obtain ⟨k, hk⟩ : ∃ k, bs.length = k + 1 := ⟨bs.length - 1, by omega⟩
  rw [writeAll, hk, writeLoop_cons p k bs h]
  congr 1
  funext n
  split
  · rfl
  · exact writeLoop_fuel _ _ _ _ (by rw [List.length_drop]; omega) le_rfl

theorem set_self {f : Disk} {p : Path} {bs : List UInt8} (h : f p = some bs) : Disk.set f p bs = f := by
  funext p'
  simp only [Disk.set]
  split
  · subst_vars; exact h.symm
  · rfl

theorem run_bind_same {α β : Type} {c : Cmd α} {f : α → Cmd β} {w w' : World} {a : α} (h : c.run w = (.ok a, w')) :
    (c >>= f).run w = (f a).run w' := run_bind_ok h

/-- One call of the process corresponds to a piece of the plan of the whole command. -/
theorem step_cmd {S : Path → Prop} (o : Outcome) (d : Disk) (P : Proc) (hS : P.code.Opened S) (hr : Ready S d P)
    (ha : ReadOk d P) : ∃ pl, ∀ plan, P.code.cmd.run ⟨d, P.printed, pl ++ plan⟩ =
      (P.step o d).2.code.cmd.run ⟨(P.step o d).1, (P.step o d).2.printed, plan⟩ := by
  unfold Proc.step
  split
  · exact ⟨[], fun plan => rfl⟩
  · rename_i p next hc
    rw [hc]
    split
    · exact ⟨[.fault], fun plan => rfl⟩
    · refine ⟨[.full], fun plan => ?_⟩
      exact run_bind_ok rfl
  · rename_i p bs next hc
    rw [hc] at hS ⊢
    obtain ⟨old, hold, hoff⟩ := hr p hS.1
    split
    · rename_i hb
      exact ⟨[], fun plan => run_bind_ok (by rw [hb]; rfl)⟩
    · rename_i hb
      have hpos : bs.length ≠ 0 := fun e => hb (List.length_eq_zero_iff.1 e)
      split
      · refine ⟨[.fault], fun plan => ?_⟩
        show (writeAll p bs >>= fun _ => next.cmd).run _ = _
        rw [writeAll_cons p bs hb]
        exact run_bind_error (run_bind_error (run_writeOnce_fault _ _ _ _ _))
      · refine ⟨[.full], fun plan => ?_⟩
        show (writeAll p bs >>= fun _ => next.cmd).run _ = _
        rw [writeAll_cons p bs hb]
        refine (run_bind_ok (a := ()) (w' := ⟨Disk.set d p (old ++ bs), P.printed, plan⟩)
          ((run_bind_ok (run_writeOnce_full p bs old _ _ _ hold)).trans ?_)).trans ?_
        · rw [if_neg hpos, List.drop_length]; rfl
        · simp only [Proc.write, hold, hoff, overwrite_end]
      · rename_i n
        split
        · rename_i hn
          refine ⟨[.upTo n], fun plan => ?_⟩
          show (writeAll p bs >>= fun _ => next.cmd).run _ = _
          rw [writeAll_cons p bs hb]
          refine run_bind_error ((run_bind_ok (run_writeOnce_upTo p bs old _ _ _ n hold)).trans ?_)
          rw [hn, if_pos (Nat.zero_min _), List.take_zero, List.append_nil, set_self hold]; rfl
        · rename_i hn
          refine ⟨[.upTo n], fun plan => ?_⟩
          show (writeAll p bs >>= fun _ => next.cmd).run _ = _
          rw [writeAll_cons p bs hb, Cli.bind_assoc]
          refine (run_bind_ok (run_writeOnce_upTo p bs old _ _ _ n hold)).trans ?_
          rw [if_neg (by omega)]
          have : bs.drop (min n bs.length) = bs.drop n := by
            rcases le_total n bs.length with h | h
            · rw [min_eq_left h]
            · rw [min_eq_right h, List.drop_length, List.drop_eq_nil_of_le h]
          rw [this]
          simp only [Proc.write, hold, hoff, overwrite_end]
          rfl
  · rename_i p bs next hc
    rw [hc] at hS ⊢
    obtain ⟨old, hold, hoff⟩ := hr p hS.1
    split
    · exact ⟨[.fault], fun plan => run_bind_error (run_writeOnce_fault _ _ _ _ _)⟩
    · refine ⟨[.full], fun plan => ?_⟩
      refine (run_bind_ok (run_writeOnce_full p bs old _ _ _ hold)).trans ?_
      simp only [Proc.write, hold, hoff, overwrite_end]
      rfl
    · rename_i n
      refine ⟨[.upTo n], fun plan => ?_⟩
      refine (run_bind_ok (run_writeOnce_upTo p bs old _ _ _ n hold)).trans ?_
      simp only [Proc.write, hold, hoff, overwrite_end]
      rfl
  · rename_i p next hc
    split
    · refine ⟨[.fault], fun plan => ?_⟩
      rw [hc]
      rfl
    · split
      · rename_i hp
        refine ⟨[.full], fun plan => ?_⟩
        rw [hc]
        refine run_bind_error (e := .unwrap) ?_
        show (outcome >>= _ : Cmd _).run _ = _
        refine (run_bind_ok (outcome_cons .full d P.printed plan)).trans ?_
        exact contents_none hp
      · rename_i bs hp
        split
        · exact ⟨[], fun plan => rfl⟩
        · rename_i acc hacc
          dsimp only
          split
          · rename_i hrest
            obtain ⟨p', next', bs', h1, h2, h3⟩ := ha acc hacc
            rw [hc] at h1
            injection h1 with h1 h1'
            subst h1
            rw [hp] at h2
            injection h2 with h2
            subst h2
            have hfull : acc = bs := by
              refine h3.eq_of_length_le ?_
              simpa using hrest
            subst hfull
            refine ⟨[.full], fun plan => ?_⟩
            rw [hc]
            refine run_bind_ok ?_
            show (outcome >>= _ : Cmd _).run _ = _
            refine (run_bind_ok (outcome_cons .full d P.printed plan)).trans ?_
            exact contents_some hp
          · split <;> exact ⟨[], fun plan => rfl⟩
  · rename_i l next hc
    rw [hc]
    exact ⟨[], fun plan => run_bind_ok rfl⟩

theorem write_keeps {S : Path → Prop} (d : Disk) (P : Proc) (hr : Ready S d P) {p : Path} (hp : S p) (bs : List UInt8)
    (next : Prog Unit) (hn : next.Opened S) (hread : P.reading = none) :
    (P.write d p bs next).2.code.Opened S ∧ Ready S (P.write d p bs next).1 (P.write d p bs next).2 ∧
      (P.write d p bs next).2.reading = none := by
  obtain ⟨old, hold, hoff⟩ := hr p hp
  simp only [Proc.write, hold]
  refine ⟨hn, ?_, hread⟩
  intro p' hp'
  simp only [Disk.set]
  by_cases e : p' = p
  · simp only [if_pos e]
    exact ⟨_, rfl, by rw [hoff, overwrite_end, List.length_append]⟩
  · simp only [if_neg e]
    exact hr p' hp'

theorem readOk_none {d : Disk} {P : Proc} (h : P.reading = none) : ReadOk d P := by
  intro acc ha
  rw [h] at ha
  cases ha

/-- What the next call needs is there after the call. -/
theorem step_keeps {S : Path → Prop} (o : Outcome) (d : Disk) (P : Proc) (hS : P.code.Opened S) (hr : Ready S d P)
    (ha : ReadOk d P) : ∃ S', (P.step o d).2.code.Opened S' ∧ Ready S' (P.step o d).1 (P.step o d).2 ∧
      ReadOk (P.step o d).1 (P.step o d).2 := by
  have hnone : (∀ p next, P.code ≠ .readAll p next) → P.reading = none := by
    intro h
    cases hrd : P.reading with
    | none => rfl
    | some acc => obtain ⟨p, next, bs, h1, -⟩ := ha acc hrd; exact absurd h1 (h p next)
  have hfail : ∃ S', P.fail.code.Opened S' ∧ Ready S' d P.fail ∧ ReadOk d P.fail :=
    ⟨S, trivial, hr, readOk_none rfl⟩
  have hwrite : ∀ {p : Path} (_ : S p) (bs : List UInt8) (next : Prog Unit), next.Opened S → P.reading = none →
      ∃ S', (P.write d p bs next).2.code.Opened S' ∧ Ready S' (P.write d p bs next).1 (P.write d p bs next).2 ∧
        ReadOk (P.write d p bs next).1 (P.write d p bs next).2 := by
    intro p hp bs next hn hread
    obtain ⟨h1, h2, h3⟩ := write_keeps d P hr hp bs next hn hread
    exact ⟨S, h1, h2, readOk_none h3⟩
  unfold Proc.step
  split
  · exact ⟨S, hS, hr, ha⟩
  · rename_i p next hc
    rw [hc] at hS
    split
    · exact hfail
    · refine ⟨fun p' => S p' ∨ p' = p, hS, ?_, readOk_none (hnone (by rw [hc]; intro _ _ h; cases h))⟩
      intro p' hp'
      simp only [Disk.set]
      by_cases e : p' = p
      · simp only [if_pos e]
        exact ⟨[], rfl, rfl⟩
      · simp only [if_neg e]
        exact hr p' (hp'.resolve_right e)
  · rename_i p bs next hc
    have hn := hnone (by rw [hc]; intro _ _ h; cases h)
    rw [hc] at hS
    split
    · exact ⟨S, hS.2, hr, readOk_none hn⟩
    · split
      · exact hfail
      · exact hwrite hS.1 _ _ hS.2 hn
      · split
        · exact hfail
        · exact hwrite hS.1 _ _ ⟨hS.1, hS.2⟩ hn
  · rename_i p bs next hc
    have hn := hnone (by rw [hc]; intro _ _ h; cases h)
    rw [hc] at hS
    split
    · exact hfail
    · exact hwrite hS.1 _ _ (hS.2 _) hn
    · exact hwrite hS.1 _ _ (hS.2 _) hn
  · rename_i p next hc
    have hS' := hS
    rw [hc] at hS'
    split
    · exact hfail
    · split
      · exact hfail
      · rename_i bs hp
        split
        · refine ⟨S, hS, hr, ?_⟩
          intro acc hacc
          injection hacc with hacc
          exact ⟨p, next, bs, hc, hp, hacc ▸ List.nil_prefix⟩
        · rename_i acc hacc
          dsimp only
          obtain ⟨p', next', bs', h1, h2, h3⟩ := ha acc hacc
          have hpp : p' = p := by rw [hc] at h1; injection h1 with h1; exact h1.symm
          rw [hpp, hp] at h2
          injection h2 with h2
          subst h2
          have key : ∀ rest', rest' <+: bs.drop acc.length → acc ++ rest' <+: bs := by
            intro rest' hrest'
            obtain ⟨t, rfl⟩ := h3
            rw [List.drop_left] at hrest'
            exact (List.prefix_append_right_inj acc).2 hrest'
          split
          · exact ⟨S, hS' _, hr, readOk_none rfl⟩
          · split
            · refine ⟨S, hS, hr, ?_⟩
              intro acc' hacc'
              injection hacc' with hacc'
              exact ⟨p, next, bs, hc, hp, hacc' ▸ key _ (List.take_prefix _ _)⟩
            · refine ⟨S, hS, hr, ?_⟩
              intro acc' hacc'
              injection hacc' with hacc'
              exact ⟨p, next, bs, hc, hp, hacc' ▸ key _ (List.prefix_refl _)⟩
  · rename_i l next hc
    have hn := hnone (by rw [hc]; intro _ _ h; cases h)
    rw [hc] at hS
    exact ⟨S, hS, hr, readOk_none hn⟩

/-- A command that gets no further has done to the files what it does if the next call fails. -/
theorem stop_cmd (c : Prog Unit) (d : Disk) (pr : List (List Char)) : ∃ plan,
    (c.cmd.run ⟨d, pr, plan⟩).2.files = d ∧ pr <+: (c.cmd.run ⟨d, pr, plan⟩).2.printed ∧
      ∀ res, c = .ret res → (c.cmd.run ⟨d, pr, plan⟩).1 = res ∧ (c.cmd.run ⟨d, pr, plan⟩).2.printed = pr := by
  induction c generalizing pr with
  | ret res => exact ⟨[], rfl, List.prefix_refl _, fun res' h => by injection h with h; exact ⟨h, rfl⟩⟩
  | create p next ih => exact ⟨[.fault], rfl, List.prefix_refl _, fun res h => by cases h⟩
  | writeAll p bs next ih =>
    by_cases hb : bs = []
    · obtain ⟨plan, h1, h2, -⟩ := ih pr
      have : (Prog.writeAll p bs next).cmd.run ⟨d, pr, plan⟩ = next.cmd.run ⟨d, pr, plan⟩ :=
        run_bind_ok (by rw [hb]; rfl)
      exact ⟨plan, by rw [this]; exact h1, by rw [this]; exact h2, fun res h => by cases h⟩
    · have : (Prog.writeAll p bs next).cmd.run ⟨d, pr, [.fault]⟩ = (.error .unwrap, ⟨d, pr, []⟩) := by
        show (Cmd.writeAll p bs >>= fun _ => next.cmd).run _ = _
        rw [writeAll_cons p bs hb]
        exact run_bind_error (run_bind_error (run_writeOnce_fault _ _ _ _ _))
      exact ⟨[.fault], by rw [this], by rw [this], fun res h => by cases h⟩
  | writeOnce p bs next ih =>
    have : (Prog.writeOnce p bs next).cmd.run ⟨d, pr, [.fault]⟩ = (.error .unwrap, ⟨d, pr, []⟩) :=
      run_bind_error (run_writeOnce_fault _ _ _ _ _)
    exact ⟨[.fault], by rw [this], by rw [this], fun res h => by cases h⟩
  | readAll p next ih => exact ⟨[.fault], rfl, List.prefix_refl _, fun res h => by cases h⟩
  | println l next ih =>
    obtain ⟨plan, h1, h2, -⟩ := ih (pr ++ [l])
    have : (Prog.println l next).cmd.run ⟨d, pr, plan⟩ = next.cmd.run ⟨d, pr ++ [l], plan⟩ := run_bind_ok rfl
    exact ⟨plan, by rw [this]; exact h1, by rw [this]; exact (List.prefix_append _ _).trans h2, fun res h => by cases h⟩

/-- Every piece of a run of one process is, for the files, a run of the whole command under some plan. -/
theorem alone_cmd {S : Path → Prop} (os : List Outcome) (d : Disk) (P : Proc) (hS : P.code.Opened S) (hr : Ready S d P)
    (ha : ReadOk d P) : ∃ plan,
      (P.code.cmd.run ⟨d, P.printed, plan⟩).2.files = (P.alone os d).1 ∧
      (P.alone os d).2.printed <+: (P.code.cmd.run ⟨d, P.printed, plan⟩).2.printed ∧
      ∀ res, (P.alone os d).2.code = .ret res → (P.code.cmd.run ⟨d, P.printed, plan⟩).1 = res ∧
        (P.code.cmd.run ⟨d, P.printed, plan⟩).2.printed = (P.alone os d).2.printed := by
  induction os generalizing d P S with
  | nil => exact stop_cmd P.code d P.printed
  | cons o os ih =>
    obtain ⟨S', h1, h2, h3⟩ := step_keeps o d P hS hr ha
    obtain ⟨plan, hplan⟩ := ih (P.step o d).1 (P.step o d).2 h1 h2 h3
    obtain ⟨pl, hpl⟩ := step_cmd o d P hS hr ha
    refine ⟨pl ++ plan, ?_⟩
    rw [hpl plan]
    exact hplan

/-! ### Nothing fails -/

theorem alone_ret (os : List Outcome) (d : Disk) (P : Proc) (res : Except Panic Unit) (h : P.code = .ret res) :
    P.alone os d = (d, P) := by
  induction os with
  | nil => rfl
  | cons o os ih =>
    have : P.step o d = (d, P) := by simp only [Proc.step, h]
    show (P.step o d).2.alone os (P.step o d).1 = _
    rw [this]
    exact ih

theorem run_writeOnce_calm (p : Path) (bs old : List UInt8) (f : Disk) (pr : List (List Char)) (h : f p = some old) :
    (writeOnce p bs).run ⟨f, pr, []⟩ = (.ok bs.length, ⟨Disk.set f p (old ++ bs), pr, []⟩) := by
  show (outcome >>= _ : Cmd Nat).run _ = _
  rw [run_bind_ok (outcome_nil _ _)]
  show (contents p >>= _ : Cmd Nat).run _ = _
  rw [run_bind_ok (contents_some h)]
  rfl

theorem run_writeAll_calm (p : Path) (bs old : List UInt8) (f : Disk) (pr : List (List Char)) (h : f p = some old) :
    (writeAll p bs).run ⟨f, pr, []⟩ = (.ok (), ⟨Disk.set f p (old ++ bs), pr, []⟩) := by
  by_cases hb : bs = []
  · rw [hb, List.append_nil, set_self h]; rfl
  · rw [writeAll_cons p bs hb]
    refine (run_bind_ok (run_writeOnce_calm p bs old _ _ h)).trans ?_
    rw [if_neg (fun e => hb (List.length_eq_zero_iff.1 e)), List.drop_length]; rfl

/-- If the operating system does all it is asked for, then the process gets through a piece of its code after some calls, with
the effects that the piece has in Model/Cli.lean. -/
theorem alone_full {α : Type} (c : Prog α) {S : Path → Prop} (f : α → Prog Unit) (d : Disk) (off : Path → Nat)
    (pr : List (List Char)) (hS : c.Opened S) (hr : Ready S d ⟨c.bind f, none, off, pr⟩) :
    ∃ N off' S', (∀ p, S p → S' p) ∧ Ready S' (c.cmd.run ⟨d, pr, []⟩).2.files ⟨c.bind f, none, off', pr⟩ ∧
      Proc.alone (List.replicate N .full) d ⟨c.bind f, none, off, pr⟩ =
        ((c.cmd.run ⟨d, pr, []⟩).2.files, ⟨match (c.cmd.run ⟨d, pr, []⟩).1 with | .ok a => f a | .error e => .ret (.error e),
          none, off', (c.cmd.run ⟨d, pr, []⟩).2.printed⟩) := by
  induction c generalizing S d off pr with
  | ret res => exact ⟨0, off, S, fun _ h => h, hr, by cases res <;> rfl⟩
  | create p next ih =>
    have e : (Prog.create p next).cmd.run ⟨d, pr, []⟩ = next.cmd.run ⟨Disk.set d p [], pr, []⟩ := run_bind_ok rfl
    obtain ⟨N, off', S', h1, h2, h3⟩ := ih (S := fun p' => S p' ∨ p' = p) (Disk.set d p [])
      (fun p' => if p' = p then 0 else off p') pr hS (by
        intro p' hp'
        simp only [Disk.set]
        by_cases e : p' = p
        · simp only [if_pos e]
          exact ⟨[], rfl, rfl⟩
        · simp only [if_neg e]
          exact hr p' (hp'.resolve_right e))
    refine ⟨N + 1, off', S', fun p' hp' => h1 p' (.inl hp'), by rw [e]; exact h2, ?_⟩
    rw [e, ← h3]
    rfl
  | writeAll p bs next ih =>
    obtain ⟨old, hold, hoff⟩ := hr p hS.1
    have e : (Prog.writeAll p bs next).cmd.run ⟨d, pr, []⟩ = next.cmd.run ⟨Disk.set d p (old ++ bs), pr, []⟩ :=
      run_bind_ok (run_writeAll_calm p bs old d pr hold)
    have hstep : Proc.step .full d ⟨(Prog.writeAll p bs next).bind f, none, off, pr⟩ =
        (Disk.set d p (old ++ bs), ⟨next.bind f, none, fun p' => if p' = p then off p + bs.length else off p', pr⟩) := by
      simp only [Prog.bind, Proc.step]
      by_cases hb : bs = []
      · rw [if_pos hb, hb, List.append_nil, set_self hold]
        congr 2
        funext p'
        split
        · subst_vars; rfl
        · rfl
      · rw [if_neg hb]
        simp only [Proc.write, hold]
        rw [show off p = old.length from hoff, overwrite_end]
    obtain ⟨N, off', S', h1, h2, h3⟩ := ih (S := S) (Disk.set d p (old ++ bs))
      (fun p' => if p' = p then off p + bs.length else off p') pr hS.2 (by
        intro p' hp'
        simp only [Disk.set]
        by_cases e : p' = p
        · simp only [if_pos e]
          exact ⟨_, rfl, by rw [show off p = old.length from hoff, List.length_append]⟩
        · simp only [if_neg e]
          exact hr p' hp')
    refine ⟨N + 1, off', S', h1, by rw [e]; exact h2, ?_⟩
    rw [e, ← h3]
    show Proc.alone (List.replicate N .full) (Proc.step .full d _).1 (Proc.step .full d _).2 = _
    rw [hstep]
  | writeOnce p bs next ih =>
    obtain ⟨old, hold, hoff⟩ := hr p hS.1
    have e : (Prog.writeOnce p bs next).cmd.run ⟨d, pr, []⟩ = (next bs.length).cmd.run ⟨Disk.set d p (old ++ bs), pr, []⟩ :=
      run_bind_ok (run_writeOnce_calm p bs old d pr hold)
    have hstep : Proc.step .full d ⟨(Prog.writeOnce p bs next).bind f, none, off, pr⟩ =
        (Disk.set d p (old ++ bs),
          ⟨(next bs.length).bind f, none, fun p' => if p' = p then off p + bs.length else off p', pr⟩) := by
      simp only [Prog.bind, Proc.step, Proc.write, hold]
      rw [show off p = old.length from hoff, overwrite_end]
    obtain ⟨N, off', S', h1, h2, h3⟩ := ih bs.length (S := S) (Disk.set d p (old ++ bs))
      (fun p' => if p' = p then off p + bs.length else off p') pr (hS.2 _) (by
        intro p' hp'
        simp only [Disk.set]
        by_cases e : p' = p
        · simp only [if_pos e]
          exact ⟨_, rfl, by rw [show off p = old.length from hoff, List.length_append]⟩
        · simp only [if_neg e]
          exact hr p' hp')
    refine ⟨N + 1, off', S', h1, by rw [e]; exact h2, ?_⟩
    rw [e, ← h3]
    show Proc.alone (List.replicate N .full) (Proc.step .full d _).1 (Proc.step .full d _).2 = _
    rw [hstep]
  | readAll p next ih =>
    cases hp : d p with
    | none =>
      have e : (Prog.readAll p next).cmd.run ⟨d, pr, []⟩ = (.error .unwrap, ⟨d, pr, []⟩) := by
        refine run_bind_error ?_
        show (outcome >>= _ : Cmd _).run _ = _
        rw [run_bind_ok (outcome_nil _ _)]
        exact contents_none hp
      refine ⟨1, off, S, fun _ h => h, by rw [e]; exact hr, ?_⟩
      rw [e]
      show ((Proc.step .full d _).1, (Proc.step .full d _).2) = _
      simp only [Prog.bind, Proc.step, hp]
      rfl
    | some bs =>
      have e : (Prog.readAll p next).cmd.run ⟨d, pr, []⟩ = (next bs).cmd.run ⟨d, pr, []⟩ := by
        refine run_bind_ok ?_
        show (outcome >>= _ : Cmd _).run _ = _
        rw [run_bind_ok (outcome_nil _ _)]
        exact contents_some hp
      obtain ⟨N, off', S', h1, h2, h3⟩ := ih bs (S := S) d off pr (hS _) hr
      have s1 : Proc.step .full d ⟨(Prog.readAll p next).bind f, none, off, pr⟩ =
          (d, ⟨(Prog.readAll p next).bind f, some [], off, pr⟩) := by
        simp only [Prog.bind, Proc.step, hp]; rfl
      have s3 : Proc.step .full d ⟨(Prog.readAll p next).bind f, some bs, off, pr⟩ = (d, ⟨(next bs).bind f, none, off, pr⟩) := by
        simp only [Prog.bind, Proc.step, hp, List.drop_length]; rfl
      by_cases hb : bs = []
      · refine ⟨N + 2, off', S', h1, by rw [e]; exact h2, ?_⟩
        rw [e, ← h3]
        show Proc.alone (.full :: List.replicate N .full) (Proc.step .full d _).1 (Proc.step .full d _).2 = _
        rw [s1]
        show Proc.alone (List.replicate N .full) (Proc.step .full d _).1 (Proc.step .full d _).2 = _
        rw [hb] at s3
        rw [s3, hb]
      · have s2 : Proc.step .full d ⟨(Prog.readAll p next).bind f, some [], off, pr⟩ =
            (d, ⟨(Prog.readAll p next).bind f, some bs, off, pr⟩) := by
          simp only [Prog.bind, Proc.step, hp, List.length_nil, List.drop_zero, if_neg hb, List.nil_append]; rfl
        refine ⟨N + 3, off', S', h1, by rw [e]; exact h2, ?_⟩
        rw [e, ← h3]
        show Proc.alone (.full :: .full :: List.replicate N .full) (Proc.step .full d _).1 (Proc.step .full d _).2 = _
        rw [s1]
        show Proc.alone (.full :: List.replicate N .full) (Proc.step .full d _).1 (Proc.step .full d _).2 = _
        rw [s2]
        show Proc.alone (List.replicate N .full) (Proc.step .full d _).1 (Proc.step .full d _).2 = _
        rw [s3]
  | println l next ih =>
    have e : (Prog.println l next).cmd.run ⟨d, pr, []⟩ = next.cmd.run ⟨d, pr ++ [l], []⟩ := run_bind_ok rfl
    obtain ⟨N, off', S', h1, h2, h3⟩ := ih (S := S) d off (pr ++ [l]) hS hr
    refine ⟨N + 1, off', S', h1, by rw [e]; exact h2, ?_⟩
    rw [e, ← h3]
    rfl

end Fawkes.Cli
