import Verif.Model.Cli

/-!
# What the pieces of the commands do to the world
-/

namespace Fawkes.Cli

open Cmd

/-- Nothing is printed, only the given files may change, and a calm disk stays calm. -/
structure Step (S : List Path) (w w' : World) : Prop where
  printed : w'.printed = w.printed
  files : ∀ p ∉ S, w'.files p = w.files p
  calm : w.plan = [] → w'.plan = []

theorem Step.refl (S : List Path) (w : World) : Step S w w := ⟨rfl, fun _ _ => rfl, id⟩

theorem Step.trans {S : List Path} {w w' w'' : World} (h : Step S w w') (h' : Step S w' w'') : Step S w w'' :=
  ⟨h'.printed.trans h.printed, fun p hp => (h'.files p hp).trans (h.files p hp), fun hc => h'.calm (h.calm hc)⟩

theorem Step.mono {S S' : List Path} {w w' : World} (h : Step S w w') (hs : ∀ p ∈ S, p ∈ S') : Step S' w w' :=
  ⟨h.printed, fun p hp => h.files p fun hp' => hp (hs p hp'), h.calm⟩

section

variable {α β : Type}

theorem run_pure (a : α) (w : World) : (pure a : Cmd α).run w = (.ok a, w) := rfl

theorem run_lift (x : Except Panic α) (w : World) : (lift x).run w = (x, w) := rfl

theorem run_bind_ok {c : Cmd α} {f : α → Cmd β} {w w' : World} {a : α} (h : c.run w = (.ok a, w')) :
    (c >>= f).run w = (f a).run w' := by
  show (match c w with | (.ok a, w) => f a w | (.error e, w) => (.error e, w)) = _
  rw [show c w = _ from h]
  rfl

theorem run_bind_error {c : Cmd α} {f : α → Cmd β} {w w' : World} {e : Panic} (h : c.run w = (.error e, w')) :
    (c >>= f).run w = (.error e, w') := by
  show (match c w with | (.ok a, w) => f a w | (.error e, w) => (.error e, w)) = _
  rw [show c w = _ from h]

theorem run_lift_ok {x : Except Panic α} {a : α} (h : x = .ok a) (f : α → Cmd β) (w : World) :
    (lift x >>= f).run w = (f a).run w := run_bind_ok (by rw [h]; rfl)

theorem run_lift_error {x : Except Panic α} {e : Panic} (h : x = .error e) (f : α → Cmd β) (w : World) :
    (lift x >>= f).run w = (.error e, w) := run_bind_error (by rw [h]; rfl)

theorem run_unwrap_ok {x : Option α} {a : α} (h : x = some a) (f : α → Cmd β) (w : World) :
    (unwrap x >>= f).run w = (f a).run w := run_bind_ok (by rw [h]; rfl)

theorem run_unwrap_none {x : Option α} (h : x = none) (f : α → Cmd β) (w : World) :
    (unwrap x >>= f).run w = (.error .unwrap, w) := run_bind_error (by rw [h]; rfl)

end

theorem bind_assoc {α β γ : Type} (A : Cmd α) (B : α → Cmd β) (C : β → Cmd γ) :
    (A >>= B) >>= C = A >>= fun a => B a >>= C := by
  funext w
  show Cmd.run ((A >>= B) >>= C) w = Cmd.run (A >>= fun a => B a >>= C) w
  cases e : A.run w with
  | mk res w1 =>
    cases res with
    | error err => rw [run_bind_error e, run_bind_error (run_bind_error e)]
    | ok a =>
      rw [run_bind_ok e]
      cases e' : (B a).run w1 with
      | mk res' w2 =>
        cases res' with
        | error err => rw [run_bind_error e', run_bind_error ((run_bind_ok e).trans e')]
        | ok b => rw [run_bind_ok e', run_bind_ok ((run_bind_ok e).trans e')]

theorem bind_assoc3 {A B D : Cmd Unit} : (A >>= fun _ => B >>= fun _ => D) = ((A >>= fun _ => B) >>= fun _ => D) :=
  (bind_assoc _ _ _).symm

theorem bind_assoc4 {A B C D : Cmd Unit} :
    (A >>= fun _ => B >>= fun _ => C >>= fun _ => D) = ((A >>= fun _ => B >>= fun _ => C) >>= fun _ => D) := by
  rw [bind_assoc]
  congr 1
  funext _
  exact bind_assoc3

/-- A piece that only touches files: what holds if it succeeds; on a calm disk it does. -/
structure Io {α : Type} (S : List Path) (c : Cmd α) (w : World) (Q : α → World → Prop) : Prop where
  step : Step S w (c.run w).2
  ok : ∀ a, (c.run w).1 = .ok a → Q a (c.run w).2
  calm : w.plan = [] → ∃ a, (c.run w).1 = .ok a

namespace Io

variable {α β : Type} {S : List Path}

theorem of_run {c : Cmd α} {w : World} {Q : α → World → Prop} {res : Except Panic α} {w' : World} (h : c.run w = (res, w'))
    (hs : Step S w w') (hok : ∀ a, res = .ok a → Q a w') (hc : w.plan = [] → ∃ a, res = .ok a) : Io S c w Q := by
  refine ⟨?_, ?_, ?_⟩ <;> rw [h]
  · exact hs
  · exact hok
  · exact hc

theorem bind {c : Cmd α} {f : α → Cmd β} {w : World} {Q : α → World → Prop} {R : β → World → Prop} (h : Io S c w Q)
    (h' : ∀ a w', Step S w w' → Q a w' → Io S (f a) w' R) : Io S (c >>= f) w R := by
  cases e : c.run w with
  | mk res w' =>
    obtain ⟨hs, hok, hc⟩ := h
    rw [e] at hs hok hc
    cases res with
    | error err =>
      refine of_run (run_bind_error e) hs (fun a h => by cases h) fun hp => ?_
      obtain ⟨a, ha⟩ := hc hp
      cases ha
    | ok a =>
      obtain ⟨hs', hok', hc'⟩ := h' a w' hs (hok a rfl)
      refine of_run (w' := ((f a).run w').2) (res := ((f a).run w').1) (run_bind_ok e) (hs.trans hs') hok' fun hp => hc' (hs.calm hp)

theorem pure {a : α} {w : World} {Q : α → World → Prop} (h : Q a w) : Io S (Pure.pure a) w Q :=
  of_run (run_pure a w) (.refl S w) (fun b hb => by injection hb with hb; subst hb; exact h) fun _ => ⟨a, rfl⟩

theorem mono {c : Cmd α} {w : World} {Q R : α → World → Prop} {S' : List Path} (h : Io S c w Q) (hs : ∀ p ∈ S, p ∈ S')
    (hq : ∀ a w', Step S w w' → Q a w' → R a w') : Io S' c w R :=
  ⟨h.step.mono hs, fun a ha => hq a _ h.step (h.ok a ha), h.calm⟩

end Io

/-- The outcome of the next call; on a calm disk it is `full`. -/
theorem outcome_run (w : World) : ∃ o w', outcome.run w = (.ok o, w') ∧ Step [] w w' ∧ w'.files = w.files ∧ (w.plan = [] → o = .full) := by
  cases h : w.plan with
  | nil => exact ⟨.full, w, by show outcome w = _; unfold outcome; rw [h], .refl _ _, rfl, fun _ => rfl⟩
  | cons o os =>
    exact ⟨o, { w with plan := os }, by show outcome w = _; unfold outcome; rw [h],
      ⟨rfl, fun _ _ => rfl, fun hc => by rw [h] at hc; cases hc⟩, rfl, fun hc => by cases hc⟩

theorem setFile_step (p : Path) (bs : List UInt8) (w : World) :
    ∃ w', (setFile p bs).run w = (.ok (), w') ∧ Step [p] w w' ∧ w'.files p = some bs ∧ w'.plan = w.plan :=
  ⟨_, rfl, ⟨rfl, fun p' hp' => if_neg (by simpa using hp'), id⟩, if_pos rfl, rfl⟩

theorem create_io (p : Path) (w : World) : Io [p] (create p) w fun _ w' => w'.files p = some [] := by
  obtain ⟨o, w1, h1, hs, hf, hc⟩ := outcome_run w
  obtain ⟨w2, h2, hs2, hf2, hp2⟩ := setFile_step p [] w1
  have hs' := hs.mono (S' := [p]) (by simp)
  have key : (o = .fault → (create p).run w = (.error .unwrap, w1)) ∧ (o ≠ .fault → (create p).run w = (.ok (), w2)) := by
    unfold create
    rw [run_bind_ok h1]
    constructor
    · rintro rfl; rfl
    · intro ho
      cases o with
      | fault => exact absurd rfl ho
      | full => exact h2
      | upTo n => exact h2
  by_cases ho : o = .fault
  · exact Io.of_run (key.1 ho) hs' (fun a h => by cases h) fun hp => by rw [hc hp] at ho; cases ho
  · exact Io.of_run (key.2 ho) (hs'.trans hs2) (fun _ _ => hf2) fun _ => ⟨_, rfl⟩

/-- One `write`: a part of the bytes, all of them on a calm disk; on an error nothing. -/
theorem writeOnce_io (p : Path) (bs old : List UInt8) (w : World) (h : w.files p = some old) :
    Io [p] (writeOnce p bs) w (fun n w' => n ≤ bs.length ∧ w'.files p = some (old ++ bs.take n) ∧ (w.plan = [] → n = bs.length)) ∧
      ∃ k, ((writeOnce p bs).run w).2.files p = some (old ++ bs.take k) := by
  obtain ⟨o, w1, h1, hs, hf, hc⟩ := outcome_run w
  have hs' := hs.mono (S' := [p]) (by simp)
  have hcon : (contents p).run w1 = (.ok old, w1) := by
    show contents p w1 = _
    unfold contents
    rw [hf, h]
  cases o with
  | fault =>
    have e : (writeOnce p bs).run w = (.error .unwrap, w1) := by unfold writeOnce; rw [run_bind_ok h1]; rfl
    refine ⟨Io.of_run e hs' (fun a h => by cases h) fun hp => (by cases hc hp), 0, ?_⟩
    rw [e]; simp [hf, h]
  | full =>
    obtain ⟨w2, h2, hs2, hf2, hp2⟩ := setFile_step p (old ++ bs) w1
    have e : (writeOnce p bs).run w = (.ok bs.length, w2) := by
      unfold writeOnce
      rw [run_bind_ok h1]
      show ((contents p) >>= _).run w1 = _
      rw [run_bind_ok hcon, run_bind_ok h2]; rfl
    refine ⟨Io.of_run e (hs'.trans hs2) (fun a ha => ?_) fun _ => ⟨_, rfl⟩, bs.length, ?_⟩
    · injection ha with ha; subst ha
      exact ⟨le_refl _, by rw [hf2, List.take_length], fun _ => rfl⟩
    · rw [e, List.take_length]; exact hf2
  | upTo n =>
    obtain ⟨w2, h2, hs2, hf2, hp2⟩ := setFile_step p (old ++ bs.take n) w1
    have e : (writeOnce p bs).run w = (.ok (min n bs.length), w2) := by
      unfold writeOnce
      rw [run_bind_ok h1]
      show ((contents p) >>= _).run w1 = _
      rw [run_bind_ok hcon, run_bind_ok h2]; rfl
    have ht : bs.take (min n bs.length) = bs.take n := by
      rcases Nat.le_total n bs.length with hle | hle
      · rw [Nat.min_eq_left hle]
      · rw [Nat.min_eq_right hle, List.take_length, List.take_of_length_le hle]
    refine ⟨Io.of_run e (hs'.trans hs2) (fun a ha => ?_) fun _ => ⟨_, rfl⟩, n, ?_⟩
    · injection ha with ha; subst ha
      exact ⟨Nat.min_le_right _ _, by rw [hf2, ht], fun hp => by cases hc hp⟩
    · rw [e]; exact hf2

theorem writeLoop_io (p : Path) (fuel : Nat) (bs old : List UInt8) (hfuel : bs.length ≤ fuel) (w : World) (h : w.files p = some old) :
    Io [p] (writeLoop p fuel bs) w fun _ w' => w'.files p = some (old ++ bs) := by
  induction fuel generalizing bs old w with
  | zero =>
    have : bs = [] := List.length_eq_zero_iff.1 (by omega)
    subst this
    exact Io.pure (by simpa using h)
  | succ fuel ih =>
    cases bs with
    | nil => exact Io.pure (by simpa using h)
    | cons b bs =>
      have hw := (writeOnce_io p (b :: bs) old w h).1
      show Io [p] (writeOnce p (b :: bs) >>= _) w _
      cases e : (writeOnce p (b :: bs)).run w with
      | mk res w' =>
        obtain ⟨hs, hok, hc⟩ := hw
        rw [e] at hs hok hc
        cases res with
        | error err =>
          refine Io.of_run (run_bind_error e) hs (fun a h => by cases h) fun hp => ?_
          obtain ⟨a, ha⟩ := hc hp
          cases ha
        | ok n =>
          obtain ⟨hn, hf, hfull⟩ := hok n rfl
          by_cases h0 : n = 0
          · have e' : (writeOnce p (b :: bs) >>= fun n =>
                if n = 0 then lift (.error .unwrap) else writeLoop p fuel ((b :: bs).drop n)).run w = (.error .unwrap, w') := by
              rw [run_bind_ok e, if_pos h0]; rfl
            refine Io.of_run e' hs (fun a h => by cases h) fun hp => ?_
            rw [hfull hp] at h0
            simp at h0
          · have hrest := ih ((b :: bs).drop n) (old ++ (b :: bs).take n) (by
              rw [List.length_drop]; omega) w' hf
            have e' : (writeOnce p (b :: bs) >>= fun n =>
                if n = 0 then lift (.error .unwrap) else writeLoop p fuel ((b :: bs).drop n)).run w =
                  (writeLoop p fuel ((b :: bs).drop n)).run w' := by
              rw [run_bind_ok e, if_neg h0]
            refine Io.of_run (res := ((writeLoop p fuel ((b :: bs).drop n)).run w').1)
              (w' := ((writeLoop p fuel ((b :: bs).drop n)).run w').2) e' (hs.trans hrest.step) (fun a ha => ?_)
              fun hp => hrest.calm (hs.calm hp)
            rw [hrest.ok a ha, List.append_assoc, List.take_append_drop]

theorem writeAll_io (p : Path) (bs old : List UInt8) (w : World) (h : w.files p = some old) :
    Io [p] (writeAll p bs) w fun _ w' => w'.files p = some (old ++ bs) := writeLoop_io p _ bs old (le_refl _) w h

theorem writeChunks_io (p : Path) (cs : List (List UInt8)) (old : List UInt8) (w : World) (h : w.files p = some old) :
    Io [p] (writeChunks p cs) w fun _ w' => w'.files p = some (old ++ cs.flatten) := by
  induction cs generalizing old w with
  | nil => exact Io.pure (by simpa using h)
  | cons c cs ih =>
    refine (writeAll_io p c old w h).bind fun _ w' _ hf => ?_
    have := ih (old ++ c) w' hf
    rwa [List.append_assoc] at this

theorem fsWrite_io (p : Path) (bs : List UInt8) (w : World) : Io [p] (fsWrite p bs) w fun _ w' => w'.files p = some bs :=
  (create_io p w).bind fun _ w' _ hf => by simpa using writeAll_io p bs [] w' hf

/-- Reading: nothing changes; it succeeds exactly if there is a file and no fault. -/
theorem readBytes_run (p : Path) (w : World) :
    (∃ bs w', (readBytes p).run w = (.ok bs, w') ∧ Step [] w w' ∧ w'.files = w.files ∧ w.files p = some bs) ∨
    (∃ w', (readBytes p).run w = (.error .unwrap, w') ∧ Step [] w w' ∧ w'.files = w.files ∧ (w.plan = [] → w.files p = none)) := by
  obtain ⟨o, w1, h1, hs, hf, hc⟩ := outcome_run w
  by_cases ho : o = .fault
  · subst ho
    exact .inr ⟨w1, by unfold readBytes; rw [run_bind_ok h1]; rfl, hs, hf, fun hp => by cases hc hp⟩
  have e : (readBytes p).run w = (contents p).run w1 := by
    unfold readBytes
    rw [run_bind_ok h1]
    cases o with
    | fault => exact absurd rfl ho
    | full => rfl
    | upTo n => rfl
  cases hfile : w.files p with
  | none =>
    refine .inr ⟨w1, ?_, hs, hf, fun _ => rfl⟩
    rw [e]; show contents p w1 = _; unfold contents; rw [hf, hfile]
  | some bs =>
    refine .inl ⟨bs, w1, ?_, hs, hf, rfl⟩
    rw [e]; show contents p w1 = _; unfold contents; rw [hf, hfile]

theorem readToString_run (p : Path) (w : World) :
    (∃ t bs w', (readToString p).run w = (.ok t, w') ∧ Step [] w w' ∧ w'.files = w.files ∧ w.files p = some bs ∧ fromUtf8 bs = some t) ∨
    (∃ w', (readToString p).run w = (.error .unwrap, w') ∧ Step [] w w' ∧ w'.files = w.files ∧
      (w.plan = [] → ∀ bs, w.files p = some bs → fromUtf8 bs = none)) := by
  unfold readToString
  rcases readBytes_run p w with ⟨bs, w', h, hs, hf, hb⟩ | ⟨w', h, hs, hf, hb⟩
  · rw [run_bind_ok h]
    cases ht : fromUtf8 bs with
    | none => exact .inr ⟨w', rfl, hs, hf, fun _ bs' hb' => by rw [hb] at hb'; injection hb' with hb'; rw [← hb', ht]⟩
    | some t => exact .inl ⟨t, bs, w', rfl, hs, hf, hb, ht⟩
  · rw [run_bind_error h]
    exact .inr ⟨w', rfl, hs, hf, fun hp bs hb' => by rw [hb hp] at hb'; cases hb'⟩

theorem fromUtf8_intoBytes (t : List Char) : fromUtf8 (intoBytes t) = some t := by
  have h : ByteArray.mk (intoBytes t).toArray = t.utf8Encode := by
    unfold intoBytes List.utf8Encode
    rw [← List.data_toByteArray]
  unfold fromUtf8
  rw [h, List.utf8Decode?_utf8Encode]

theorem readToString_text {p : Path} {w : World} {t : List Char} (hp : w.plan = []) (h : w.files p = some (intoBytes t)) :
    ∃ w', (readToString p).run w = (.ok t, w') ∧ Step [] w w' ∧ w'.files = w.files := by
  rcases readToString_run p w with ⟨t', bs, w', hr, hs, hf, hb, ht⟩ | ⟨w', hr, hs, hf, hb⟩
  · rw [h] at hb; injection hb with hb
    rw [← hb, fromUtf8_intoBytes] at ht; injection ht with ht
    exact ⟨w', by rw [hr, ht], hs, hf⟩
  · have := hb hp _ h
    rw [fromUtf8_intoBytes] at this; cases this

theorem readBytes_bytes {p : Path} {w : World} {bs : List UInt8} (hp : w.plan = []) (h : w.files p = some bs) :
    ∃ w', (readBytes p).run w = (.ok bs, w') ∧ Step [] w w' ∧ w'.files = w.files := by
  rcases readBytes_run p w with ⟨bs', w', hr, hs, hf, hb⟩ | ⟨w', hr, hs, hf, hb⟩
  · rw [h] at hb; injection hb with hb
    exact ⟨w', by rw [hr, hb], hs, hf⟩
  · rw [hb hp] at h; cases h

end Fawkes.Cli
