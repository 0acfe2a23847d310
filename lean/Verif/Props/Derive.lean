import Verif.Spec.Derive
import Verif.Lemmas.Signal
import Verif.Props.Signal

/-!
# Properties of the derive macro and of tuples: C80, C81
-/

set_option linter.unusedSectionVars false

namespace Fawkes.Props

open Fawkes Fawkes.Derive

variable {F : Type} [Field F] [DecidableEq F]

theorem mul_one_num (e : CNum F) : CNum.mul CNum.one e = pure e := by
  have h : (CNum.one : CNum F).asConst = some 1 := by simp [CNum.asConst, CNum.one, CNum.fromConst]
  unfold CNum.mul
  rw [h]
  show pure (CNum.mulConst e 1) = pure e
  congr 1
  unfold CNum.mulConst
  rw [if_neg one_ne_zero]
  cases e with
  | mk v l => cases v <;> simp

theorem regroup {A B C D : Type} (m : M F A) (n : M F B) (k : M F C) (g : A → B → C → D) :
    ((do let a ← m; let b ← n; pure (a, b) : M F (A × B)) >>= fun p => k >>= fun c => pure (g p.1 p.2 c)) =
      m >>= fun a => (do let b ← n; let c ← k; pure (b, c) : M F (B × C)) >>= fun q => pure (g a q.1 q.2) := by
  simp only [bind_assoc, pure_bind]

theorem run_map_ok {A B : Type} {m : M F A} {s s' : CS F} {a : A} (f : A → B) (h : m.run s = .ok (a, s')) :
    (f <$> m).run s = .ok (f a, s') := by
  rw [map_eq_pure_bind]
  unfold M.run at h ⊢
  show (match (match m s with
    | .error e => .error e
    | .ok (a, s1) => .ok (f a, ⟨s1.1, s1.2.trans (CS.Ext.refl s1.1)⟩) : Except Panic (B × {s' : CS F // s.Ext s'})) with
    | .error e => .error e
    | .ok (a, s') => .ok (a, s'.1) : Except Panic (B × CS F)) = _
  rcases e : m s with k | ⟨x, y⟩
  · rw [e] at h; cases h
  · rw [e] at h; cases h; rfl

theorem bind_error {A B : Type} {m : M F A} {s : CS F} {e : Panic} (f : A → M F B) (h : m s = .error e) :
    (m >>= f) s = .error e := by
  show (match m s with
    | .error e => .error e
    | .ok (a, s1) => match f a s1.1 with
      | .error e => .error e
      | .ok (b, s2) => .ok (b, ⟨s2.1, s1.2.trans s2.2⟩) : Except Panic (B × {s' : CS F // s.Ext s'})) = _
  rw [h]

theorem group {A B D : Type} (m : M F A) (n : M F B) (g : A → B → D) :
    (do let a ← m; let b ← n; pure (g a b) : M F D) = (fun p => g p.1 p.2) <$> (do let a ← m; let b ← n; pure (a, b) : M F (A × B)) := by
  simp only [map_eq_pure_bind, bind_assoc, pure_bind]

/-! ### C80 -/

theorem nest_fromConst : ∀ (ts : List Ty) (t : Ty) (v : t.V F) (vs : RecV F ts),
    (nest t ts).fromConst (toNestV F t ts v vs) = toNest F t ts (t.fromConst v) (fromConst ts vs)
  | [], _, _, _ => rfl
  | u :: us, t, v, vs => nest_fromConst us (.pair t u) (v, vs.1) vs.2

/-- `Some((a?, bs?))` followed by rearranging. -/
def optNest (t : Ty) (ts : List Ty) (x : Except Panic (Option (t.V F))) (y : Except Panic (Option (RecV F ts))) :
    Except Panic (Option ((nest t ts).V F)) :=
  match x with
  | .error e => .error e
  | .ok none => .ok none
  | .ok (some a) =>
    match y with
    | .error e => .error e
    | .ok none => .ok none
    | .ok (some b) => .ok (some (toNestV F t ts a b))

theorem nest_getValue : ∀ (ts : List Ty) (t : Ty) (x : t.S F) (xs : Rec F ts),
    (nest t ts).getValue (toNest F t ts x xs) = optNest t ts (t.getValue x) (getValue ts xs)
  | [], t, x, _ => by
    show t.getValue x = _
    rcases t.getValue x with e | _ | v <;> rfl
  | u :: us, t, x, xs => by
    have h := nest_getValue us (.pair t u) (x, xs.1) xs.2
    refine h.trans ?_
    have e : (Ty.pair t u).getValue (F := F) (x, xs.1) = optPair (t.getValue x) (u.getValue xs.1) := rfl
    rw [e, show getValue (u :: us) xs = (match u.getValue xs.1 with
      | .error e => .error e
      | .ok none => .ok none
      | .ok (some v) => match getValue us xs.2 with
        | .error e => .error e
        | .ok none => .ok none
        | .ok (some vs) => .ok (some (v, vs))) from rfl]
    rcases t.getValue x with e | _ | v
    · rfl
    · rfl
    · rcases u.getValue xs.1 with e | _ | v'
      · rfl
      · rfl
      · rcases getValue us xs.2 with e | _ | v'' <;> rfl

theorem nest_asConst : ∀ (ts : List Ty) (t : Ty) (x : t.S F) (xs : Rec F ts),
    (nest t ts).asConst (toNest F t ts x xs) = optNest t ts (t.asConst x) (asConst ts xs)
  | [], t, x, _ => by
    show t.asConst x = _
    rcases t.asConst x with e | _ | v <;> rfl
  | u :: us, t, x, xs => by
    have h := nest_asConst us (.pair t u) (x, xs.1) xs.2
    refine h.trans ?_
    have e : (Ty.pair t u).asConst (F := F) (x, xs.1) = optPair (t.asConst x) (u.asConst xs.1) := rfl
    rw [e, show asConst (u :: us) xs = (match u.asConst xs.1 with
      | .error e => .error e
      | .ok none => .ok none
      | .ok (some v) => match asConst us xs.2 with
        | .error e => .error e
        | .ok none => .ok none
        | .ok (some vs) => .ok (some (v, vs))) from rfl]
    rcases t.asConst x with e | _ | v
    · rfl
    · rfl
    · rcases u.asConst xs.1 with e | _ | v'
      · rfl
      · rfl
      · rcases asConst us xs.2 with e | _ | v'' <;> rfl

theorem nest_switch (b : CBool F) : ∀ (ts : List Ty) (t : Ty) (x y : t.S F) (xs ys : Rec F ts),
    (nest t ts).switch (toNest F t ts x xs) b (toNest F t ts y ys) =
      (do let a ← t.switch x b y; let as ← switch ts xs b ys; pure (toNest F t ts a as))
  | [], t, x, y, _, _ => by
    show t.switch x b y = _
    simp only [switch, pure_bind]
    exact (bind_pure _).symm
  | u :: us, t, x, y, xs, ys => by
    refine (nest_switch b us (.pair t u) (x, xs.1) (y, ys.1) xs.2 ys.2).trans ?_
    exact regroup (t.switch x b y) (u.switch xs.1 b ys.1) (switch us xs.2 b ys.2)
      fun a c d => toNest F (.pair t u) us (a, c) d

theorem nest_alloc : ∀ (ts : List Ty) (t : Ty) (v : Option (t.V F × RecV F ts)),
    (nest t ts).alloc (v.map fun p => toNestV F t ts p.1 p.2) =
      (do let a ← t.alloc (v.map Prod.fst); let as ← alloc ts (v.map Prod.snd); pure (toNest F t ts a as))
  | [], t, v => by
    show t.alloc (v.map Prod.fst) = _
    simp only [alloc, pure_bind]
    exact (bind_pure _).symm
  | u :: us, t, v => by
    have h := nest_alloc us (.pair t u) (v.map fun p => ((p.1, p.2.1), p.2.2))
    rw [Option.map_map, Option.map_map, Option.map_map] at h
    refine h.trans ?_
    have e := regroup (t.alloc (v.map Prod.fst)) (u.alloc (v.map fun p => p.2.1)) (alloc us (v.map fun p => p.2.2))
      fun a c d => toNest F (.pair t u) us (a, c) d
    cases v <;> exact e

theorem nest_assertConst : ∀ (ts : List Ty) (t : Ty) (x : t.S F) (xs : Rec F ts) (v : t.V F) (vs : RecV F ts),
    (nest t ts).assertConst (toNest F t ts x xs) (toNestV F t ts v vs) =
      (do t.assertConst x v; assertConst ts xs vs)
  | [], t, x, _, v, _ => by
    show t.assertConst x v = _
    simp only [assertConst]
    exact (bind_pure (t.assertConst x v)).symm
  | u :: us, t, x, xs, v, vs => by
    refine (nest_assertConst us (.pair t u) (x, xs.1) xs.2 (v, vs.1) vs.2).trans ?_
    have e : (Ty.pair t u).assertConst (F := F) (x, xs.1) (v, vs.1) =
      (do t.assertConst x v; u.assertConst xs.1 vs.1) := rfl
    rw [e]
    simp only [assertConst, bind_assoc]

theorem nest_assertEq : ∀ (ts : List Ty) (t : Ty) (x y : t.S F) (xs ys : Rec F ts),
    (nest t ts).assertEq (toNest F t ts x xs) (toNest F t ts y ys) =
      (do t.assertEq x y; assertEq ts xs ys)
  | [], t, x, y, _, _ => by
    show t.assertEq x y = _
    simp only [assertEq]
    exact (bind_pure (t.assertEq x y)).symm
  | u :: us, t, x, y, xs, ys => by
    refine (nest_assertEq us (.pair t u) (x, xs.1) (y, ys.1) xs.2 ys.2).trans ?_
    have e : (Ty.pair t u).assertEq (F := F) (x, xs.1) (y, ys.1) =
      (do t.assertEq x y; u.assertEq xs.1 ys.1) := rfl
    rw [e]
    simp only [assertEq, bind_assoc]

theorem nest_inputize : ∀ (ts : List Ty) (t : Ty) (x : t.S F) (xs : Rec F ts),
    (nest t ts).inputize (toNest F t ts x xs) = (do t.inputize x; inputize ts xs)
  | [], t, x, _ => by
    show t.inputize x = _
    simp only [inputize]
    exact (bind_pure (t.inputize x)).symm
  | u :: us, t, x, xs => by
    refine (nest_inputize us (.pair t u) (x, xs.1) xs.2).trans ?_
    have e : (Ty.pair t u).inputize (F := F) (x, xs.1) = (do t.inputize x; u.inputize xs.1) := rfl
    rw [e]
    simp only [inputize, bind_assoc]

theorem builder_append : ∀ (ts : List Ty) (xs : Rec F ts) (acc : List (CNum F)),
    linearizeBuilder ts xs acc = acc ++ linearizeBuilder ts xs []
  | [], _, acc => (List.append_nil acc).symm
  | t :: ts, xs, acc => by
    unfold linearizeBuilder
    rw [builder_append ts xs.2, builder_append ts xs.2 ([] ++ _), List.nil_append, List.append_assoc]

theorem nest_linearize : ∀ (ts : List Ty) (t : Ty) (x : t.S F) (xs : Rec F ts),
    (nest t ts).linearize (toNest F t ts x xs) = linearizeBuilder ts xs (t.linearize x)
  | [], _, _, _ => rfl
  | u :: us, t, x, xs => nest_linearize us (.pair t u) (x, xs.1) xs.2

theorem nest_isEq : ∀ (ts : List Ty) (t : Ty) (x y : t.S F) (xs ys : Rec F ts),
    (nest t ts).isEq (toNest F t ts x xs) (toNest F t ts y ys) =
      (do let e ← t.isEq x y; let acc ← Derive.isEqLoop ts xs ys e.num; pure ⟨acc⟩)
  | [], t, x, y, _, _ => by
    show t.isEq x y = _
    simp only [Derive.isEqLoop, pure_bind]
    exact (bind_pure _).symm
  | u :: us, t, x, y, xs, ys => by
    refine (nest_isEq us (.pair t u) (x, xs.1) (y, ys.1) xs.2 ys.2).trans ?_
    have e : (Ty.pair t u).isEq (F := F) (x, xs.1) (y, ys.1) =
      (do let e ← t.isEq x y
          let acc ← CNum.mul CNum.one e.num
          let e' ← u.isEq xs.1 ys.1
          let acc' ← CNum.mul acc e'.num
          pure ⟨acc'⟩) := rfl
    rw [e]
    simp only [Derive.isEqLoop, bind_assoc, pure_bind, mul_one_num]

/-- For signals whose vectors have their declared lengths, either `get_cs` does not panic or `is_eq` does at once. -/
theorem getCs_isEq : ∀ (t : Ty) (x y : t.S F), t.ok F x →
    t.getCs F x = .ok () ∨ (t.getCs F x = .error .outOfBounds ∧ ∀ s, (t.isEq x y) s = .error .outOfBounds)
  | .num, _, _, _ => .inl rfl
  | .bool, _, _, _ => .inl rfl
  | .pair a b, x, y, h => by
    rcases getCs_isEq a x.1 y.1 h.1 with e | ⟨e, f⟩
    · exact .inl e
    · refine .inr ⟨e, fun s => ?_⟩
      exact bind_error _ (f s)
  | .vec n a, x, y, h => by
    obtain ⟨items⟩ := x
    obtain ⟨items'⟩ := y
    have hl : items.length = n := h.1
    cases items with
    | nil => exact .inr ⟨rfl, fun _ => rfl⟩
    | cons x xs =>
      have hx : a.ok F x := h.2 x (List.mem_cons_self)
      cases n with
      | zero => simp at hl
      | succ n =>
        cases items' with
        | nil => 
          rcases getCs_isEq a x x hx with e | ⟨e, f⟩
          · exact .inl e
          · exact .inr ⟨e, fun s => rfl⟩
        | cons y ys =>
          rcases getCs_isEq a x y hx with e | ⟨e, f⟩
          · exact .inl e
          · refine .inr ⟨e, fun s => ?_⟩
            show ((a.isEq x y >>= fun e => CNum.mul CNum.one e.num >>= fun acc => isEqLoop a.isEq n xs ys acc) >>=
              fun acc => pure (⟨acc⟩ : CBool F)) s = _
            exact bind_error _ (bind_error _ (f s))

theorem nest_isEq_flat (t : Ty) (ts : List Ty) (x y : t.S F) (xs ys : Rec F ts) (hx : t.ok F x) :
    (nest t ts).isEq (toNest F t ts x xs) (toNest F t ts y ys) = Derive.isEq t ts (x, xs) (y, ys) := by
  rw [nest_isEq]
  unfold Derive.isEq
  rcases getCs_isEq t x y hx with e | ⟨e, f⟩
  · rw [show t.getCs F (x, xs).1 = _ from e]
    show _ = (pure () >>= _ : M F (CBool F))
    rw [pure_bind]
    simp only [Derive.isEqLoop, bind_assoc, pure_bind, mul_one_num]
  · rw [show t.getCs F (x, xs).1 = _ from e]
    funext s
    rw [bind_error _ (f s)]
    rfl

/-- C80: every method of a struct or tuple, written field by field as the macros do it, does exactly what the method of the nested pairs of
the fields does: the same result, the same allocations and constraints, the same panics. -/
theorem C80_same (t : Ty) (ts : List Ty) (x y : t.S F) (xs ys : Rec F ts) (v : t.V F) (vs : RecV F ts) (b : CBool F)
    (o : Option (t.V F × RecV F ts)) :
    (nest t ts).fromConst (toNestV F t ts v vs) = toNest F t ts (fromConst (t :: ts) (v, vs)).1 (fromConst (t :: ts) (v, vs)).2 ∧
    (nest t ts).getValue (toNest F t ts x xs) =
      (getValue (t :: ts) (x, xs)).map (Option.map fun p => toNestV F t ts p.1 p.2) ∧
    (nest t ts).asConst (toNest F t ts x xs) =
      (asConst (t :: ts) (x, xs)).map (Option.map fun p => toNestV F t ts p.1 p.2) ∧
    (nest t ts).alloc (o.map fun p => toNestV F t ts p.1 p.2) =
      (fun p => toNest F t ts p.1 p.2) <$> alloc (t :: ts) o ∧
    (nest t ts).switch (toNest F t ts x xs) b (toNest F t ts y ys) =
      (fun p => toNest F t ts p.1 p.2) <$> switch (t :: ts) (x, xs) b (y, ys) ∧
    (nest t ts).assertConst (toNest F t ts x xs) (toNestV F t ts v vs) = assertConst (t :: ts) (x, xs) (v, vs) ∧
    (nest t ts).assertEq (toNest F t ts x xs) (toNest F t ts y ys) = assertEq (t :: ts) (x, xs) (y, ys) ∧
    (nest t ts).inputize (toNest F t ts x xs) = inputize (t :: ts) (x, xs) ∧
    (nest t ts).linearize (toNest F t ts x xs) = linearizeBuilder (t :: ts) (x, xs) [] ∧
    (t.ok F x → (nest t ts).isEq (toNest F t ts x xs) (toNest F t ts y ys) = Derive.isEq t ts (x, xs) (y, ys)) := by
  refine ⟨nest_fromConst ts t v vs, ?_, ?_, ?_, ?_, nest_assertConst ts t x xs v vs, nest_assertEq ts t x y xs ys,
    nest_inputize ts t x xs, ?_, ?_⟩
  · rw [nest_getValue]
    rw [show Derive.getValue (t :: ts) (x, xs) = (match t.getValue x with
      | .error e => .error e
      | .ok none => .ok none
      | .ok (some v) => match Derive.getValue ts xs with
        | .error e => .error e
        | .ok none => .ok none
        | .ok (some vs) => .ok (some (v, vs))) from rfl]
    rcases t.getValue x with e | _ | v
    · rfl
    · rfl
    · rcases getValue ts xs with e | _ | v' <;> rfl
  · rw [nest_asConst]
    rw [show Derive.asConst (t :: ts) (x, xs) = (match t.asConst x with
      | .error e => .error e
      | .ok none => .ok none
      | .ok (some v) => match Derive.asConst ts xs with
        | .error e => .error e
        | .ok none => .ok none
        | .ok (some vs) => .ok (some (v, vs))) from rfl]
    rcases t.asConst x with e | _ | v
    · rfl
    · rfl
    · rcases asConst ts xs with e | _ | v' <;> rfl
  · rw [nest_alloc]
    exact group _ _ _
  · rw [nest_switch]
    exact group _ _ _
  · rw [nest_linearize]
    rfl
  · exact fun hx => nest_isEq_flat t ts x y xs ys hx

theorem nest_ok : ∀ (ts : List Ty) (t : Ty) (x : t.S F) (xs : Rec F ts), t.ok F x → RecOk F ts xs →
    (nest t ts).ok F (toNest F t ts x xs)
  | [], _, _, _, h, _ => h
  | u :: us, t, x, xs, h, hs => nest_ok us (.pair t u) (x, xs.1) xs.2 ⟨h, hs.1⟩ hs.2

theorem ok_of_nest : ∀ (ts : List Ty) (t : Ty) (x : t.S F) (xs : Rec F ts), (nest t ts).ok F (toNest F t ts x xs) →
    t.ok F x ∧ RecOk F ts xs
  | [], _, _, _, h => ⟨h, trivial⟩
  | u :: us, t, x, xs, h => by
    have := ok_of_nest us (.pair t u) (x, xs.1) xs.2 h
    exact ⟨this.1.1, this.1.2, this.2⟩

theorem nest_leaves : ∀ (ts : List Ty) (t : Ty) (x : t.S F) (xs : Rec F ts),
    (nest t ts).leaves F (toNest F t ts x xs) = t.leaves F x ++ components F ts xs
  | [], _, _, _ => (List.append_nil _).symm
  | u :: us, t, x, xs => by
    refine (nest_leaves us (.pair t u) (x, xs.1) xs.2).trans ?_
    show (t.leaves F x ++ u.leaves F xs.1) ++ _ = t.leaves F x ++ (u.leaves F xs.1 ++ _)
    rw [List.append_assoc]

theorem components_eq_iff (w : Index → F) : ∀ (ts : List Ty) (xs ys : Rec F ts), RecOk F ts xs → RecOk F ts ys →
    ((components F ts xs).map (fun x => x.lc.eval w) = (components F ts ys).map (fun x => x.lc.eval w) ↔ FieldsEqual w ts xs ys)
  | [], _, _, _, _ => ⟨fun _ => trivial, fun _ => rfl⟩
  | t :: ts, xs, ys, hx, hy => by
    unfold components
    rw [List.map_append, List.map_append]
    refine Iff.trans ⟨fun h => ?_, fun h => ?_⟩ (and_congr Iff.rfl (components_eq_iff w ts xs.2 ys.2 hx.2 hy.2))
    · refine List.append_inj h ?_
      exact (t.evals_length w _ hx.1).trans (t.evals_length w _ hy.1).symm
    · rw [show (t.leaves F xs.1).map _ = _ from h.1, h.2]
      rfl

theorem nest_evals_iff (w : Index → F) (t : Ty) (ts : List Ty) (x y : t.S F) (xs ys : Rec F ts)
    (hx : t.ok F x) (hy : t.ok F y) (hxs : RecOk F ts xs) (hys : RecOk F ts ys) :
    ((nest t ts).evals w (toNest F t ts x xs) = (nest t ts).evals w (toNest F t ts y ys) ↔
      FieldsEqual w (t :: ts) (x, xs) (y, ys)) := by
  unfold Ty.evals
  rw [nest_leaves, nest_leaves]
  exact components_eq_iff w (t :: ts) (x, xs) (y, ys) ⟨hx, hxs⟩ ⟨hy, hys⟩

/-- C80: the constraints emitted by `assert_eq` of a struct hold iff the fields are equal. -/
theorem C80_assertEq_iff (t : Ty) (ts : List Ty) (x y : Rec F (t :: ts)) (hx : RecOk F (t :: ts) x) (hy : RecOk F (t :: ts) y)
    (s s' : CS F) (h : (assertEq (t :: ts) x y).run s = .ok ((), s')) (w : Index → F) (hw : IsAssignment w) :
    s'.Sat w ↔ s.Sat w ∧ FieldsEqual w (t :: ts) x y := by
  have e : (nest t ts).assertEq (toNest F t ts x.1 x.2) (toNest F t ts y.1 y.2) = assertEq (t :: ts) x y :=
    nest_assertEq ts t x.1 y.1 x.2 y.2
  rw [← e] at h
  rw [C06_signal_assertEq_iff (nest t ts) _ _ (nest_ok ts t _ _ hx.1 hx.2) (nest_ok ts t _ _ hy.1 hy.2) s s' h w hw,
    nest_evals_iff w t ts _ _ _ _ hx.1 hy.1 hx.2 hy.2]
  exact Iff.rfl

/-- C80: `is_eq` of a struct is 1 if the fields are equal and 0 if not. -/
theorem C80_isEq_sound (t : Ty) (ts : List Ty) (x y : Rec F (t :: ts)) (hx : RecOk F (t :: ts) x) (hy : RecOk F (t :: ts) y)
    (r : CBool F) (s s' : CS F) (h : (Derive.isEq t ts x y).run s = .ok (r, s')) (w : Index → F) (hw : IsAssignment w) (hs : s'.Sat w) :
    (FieldsEqual w (t :: ts) x y → r.num.lc.eval w = 1) ∧ (¬ FieldsEqual w (t :: ts) x y → r.num.lc.eval w = 0) := by
  have e : (nest t ts).isEq (toNest F t ts x.1 x.2) (toNest F t ts y.1 y.2) = Derive.isEq t ts x y :=
    nest_isEq_flat t ts x.1 y.1 x.2 y.2 hx.1
  rw [← e] at h
  have := C09_signal_isEq_sound (nest t ts) _ _ (nest_ok ts t _ _ hx.1 hx.2) (nest_ok ts t _ _ hy.1 hy.2) r s s' h w hw hs
  have i := nest_evals_iff w t ts _ _ _ _ hx.1 hy.1 hx.2 hy.2
  exact ⟨fun g => by rw [this, if_pos (i.2 g)], fun g => by rw [this, if_neg fun k => g (i.1 k)]⟩

/-- C80: `switch` of a struct selects all fields from the one or all from the other struct. -/
theorem C80_switch_sound (t : Ty) (ts : List Ty) (x y : Rec F (t :: ts)) (hx : RecOk F (t :: ts) x) (hy : RecOk F (t :: ts) y)
    (c : CBool F) (r : Rec F (t :: ts)) (s s' : CS F) (h : (switch (t :: ts) x c y).run s = .ok (r, s'))
    (w : Index → F) (hw : IsAssignment w) (hs : s'.Sat w) :
    (c.num.lc.eval w = 1 → FieldsEqual w (t :: ts) r x) ∧ (c.num.lc.eval w = 0 → FieldsEqual w (t :: ts) r y) := by
  have e : (nest t ts).switch (toNest F t ts x.1 x.2) c (toNest F t ts y.1 y.2) =
      (fun p => toNest F t ts p.1 p.2) <$> switch (t :: ts) x c y :=
    (nest_switch c ts t x.1 y.1 x.2 y.2).trans (group _ _ _)
  have h' : ((nest t ts).switch (toNest F t ts x.1 x.2) c (toNest F t ts y.1 y.2)).run s = .ok (toNest F t ts r.1 r.2, s') := by
    rw [e]
    exact run_map_ok _ h
  have := C10_signal_switch_sound (nest t ts) _ _ c (nest_ok ts t _ _ hx.1 hx.2) (nest_ok ts t _ _ hy.1 hy.2) _ s s' h' w hw hs
  have hr : RecOk F (t :: ts) r := ok_of_nest ts t r.1 r.2
    ((nest t ts).spec_switch hw _ _ c (nest_ok ts t _ _ hx.1 hx.2) (nest_ok ts t _ _ hy.1 hy.2) s _ s' h' hs).1
  exact ⟨fun g => (nest_evals_iff w t ts _ _ _ _ hr.1 hx.1 hr.2 hx.2).1 (this.1 g),
    fun g => (nest_evals_iff w t ts _ _ _ _ hr.1 hy.1 hr.2 hy.2).1 (this.2 g)⟩

/-- C80: `linearize` lists the components of the fields in the order of the fields. -/
theorem C80_linearize (t : Ty) (ts : List Ty) (x : Rec F (t :: ts)) :
    linearizeBuilder (t :: ts) x [] = components F (t :: ts) x := by
  have e : (nest t ts).linearize (toNest F t ts x.1 x.2) = linearizeBuilder (t :: ts) x [] := nest_linearize ts t x.1 x.2
  rw [← e, Ty.linearize_eq]
  exact nest_leaves ts t x.1 x.2

/-- The fields `x: CNum, flag: CBool, v: SizedVec<CNum, 2>`. -/
abbrev exFields : List Ty := [.bool, .vec 2 .num]

def exRec : Rec (ZMod 7) (.num :: exFields) :=
  ((⟨some 3, [(.aux 0, 1)]⟩ : CNum (ZMod 7)), (CBool.fromConst true : CBool (ZMod 7)),
    (⟨[⟨some 5, [(.aux 1, 1)]⟩, ⟨some 3, [(.aux 0, 1)]⟩]⟩ : SizedVec (CNum (ZMod 7)) 2), ())

theorem exRec_ok : RecOk (ZMod 7) (.num :: exFields) exRec :=
  ⟨trivial, trivial, ⟨rfl, fun _ _ => trivial⟩, trivial⟩

/-- `is_eq` of this struct with itself runs, and its result is right. -/
example : ∃ r s', (Derive.isEq .num exFields exRec exRec).run exState = .ok (r, s') ∧
    (∀ w, IsAssignment w → s'.Sat w → r.num.lc.eval w = 1) := by
  have e : (nest .num exFields).isEq (toNest (ZMod 7) .num exFields exRec.1 exRec.2) (toNest (ZMod 7) .num exFields exRec.1 exRec.2) =
      Derive.isEq .num exFields exRec exRec := nest_isEq_flat .num exFields _ _ _ _ trivial
  have c : (nest .num exFields).Carries exState (toNest (ZMod 7) .num exFields exRec.1 exRec.2)
      (((3 : ZMod 7), true), ⟨[(5 : ZMod 7), (3 : ZMod 7)]⟩) :=
    ⟨⟨exState_x, has_fromConst _⟩, rfl, .cons exState_y (.cons exState_x .nil)⟩
  obtain ⟨r, s', h, -, -⟩ := C09_signal_isEq_complete (nest .num exFields) ⟨⟨trivial, trivial⟩, by decide, trivial⟩ exState exState_honest
    _ _ _ _ c c
  rw [e] at h
  exact ⟨r, s', h, fun w hw hs => (C80_isEq_sound .num exFields exRec exRec exRec_ok exRec_ok r _ s' h w hw hs).1
    ⟨rfl, rfl, rfl, trivial⟩⟩

/-! ### C81 -/

theorem fetchAttr_iff (s : String) : ∀ attrs : List Attr, fetchAttr "Value" attrs = .ok (some s) ↔ PlainBefore attrs s
  | [] => by
    refine ⟨(fun h => by cases h), ?_⟩
    rintro ⟨pre, post, h, -⟩
    cases pre <;> cases h
  | .nameValue n lit :: as => by
    by_cases hn : n = "Value"
    · subst hn
      constructor
      · intro h
        unfold fetchAttr at h
        rw [if_pos rfl] at h
        cases lit with
        | none => cases h
        | some l => cases h; exact ⟨[], as, rfl, by simp⟩
      · rintro ⟨pre, post, h, h'⟩
        cases pre with
        | nil =>
          injection h with h _
          injection h with _ h
          subst h
          rfl
        | cons a pre =>
          injection h with h _
          rcases h' a List.mem_cons_self with ⟨n, l, e, ne⟩ | e
          · rw [← h] at e; injection e with e _; exact absurd e.symm ne
          · rw [← h] at e; cases e
    · have e : fetchAttr "Value" (.nameValue n lit :: as) = fetchAttr "Value" as := by
        conv_lhs => unfold fetchAttr
        rw [if_neg hn]
      rw [e, fetchAttr_iff s as]
      constructor
      · rintro ⟨pre, post, h, h'⟩
        refine ⟨.nameValue n lit :: pre, post, by rw [h]; rfl, ?_⟩
        intro a ha
        rcases List.mem_cons.1 ha with rfl | ha
        · exact .inl ⟨n, lit, rfl, hn⟩
        · exact h' a ha
      · rintro ⟨pre, post, h, h'⟩
        cases pre with
        | nil => injection h with h _; injection h with h _; exact absurd h hn
        | cons a pre =>
          injection h with _ h
          exact ⟨pre, post, h, fun a ha => h' a (List.mem_cons_of_mem _ ha)⟩
  | .list k :: as => by
    refine ⟨(fun h => by cases h), ?_⟩
    rintro ⟨pre, post, h, h'⟩
    cases pre with
    | nil => injection h with h _; cases h
    | cons a pre =>
      injection h with h _
      rcases h' a List.mem_cons_self with ⟨n, l, e, ne⟩ | e <;> (rw [← h] at e; cases e)
  | .unparsable :: as => by
    have e : fetchAttr "Value" (.unparsable :: as) = fetchAttr "Value" as := rfl
    rw [e, fetchAttr_iff s as]
    constructor
    · rintro ⟨pre, post, h, h'⟩
      refine ⟨.unparsable :: pre, post, by rw [h]; rfl, ?_⟩
      intro a ha
      rcases List.mem_cons.1 ha with rfl | ha
      · exact .inr rfl
      · exact h' a ha
    · rintro ⟨pre, post, h, h'⟩
      cases pre with
      | nil => injection h with h _; cases h
      | cons a pre =>
        injection h with _ h
        exact ⟨pre, post, h, fun a ha => h' a (List.mem_cons_of_mem _ ha)⟩

theorem getTypenames_iff : ∀ (ts : List TypeExpr) (ns : List String),
    getTypenames ts = .ok ns ↔ (∀ t ∈ ts, t.IsPath) ∧ ns = ts.map TypeExpr.head
  | [], ns => by
    constructor
    · intro h; cases h; exact ⟨by simp, rfl⟩
    · rintro ⟨-, rfl⟩; rfl
  | .other k :: ts, ns => by
    constructor
    · intro h; cases h
    · rintro ⟨h, -⟩; exact absurd (h _ List.mem_cons_self) id
  | .path f r :: ts, ns => by
    have e : getTypenames (.path f r :: ts) = (match getTypenames ts with
      | .error e => .error e
      | .ok ns => .ok (f :: ns)) := rfl
    rw [e]
    have ih := getTypenames_iff ts
    constructor
    · intro h
      cases g : getTypenames ts with
      | error k => rw [g] at h; cases h
      | ok ms =>
        rw [g] at h
        cases h
        obtain ⟨h1, rfl⟩ := (ih ms).1 g
        refine ⟨?_, rfl⟩
        intro t ht
        rcases List.mem_cons.1 ht with rfl | ht
        · trivial
        · exact h1 t ht
    · rintro ⟨h, rfl⟩
      rw [(ih _).2 ⟨fun t ht => h t (List.mem_cons_of_mem _ ht), rfl⟩]
      rfl

/-- C81, the full claim: every struct with at least one field and a `Value` attribute gets an implementation that handles every field. -/
def C81_full : Prop :=
  ∀ (parse : String → Option TypeExpr) (input : Input) (value : TypeExpr), DeclaresValue parse input.attrs value →
    input.data.fields ≠ [] → ∃ impl, expand parse input = .ok impl ∧ impl.value = value ∧ impl.ident = input.ident ∧
      impl.fields.map Prod.fst = input.data.fields.map Prod.fst

/-- An attribute like `#[allow(dead_code)]` before `#[Value = "…"]` stops the macro. -/
theorem C81_refuted : ¬ C81_full := by
  intro h
  obtain ⟨impl, e, -⟩ := h (fun _ => some (.path "V" [])) ⟨"S", "", [.list "allow(dead_code)", .nameValue "Value" (some "V")],
    .namedStruct [("x", .path "CNum" [])]⟩ (.path "V" []) ⟨"V", by simp, by simp, rfl⟩ (by simp [Data.fields])
  cases e

/-- A field of a tuple type stops the macro, although tuples are signals. -/
theorem C81_refuted_tuple_field : ∃ (input : Input), DeclaresValue (fun _ => some (.path "V" [])) input.attrs (.path "V" []) ∧
    input.data = .namedStruct [("x", .other "(CNum<C>, CNum<C>)")] ∧
    expand (fun _ => some (.path "V" [])) input = .error .assertion :=
  ⟨⟨"S", "", [.nameValue "Value" (some "V")], .namedStruct [("x", .other "(CNum<C>, CNum<C>)")]⟩, ⟨"V", by simp, by simp, rfl⟩, rfl, rfl⟩

/-- What `expand` returns, once the value type is known. -/
def body (input : Input) (value : TypeExpr) : Except Panic Impl :=
  match input.data with
  | .tupleStruct fields => do
    let fs ← tupleImpl fields
    .ok ⟨input.ident, input.generics, value, true, fs⟩
  | .namedStruct fields => do
    let fs ← structImpl fields
    .ok ⟨input.ident, input.generics, value, false, fs⟩
  | .unitStruct => do
    let fs ← structImpl []
    .ok ⟨input.ident, input.generics, value, false, fs⟩
  | .enumOrUnion => .error .assertion

theorem expand_iff (parse : String → Option TypeExpr) (input : Input) (impl : Impl) :
    expand parse input = .ok impl ↔ ∃ s value, PlainBefore input.attrs s ∧ parse s = some value ∧ body input value = .ok impl := by
  constructor
  · intro h
    unfold expand at h
    rcases e : fetchAttr "Value" input.attrs with k | _ | s
    · rw [e] at h; cases h
    · rw [e] at h; cases h
    · rw [e] at h
      replace h : (match parse s with
        | none => .error .unwrap
        | some value => body input value : Except Panic Impl) = .ok impl := h
      cases g : parse s with
      | none => rw [g] at h; cases h
      | some value => rw [g] at h; exact ⟨s, value, (fetchAttr_iff s _).1 e, g, h⟩
  · rintro ⟨s, value, h1, h2, h3⟩
    unfold expand
    rw [(fetchAttr_iff s _).2 h1]
    show (match parse s with
        | none => .error .unwrap
        | some value => body input value : Except Panic Impl) = .ok impl
    rw [h2]
    exact h3

theorem zip_heads (ns : List String) : ∀ (fs : List TypeExpr),
    (ns.zip fs).map (fun f => (f.1, f.2.head)) = ns.zip (fs.map TypeExpr.head) := by
  intro fs
  induction ns generalizing fs with
  | nil => rfl
  | cons n ns ih =>
    cases fs with
    | nil => rfl
    | cons f fs => simp [ih]

theorem zip_paths (ns : List String) (fs : List TypeExpr) (hl : ns.length = fs.length) :
    (∀ f ∈ ns.zip fs, f.2.IsPath) ↔ ∀ t ∈ fs, t.IsPath := by
  constructor
  · intro h t ht
    have : t ∈ (ns.zip fs).map Prod.snd := by rw [List.map_snd_zip (by omega)]; exact ht
    obtain ⟨p, hp, rfl⟩ := List.mem_map.1 this
    exact h p hp
  · intro h f hf
    exact h _ (List.of_mem_zip hf).2

theorem body_iff (input : Input) (value : TypeExpr) (impl : Impl) :
    body input value = .ok impl ↔ (∀ f ∈ input.data.fields, f.2.IsPath) ∧
      (input.data.fields ≠ [] ∨ input.data = .tupleStruct []) ∧
      ∃ b, (b = true ↔ ∃ fs, input.data = .tupleStruct fs) ∧
        impl = ⟨input.ident, input.generics, value, b, input.data.fields.map fun f => (f.1, f.2.head)⟩ := by
  obtain ⟨ident, gen, attrs, data⟩ := input
  cases data with
  | tupleStruct fs =>
    have hl : ((List.range fs.length).map toString).length = fs.length := by simp
    show ((getTypenames fs >>= fun n => .ok (((List.range fs.length).map toString).zip n)) >>= fun l =>
      .ok (⟨ident, gen, value, true, l⟩ : Impl)) = .ok impl ↔ _
    simp only [Data.fields, zip_heads, zip_paths _ _ hl]
    constructor
    · intro h
      cases g : getTypenames fs with
      | error e => rw [g] at h; cases h
      | ok n =>
        rw [g] at h
        obtain ⟨h1, rfl⟩ := (getTypenames_iff fs n).1 g
        cases h
        refine ⟨h1, ?_, true, by simp, rfl⟩
        cases fs with
        | nil => exact .inr rfl
        | cons f fs => left; simp [List.range_succ_eq_map]
    · rintro ⟨h1, -, b, hb, rfl⟩
      rw [(getTypenames_iff fs _).2 ⟨h1, rfl⟩]
      have : b = true := hb.2 ⟨fs, rfl⟩
      subst this
      rfl
  | namedStruct fs =>
    cases fs with
    | nil =>
      refine ⟨(fun h => by cases h), ?_⟩
      rintro ⟨-, h | h, -⟩
      · exact absurd rfl h
      · cases h
    | cons f fs =>
      show ((getTypenames ((f :: fs).map Prod.snd) >>= fun n => .ok (((f :: fs).map Prod.fst).zip n)) >>= fun l =>
        .ok (⟨ident, gen, value, false, l⟩ : Impl)) = .ok impl ↔ _
      have ez : ((f :: fs).map Prod.fst).zip (((f :: fs).map Prod.snd).map TypeExpr.head) =
          (f :: fs).map fun f => (f.1, f.2.head) := by
        rw [List.map_map, List.zip_map']
        rfl
      have ep : (∀ t ∈ (f :: fs).map Prod.snd, t.IsPath) ↔ ∀ g ∈ f :: fs, g.2.IsPath := by
        simp only [List.mem_map]
        exact ⟨fun h g hg => h _ ⟨g, hg, rfl⟩, by rintro h _ ⟨g, hg, rfl⟩; exact h g hg⟩
      show _ ↔ (∀ g ∈ f :: fs, g.2.IsPath) ∧ (f :: fs ≠ [] ∨ _) ∧ ∃ b, _ ∧ impl = ⟨ident, gen, value, b, (f :: fs).map _⟩
      rw [← ep, ← ez]
      constructor
      · intro h
        cases g : getTypenames ((f :: fs).map Prod.snd) with
        | error e => rw [g] at h; cases h
        | ok n =>
          rw [g] at h
          obtain ⟨h1, rfl⟩ := (getTypenames_iff _ n).1 g
          cases h
          exact ⟨h1, .inl (by simp), false, by simp, rfl⟩
      · rintro ⟨h1, -, b, hb, rfl⟩
        rw [(getTypenames_iff _ _).2 ⟨h1, rfl⟩]
        cases b with
        | true => obtain ⟨_, h⟩ := hb.1 rfl; cases h
        | false => rfl
  | unitStruct =>
    refine ⟨(fun h => by cases h), ?_⟩
    rintro ⟨-, h | h, -⟩
    · exact absurd rfl h
    · cases h
  | enumOrUnion =>
    refine ⟨(fun h => by cases h), ?_⟩
    rintro ⟨-, h | h, -⟩
    · exact absurd rfl h
    · cases h

/-- C81, what holds: exactly which structs are accepted.  The attributes before `#[Value = "…"]` must all be of the form `name = literal`
(or of a form that is skipped); the value must be a type; there must be a first field, unless the struct is a tuple struct; and every
field type must be written as a path.  Missing: the attributes and field types for which the claim is false (`C81_refuted`,
`C81_refuted_tuple_field`). -/
theorem C81_accepted_partial (parse : String → Option TypeExpr) (input : Input) :
    (∃ impl, expand parse input = .ok impl) ↔
      (∃ s value, PlainBefore input.attrs s ∧ parse s = some value) ∧
      (∀ f ∈ input.data.fields, f.2.IsPath) ∧
      (input.data.fields ≠ [] ∨ input.data = .tupleStruct []) := by
  constructor
  · rintro ⟨impl, h⟩
    obtain ⟨s, value, h1, h2, h3⟩ := (expand_iff parse input impl).1 h
    obtain ⟨h4, h5, -⟩ := (body_iff input value impl).1 h3
    exact ⟨⟨s, value, h1, h2⟩, h4, h5⟩
  · rintro ⟨⟨s, value, h1, h2⟩, h3, h4⟩
    obtain ⟨b, hb⟩ : ∃ b : Bool, (b = true ↔ ∃ fs, input.data = .tupleStruct fs) := by
      by_cases h : ∃ fs, input.data = .tupleStruct fs
      · exact ⟨true, by simp [h]⟩
      · exact ⟨false, by simp [h]⟩
    exact ⟨_, (expand_iff parse input _).2 ⟨s, value, h1, h2, (body_iff input value _).2 ⟨h3, h4, b, hb, rfl⟩⟩⟩

example : ∃ impl, expand (fun _ => some (.path "EdwardsPoint" [])) ⟨"CEdwardsPoint", "<'a, CS>",
    [.nameValue "doc" (some "a point"), .nameValue "Value" (some "EdwardsPoint<CS::F>"), .list "allow(dead_code)"],
    .namedStruct [("x", .path "CNum" []), ("y", .path "CNum" [])]⟩ = .ok impl :=
  (C81_accepted_partial _ _).2 ⟨⟨_, _, ⟨[.nameValue "doc" (some "a point")], _, rfl, by simp⟩, rfl⟩,
    by simp [Data.fields, TypeExpr.IsPath], .inl (by simp [Data.fields])⟩

/-- C81: the accepted struct gets the implementation that goes through its fields in the order in which they are declared, calling the
constructors of the first segment of the path of their types.  (For a path with several segments this is not the field's type.) -/
theorem C81_output_partial (parse : String → Option TypeExpr) (input : Input) (impl : Impl) (h : expand parse input = .ok impl) :
    impl.ident = input.ident ∧ impl.generics = input.generics ∧
    (∃ s, PlainBefore input.attrs s ∧ parse s = some impl.value) ∧
    (impl.tuple = true ↔ ∃ fs, input.data = .tupleStruct fs) ∧
    impl.fields = input.data.fields.map fun f => (f.1, f.2.head) := by
  obtain ⟨s, value, h1, h2, h3⟩ := (expand_iff parse input impl).1 h
  obtain ⟨-, -, b, hb, rfl⟩ := (body_iff input value impl).1 h3
  exact ⟨rfl, rfl, ⟨s, h1, h2⟩, hb, rfl⟩

end Fawkes.Props
