import Verif.Lemmas.Natural
import Verif.Spec.Mapped

/-!
# Lemmas: circuits commute with homomorphisms of fields
-/

namespace Fawkes

namespace Natural

variable {F K : Type} [Field F] [DecidableEq F] [Field K] [DecidableEq K] (e : F →+* K)

/-- The two circuits do the same up to the map: same panics, results and recorded systems that correspond. -/
def Maps {α β : Type} (g : α → β) (m : M F α) (m' : M K β) : Prop :=
  ∀ s : CS F, (m.run s).map (fun q => (g q.1, q.2.map e)) = m'.run (s.map e)

variable {α β γ δ : Type}

theorem Maps.pure (g : α → β) (a : α) : Maps e g (pure a : M F α) (Pure.pure (g a) : M K β) := fun _ => rfl

theorem Maps.pure' {g : α → β} {a : α} {b : β} (h : g a = b) : Maps e g (Pure.pure a : M F α) (Pure.pure b : M K β) := by
  subst h; exact Maps.pure e g a

theorem Maps.panic (g : α → β) (x : Panic) : Maps e g (M.panic x : M F α) (M.panic x : M K β) := fun _ => rfl

theorem Maps.lift (g : α → β) {x : Except Panic α} {y : Except Panic β} (h : x.map g = y) :
    Maps e g (M.lift x : M F α) (M.lift y : M K β) := by
  subst h
  intro s
  cases x <;> rfl

theorem Maps.assert {b b' : Bool} (h : b = b') (x : Panic) : Maps e id (M.assert b x : M F Unit) (M.assert b' x : M K Unit) := by
  subst h
  cases b
  · exact Maps.panic e id x
  · exact Maps.pure e id ()

variable {e}

theorem run_bind {F : Type} (m : M F α) (k : α → M F β) (s : CS F) :
    (m >>= k).run s = (m.run s >>= fun q => (k q.1).run q.2) := by
  unfold M.run
  simp only [Bind.bind, Except.bind]
  cases m s with
  | error _ => rfl
  | ok q =>
    obtain ⟨a, s1⟩ := q
    simp only []
    cases k a s1.1 with
    | error _ => rfl
    | ok q => rfl

theorem Maps.bind {g : α → β} {h : γ → δ} {m : M F α} {m' : M K β} {k : α → M F γ} {k' : β → M K δ} (hm : Maps e g m m')
    (hk : ∀ a, Maps e h (k a) (k' (g a))) : Maps e h (m >>= k) (m' >>= k') := by
  intro s
  rw [run_bind, run_bind, ← hm s]
  exact bind_map _ _ _ _ _ fun q => hk q.1 q.2

theorem Maps.ite {g : α → β} {c c' : Prop} [Decidable c] [Decidable c'] (hc : c ↔ c') {m n : M F α} {m' n' : M K β}
    (hm : Maps e g m m') (hn : Maps e g n n') : Maps e g (if c then m else n) (if c' then m' else n') := by
  by_cases h : c
  · rw [if_pos h, if_pos (hc.1 h)]; exact hm
  · rw [if_neg h, if_neg (fun h' => h (hc.2 h'))]; exact hn

variable (e)

theorem lc_lookup (k : Index) (pre post : LC F) :
    LC.lookup k (LC.map e pre) (LC.map e post) = (LC.map e (LC.lookup k pre post).1, LC.map e (LC.lookup k pre post).2) := by
  induction post generalizing pre with
  | nil => rfl
  | cons kv post ih =>
    obtain ⟨k', v'⟩ := kv
    show (if k' = k then (LC.map e pre, LC.map e ((k', v') :: post)) else if k.lt k' then (LC.map e pre, LC.map e ((k', v') :: post))
      else LC.lookup k (LC.map e ((k', v') :: pre)) (LC.map e post)) = _
    rw [LC.lookup.eq_def k pre ((k', v') :: post)]
    simp only []
    split
    · rfl
    · split
      · rfl
      · exact ih _

theorem lc_mergeStep (k : Index) (v : F) (pre post : LC F) : LC.mergeStep k (e v) (LC.map e pre, LC.map e post) =
    (LC.map e (LC.mergeStep k v (pre, post)).1, LC.map e (LC.mergeStep k v (pre, post)).2) := by
  unfold LC.mergeStep
  simp only [lc_lookup]
  obtain ⟨a, b⟩ := LC.lookup k pre post
  cases b with
  | nil => rfl
  | cons kv b =>
    obtain ⟨k', v'⟩ := kv
    show (if k' = k then if e v' + e v = 0 then (LC.map e a, LC.map e b) else (LC.map e a, (k', e v' + e v) :: LC.map e b)
      else (LC.map e a, (k, e v) :: (k', e v') :: LC.map e b)) = _
    simp only [← map_add, map_eq_zero]
    split
    · split <;> rfl
    · rfl

theorem lc_mergeLoop (l : LC F) (pre post : LC F) : LC.mergeLoop (LC.map e pre, LC.map e post) (LC.map e l) =
    (LC.map e (LC.mergeLoop (pre, post) l).1, LC.map e (LC.mergeLoop (pre, post) l).2) := by
  induction l generalizing pre post with
  | nil => rfl
  | cons kv l ih =>
    obtain ⟨k, v⟩ := kv
    show LC.mergeLoop (LC.mergeStep k (e v) (LC.map e pre, LC.map e post)) (LC.map e l) = _
    rw [lc_mergeStep, ih]
    rfl

theorem lc_add (a b : LC F) : LC.map e (a.add b) = (LC.map e a).add (LC.map e b) := by
  unfold LC.add
  have h := lc_mergeLoop e b [] a
  rw [show LC.map e [] = ([] : LC K) from rfl] at h
  rw [h]
  simp [LC.map]

theorem lc_neg (b : LC F) : LC.map e (List.map (fun kv => (kv.1, -kv.2)) b) = List.map (fun kv => (kv.1, -kv.2)) (LC.map e b) := by
  simp [LC.map]

theorem lc_sub (a b : LC F) : LC.map e (a.sub b) = (LC.map e a).sub (LC.map e b) := by
  unfold LC.sub
  have h := lc_mergeLoop e (List.map (fun kv => (kv.1, -kv.2)) b) [] a
  rw [show LC.map e [] = ([] : LC K) from rfl, lc_neg] at h
  rw [h]
  simp [LC.map]

omit [DecidableEq F] [DecidableEq K] in
theorem value₂_map (f : F → F → F) (f' : K → K → K) (h : ∀ a b, e (f a b) = f' (e a) (e b)) (a b : Option F) :
    (CNum.value₂ f a b).map e = CNum.value₂ f' (a.map e) (b.map e) := by
  cases a <;> cases b <;> simp [CNum.value₂, h]

theorem capacity_map (a : CNum F) : (a.map e).capacity = a.capacity := by simp [CNum.capacity, CNum.map, LC.map]

theorem fromConst_map (v : F) : (CNum.fromConst v).map e = CNum.fromConst (e v) := rfl

theorem fromVar_map (v : Option F) (i : Index) : (CNum.fromVar v i).map e = CNum.fromVar (v.map e) i := by
  simp [CNum.fromVar, CNum.map, LC.map]

theorem czero_map : (CNum.zero : CNum F).map e = CNum.zero := by simp [CNum.zero, fromConst_map]

theorem cone_map : (CNum.one : CNum F).map e = CNum.one := by simp [CNum.one, fromConst_map]

theorem asConst_map (a : CNum F) : (a.map e).asConst = a.asConst.map e := by
  unfold CNum.asConst
  obtain ⟨v, lc⟩ := a
  match lc with
  | [] => show some 0 = some (e 0); rw [map_zero]
  | [(k, v)] =>
    show (if k = .input 0 then some (e v) else none) = (if k = .input 0 then some v else none).map e
    split <;> rfl
  | _ :: _ :: _ => rfl

theorem neg_map (a : CNum F) : a.neg.map e = (a.map e).neg := by
  unfold CNum.neg CNum.map
  simp only [lc_neg]
  congr 1
  cases a.value <;> simp

theorem addAssign_map (a b : CNum F) : (a.addAssign b).map e = (a.map e).addAssign (b.map e) := by
  unfold CNum.addAssign CNum.map
  simp only [lc_add]
  rw [value₂_map e (· + ·) (· + ·) (map_add e)]

theorem cadd_map (a b : CNum F) : (a.add b).map e = (a.map e).add (b.map e) := by
  unfold CNum.add
  rw [capacity_map, capacity_map]
  split <;> exact addAssign_map e _ _

theorem csub_map (a b : CNum F) : (a.sub b).map e = (a.map e).sub (b.map e) := by
  unfold CNum.sub CNum.map
  simp only [lc_sub]
  rw [value₂_map e (· - ·) (· - ·) (map_sub e)]

theorem addConst_map (a : CNum F) (k : F) : (a.addConst k).map e = (a.map e).addConst (e k) := by
  unfold CNum.addConst; rw [addAssign_map, fromConst_map]

theorem subConst_map (a : CNum F) (k : F) : (a.subConst k).map e = (a.map e).subConst (e k) := by
  unfold CNum.subConst; rw [csub_map, fromConst_map]

theorem constSub_map (a : CNum F) (k : F) : (CNum.constSub k a).map e = CNum.constSub (e k) (a.map e) := by
  unfold CNum.constSub; rw [csub_map, fromConst_map]

theorem mulConst_map (a : CNum F) (k : F) : (a.mulConst k).map e = (a.map e).mulConst (e k) := by
  unfold CNum.mulConst
  simp only [map_eq_zero]
  split
  · exact czero_map e
  · unfold CNum.map
    congr 1
    · cases a.value <;> simp
    · simp [LC.map]

theorem maps_divConst (a : CNum F) (k : F) : Maps e (CNum.map e) (a.divConst k) ((a.map e).divConst (e k)) := by
  unfold CNum.divConst
  refine Maps.ite ?_ (Maps.panic e _ _) (Maps.pure' e ?_)
  · simp [CNum.map, LC.map]
  · unfold CNum.map
    congr 1
    · cases a.value <;> simp
    · simp [LC.map]

theorem maps_csAlloc (v : Option F) : Maps e id (CS.alloc v) (CS.alloc (v.map e)) := by
  intro s
  unfold M.run CS.alloc
  by_cases h : s.backend = .prove ∧ v = none
  · rw [if_pos h, if_pos ⟨h.1, by rw [h.2]; rfl⟩]; rfl
  · rw [if_neg h, if_neg (by simpa [CS.map] using h)]
    have h1 : (s.map e).nextAlloc = s.nextAlloc := rfl
    simp only [h1]
    show Except.ok _ = Except.ok _
    congr 2
    cases s.nextAlloc <;> simp [CS.map, CS.pushVar]

theorem maps_csAllocInput (v : Option F) : Maps e id (CS.allocInput v) (CS.allocInput (v.map e)) := by
  intro s
  unfold M.run CS.allocInput
  by_cases h : s.backend = .prove ∧ v = none
  · rw [if_pos h, if_pos ⟨h.1, by rw [h.2]; rfl⟩]; rfl
  · rw [if_neg h, if_neg (by simpa [CS.map] using h)]
    show Except.ok _ = Except.ok _
    simp [CS.map, CS.pushVar]

theorem checkTriple_map (a b c : CNum F) : CS.checkTriple (a.map e) (b.map e) (c.map e) = CS.checkTriple a b c := by
  unfold CS.checkTriple CNum.map
  cases a.value <;> cases b.value <;> cases c.value <;> simp only [Option.map_some, Option.map_none]
  rw [← map_mul, eq_bool]

theorem maps_enforce (a b c : CNum F) : Maps e id (CS.enforce a b c) (CS.enforce (a.map e) (b.map e) (c.map e)) := by
  intro s
  unfold M.run CS.enforce
  rw [checkTriple_map]
  by_cases h : s.backend = .test ∧ CS.checkTriple a b c = false
  · rw [if_pos h, if_pos (show (s.map e).backend = .test ∧ _ from h)]; rfl
  · rw [if_neg h, if_neg (show ¬ ((s.map e).backend = .test ∧ _) from h)]
    show Except.ok _ = Except.ok _
    simp [CS.map, Constraint.map]

theorem maps_alloc (v : Option F) : Maps e (CNum.map e) (CNum.alloc v) (CNum.alloc (v.map e)) :=
  (maps_csAlloc e v).bind fun i => Maps.pure' e (fromVar_map e v i)

theorem maps_mul (a b : CNum F) : Maps e (CNum.map e) (a.mul b) ((a.map e).mul (b.map e)) := by
  unfold CNum.mul
  rw [asConst_map, asConst_map]
  cases a.asConst with
  | some x => exact Maps.pure' e (mulConst_map e b x)
  | none =>
    cases b.asConst with
    | some y => exact Maps.pure' e (mulConst_map e a y)
    | none =>
      have h := maps_alloc e (CNum.value₂ (· * ·) a.value b.value)
      rw [value₂_map e (· * ·) (· * ·) (map_mul e)] at h
      exact h.bind fun c => (maps_enforce e a b c).bind fun _ => Maps.pure e _ c

theorem maps_divValue (a b : Option F) : Maps e (Option.map e) (CNum.divValue a b) (CNum.divValue (a.map e) (b.map e)) := by
  cases a with
  | none => exact Maps.pure' e rfl
  | some x =>
    cases b with
    | none => exact Maps.pure' e rfl
    | some y => exact Maps.ite (by simp) (Maps.panic e _ _) (Maps.pure' e (by simp))

theorem maps_div (a b : CNum F) : Maps e (CNum.map e) (a.div b) ((a.map e).div (b.map e)) := by
  unfold CNum.div
  rw [asConst_map, asConst_map]
  cases a.asConst with
  | some x => exact maps_divConst e b x
  | none =>
    cases b.asConst with
    | some y => exact maps_divConst e a y
    | none =>
      exact (maps_divValue e a.value b.value).bind fun v => (maps_alloc e v).bind fun q =>
        (maps_enforce e q b a).bind fun _ => Maps.pure e _ q

theorem maps_square (a : CNum F) : Maps e (CNum.map e) a.square (a.map e).square := maps_mul e a a

theorem maps_assertConst (a : CNum F) (c : F) : Maps e id (a.assertConst c) ((a.map e).assertConst (e c)) := by
  unfold CNum.assertConst
  rw [asConst_map]
  cases a.asConst with
  | some v => exact Maps.assert e (by simp [e.injective.eq_iff]) _
  | none =>
    have h := maps_enforce e a CNum.one (CNum.fromConst c)
    rw [cone_map, fromConst_map] at h
    exact h

theorem maps_assertZero (a : CNum F) : Maps e id a.assertZero (a.map e).assertZero := by
  have h := maps_assertConst e a 0
  rw [map_zero] at h
  exact h

theorem maps_assertEq (a b : CNum F) : Maps e id (a.assertEq b) ((a.map e).assertEq (b.map e)) := by
  unfold CNum.assertEq
  rw [← csub_map]
  exact maps_assertZero e _

theorem invValue_map (v : Option F) : (CNum.invValue v).map e = CNum.invValue (v.map e) := by
  cases v with
  | none => rfl
  | some t =>
    show some (e (if t = 0 then 1 else t⁻¹)) = some (if e t = 0 then 1 else (e t)⁻¹)
    simp only [map_eq_zero]
    split <;> simp

theorem maps_assertNonzero (a : CNum F) : Maps e id a.assertNonzero (a.map e).assertNonzero := by
  unfold CNum.assertNonzero
  rw [asConst_map]
  cases a.asConst with
  | some v => exact Maps.assert e (by simp) _
  | none =>
    have h := maps_alloc e (CNum.invValue a.value)
    rw [invValue_map] at h
    refine h.bind fun inv => ?_
    have h2 := maps_enforce e a inv CNum.one
    rw [cone_map] at h2
    exact h2

theorem maps_assertBit (a : CNum F) : Maps e id a.assertBit (a.map e).assertBit := by
  unfold CNum.assertBit
  rw [asConst_map]
  cases a.asConst with
  | some v => exact Maps.assert e (by simp [map_eq_one_iff e e.injective]) _
  | none =>
    have h := maps_enforce e a (a.subConst 1) CNum.zero
    rw [czero_map, subConst_map, map_one] at h
    exact h

theorem maps_inputize (a : CNum F) : Maps e id a.inputize (a.map e).inputize := by
  unfold CNum.inputize
  rw [asConst_map]
  cases a.asConst with
  | some v =>
    refine (maps_csAllocInput e (some v)).bind fun i => ?_
    have h := maps_enforce e (CNum.fromVar (some v) i) CNum.one (CNum.fromConst v)
    rw [cone_map, fromConst_map, fromVar_map] at h
    exact h
  | none =>
    refine (maps_csAllocInput e a.value).bind fun i => ?_
    have h := maps_enforce e (CNum.fromVar a.value i) CNum.one a
    rw [cone_map, fromVar_map] at h
    exact h

omit [DecidableEq F] [DecidableEq K] in
theorem boolToF_map (b : Bool) : e (boolToF b) = boolToF b := by cases b <;> simp [boolToF]

theorem intoBool_map (x : F) : intoBool (e x) = intoBool x := by
  unfold intoBool
  simp only [map_eq_zero, map_eq_one_iff e e.injective]

theorem maps_isZero (a : CNum F) : Maps e (CBool.map e) a.isZero (a.map e).isZero := by
  unfold CNum.isZero
  rw [asConst_map]
  cases a.asConst with
  | some c =>
    refine Maps.pure' e ?_
    show (⟨CNum.fromConst (e (boolToF _))⟩ : CBool K) = _
    rw [boolToF_map]
    simp only [map_eq_zero]
  | none =>
    have h := maps_alloc e (CNum.invValue a.value)
    rw [invValue_map] at h
    refine h.bind fun inv => (maps_assertNonzero e inv).bind fun _ => (maps_mul e inv a).bind fun res =>
      (maps_assertBit e res).bind fun _ => Maps.pure' e ?_
    show (⟨(CNum.sub CNum.one res).map e⟩ : CBool K) = _
    rw [csub_map, cone_map]

theorem maps_isEq (a b : CNum F) : Maps e (CBool.map e) (a.isEq b) ((a.map e).isEq (b.map e)) := by
  unfold CNum.isEq
  rw [← csub_map]
  exact maps_isZero e _

theorem bool_fromConst_map (b : Bool) : (CBool.fromConst b : CBool F).map e = CBool.fromConst b := by
  show (⟨CNum.fromConst (e (boolToF b))⟩ : CBool K) = _
  rw [boolToF_map]
  rfl

theorem bool_asConst_map (b : CBool F) : (b.map e).asConst = b.asConst := by
  unfold CBool.asConst CBool.map
  simp only [asConst_map]
  cases b.num.asConst with
  | none => rfl
  | some v => simp only [Option.map_some, intoBool_map]

theorem maps_bool_alloc (v : Option Bool) : Maps e (CBool.map e) (CBool.alloc v) (CBool.alloc v) := by
  have h := maps_alloc e (v.map boolToF)
  have e1 : (v.map (boolToF : Bool → F)).map e = v.map boolToF := by cases v <;> simp [boolToF_map]
  rw [e1] at h
  exact h.bind fun n => Maps.pure e _ _

theorem maps_bool_assert (b : CBool F) : Maps e id b.assert (b.map e).assert := maps_assertBit e b.num

theorem maps_bool_assertConst (b : CBool F) (v : Bool) : Maps e id (b.assertConst v) ((b.map e).assertConst v) := by
  have h := maps_assertConst e b.num (boolToF v)
  rw [boolToF_map] at h
  exact h

theorem maps_switch (a : CNum F) (b : CBool F) (c : CNum F) :
    Maps e (CNum.map e) (a.switch b c) ((a.map e).switch (b.map e) (c.map e)) := by
  unfold CNum.switch
  rw [bool_asConst_map]
  refine (Maps.lift e id (by cases b.asConst <;> rfl)).bind fun o => ?_
  match o with
  | some true => exact Maps.pure e _ a
  | some false => exact Maps.pure e _ c
  | none =>
    refine Maps.ite (by rw [capacity_map, capacity_map]) ?_ ?_
    · have h := maps_mul e b.num (a.sub c)
      rw [csub_map] at h
      exact h.bind fun p => Maps.pure' e (addAssign_map e p c)
    · have h := maps_mul e (CNum.constSub 1 b.num) (c.sub a)
      rw [csub_map, constSub_map, map_one] at h
      exact h.bind fun p => Maps.pure' e (addAssign_map e p a)


theorem maps_sigma (a : CNum F) : Maps e (CNum.map e) (CPoseidon.sigma a) (CPoseidon.sigma (a.map e)) :=
  (maps_mul e a a).bind fun a2 => (maps_mul e a2 a2).bind fun a4 => maps_mul e a4 a

theorem maps_sigmaAll (l : List (CNum F)) :
    Maps e (List.map (CNum.map e)) (CPoseidon.sigmaAll l) (CPoseidon.sigmaAll (l.map (CNum.map e))) := by
  induction l with
  | nil => exact Maps.pure e _ []
  | cons x l ih => exact (maps_sigma e x).bind fun y => ih.bind fun ys => Maps.pure e _ _

theorem cark_map (l : List (CNum F)) (c : F) :
    (CPoseidon.ark l c).map (CNum.map e) = CPoseidon.ark (l.map (CNum.map e)) (e c) := by
  simp [CPoseidon.ark, addConst_map]

theorem cmixRow_map (s : List (CNum F)) (row : List F) (acc : CNum F) : (CPoseidon.mixRow s row acc).map (CNum.map e) =
    CPoseidon.mixRow (s.map (CNum.map e)) (row.map e) (acc.map e) := by
  induction s generalizing row acc with
  | nil => rfl
  | cons x s ih =>
    cases row with
    | nil => rfl
    | cons r row =>
      show (CPoseidon.mixRow s row (acc.addAssign (x.mulConst r))).map (CNum.map e) =
        CPoseidon.mixRow (s.map (CNum.map e)) (row.map e) ((acc.map e).addAssign ((x.map e).mulConst (e r)))
      rw [ih, addAssign_map, mulConst_map]

theorem cmixRows_map (s : List (CNum F)) (rows : List (List F)) (n : Nat) :
    (CPoseidon.mixRows s rows n).map (List.map (CNum.map e)) =
      CPoseidon.mixRows (s.map (CNum.map e)) (rows.map (List.map e)) n := by
  induction n generalizing rows with
  | zero => cases rows <;> rfl
  | succ n ih =>
    cases rows with
    | nil => rfl
    | cons row rows =>
      show _ = (CPoseidon.mixRow (s.map (CNum.map e)) (row.map e) CNum.zero >>= fun x =>
        CPoseidon.mixRows (s.map (CNum.map e)) (rows.map (List.map e)) n >>= fun xs => pure (x :: xs))
      rw [← ih, ← czero_map e, ← cmixRow_map]
      exact bind_map _ _ _ _ _ fun x => bind_map _ _ _ _ _ fun xs => rfl

theorem maps_mix (s : List (CNum F)) (P : PoseidonParams F) :
    (CPoseidon.mix s P).map (List.map (CNum.map e)) = CPoseidon.mix (s.map (CNum.map e)) (P.map e) := by
  unfold CPoseidon.mix
  rw [cmixRows_map, List.length_map]
  rfl

theorem maps_layer (P : PoseidonParams F) (i : Nat) (s : List (CNum F)) :
    Maps e (List.map (CNum.map e)) (CPoseidon.layer P i s) (CPoseidon.layer (P.map e) i (s.map (CNum.map e))) := by
  unfold CPoseidon.layer
  refine Maps.ite Iff.rfl (maps_sigmaAll e s) ?_
  cases s with
  | nil => exact Maps.panic e _ _
  | cons x s => exact (maps_sigma e x).bind fun y => Maps.pure e _ _

theorem maps_rounds (P : PoseidonParams F) (n i : Nat) (s : List (CNum F)) :
    Maps e (List.map (CNum.map e)) (CPoseidon.rounds P n i s) (CPoseidon.rounds (P.map e) n i (s.map (CNum.map e))) := by
  induction n generalizing i s with
  | zero => exact Maps.pure e _ s
  | succ n ih =>
    refine (Maps.lift e e (getIdx_map e P.c i)).bind fun c => ?_
    have h := maps_layer e P i (CPoseidon.ark s c)
    rw [cark_map] at h
    exact h.bind fun s => (Maps.lift e _ (maps_mix e s P)).bind fun s => ih (i + 1) s

theorem maps_poseidon (l : List (CNum F)) (P : PoseidonParams F) :
    Maps e (CNum.map e) (CPoseidon.poseidon l P) (CPoseidon.poseidon (l.map (CNum.map e)) (P.map e)) := by
  unfold CPoseidon.poseidon
  rw [List.length_map]
  refine Maps.ite Iff.rfl (Maps.panic e _ _) (Maps.ite Iff.rfl (Maps.panic e _ _) ?_)
  have h := maps_rounds e P (P.f + P.p) 0 (l ++ List.replicate (P.t - l.length) CNum.zero)
  rw [List.map_append, List.map_replicate, czero_map] at h
  exact h.bind fun s => Maps.lift e _ (getIdx_map _ s 0)

theorem maps_poseidonWithSalt (l : List (CNum F)) (seed : F) (P : PoseidonParams F) :
    Maps e (CNum.map e) (CPoseidon.poseidonWithSalt l seed P)
      (CPoseidon.poseidonWithSalt (l.map (CNum.map e)) (e seed) (P.map e)) := by
  unfold CPoseidon.poseidonWithSalt
  rw [List.length_map]
  refine Maps.ite Iff.rfl (Maps.panic e _ _) (Maps.ite Iff.rfl (Maps.panic e _ _) ?_)
  have h := maps_poseidon e (l ++ [CNum.fromConst seed]) P
  rw [List.map_append] at h
  exact h

theorem maps_proofLoop (P : PoseidonParams F) (root : CNum F) (l : List (CBool F × CNum F)) :
    Maps e (CNum.map e) (CPoseidon.proofLoop P root l)
      (CPoseidon.proofLoop (P.map e) (root.map e) (l.map fun q => (q.1.map e, q.2.map e))) := by
  induction l generalizing root with
  | nil => exact Maps.pure e _ root
  | cons q l ih =>
    obtain ⟨b, s⟩ := q
    refine (maps_switch e s b root).bind fun first => ?_
    have h := maps_poseidon e [first, CNum.sub (CNum.add root s) first] P
    simp only [List.map_cons, List.map_nil, csub_map, cadd_map] at h
    exact h.bind fun r => ih r

theorem maps_merkleProofRoot (leaf : CNum F) (sibling : List (CNum F)) (path : List (CBool F)) (P : PoseidonParams F) :
    Maps e (CNum.map e) (CPoseidon.merkleProofRoot leaf sibling path P)
      (CPoseidon.merkleProofRoot (leaf.map e) (sibling.map (CNum.map e)) (path.map (CBool.map e)) (P.map e)) := by
  have h := maps_proofLoop e P leaf (path.zip sibling)
  rw [show ((path.zip sibling).map fun q => (q.1.map e, q.2.map e)) = (path.map (CBool.map e)).zip (sibling.map (CNum.map e)) from by
    rw [List.zip_map]; rfl] at h
  exact h

theorem maps_treeInner (P : PoseidonParams F) (n i : Nat) (s : List (CNum F)) :
    Maps e (List.map (CNum.map e)) (CPoseidon.treeInner P n i s) (CPoseidon.treeInner (P.map e) n i (s.map (CNum.map e))) := by
  induction n generalizing i s with
  | zero => exact Maps.pure e _ s
  | succ n ih =>
    refine (Maps.lift e _ (getIdx_map (CNum.map e) s (2 * i))).bind fun a =>
      (Maps.lift e _ (getIdx_map (CNum.map e) s (2 * i + 1))).bind fun b => (maps_poseidon e [a, b] P).bind fun r => ?_
    have h := ih (i + 1) (s.set i r)
    rw [List.map_set] at h
    exact h

theorem maps_treeLevels (P : PoseidonParams F) (total n j : Nat) (s : List (CNum F)) :
    Maps e (List.map (CNum.map e)) (CPoseidon.treeLevels P total n j s)
      (CPoseidon.treeLevels (P.map e) total n j (s.map (CNum.map e))) := by
  induction n generalizing j s with
  | zero => exact Maps.pure e _ s
  | succ n ih => exact (maps_treeInner e P _ 0 s).bind fun s => ih (j + 1) s

theorem maps_merkleTreeRoot (l : List (CNum F)) (P : PoseidonParams F) :
    Maps e (CNum.map e) (CPoseidon.merkleTreeRoot l P) (CPoseidon.merkleTreeRoot (l.map (CNum.map e)) (P.map e)) := by
  unfold CPoseidon.merkleTreeRoot
  rw [List.length_map]
  refine Maps.ite Iff.rfl (Maps.panic e _ _) ?_
  have h := maps_treeLevels e P (2 ^ Nat.size (l.length - 1)) (Nat.size (l.length - 1)) 0
    (l ++ List.replicate (2 ^ Nat.size (l.length - 1) - l.length) CNum.zero)
  rw [List.map_append, List.map_replicate, czero_map] at h
  exact h.bind fun s => Maps.lift e _ (getIdx_map _ s 0)

theorem maps_column (s0 s1 s2 : CBool F) (s10 : CNum F) (c0 c1 c2 c3 c4 c5 c6 c7 : F) :
    Maps e (CNum.map e) (Mux.column s0 s1 s2 s10 c0 c1 c2 c3 c4 c5 c6 c7)
      (Mux.column (s0.map e) (s1.map e) (s2.map e) (s10.map e) (e c0) (e c1) (e c2) (e c3) (e c4) (e c5) (e c6) (e c7)) := by
  unfold Mux.column
  simp only [CBool.map, ← map_sub, ← map_add, ← mulConst_map, ← cadd_map, ← addConst_map]
  exact (maps_mul e _ _).bind fun t => Maps.pure' e (by simp only [cadd_map, addConst_map])

theorem maps_columns (s0 s1 s2 : CBool F) (s10 : CNum F) (cs : List (List F)) :
    Maps e (List.map (CNum.map e)) (Mux.columns s0 s1 s2 s10 cs)
      (Mux.columns (s0.map e) (s1.map e) (s2.map e) (s10.map e) (cs.map (List.map e))) := by
  induction cs with
  | nil => exact Maps.pure e _ []
  | cons c cs ih =>
    match c with
    | [c0, c1, c2, c3, c4, c5, c6, c7] =>
      exact (maps_column e s0 s1 s2 s10 c0 c1 c2 c3 c4 c5 c6 c7).bind fun r => ih.bind fun rs => Maps.pure e _ _
    | [] => exact Maps.panic e _ _
    | [_] => exact Maps.panic e _ _
    | [_, _] => exact Maps.panic e _ _
    | [_, _, _] => exact Maps.panic e _ _
    | [_, _, _, _] => exact Maps.panic e _ _
    | [_, _, _, _, _] => exact Maps.panic e _ _
    | [_, _, _, _, _, _] => exact Maps.panic e _ _
    | [_, _, _, _, _, _, _] => exact Maps.panic e _ _
    | _ :: _ :: _ :: _ :: _ :: _ :: _ :: _ :: _ :: _ => exact Maps.panic e _ _

theorem maps_mux3 (s : List (CBool F)) (c : List (List F)) : Maps e (List.map (CNum.map e)) (Mux.mux3 s c)
    (Mux.mux3 (s.map (CBool.map e)) (c.map (List.map e))) := by
  unfold Mux.mux3
  refine (Maps.assert e (by simp) _).bind fun _ => (Maps.assert e (by simp [List.all_map, Function.comp_def]) _).bind fun _ => ?_
  match s with
  | [s0, s1, s2] => exact (maps_mul e s0.num s1.num).bind fun s10 => maps_columns e s0 s1 s2 s10 c
  | [] => exact Maps.panic e _ _
  | [_] => exact Maps.panic e _ _
  | [_, _] => exact Maps.panic e _ _
  | _ :: _ :: _ :: _ :: _ => exact Maps.panic e _ _

theorem maps_edDouble (p : CEdwardsPoint F) (J : JubJubParams F) :
    Maps e (CEdwardsPoint.map e) (p.double J) ((p.map e).double (J.map e)) := by
  unfold CEdwardsPoint.double
  simp only [CEdwardsPoint.map, JubJubParams.map, ← cadd_map]
  refine (maps_mul e p.x p.y).bind fun v => (maps_square e v).bind fun v2 => (maps_square e _).bind fun u => ?_
  simp only [← map_ofNat e 2, ← map_one e, ← mulConst_map, ← addConst_map, ← csub_map, ← constSub_map]
  exact (maps_div e _ _).bind fun x => (maps_div e _ _).bind fun y => Maps.pure e _ _

theorem maps_edMulByCofactor (p : CEdwardsPoint F) (J : JubJubParams F) :
    Maps e (CEdwardsPoint.map e) (p.mulByCofactor J) ((p.map e).mulByCofactor (J.map e)) :=
  (maps_edDouble e p J).bind fun p2 => (maps_edDouble e p2 J).bind fun p4 => maps_edDouble e p4 J

theorem maps_edAdd (p q : CEdwardsPoint F) (J : JubJubParams F) :
    Maps e (CEdwardsPoint.map e) (p.add q J) ((p.map e).add (q.map e) (J.map e)) := by
  unfold CEdwardsPoint.add
  simp only [CEdwardsPoint.map, JubJubParams.map, ← cadd_map]
  refine (maps_mul e p.x q.y).bind fun v1 => (maps_mul e q.x p.y).bind fun v2 => (maps_mul e v1 v2).bind fun v12 =>
    (maps_mul e _ _).bind fun u => ?_
  simp only [← map_one e, ← mulConst_map, ← addConst_map, ← csub_map, ← constSub_map, ← cadd_map]
  exact (maps_div e _ _).bind fun x => (maps_div e _ _).bind fun y => Maps.pure e _ _

theorem maps_assertInCurve (p : CEdwardsPoint F) (J : JubJubParams F) :
    Maps e id (p.assertInCurve J) ((p.map e).assertInCurve (J.map e)) := by
  unfold CEdwardsPoint.assertInCurve
  simp only [CEdwardsPoint.map, JubJubParams.map]
  refine (maps_square e p.x).bind fun x2 => (maps_square e p.y).bind fun y2 => ?_
  simp only [← map_one e, ← mulConst_map, ← subConst_map, ← csub_map]
  exact maps_enforce e _ _ _

theorem maps_edSwitch (t : CEdwardsPoint F) (b : CBool F) (f : CEdwardsPoint F) :
    Maps e (CEdwardsPoint.map e) (t.switch b f) ((t.map e).switch (b.map e) (f.map e)) :=
  (maps_switch e t.x b f.x).bind fun x => (maps_switch e t.y b f.y).bind fun y => Maps.pure e _ _

theorem maps_moSwitch (t : CMontgomeryPoint F) (b : CBool F) (f : CMontgomeryPoint F) :
    Maps e (CMontgomeryPoint.map e) (t.switch b f) ((t.map e).switch (b.map e) (f.map e)) :=
  (maps_switch e t.x b f.x).bind fun x => (maps_switch e t.y b f.y).bind fun y => Maps.pure e _ _

theorem maps_edAlloc (v : Option (EdwardsPoint F)) :
    Maps e (CEdwardsPoint.map e) (CEdwardsPoint.alloc v) (CEdwardsPoint.alloc (v.map (EdwardsPoint.map e))) := by
  unfold CEdwardsPoint.alloc
  have hx : (v.map (EdwardsPoint.map e)).map EdwardsPoint.x = (v.map EdwardsPoint.x).map e := by cases v <;> rfl
  have hy : (v.map (EdwardsPoint.map e)).map EdwardsPoint.y = (v.map EdwardsPoint.y).map e := by cases v <;> rfl
  rw [hx, hy]
  exact (maps_alloc e _).bind fun x => (maps_alloc e _).bind fun y => Maps.pure e _ _

theorem maps_edIntoMontgomery (p : CEdwardsPoint F) :
    Maps e (CMontgomeryPoint.map e) p.intoMontgomery (p.map e).intoMontgomery := by
  unfold CEdwardsPoint.intoMontgomery
  simp only [CEdwardsPoint.map]
  simp only [← map_one e, ← addConst_map, ← constSub_map]
  exact (maps_div e _ _).bind fun x => (maps_div e x p.x).bind fun y => Maps.pure e _ _

theorem maps_moDouble (p : CMontgomeryPoint F) (J : JubJubParams F) :
    Maps e (CMontgomeryPoint.map e) (p.double J) ((p.map e).double (J.map e)) := by
  unfold CMontgomeryPoint.double
  simp only [CMontgomeryPoint.map, JubJubParams.map]
  refine (maps_square e p.x).bind fun x2 => ?_
  simp only [← map_one e, ← map_ofNat e 2, ← map_ofNat e 3, ← map_mul, ← mulConst_map, ← cadd_map, ← addConst_map]
  refine (maps_div e _ _).bind fun l => (maps_square e l).bind fun l2 => ?_
  simp only [← mulConst_map, ← csub_map, ← subConst_map]
  exact (maps_mul e _ _).bind fun t => Maps.pure' e (by simp only [CMontgomeryPoint.map, csub_map]; try rfl)

theorem maps_moAdd (p q : CMontgomeryPoint F) (J : JubJubParams F) :
    Maps e (CMontgomeryPoint.map e) (p.add q J) ((p.map e).add (q.map e) (J.map e)) := by
  unfold CMontgomeryPoint.add
  simp only [CMontgomeryPoint.map, JubJubParams.map, ← csub_map]
  refine (maps_div e _ _).bind fun l => (maps_square e l).bind fun l2 => ?_
  simp only [← map_ofNat e 2, ← mulConst_map, ← csub_map, ← subConst_map, ← addConst_map, ← addAssign_map]
  exact (maps_mul e _ _).bind fun t => Maps.pure' e (by simp only [CMontgomeryPoint.map, csub_map]; try rfl)

theorem maps_intoEdwards (p : CMontgomeryPoint F) :
    Maps e (CEdwardsPoint.map e) p.intoEdwards (p.map e).intoEdwards := by
  unfold CMontgomeryPoint.intoEdwards
  simp only [CMontgomeryPoint.map]
  refine (maps_isZero e p.y).bind fun z => ?_
  simp only [CBool.map, ← map_one e, ← addConst_map, ← subConst_map, ← addAssign_map]
  exact (maps_div e _ _).bind fun x => (maps_div e _ _).bind fun y => Maps.pure e _ _

theorem genTableLoop_map (p : EdwardsPointEx F) (J : JubJubParams F) (n : Nat) (q : EdwardsPointEx F) :
    (CEdwardsPoint.genTableLoop p J n q).map (fun t => (t.1.map e, t.2.map e)) =
      CEdwardsPoint.genTableLoop (p.map e) (J.map e) n (q.map e) := by
  induction n generalizing q with
  | zero => rfl
  | succ n ih =>
    unfold CEdwardsPoint.genTableLoop
    rw [← ex_intoMontgomery_map]
    refine bind_map _ _ _ _ _ fun o => ?_
    cases o with
    | none => rfl
    | some m =>
      simp only [Option.map_some]
      rw [← ex_add_map, ← ih]
      exact bind_map _ _ _ _ _ fun t => rfl

theorem genTable_map (p : EdwardsPointEx F) (J : JubJubParams F) :
    (CEdwardsPoint.genTable p J).map (List.map (List.map e)) = CEdwardsPoint.genTable (p.map e) (J.map e) := by
  unfold CEdwardsPoint.genTable
  rw [← genTableLoop_map]
  exact bind_map _ _ _ _ _ fun t => rfl

theorem startLoop_map (J : JubJubParams F) (n : Nat) (acc base : EdwardsPointEx F) :
    (CEdwardsPoint.startLoop J n acc base).map e = CEdwardsPoint.startLoop (J.map e) n (acc.map e) (base.map e) := by
  induction n generalizing acc base with
  | zero => rfl
  | succ n ih =>
    unfold CEdwardsPoint.startLoop
    rw [ih, ex_add_map, ex_double_map, ex_double_map, ex_double_map]

theorem startPoint_map (n : Nat) (base : EdwardsPointEx F) (J : JubJubParams F) :
    (CEdwardsPoint.startPoint n base J).map (MontgomeryPoint.map e) = CEdwardsPoint.startPoint n (base.map e) (J.map e) := by
  unfold CEdwardsPoint.startPoint
  have h0 : (EdwardsPoint.intoExtended ⟨0, -1⟩ : EdwardsPointEx K) = (EdwardsPoint.intoExtended ⟨0, -1⟩ : EdwardsPointEx F).map e := by
    rw [intoExtended_map]
    simp [EdwardsPoint.map]
  simp only []
  rw [h0, ← startLoop_map, ← ex_negate_map, ← ex_intoMontgomery_map]
  refine bind_map _ _ _ _ _ fun o => ?_
  cases o <;> rfl

theorem maps_windowLoop (J : JubJubParams F) : (bits : List (CBool F)) → (acc : CMontgomeryPoint F) → (base : EdwardsPointEx F) →
    Maps e (CMontgomeryPoint.map e) (CEdwardsPoint.windowLoop J bits acc base)
      (CEdwardsPoint.windowLoop (J.map e) (bits.map (CBool.map e)) (acc.map e) (base.map e))
  | b0 :: b1 :: b2 :: bits, acc, base => by
    unfold CEdwardsPoint.windowLoop
    refine (Maps.lift e _ (genTable_map e base J)).bind fun table => (maps_mux3 e [b0, b1, b2] table).bind fun res => ?_
    match res with
    | [x, y] =>
      refine (maps_moAdd e acc ⟨x, y⟩ J).bind fun acc => ?_
      have h := maps_windowLoop J bits acc base.double.double.double
      rw [ex_double_map, ex_double_map, ex_double_map] at h
      exact h
    | [] => exact Maps.panic e _ _
    | [_] => exact Maps.panic e _ _
    | _ :: _ :: _ :: _ => exact Maps.panic e _ _
  | [], acc, base => Maps.pure e _ acc
  | [_], acc, base => Maps.pure e _ acc
  | [_, _], acc, base => Maps.pure e _ acc

theorem padBits3_map (bits : List (CBool F)) :
    (CEdwardsPoint.padBits3 bits).map (CBool.map e) = CEdwardsPoint.padBits3 (bits.map (CBool.map e)) := by
  simp [CEdwardsPoint.padBits3, bool_fromConst_map]

theorem maps_finish (acc : CMontgomeryPoint F) :
    Maps e (CEdwardsPoint.map e) (CEdwardsPoint.finish acc) (CEdwardsPoint.finish (acc.map e)) :=
  (maps_intoEdwards e acc).bind fun res => Maps.pure' e (by simp only [CEdwardsPoint.map, neg_map])

theorem edFromConst_map (p : EdwardsPoint F) : (CEdwardsPoint.fromConst p).map e = CEdwardsPoint.fromConst (p.map e) := rfl

theorem maps_mulConstBase (c : EdwardsPoint F) (bits : List (CBool F)) (J : JubJubParams F) :
    Maps e (CEdwardsPoint.map e) (CEdwardsPoint.mulConstBase c bits J)
      (CEdwardsPoint.mulConstBase (c.map e) (bits.map (CBool.map e)) (J.map e)) := by
  unfold CEdwardsPoint.mulConstBase
  simp only [← intoExtended_map, ex_isZero_map, ← padBits3_map, List.length_map]
  refine Maps.ite Iff.rfl (Maps.pure' e ?_) ?_
  · rw [edFromConst_map, zero_map]
  · refine (Maps.lift e _ (startPoint_map e _ _ _)).bind fun m => ?_
    exact (maps_windowLoop e J _ (CMontgomeryPoint.fromConst m) _).bind fun acc => maps_finish e acc

theorem maps_doublings (J : JubJubParams F) (n : Nat) (p : CMontgomeryPoint F) :
    Maps e (List.map (CMontgomeryPoint.map e)) (CEdwardsPoint.doublings J n p) (CEdwardsPoint.doublings (J.map e) n (p.map e)) := by
  induction n generalizing p with
  | zero => exact Maps.pure e _ []
  | succ n ih => exact (maps_moDouble e p J).bind fun q => (ih q).bind fun rest => Maps.pure e _ _

theorem maps_addLoop (J : JubJubParams F) (bits : List (CBool F)) (exps : List (CMontgomeryPoint F)) (acc : CMontgomeryPoint F) :
    Maps e (CMontgomeryPoint.map e) (CEdwardsPoint.addLoop J bits exps acc)
      (CEdwardsPoint.addLoop (J.map e) (bits.map (CBool.map e)) (exps.map (CMontgomeryPoint.map e)) (acc.map e)) := by
  induction bits generalizing exps acc with
  | nil => cases exps <;> exact Maps.pure e _ acc
  | cons b bits ih =>
    cases exps with
    | nil => exact Maps.panic e _ _
    | cons q exps =>
      exact (maps_moAdd e acc q J).bind fun inc => (maps_moSwitch e inc b acc).bind fun acc => ih exps acc

theorem maps_mulVarBase (p : CEdwardsPoint F) (bits : List (CBool F)) (J : JubJubParams F) :
    Maps e (CEdwardsPoint.map e) (p.mulVarBase bits J) ((p.map e).mulVarBase (bits.map (CBool.map e)) (J.map e)) := by
  unfold CEdwardsPoint.mulVarBase
  rw [List.length_map]
  have h0 : (⟨CNum.zero, CNum.zero⟩ : CMontgomeryPoint K) = (⟨CNum.zero, CNum.zero⟩ : CMontgomeryPoint F).map e := by
    simp only [CMontgomeryPoint.map, czero_map]
  rw [h0]
  exact (maps_isZero e p.x).bind fun z => (maps_edSwitch e (CEdwardsPoint.fromConst J.g) z p).bind fun base =>
    (maps_edIntoMontgomery e base).bind fun base => (maps_doublings e J _ base).bind fun exps =>
    (maps_addLoop e J bits (base :: exps) _).bind fun acc => (maps_moSwitch e _ z acc).bind fun acc => maps_finish e acc

theorem edAsConst_map (p : CEdwardsPoint F) : (p.map e).asConst = p.asConst.map (EdwardsPoint.map e) := by
  unfold CEdwardsPoint.asConst CEdwardsPoint.map
  simp only [asConst_map]
  cases p.x.asConst <;> cases p.y.asConst <;> rfl

theorem edGetValue_map (p : CEdwardsPoint F) : (p.map e).getValue = p.getValue.map (EdwardsPoint.map e) := by
  unfold CEdwardsPoint.getValue CEdwardsPoint.map CNum.map
  simp only []
  cases p.x.value <;> cases p.y.value <;> rfl

theorem maps_edMul (p : CEdwardsPoint F) (bits : List (CBool F)) (J : JubJubParams F) :
    Maps e (CEdwardsPoint.map e) (p.mul bits J) ((p.map e).mul (bits.map (CBool.map e)) (J.map e)) := by
  unfold CEdwardsPoint.mul
  rw [edAsConst_map]
  cases p.asConst with
  | some c => exact maps_mulConstBase e c bits J
  | none => exact maps_mulVarBase e p bits J

theorem mapValue_map {A B A' B' : Type} (f : A → Except Panic B) (f' : A' → Except Panic B') (g : A → A') (h : B → B')
    (hf : ∀ a, (f a).map h = f' (g a)) (o : Option A) :
    (CEdwardsPoint.mapValue f o).map (Option.map h) = CEdwardsPoint.mapValue f' (o.map g) := by
  cases o with
  | none => rfl
  | some a =>
    show ((f a).map some).map (Option.map h) = (f' (g a)).map some
    rw [← hf]
    cases f a <;> rfl

end Natural

end Fawkes
