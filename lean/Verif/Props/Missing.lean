import Verif.Props.Signal

/-!
# C62 exactly: what `get_value` and `as_const` do when something is missing

`Ty.marked` lists the components of a signal in order, each with a mark that says whether it lies inside a vector.  The
answer is decided by the first component without a value (for `as_const`: the first that is not a constant): outside vectors
the call returns `None`, inside a vector it panics.
-/

set_option linter.unusedSectionVars false

namespace Fawkes.Props

open Fawkes

variable {F : Type} [Field F] [DecidableEq F]

/-- The components of a signal in order, marked `true` if they are part of a vector. -/
def Ty.marked (F : Type) : (t : Ty) → Bool → t.S F → List (Bool × CNum F)
  | .num, m, a => [(m, a)]
  | .bool, m, a => [(m, CBool.num a)]
  | .pair a b, m, x => Ty.marked F a m x.1 ++ Ty.marked F b m x.2
  | .vec _ a, _, x => x.items.flatMap (Ty.marked F a true)

/-- Vectors have their declared length, and what `val` reads from a boolean, if anything, is zero or one. -/
def Ty.Sane (val : CNum F → Option F) : (t : Ty) → t.S F → Prop
  | .num, _ => True
  | .bool, a => ∀ v, val (CBool.num a) = some v → v = 0 ∨ v = 1
  | .pair a b, x => Ty.Sane val a x.1 ∧ Ty.Sane val b x.2
  | .vec n a, x => x.items.length = n ∧ ∀ y ∈ x.items, Ty.Sane val a y

/-- The answer by the first component from which `val` reads nothing. -/
def Answer (val : CNum F → Option F) (t : Ty) (a : t.S F) (r : Except Panic (Option (t.V F))) : Prop :=
  match (Ty.marked F t false a).find? (fun x => (val x.2).isNone) with
  | none => ∃ v, r = .ok (some v) ∧ (t.leaves F a).map val = (t.flat F v).map some
  | some (false, _) => r = .ok none
  | some (true, _) => r = .error .assertion

theorem marked_true (t : Ty) (a : t.S F) (m : Bool) :
    Ty.marked F t true a = (Ty.marked F t m a).map fun x => (true, x.2) := by
  induction t generalizing m with
  | num => rfl
  | bool => rfl
  | pair t u iht ihu => unfold Ty.marked; rw [List.map_append, ← iht, ← ihu]
  | vec n t ih =>
    unfold Ty.marked
    rw [List.map_flatMap]
    congr 1
    funext y
    exact ih y true

theorem find_true (t : Ty) (a : t.S F) (val : CNum F → Option F) :
    (Ty.marked F t true a).find? (fun x => (val x.2).isNone) =
      ((Ty.marked F t false a).find? (fun x => (val x.2).isNone)).map fun x => (true, x.2) := by
  rw [marked_true t a false, List.find?_map]
  rfl

/-- A component is missing, or all are there. -/
theorem Answer.cases {val : CNum F → Option F} {t : Ty} {a : t.S F} {r : Except Panic (Option (t.V F))} (h : Answer val t a r) :
    ((Ty.marked F t false a).find? (fun x => (val x.2).isNone) = none ∧
      ∃ v, r = .ok (some v) ∧ (t.leaves F a).map val = (t.flat F v).map some) ∨
    (∃ x, (Ty.marked F t false a).find? (fun x => (val x.2).isNone) = some (false, x) ∧ r = .ok none) ∨
    (∃ x, (Ty.marked F t false a).find? (fun x => (val x.2).isNone) = some (true, x) ∧ r = .error .assertion) := by
  unfold Answer at h
  split at h
  · next he => exact .inl ⟨he, h⟩
  · next x he => exact .inr (.inl ⟨x, he, h⟩)
  · next x he => exact .inr (.inr ⟨x, he, h⟩)

theorem Answer.all {val : CNum F → Option F} {t : Ty} {a : t.S F} {r : Except Panic (Option (t.V F))}
    (he : (Ty.marked F t false a).find? (fun x => (val x.2).isNone) = none) (v : t.V F) (hr : r = .ok (some v))
    (hv : (t.leaves F a).map val = (t.flat F v).map some) : Answer val t a r := by
  unfold Answer; rw [he]; exact ⟨v, hr, hv⟩

theorem Answer.outside {val : CNum F → Option F} {t : Ty} {a : t.S F} {r : Except Panic (Option (t.V F))} {x : CNum F}
    (he : (Ty.marked F t false a).find? (fun x => (val x.2).isNone) = some (false, x)) (hr : r = .ok none) : Answer val t a r := by
  unfold Answer; rw [he]; exact hr

theorem Answer.inside {val : CNum F → Option F} {t : Ty} {a : t.S F} {r : Except Panic (Option (t.V F))} {x : CNum F}
    (he : (Ty.marked F t false a).find? (fun x => (val x.2).isNone) = some (true, x)) (hr : r = .error .assertion) : Answer val t a r := by
  unfold Answer; rw [he]; exact hr

/-- The loop of `collect::<Option<SizedVec>>`. -/
theorem collect_answer {val : CNum F → Option F} {n : Nat} {t : Ty} {R : t.S F → Except Panic (Option (t.V F))}
    (items : List (t.S F)) (hR : ∀ y ∈ items, Answer val t y (R y)) (acc : List (t.V F)) (hn : acc.length + items.length = n) :
    match (items.flatMap (Ty.marked F t true)).find? (fun x => (val x.2).isNone) with
    | none => ∃ vs, (SizedVec.collectOption acc (items.map R) : Except Panic (Option (SizedVec (t.V F) n))) = .ok (some ⟨acc ++ vs⟩) ∧
        (items.flatMap (t.leaves F)).map val = (vs.flatMap (t.flat F)).map some
    | some x => x.1 = true ∧ (SizedVec.collectOption acc (items.map R) : Except Panic (Option (SizedVec (t.V F) n))) = .error .assertion := by
  induction items generalizing acc with
  | nil =>
    refine ⟨[], ?_, rfl⟩
    rw [List.map_nil, SizedVec.collectOption, SizedVec.collect_ok (by simpa using hn), List.append_nil]; rfl
  | cons y items ih =>
    rw [List.flatMap_cons, List.find?_append, find_true]
    rcases (hR y (by simp)).cases with ⟨he, v, hr, hv⟩ | ⟨x, he, hr⟩ | ⟨x, he, hr⟩
    · rw [he]
      have := ih (fun z hz => hR z (by simp [hz])) (acc ++ [v]) (by simp only [List.length_append, List.length_cons, List.length_nil] at hn ⊢; omega)
      simp only [Option.map_none, Option.none_or, List.map_cons, hr, SizedVec.collectOption]
      split
      · next he' =>
        rw [he'] at this
        obtain ⟨vs, h1, h2⟩ := this
        refine ⟨v :: vs, by rw [h1, List.append_assoc]; rfl, ?_⟩
        rw [List.flatMap_cons, List.flatMap_cons, List.map_append, List.map_append, hv, h2]
      · next x he' => rw [he'] at this; exact this
    · rw [he]
      refine ⟨rfl, ?_⟩
      rw [List.map_cons, hr, SizedVec.collectOption]
      unfold SizedVec.collect
      rw [if_neg (by simp only [List.length_cons] at hn; omega)]; rfl
    · rw [he]
      refine ⟨rfl, ?_⟩
      rw [List.map_cons, hr, SizedVec.collectOption]

theorem answer {val : CNum F → Option F} {R : (t : Ty) → t.S F → Except Panic (Option (t.V F))}
    (hnum : ∀ a : CNum F, R .num a = .ok (val a))
    (hbool : ∀ a : CBool F, R .bool a = match val a.num with
      | none => .ok none
      | some v => (intoBool v).map some)
    (hpair : ∀ t u a, R (.pair t u) a = optPair (R t a.1) (R u a.2))
    (hvec : ∀ n t a, R (.vec n t) a = SizedVec.collectOption [] (a.items.map (R t)))
    (t : Ty) (a : t.S F) (ha : Ty.Sane val t a) : Answer val t a (R t a) := by
  induction t with
  | num =>
    have hn := hnum a
    cases h : val a with
    | none =>
      rw [h] at hn
      exact .outside (x := a) (by unfold Ty.marked; simp [h]) hn
    | some v =>
      rw [h] at hn
      exact .all (by unfold Ty.marked; simp [h]) v hn (show [val a] = [some v] by rw [h])
  | bool =>
    have hn := hbool a
    cases h : val (CBool.num a) with
    | none =>
      rw [h] at hn
      exact .outside (x := CBool.num a) (by unfold Ty.marked; simp [h]) hn
    | some v =>
      rw [h] at hn
      rcases ha v h with rfl | rfl
      · exact .all (by unfold Ty.marked; simp [h]) false (hn.trans (by simp [intoBool, Except.map]))
          (show [val (CBool.num a)] = [some (if false then 1 else 0)] by rw [h]; rfl)
      · exact .all (by unfold Ty.marked; simp [h]) true (hn.trans (by simp [intoBool, Except.map]))
          (show [val (CBool.num a)] = [some (if true then 1 else 0)] by rw [h]; rfl)
  | pair t u iht ihu =>
    rw [hpair]
    have hf : (Ty.marked F (.pair t u) false a).find? (fun x => (val x.2).isNone) =
        ((Ty.marked F t false a.1).find? (fun x => (val x.2).isNone)).or ((Ty.marked F u false a.2).find? (fun x => (val x.2).isNone)) :=
      List.find?_append
    rcases (iht a.1 ha.1).cases with ⟨he, v, hr, hv⟩ | ⟨x, he, hr⟩ | ⟨x, he, hr⟩
    · rw [he] at hf
      rcases (ihu a.2 ha.2).cases with ⟨he', v', hr', hv'⟩ | ⟨x, he', hr'⟩ | ⟨x, he', hr'⟩
      · rw [he'] at hf
        refine .all hf (v, v') (by rw [hr, hr']; rfl) ?_
        show (t.leaves F a.1 ++ u.leaves F a.2).map val = (t.flat F v ++ u.flat F v').map some
        rw [List.map_append, List.map_append, hv, hv']
      · rw [he'] at hf; exact .outside hf (by rw [hr, hr']; rfl)
      · rw [he'] at hf; exact .inside hf (by rw [hr, hr']; rfl)
    · rw [he] at hf; exact .outside hf (by rw [hr]; rfl)
    · rw [he] at hf; exact .inside hf (by rw [hr]; rfl)
  | vec n t ih =>
    rw [hvec]
    have := collect_answer (val := val) (n := n) a.items (R := R t) (fun y hy => ih y (ha.2 y hy)) [] (by simpa using ha.1)
    split at this
    · next he =>
      obtain ⟨vs, h1, h2⟩ := this
      exact .all he ⟨vs⟩ h1 h2
    · next x he =>
      obtain ⟨m, x⟩ := x
      obtain ⟨rfl, h⟩ := this
      exact .inside he h

/-- C62 exactly, for `get_value`: with all values there it returns them; otherwise the first component without a value
decides, outside vectors the answer is `None`, inside a vector the call panics. -/
theorem C62_get_value_exact (t : Ty) (a : t.S F) (ha : Ty.Sane CNum.value t a) : Answer CNum.value t a (t.getValue a) :=
  answer (R := fun t a => t.getValue a) (fun _ => rfl) (fun _ => rfl) (fun _ _ _ => rfl) (fun _ _ _ => rfl) t a ha

/-- C62 exactly, for `as_const`: the same with the first component that is not a constant. -/
theorem C62_as_const_exact (t : Ty) (a : t.S F) (ha : Ty.Sane CNum.asConst t a) : Answer CNum.asConst t a (t.asConst a) :=
  answer (R := fun t a => t.asConst a) (fun _ => rfl) (fun _ => rfl) (fun _ _ _ => rfl) (fun _ _ _ => rfl) t a ha

/-- Types built from numbers, booleans, tuples and structs only. -/
def Ty.VectorFree : Ty → Prop
  | .num => True
  | .bool => True
  | .pair a b => Ty.VectorFree a ∧ Ty.VectorFree b
  | .vec _ _ => False

theorem marked_vectorFree (t : Ty) (ht : Ty.VectorFree t) (a : t.S F) : Ty.marked F t false a = (t.leaves F a).map fun x => (false, x) := by
  induction t with
  | num => rfl
  | bool => rfl
  | pair t u iht ihu =>
    show Ty.marked F t false a.1 ++ Ty.marked F u false a.2 = (t.leaves F a.1 ++ u.leaves F a.2).map _
    rw [List.map_append, iht ht.1, ihu ht.2]
  | vec n t ih => exact ht.elim

theorem answer_vectorFree {val : CNum F → Option F} {t : Ty} (ht : Ty.VectorFree t) {a : t.S F} {r : Except Panic (Option (t.V F))}
    (h : Answer val t a r) : (∃ o, r = .ok o) ∧ (r = .ok none ↔ ∃ x ∈ t.leaves F a, val x = none) := by
  have hm := marked_vectorFree t ht a
  rcases h.cases with ⟨he, v, rfl, -⟩ | ⟨x, he, rfl⟩ | ⟨x, he, rfl⟩
  · refine ⟨⟨_, rfl⟩, by simp, ?_⟩
    rintro ⟨x, hx, hn⟩
    rw [List.find?_eq_none] at he
    exact absurd (he (false, x) (by rw [hm]; exact List.mem_map_of_mem hx)) (by simp [hn])
  · refine ⟨⟨_, rfl⟩, fun _ => ?_, fun _ => rfl⟩
    have h1 := List.find?_some he
    have h2 := List.mem_of_find?_eq_some he
    rw [hm] at h2
    obtain ⟨y, hy, hxy⟩ := List.mem_map.1 h2
    obtain rfl : y = x := (Prod.mk.inj hxy).2
    exact ⟨y, hy, by simpa using h1⟩
  · have h2 := List.mem_of_find?_eq_some he
    rw [hm] at h2
    obtain ⟨y, hy, hxy⟩ := List.mem_map.1 h2
    exact absurd (Prod.mk.inj hxy).1 (by simp)

/-- C62 for types without vectors, as stated: `get_value` and `as_const` never panic, and return `None` exactly if some
component has no value or is not a constant. -/
theorem C62_no_vectors (t : Ty) (ht : Ty.VectorFree t) (a : t.S F) (hv : Ty.Sane CNum.value t a) (hc : Ty.Sane CNum.asConst t a) :
    ((∃ o, t.getValue a = .ok o) ∧ (t.getValue a = .ok none ↔ ∃ x ∈ t.leaves F a, x.value = none)) ∧
    (∃ o, t.asConst a = .ok o) ∧ (t.asConst a = .ok none ↔ ∃ x ∈ t.leaves F a, x.asConst = none) :=
  ⟨answer_vectorFree ht (C62_get_value_exact t a hv), answer_vectorFree ht (C62_as_const_exact t a hc)⟩

/-- Concrete: the second component, a boolean, has no value; the vector after it is not reached and the answer is `None`. -/
example : exTy.getValue (F := ZMod 7) (⟨some 3, [(.aux 0, 1)]⟩, (⟨⟨none, [(.aux 1, 1)]⟩⟩, ⟨[⟨none, []⟩, ⟨none, []⟩]⟩)) = .ok none := by
  have h := C62_get_value_exact (F := ZMod 7) exTy
    (⟨some 3, [(.aux 0, 1)]⟩, (⟨⟨none, [(.aux 1, 1)]⟩⟩, ⟨[⟨none, []⟩, ⟨none, []⟩]⟩)) ⟨trivial, (by rintro v ⟨⟩), rfl, fun _ _ => trivial⟩
  exact h

/-- Concrete: the last number in the vector is not a constant, everything else is; `as_const` panics. -/
example : exTy.asConst (F := ZMod 7) (CNum.fromConst 3, (CBool.fromConst true, ⟨[CNum.fromConst 5, ⟨some 1, [(.aux 0, 1)]⟩]⟩)) =
    .error .assertion := by
  have h := C62_as_const_exact (F := ZMod 7) exTy (CNum.fromConst 3, (CBool.fromConst true, ⟨[CNum.fromConst 5, ⟨some 1, [(.aux 0, 1)]⟩]⟩))
    ⟨trivial, (by intro v hv; right; exact (Option.some.inj hv).symm), rfl, fun _ _ => trivial⟩
  exact h

end Fawkes.Props
