import Verif.Model.Signal
import Verif.Lemmas.LinkGadgets

/-!
# Two runs of the same circuit code: compound signals and generated circuits
-/

set_option linter.unusedSectionVars false

namespace Fawkes

variable {F : Type} [Field F] [DecidableEq F] {X : Link F}

/-- Corresponding compound signals of the two runs. -/
def Ty.Fits (X : Link F) : (t : Ty) → t.S F → t.S F → Prop
  | .num, a, b => X.fit a b
  | .bool, a, b => X.fit (CBool.num a) (CBool.num b)
  | .pair t u, a, b => t.Fits X a.1 b.1 ∧ u.Fits X a.2 b.2
  | .vec _ t, a, b => List.Forall₂ (t.Fits X) (SizedVec.items a) (SizedVec.items b)

theorem sim_listMapM {A B C D : Type} {p : Bool} {S : A → B → Prop} {R : C → D → Prop} {f : A → M F C} {g : B → M F D}
    (h : ∀ a b, S a b → Sim X p (f a) (g b) R) {l : List A} {m : List B} (hl : List.Forall₂ S l m) :
    Sim X p (listMapM f l) (listMapM g m) (List.Forall₂ R) := by
  induction hl with
  | nil => exact Sim.pure .nil
  | cons h1 _ ih => exact Sim.bind (h _ _ h1) fun _ _ h1 => Sim.bind ih fun _ _ h2 => Sim.pure (.cons h1 h2)

theorem post_listMapM_length {A C : Type} (f : A → M F C) (l : List A) (s : CS F) :
    Post s (listMapM f l) (fun r _ => r.length = l.length) := by
  induction l generalizing s with
  | nil => exact Post.pure rfl
  | cons a l ih => exact Post.bind Post.true fun _ _ _ _ => Post.bind (ih _) fun _ _ _ h => Post.pure (by simp [h])

theorem sim_collect {p : Bool} {S S' : Type} {R : S → S' → Prop} {n : Nat} {l : List S} {m : List S'} (h : List.Forall₂ R l m) :
    Sim X p (M.lift (SizedVec.collect l : Except Panic (SizedVec S n)) : M F _) (M.lift (SizedVec.collect m : Except Panic (SizedVec S' n)))
      (fun a b => List.Forall₂ R a.items b.items) := by
  refine Sim.lift fun a ha => ?_
  unfold SizedVec.collect at ha ⊢
  rw [← h.length_eq]
  split at ha
  · next hn => injection ha with ha; subst ha; rw [if_pos hn]; exact ⟨⟨m⟩, rfl, h⟩
  · cases ha

theorem forall₂_true {A B : Type} {l : List A} {m : List B} (h : l.length = m.length) :
    List.Forall₂ (fun _ _ => True) l m := by
  induction l generalizing m with
  | nil => cases m with
    | nil => exact .nil
    | cons => simp at h
  | cons a l ih => cases m with
    | nil => simp at h
    | cons b m => exact .cons trivial (ih (by simpa using h))

theorem Ty.sim_alloc (t : Ty) (u v : Option (t.V F)) (h : X.V u v) : Sim X false (t.alloc u) (t.alloc (F := F) v) (t.Fits X) := by
  induction t with
  | num => exact Fawkes.sim_alloc h
  | bool => exact sim_boolAlloc h
  | pair t t' ih ih' =>
    exact Sim.bind (ih _ _ (h.map _)) fun _ _ h1 => Sim.bind (ih' _ _ (h.map _)) fun _ _ h2 => Sim.pure ⟨h1, h2⟩
  | vec n t ih =>
    rcases h with ⟨hl, rfl⟩ | ⟨rfl, hk⟩
    · have hnone : ∀ u, Sim X false (t.alloc u) (t.alloc (F := F) none) (t.Fits X) := fun u => ih u none (Or.inl ⟨hl, rfl⟩)
      cases u with
      | none =>
        exact Sim.bind (sim_listMapM (fun _ _ _ => hnone none) (forall₂_true rfl)) fun _ _ h => sim_collect h
      | some v =>
        by_cases hn : (SizedVec.items v).length = n
        · exact Sim.bind (sim_listMapM (fun x _ _ => hnone (some x)) (forall₂_true (by rw [hn, List.length_range])))
            fun _ _ h => sim_collect h
        · intro s s2 _ a s' h1
          exfalso
          obtain ⟨l, s1, h1, h2⟩ := M.bind_ok h1
          have hl := post_listMapM_length _ _ _ _ _ h1
          have : (SizedVec.collect l : Except Panic (SizedVec (t.S F) n)) = .error .assertion := by
            unfold SizedVec.collect; rw [if_neg (by rw [hl]; exact hn)]
          rw [this] at h2
          change Except.error _ = _ at h2
          cases h2
    · cases v with
      | none =>
        refine Sim.bind (sim_listMapM (S := fun _ _ => True) (fun _ _ _ => ih none none (Or.inr ⟨rfl, fun k => absurd rfl (hk k)⟩))
          (forall₂_true rfl)) fun _ _ h => sim_collect h
      | some v =>
        exact Sim.bind (sim_listMapM (S := fun a b => a = b)
          (fun x y hxy => by subst hxy; exact ih (some x) (some x) (Link.V.some x)) (List.forall₂_same.2 fun _ _ => rfl))
            fun _ _ h => sim_collect h

theorem sim_listForM {A B : Type} {p : Bool} {R : A → B → Prop} {f : A → M F Unit} {g : B → M F Unit}
    (h : ∀ a b, R a b → Sim X p (f a) (g b) (fun _ _ => True)) {l : List A} {m : List B} (hl : List.Forall₂ R l m) :
    Sim X p (listForM f l) (listForM g m) (fun _ _ => True) := by
  induction hl with
  | nil => exact Sim.pure trivial
  | cons h1 _ ih => exact Sim.bind (h _ _ h1) fun _ _ _ => ih

theorem Ty.sim_inputize (t : Ty) {a b : t.S F} (h : t.Fits X a b) :
    Sim X true (t.inputize a) (t.inputize b) (fun _ _ => True) := by
  induction t with
  | num => exact Fawkes.sim_inputize h
  | bool => exact Fawkes.sim_inputize (a := CBool.num a) (a' := CBool.num b) h
  | pair t t' ih ih' => exact Sim.bind (ih h.1) fun _ _ _ => ih' h.2
  | vec n t ih => exact sim_listForM (fun _ _ h => ih h) h

theorem Ty.fits_linearize (t : Ty) {a b : t.S F} (h : t.Fits X a b) : List.Forall₂ X.fit (t.linearize a) (t.linearize b) := by
  induction t with
  | num => exact .cons h .nil
  | bool => exact .cons h .nil
  | pair t t' ih ih' => exact List.rel_append (ih h.1) (ih' h.2)
  | vec n t ih =>
    obtain ⟨a⟩ := a
    obtain ⟨b⟩ := b
    change List.Forall₂ (t.Fits X) a b at h
    change List.Forall₂ X.fit (a.flatMap fun x => t.linearize x) (b.flatMap fun x => t.linearize x)
    induction h with
    | nil => exact .nil
    | cons h1 _ ih2 => exact List.rel_append (ih h1) ih2

end Fawkes
