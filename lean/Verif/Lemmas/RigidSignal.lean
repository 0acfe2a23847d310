import Verif.Lemmas.RigidCode
import Verif.Lemmas.LinkSignal
import Verif.Lemmas.Signal

/-!
# Signals of any type: which helper variables are determined
-/

set_option linter.unusedSectionVars false

namespace Fawkes

variable {F : Type} [Field F] [DecidableEq F] {w w' : Index → F} {s : CS F}

/-- Every variable that the second state has in addition is one of the signals. -/
def Fills (s : CS F) (l : List (CNum F)) (s' : CS F) : Prop :=
  ∀ k ∈ s'.vars.map Prod.fst, k ∈ s.vars.map Prod.fst ∨ ∃ x ∈ l, x.lc = [(k, 1)]

theorem Fills.append {s s1 s2 : CS F} {l m : List (CNum F)} (h1 : Fills s l s1) (h2 : Fills s1 m s2) : Fills s (l ++ m) s2 := by
  intro k hk
  rcases h2 k hk with hk | ⟨x, hx, e⟩
  · rcases h1 k hk with hk | ⟨x, hx, e⟩
    · exact Or.inl hk
    · exact Or.inr ⟨x, List.mem_append_left _ hx, e⟩
  · exact Or.inr ⟨x, List.mem_append_right _ hx, e⟩

theorem fills_alloc (v : Option F) (s : CS F) : Post s (CNum.alloc v) (fun a s' => Fills s [a] s') := by
  intro a s' h k hk
  obtain ⟨-, hl, rfl⟩ := post_alloc s v _ _ h
  rw [pushVar_vars, List.map_append, List.mem_append] at hk
  rcases hk with hk | hk
  · exact Or.inl hk
  · simp only [List.map_cons, List.map_nil, List.mem_singleton] at hk
    subst hk
    exact Or.inr ⟨a, by simp, hl⟩

theorem fills_listMapM (t : Ty) {A : Type} {f : A → M F (t.S F)} (as : List A) (s : CS F)
    (hf : ∀ a ∈ as, ∀ s : CS F, Post s (f a) (fun b s' => Fills s (t.leaves F b) s')) :
    Post s (listMapM f as) (fun bs s' => Fills s (bs.flatMap (t.leaves F)) s') := by
  induction as generalizing s with
  | nil => exact Post.pure fun k hk => Or.inl hk
  | cons a as ih =>
    refine Post.bind (hf a (by simp) s) fun b s1 r1 h1 => ?_
    exact Post.bind (ih s1 (fun a ha => hf a (by simp [ha]))) fun bs s2 _ h2 => Post.pure (h1.append h2)

theorem Ty.fills_alloc (t : Ty) (v : Option (t.V F)) (s : CS F) :
    Post s (t.alloc v) (fun a s' => Fills s (t.leaves F a) s') := by
  induction t generalizing s with
  | num => exact Fawkes.fills_alloc (show Option F from v) s
  | bool =>
    refine Post.bind (Fawkes.fills_alloc _ s) fun a s' _ h => Post.pure ?_
    exact h
  | pair t u iht ihu =>
    exact Post.bind (iht _ s) fun a s1 r1 h1 => Post.bind (ihu _ s1) fun b s2 _ h2 => Post.pure (h1.append h2)
  | vec n t ih =>
    have key : ∀ {A : Type} (f : A → M F (t.S F)) (as : List A),
        (∀ a ∈ as, ∀ s : CS F, Post s (f a) (fun b s' => Fills s (t.leaves F b) s')) →
        Post s (listMapM f as >>= fun l => M.lift (SizedVec.collect l))
          (fun (b : (Ty.vec n t).S F) s' => Fills s ((Ty.vec n t).leaves F b) s') := by
      intro A f as hf
      refine Post.bind (fills_listMapM t as s hf) fun l s1 r1 h1 => Post.lift ?_
      intro r hr
      unfold SizedVec.collect at hr
      split at hr
      · injection hr with hr; subst hr; exact h1
      · cases hr
    cases v with
    | none => exact key _ _ fun a _ s => ih none s
    | some v => exact key _ _ fun a _ s => ih (some a) s

/-- The signals of an allocation are canonical. -/
theorem Ty.tidy_alloc (t : Ty) (v : Option (t.V F)) {s s' : CS F} {a : t.S F} (hs : s.WF) (h : (t.alloc v).run s = .ok (a, s')) :
    Tidy s' (t.linearize a) := by
  have e := M.run_ext h
  obtain ⟨_, _, _, _, h3⟩ := Ty.sim_alloc (X := tidyLink s' (e.wf hs)) t v v (Or.inr ⟨rfl, fun k => by cases k⟩) s s rfl _ _ h
    (List.prefix_refl _)
  exact tidyLink_tidy (t.fits_linearize h3)

section
variable (hw : IsAssignment w) (hw' : IsAssignment w')
include hw hw'

theorem rig_listForM {A : Type} {f : A → M F Unit} (l : List A) (h : ∀ a ∈ l, ∀ s, Rig w w' s (f a) (fun _ _ => True)) :
    ∀ {s : CS F}, Rig w w' s (listForM f l) (fun _ _ => True) := by
  induction l with
  | nil => intro s; exact Rig.pure trivial
  | cons a l ih => intro s; exact Rig.bind (h a (by simp) s) fun _ _ _ _ => ih fun b hb => h b (by simp [hb])

theorem rig_zipForM {A B : Type} {f : A → B → M F Unit} (as : List A) : ∀ (bs : List B) {s : CS F},
    (∀ a ∈ as, ∀ b ∈ bs, ∀ s, Rig w w' s (f a b) (fun _ _ => True)) → Rig w w' s (zipForM f as bs) (fun _ _ => True) := by
  induction as with
  | nil => intro bs s _; exact Rig.pure trivial
  | cons a as ih =>
    intro bs s h
    cases bs with
    | nil => exact Rig.pure trivial
    | cons b bs => exact Rig.bind (h a (by simp) b (by simp) s) fun _ _ _ _ => ih bs fun x hx y hy => h x (by simp [hx]) y (by simp [hy])

theorem rig_zipMapM {A B C : Type} {f : A → B → M F C} {Q : C → Prop} (as : List A) : ∀ (bs : List B) {s : CS F},
    (∀ a ∈ as, ∀ b ∈ bs, ∀ s, Rig w w' s (f a b) (fun c _ => Q c)) → Rig w w' s (zipMapM f as bs) (fun cs _ => ∀ c ∈ cs, Q c) := by
  induction as with
  | nil => intro bs s _; exact Rig.pure (by simp)
  | cons a as ih =>
    intro bs s h
    cases bs with
    | nil => exact Rig.pure (by simp)
    | cons b bs =>
      refine Rig.bind (h a (by simp) b (by simp) s) fun c _ _ hc => ?_
      refine Rig.bind (ih bs fun x hx y hy => h x (by simp [hx]) y (by simp [hy])) fun cs _ _ hcs => Rig.pure ?_
      simpa using ⟨hc, hcs⟩

theorem Ty.rig_inputize (t : Ty) {a : t.S F} (h : ∀ x ∈ t.leaves F a, Same w w' x) : ∀ {s : CS F},
    Rig w w' s (t.inputize a) (fun _ _ => True) := by
  induction t with
  | num => intro s; exact Fawkes.rig_inputize hw hw' (h a (List.mem_singleton.2 rfl))
  | bool => intro s; exact Fawkes.rig_inputize hw hw' (h a.num (List.mem_singleton.2 rfl))
  | pair t u iht ihu =>
    intro s
    exact Rig.bind (iht fun x hx => h x (List.mem_append_left _ hx)) fun _ _ _ _ => ihu fun x hx => h x (List.mem_append_right _ hx)
  | vec n t ih =>
    intro s
    exact rig_listForM hw hw' _ fun b hb s => ih fun x hx => h x (List.mem_flatMap.2 ⟨b, hb, hx⟩)

theorem Ty.rig_assertEq (t : Ty) (a b : t.S F) : ∀ {s : CS F}, Rig w w' s (t.assertEq a b) (fun _ _ => True) := by
  induction t with
  | num => intro s; exact rig_assertZero hw hw'
  | bool => intro s; exact rig_assertZero hw hw'
  | pair t u iht ihu => intro s; exact Rig.bind (iht _ _) fun _ _ _ _ => ihu _ _
  | vec n t ih => intro s; exact rig_zipForM hw hw' _ _ fun x _ y _ s => ih x y

theorem Ty.rig_assertConst (t : Ty) (a : t.S F) (v : t.V F) : ∀ {s : CS F}, Rig w w' s (t.assertConst a v) (fun _ _ => True) := by
  induction t with
  | num => intro s; exact Fawkes.rig_assertConst hw hw' _
  | bool => intro s; exact Fawkes.rig_assertConst hw hw' _
  | pair t u iht ihu => intro s; exact Rig.bind (iht _ _) fun _ _ _ _ => ihu _ _
  | vec n t ih => intro s; exact rig_zipForM hw hw' _ _ fun x _ y _ s => ih x y

theorem Ty.rig_switch (t : Ty) {c : CBool F} (hc : Same w w' c.num) {a b : t.S F} (ha : ∀ x ∈ t.leaves F a, Same w w' x)
    (hb : ∀ x ∈ t.leaves F b, Same w w' x) : ∀ {s : CS F},
    Rig w w' s (t.switch a c b) (fun o _ => ∀ x ∈ t.leaves F o, Same w w' x) := by
  induction t with
  | num =>
    intro s
    refine (Fawkes.rig_switch hw hw' (ha a (List.mem_singleton.2 rfl)) (hb b (List.mem_singleton.2 rfl)) hc).mono fun o _ _ h x hx => ?_
    rw [List.mem_singleton.1 hx]; exact h
  | bool =>
    intro s
    refine Rig.bind (Fawkes.rig_switch hw hw' (ha a.num (List.mem_singleton.2 rfl)) (hb b.num (List.mem_singleton.2 rfl)) hc)
      fun o _ _ h => Rig.pure fun x hx => ?_
    rw [List.mem_singleton.1 hx]; exact h
  | pair t u iht ihu =>
    intro s
    refine Rig.bind (iht (fun x hx => ha x (List.mem_append_left _ hx)) fun x hx => hb x (List.mem_append_left _ hx)) fun p _ _ hp => ?_
    refine Rig.bind (ihu (fun x hx => ha x (List.mem_append_right _ hx)) fun x hx => hb x (List.mem_append_right _ hx)) fun q _ _ hq => ?_
    exact Rig.pure fun x hx => (List.mem_append.1 hx).elim (hp x) (hq x)
  | vec n t ih =>
    intro s
    refine Rig.bind (rig_zipMapM hw hw' (Q := fun o => ∀ x ∈ t.leaves F o, Same w w' x) _ _ fun p hp q hq s =>
      ih (fun x hx => ha x (List.mem_flatMap.2 ⟨p, hp, hx⟩)) fun x hx => hb x (List.mem_flatMap.2 ⟨q, hq, hx⟩)) fun l _ _ hl => ?_
    refine Rig.lift fun o ho => ?_
    unfold SizedVec.collect at ho
    split at ho
    · injection ho with ho; subst ho
      intro x hx
      obtain ⟨y, hy, hx⟩ := List.mem_flatMap.1 hx
      exact hl y hy x hx
    · cases ho

end

end Fawkes
