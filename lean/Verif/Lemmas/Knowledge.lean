import Verif.Props.Algebraic
import Verif.Lemmas.Varies

/-!
# Which variables an allocated signal consists of
-/

namespace Fawkes

variable {F : Type} [Field F] [DecidableEq F]

/-- The signal consists of the next `n` variables, in order. -/
def NextVars (t : Ty) (n : Nat) (s : CS F) (a : t.S F) (s' : CS F) : Prop :=
  s'.naux = s.naux + n ∧ ∀ w, t.evals w a = (List.range n).map fun i => w (.aux (s.naux + i))

theorem range_append (f : Nat → F) (m n : Nat) :
    (List.range (m + n)).map f = (List.range m).map f ++ (List.range n).map fun i => f (m + i) := by
  rw [List.range_add, List.map_append, List.map_map]; rfl

theorem post_alloc_next (v : Option F) (s : CS F) (hb : s.backend ≠ .test) :
    Post s (CNum.alloc v) (fun a s' => s'.naux = s.naux + 1 ∧ ∀ w, a.lc.eval w = w (.aux s.naux)) := by
  intro a s' h
  obtain ⟨-, hl, rfl⟩ := post_alloc s v _ _ h
  have hn : s.nextAlloc = .aux s.naux := by
    unfold CS.nextAlloc
    cases hs : s.backend with
    | test => exact absurd hs hb
    | setup => rfl
    | prove => rfl
  rw [hn] at hl ⊢
  refine ⟨rfl, fun w => ?_⟩
  rw [hl]; simp [LC.eval]

theorem post_listMapM_next (t : Ty) {A : Type} {f : A → M F (t.S F)} (as : List A) (s : CS F) (hb : s.backend ≠ .test)
    (hf : ∀ a ∈ as, ∀ s : CS F, s.backend ≠ .test → Post s (f a) (NextVars t t.width s)) :
    Post s (listMapM f as) (fun bs s' => bs.length = as.length ∧ s'.naux = s.naux + as.length * t.width ∧
      ∀ w, bs.flatMap (t.evals w) = (List.range (as.length * t.width)).map fun i => w (.aux (s.naux + i))) := by
  induction as generalizing s with
  | nil => exact Post.pure ⟨rfl, by simp, by simp⟩
  | cons a as ih =>
    refine Post.bind (hf a (by simp) s hb) fun b s1 r1 h1 => ?_
    have hb1 : s1.backend ≠ .test := by rw [r1.backend]; exact hb
    refine Post.bind (ih s1 hb1 (fun a ha => hf a (by simp [ha]))) fun bs s2 _ h2 => ?_
    refine Post.pure ⟨by simp [h2.1], ?_, fun w => ?_⟩
    · rw [h2.2.1, h1.1, List.length_cons]; ring
    · rw [List.flatMap_cons, h2.2.2, h1.2, List.length_cons, Nat.succ_mul, Nat.add_comm, range_append, h1.1]
      simp only [Nat.add_assoc]

theorem Ty.post_alloc_next (t : Ty) (v : Option (t.V F)) (s : CS F) (hb : s.backend ≠ .test) :
    Post s (t.alloc v) (NextVars t t.width s) := by
  induction t generalizing s with
  | num =>
    refine (Fawkes.post_alloc_next (show Option F from v) s hb).mono fun a s' _ h => ⟨h.1, fun w => ?_⟩
    rw [Ty.evals_num, h.2]; rfl
  | bool =>
    refine Post.bind (Fawkes.post_alloc_next _ s hb) fun a s' _ h => Post.pure ⟨h.1, fun w => ?_⟩
    rw [Ty.evals_bool]
    show [a.lc.eval w] = _
    rw [h.2]; rfl
  | pair t u iht ihu =>
    refine Post.bind (iht _ s hb) fun a s1 r1 h1 => ?_
    have hb1 : s1.backend ≠ .test := by rw [r1.backend]; exact hb
    refine Post.bind (ihu _ s1 hb1) fun b s2 _ h2 => Post.pure ⟨?_, fun w => ?_⟩
    · rw [h2.1, h1.1]; simp only [Ty.width]; omega
    · refine (Ty.evals_pair t u w (show (Ty.pair t u).S F from (a, b))).trans ?_
      show t.evals w a ++ u.evals w b = _
      rw [h2.2, h1.2, Ty.width, range_append, h1.1]
      simp only [Nat.add_assoc]
  | vec n t ih =>
    have key : ∀ {A : Type} (f : A → M F (t.S F)) (as : List A),
        (∀ a ∈ as, ∀ s : CS F, s.backend ≠ .test → Post s (f a) (NextVars t t.width s)) →
        Post s (listMapM f as >>= fun l => M.lift (SizedVec.collect l)) (NextVars (.vec n t) (Ty.vec n t).width s) := by
      intro A f as hf
      refine Post.bind (post_listMapM_next t as s hb hf) fun l s1 r1 h1 => Post.lift ?_
      intro r hr
      unfold SizedVec.collect at hr
      split at hr
      · next hl =>
        injection hr with hr; subst hr
        rw [← h1.1, hl] at h1
        exact ⟨h1.2.1, fun w => (Ty.evals_vec n t w (show (Ty.vec n t).S F from ⟨l⟩)).trans (h1.2.2 w)⟩
      · cases hr
    cases v with
    | none => exact key _ _ fun a _ s hs => ih none s hs
    | some v => exact key _ _ fun a _ s hs => ih (some a) s hs

/-- Every number inside an allocated signal is a variable. -/
theorem Ty.post_alloc_vars (t : Ty) (v : Option (t.V F)) (s : CS F) (hs : s.WF) :
    Post s (t.alloc v) (fun a s' => ∀ x ∈ t.linearize a, x.lc.Alloc s' ∧ Varies x) := by
  induction t generalizing s with
  | num =>
    refine (post_alloc_fresh hs (show Option F from v)).mono fun a s' _ h x hx => ?_
    rw [List.mem_singleton.1 hx]
    exact ⟨h.2.1, h.1.varies⟩
  | bool =>
    refine Post.bind (post_alloc_fresh hs _) fun a s' _ h => Post.pure fun x hx => ?_
    rw [List.mem_singleton.1 hx]
    exact ⟨h.2.1, h.1.varies⟩
  | pair t u iht ihu =>
    refine Post.bind (iht _ s hs) fun a s1 e1 h1 => ?_
    refine Post.bind (ihu _ s1 (e1.wf hs)) fun b s2 e2 h2 => Post.pure fun x hx => ?_
    rcases List.mem_append.1 hx with hx | hx
    · exact ⟨(h1 x hx).1.mono e2, (h1 x hx).2⟩
    · exact h2 x hx
  | vec n t ih =>
    have key : ∀ {A : Type} (f : A → M F (t.S F)) (as : List A),
        (∀ a ∈ as, ∀ s : CS F, s.WF → Post s (f a) (fun a s' => ∀ x ∈ t.linearize a, x.lc.Alloc s' ∧ Varies x)) →
        Post s (listMapM f as >>= fun l => M.lift (SizedVec.collect l))
          (fun (a : (Ty.vec n t).S F) s' => ∀ x ∈ (Ty.vec n t).linearize a, x.lc.Alloc s' ∧ Varies x) := by
      intro A f as hf
      have hl : Post s (listMapM f as) (fun l s' => ∀ a ∈ l, ∀ x ∈ t.linearize a, x.lc.Alloc s' ∧ Varies x) := by
        clear ih
        induction as generalizing s with
        | nil => exact Post.pure (by simp)
        | cons a as ih =>
          refine Post.bind (hf a (by simp) s hs) fun b s1 e1 h1 => ?_
          refine Post.bind (ih s1 (e1.wf hs) fun a ha => hf a (by simp [ha])) fun bs s2 e2 h2 => Post.pure fun c hc x hx => ?_
          rcases List.mem_cons.1 hc with rfl | hc
          · exact ⟨(h1 x hx).1.mono e2, (h1 x hx).2⟩
          · exact h2 c hc x hx
      refine Post.bind hl fun l s1 _ h1 => Post.lift fun r hr => ?_
      unfold SizedVec.collect at hr
      split at hr
      · injection hr with hr; subst hr
        intro x hx
        obtain ⟨a, ha, hx⟩ := List.mem_flatMap.1 hx
        exact h1 a ha x hx
      · cases hr
    cases v with
    | none => exact key _ _ fun a _ s hs => ih none s hs
    | some v => exact key _ _ fun a _ s hs => ih (some a) s hs

/-- Every number inside an allocated signal is a new variable. -/
theorem Ty.post_alloc_new (t : Ty) (v : Option (t.V F)) (s : CS F) (hs : s.WF) :
    Post s (t.alloc v) (fun a s' => ∀ x ∈ t.linearize a, x.lc.Alloc s' ∧ FreshVar s x) := by
  induction t generalizing s with
  | num =>
    refine (post_alloc_fresh hs (show Option F from v)).mono fun a s' _ h x hx => ?_
    rw [List.mem_singleton.1 hx]
    exact ⟨h.2.1, h.1⟩
  | bool =>
    refine Post.bind (post_alloc_fresh hs _) fun a s' _ h => Post.pure fun x hx => ?_
    rw [List.mem_singleton.1 hx]
    exact ⟨h.2.1, h.1⟩
  | pair t u iht ihu =>
    refine Post.bind (iht _ s hs) fun a s1 e1 h1 => ?_
    refine Post.bind (ihu _ s1 (e1.wf hs)) fun b s2 e2 h2 => Post.pure fun x hx => ?_
    rcases List.mem_append.1 hx with hx | hx
    · exact ⟨(h1 x hx).1.mono e2, (h1 x hx).2⟩
    · exact ⟨(h2 x hx).1, (h2 x hx).2.anti e1⟩
  | vec n t ih =>
    have key : ∀ {A : Type} (f : A → M F (t.S F)) (as : List A),
        (∀ a ∈ as, ∀ s : CS F, s.WF → Post s (f a) (fun a s' => ∀ x ∈ t.linearize a, x.lc.Alloc s' ∧ FreshVar s x)) →
        Post s (listMapM f as >>= fun l => M.lift (SizedVec.collect l))
          (fun (a : (Ty.vec n t).S F) s' => ∀ x ∈ (Ty.vec n t).linearize a, x.lc.Alloc s' ∧ FreshVar s x) := by
      intro A f as hf
      have hl : Post s (listMapM f as) (fun l s' => ∀ a ∈ l, ∀ x ∈ t.linearize a, x.lc.Alloc s' ∧ FreshVar s x) := by
        clear ih
        induction as generalizing s with
        | nil => exact Post.pure (by simp)
        | cons a as ih =>
          refine Post.bind (hf a (by simp) s hs) fun b s1 e1 h1 => ?_
          refine Post.bind (ih s1 (e1.wf hs) fun a ha => hf a (by simp [ha])) fun bs s2 e2 h2 => Post.pure fun c hc x hx => ?_
          rcases List.mem_cons.1 hc with rfl | hc
          · exact ⟨(h1 x hx).1.mono e2, (h1 x hx).2⟩
          · exact ⟨(h2 c hc x hx).1, (h2 c hc x hx).2.anti e1⟩
      refine Post.bind hl fun l s1 _ h1 => Post.lift fun r hr => ?_
      unfold SizedVec.collect at hr
      split at hr
      · injection hr with hr; subst hr
        intro x hx
        obtain ⟨a, ha, hx⟩ := List.mem_flatMap.1 hx
        exact h1 a ha x hx
      · cases hr
    cases v with
    | none => exact key _ _ fun a _ s hs => ih none s hs
    | some v => exact key _ _ fun a _ s hs => ih (some a) s hs

end Fawkes
