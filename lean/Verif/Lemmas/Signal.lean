import Verif.Spec.Signal
import Verif.Lemmas.Program

/-!
# Compound signals: laws by induction on the signal type
-/

set_option linter.unusedSectionVars false

namespace Fawkes

variable {F : Type} [Field F] [DecidableEq F]

/-! ## Lists -/

theorem append_eq_iff {α : Type} {a b c d : List α} (h : a.length = c.length) :
    a ++ b = c ++ d ↔ a = c ∧ b = d :=
  ⟨fun e => List.append_inj e h, fun ⟨e1, e2⟩ => by rw [e1, e2]⟩

theorem flatMap_length {α β : Type} {f : α → List β} {k : Nat} {l : List α} (h : ∀ x ∈ l, (f x).length = k) :
    (l.flatMap f).length = l.length * k := by
  induction l with
  | nil => simp
  | cons a l ih =>
    simp only [List.flatMap_cons, List.length_append, List.length_cons]
    rw [h a (by simp), ih fun x hx => h x (by simp [hx])]; ring

theorem SizedVec.collect_ok {T : Type} {n : Nat} {l : List T} (h : l.length = n) :
    (SizedVec.collect l : Except Panic (SizedVec T n)) = .ok ⟨l⟩ := if_pos h

/-! ## Shapes -/

theorem Ty.leaves_length (t : Ty) (a : t.S F) (h : t.ok F a) : (t.leaves F a).length = t.width := by
  induction t with
  | num => rfl
  | bool => rfl
  | pair a b iha ihb =>
    simp only [Ty.leaves, List.length_append, Ty.width]; rw [iha _ h.1, ihb _ h.2]
  | vec n b ih =>
    simp only [Ty.leaves, Ty.width]
    rw [flatMap_length fun x hx => ih x (h.2 x hx), h.1]

theorem Ty.evals_length (t : Ty) (w : Index → F) (a : t.S F) (h : t.ok F a) :
    (t.evals w a).length = t.width := by
  unfold Ty.evals; rw [List.length_map, t.leaves_length a h]

theorem Ty.flat_length (t : Ty) (v : t.V F) (h : t.okV F v) : (t.flat F v).length = t.width := by
  induction t with
  | num => rfl
  | bool => rfl
  | pair a b iha ihb =>
    simp only [Ty.flat, List.length_append, Ty.width]; rw [iha _ h.1, ihb _ h.2]
  | vec n b ih =>
    simp only [Ty.flat, Ty.width]
    rw [flatMap_length fun x hx => ih x (h.2 x hx), h.1]

theorem Ty.linearize_eq (t : Ty) (a : t.S F) : t.linearize a = t.leaves F a := by
  induction t with
  | num => rfl
  | bool => rfl
  | pair a b iha ihb => exact congrArg₂ (· ++ ·) (iha _) (ihb _)
  | vec n b ih =>
    show List.flatMap (fun x => b.linearize x) _ = List.flatMap (b.leaves F) _
    congr 1; funext x; exact ih x

theorem Ty.evals_pair (a b : Ty) (w : Index → F) (x : (Ty.pair a b).S F) :
    (Ty.pair a b).evals w x = a.evals w x.1 ++ b.evals w x.2 := by
  simp [Ty.evals, Ty.leaves]

theorem Ty.evals_vec (n : Nat) (b : Ty) (w : Index → F) (x : (Ty.vec n b).S F) :
    (Ty.vec n b).evals w x = x.items.flatMap (b.evals w) := by
  simp only [Ty.evals, Ty.leaves, List.map_flatMap]
  rfl

theorem Ty.evals_num (w : Index → F) (a : CNum F) : Ty.num.evals w a = [a.lc.eval w] := rfl

theorem Ty.evals_bool (w : Index → F) (a : CBool F) : Ty.bool.evals w a = [a.num.lc.eval w] := rfl

theorem Ty.flat_num (v : F) : Ty.num.flat F v = [v] := rfl

theorem Ty.flat_bool (v : Bool) : Ty.bool.flat F v = [boolToF v] := rfl

theorem singleton_eq_iff {α : Type} (a b : α) : [a] = [b] ↔ a = b := by simp

theorem Ty.Carries.ok {t : Ty} {s : CS F} {a : t.S F} {v : t.V F} (h : t.Carries s a v) : t.ok F a := by
  induction t with
  | num => trivial
  | bool => trivial
  | pair a b iha ihb => exact ⟨iha h.1, ihb h.2⟩
  | vec n b ih =>
    refine ⟨h.1, ?_⟩
    intro x hx
    obtain ⟨i, hi, rfl⟩ := List.mem_iff_getElem.1 hx
    have hl := h.2.length_eq
    exact ih (h.2.get hi (hl ▸ hi))

theorem Ty.Carries.okV {t : Ty} {s : CS F} {a : t.S F} {v : t.V F} (h : t.Carries s a v) :
    t.okV F v := by
  induction t with
  | num => trivial
  | bool => trivial
  | pair a b iha ihb => exact ⟨iha h.1, ihb h.2⟩
  | vec n b ih =>
    have hl := h.2.length_eq
    refine ⟨hl ▸ h.1, ?_⟩
    intro x hx
    obtain ⟨i, hi, rfl⟩ := List.mem_iff_getElem.1 hx
    exact ih (h.2.get (hl ▸ hi) hi)

theorem Ty.Carries.mono {t : Ty} {s s' : CS F} {a : t.S F} {v : t.V F} (h : t.Carries s a v)
    (e : s.Ext s') : t.Carries s' a v := by
  induction t with
  | num => exact Has.mono h e
  | bool => exact Has.mono h e
  | pair a b iha ihb => exact ⟨iha h.1, ihb h.2⟩
  | vec n b ih => exact ⟨h.1, h.2.imp fun x y hxy => ih hxy⟩

theorem flatMap_forall₂ {α β γ : Type} {R : α → β → Prop} {f : α → List γ} {g : β → List γ}
    {l : List α} {m : List β} (h : List.Forall₂ R l m) (hfg : ∀ a b, R a b → f a = g b) :
    l.flatMap f = m.flatMap g := by
  induction h with
  | nil => rfl
  | cons hab _ ih => simp only [List.flatMap_cons]; rw [hfg _ _ hab, ih]

theorem Ty.Carries.evals {t : Ty} {s : CS F} {a : t.S F} {v : t.V F} (h : t.Carries s a v) :
    t.evals s.assign a = t.flat F v := by
  induction t with
  | num => exact congrArg (fun x => [x]) (Has.eval h)
  | bool => exact congrArg (fun x => [x]) (Has.eval h)
  | pair a b iha ihb => rw [Ty.evals_pair, iha h.1, ihb h.2]; rfl
  | vec n b ih => rw [Ty.evals_vec]; exact flatMap_forall₂ h.2 fun x y hxy => ih hxy

theorem Ty.flat_injective (t : Ty) {u v : t.V F} (hu : t.okV F u) (hv : t.okV F v)
    (h : t.flat F u = t.flat F v) : u = v := by
  induction t with
  | num => exact (singleton_eq_iff _ _).1 h
  | bool =>
    cases u <;> cases v <;> simp [Ty.flat] at h <;> rfl
  | pair a b iha ihb =>
    simp only [Ty.flat] at h
    obtain ⟨h1, h2⟩ := List.append_inj h (by rw [a.flat_length _ hu.1, a.flat_length _ hv.1])
    exact Prod.ext (iha hu.1 hv.1 h1) (ihb hu.2 hv.2 h2)
  | vec n b ih =>
    obtain ⟨u⟩ := u; obtain ⟨v⟩ := v
    simp only [Ty.flat] at h
    congr 1
    have hl : u.length = v.length := hu.1.trans hv.1.symm
    have hu2 : ∀ x ∈ u, b.okV F x := hu.2
    have hv2 : ∀ x ∈ v, b.okV F x := hv.2
    clear hu hv
    induction u generalizing v with
    | nil => cases v with
      | nil => rfl
      | cons => simp at hl
    | cons x u ihu => cases v with
      | nil => simp at hl
      | cons y v =>
        simp only [List.flatMap_cons] at h
        obtain ⟨h1, h2⟩ := List.append_inj h (by
          rw [b.flat_length _ (hu2 x (by simp)), b.flat_length _ (hv2 y (by simp))])
        rw [ih (hu2 x (by simp)) (hv2 y (by simp)) h1,
          ihu v h2 (by simpa using hl) (fun z hz => hu2 z (by simp [hz])) (fun z hz => hv2 z (by simp [hz]))]

/-! ## Exactness of the assertions -/

section exact
variable {w : Index → F}

theorem post_zipForM {A B C : Type} {f : A → B → M F Unit} {g : A → List C} {g' : B → List C}
    {as : List A} {bs : List B} {k : Nat}
    (hf : ∀ a ∈ as, ∀ b ∈ bs, ∀ s, Post s (f a b) (fun _ s' => s'.Sat w ↔ s.Sat w ∧ g a = g' b))
    (ha : ∀ a ∈ as, (g a).length = k) (hb : ∀ b ∈ bs, (g' b).length = k)
    (hl : as.length = bs.length) (s : CS F) :
    Post s (zipForM f as bs) (fun _ s' => s'.Sat w ↔ s.Sat w ∧ as.flatMap g = bs.flatMap g') := by
  induction as generalizing bs s with
  | nil => cases bs with
    | nil => exact Post.pure (by simp)
    | cons => simp at hl
  | cons a as ih => cases bs with
    | nil => simp at hl
    | cons b bs =>
      refine Post.bind (hf a (by simp) b (by simp) s) fun _ s1 _ h1 => ?_
      refine (ih (bs := bs) (fun a ha b hb => hf a (by simp [ha]) b (by simp [hb]))
        (fun a h => ha a (by simp [h])) (fun b h => hb b (by simp [h])) (by simpa using hl) s1).mono ?_
      rintro _ s2 _ h2
      rw [h2, h1, List.flatMap_cons, List.flatMap_cons,
        append_eq_iff (by rw [ha a (by simp), hb b (by simp)]), and_assoc]

theorem post_assertConst_iff (hw : IsAssignment w) (a : CNum F) (c : F) (s : CS F) :
    Post s (CNum.assertConst a c) (fun _ s' => s'.Sat w ↔ s.Sat w ∧ a.lc.eval w = c) := by
  intro u s' h
  constructor
  · intro hs
    exact ⟨(M.run_ext h).sat hs, spec_assertConst hw a c u s' h hs⟩
  · rintro ⟨hs, hc⟩
    unfold CNum.assertConst at h
    split at h
    · rw [M.run_assert] at h
      split at h
      · injection h with h; injection h with _ h; subst h; exact hs
      · cases h
    · obtain ⟨rfl, -⟩ := post_enforce _ _ _ _ _ _ h
      intro q hq
      simp only [List.mem_append, List.mem_singleton] at hq
      rcases hq with hq | hq
      · exact hs q hq
      · subst hq
        unfold Constraint.Sat
        have h1 := CNum.eval_one (F := F) hw
        have h2 := CNum.eval_fromConst hw c
        simp only [CNum.eval] at h1 h2
        rw [h1, h2, hc, mul_one]

theorem post_assertEq_iff (hw : IsAssignment w) (a b : CNum F) (s : CS F) :
    Post s (CNum.assertEq a b) (fun _ s' => s'.Sat w ↔ s.Sat w ∧ a.lc.eval w = b.lc.eval w) := by
  refine (post_assertConst_iff hw (CNum.sub a b) 0 s).mono ?_
  rintro _ s' _ h
  rw [h, show (CNum.sub a b).lc.eval w = _ from CNum.eval_sub w a b, sub_eq_zero]

theorem Ty.post_assertEq (t : Ty) (hw : IsAssignment w) (a b : t.S F) (ha : t.ok F a) (hb : t.ok F b)
    (s : CS F) :
    Post s (t.assertEq a b) (fun _ s' => s'.Sat w ↔ s.Sat w ∧ t.evals w a = t.evals w b) := by
  induction t generalizing s with
  | num =>
    refine (post_assertEq_iff hw a b s).mono ?_
    rintro _ s' _ h; rw [h, ← singleton_eq_iff]; rfl
  | bool =>
    refine (post_assertEq_iff hw (CBool.num a) (CBool.num b) s).mono ?_
    rintro _ s' _ h; rw [h, ← singleton_eq_iff]; rfl
  | pair t u iht ihu =>
    refine Post.bind (iht a.1 b.1 ha.1 hb.1 s) fun _ s1 _ h1 => ?_
    refine (ihu a.2 b.2 ha.2 hb.2 s1).mono fun _ s2 _ h2 => ?_
    rw [h2, h1, Ty.evals_pair, Ty.evals_pair,
      append_eq_iff (by rw [t.evals_length w _ ha.1, t.evals_length w _ hb.1]), and_assoc]
  | vec n t ih =>
    simp only [Ty.evals_vec]
    exact post_zipForM (fun x hx y hy s => ih x y (ha.2 x hx) (hb.2 y hy) s)
      (fun x hx => t.evals_length w x (ha.2 x hx)) (fun x hx => t.evals_length w x (hb.2 x hx))
      (ha.1.trans hb.1.symm) s

theorem Ty.post_assertConst (t : Ty) (hw : IsAssignment w) (a : t.S F) (v : t.V F) (ha : t.ok F a)
    (hv : t.okV F v) (s : CS F) :
    Post s (t.assertConst a v) (fun _ s' => s'.Sat w ↔ s.Sat w ∧ t.evals w a = t.flat F v) := by
  induction t generalizing s with
  | num =>
    refine (post_assertConst_iff hw a v s).mono ?_
    rintro _ s' _ h; rw [h]; exact and_congr_right fun _ => (singleton_eq_iff _ _).symm
  | bool =>
    refine (post_assertConst_iff hw (CBool.num a) (boolToF (show Bool from v)) s).mono ?_
    rintro _ s' _ h; rw [h, ← singleton_eq_iff]; rfl
  | pair t u iht ihu =>
    refine Post.bind (iht a.1 v.1 ha.1 hv.1 s) fun _ s1 _ h1 => ?_
    refine (ihu a.2 v.2 ha.2 hv.2 s1).mono fun _ s2 _ h2 => ?_
    rw [h2, h1, Ty.evals_pair, Ty.flat,
      append_eq_iff (by rw [t.evals_length w _ ha.1, t.flat_length _ hv.1]), and_assoc]
  | vec n t ih =>
    simp only [Ty.evals_vec]
    exact post_zipForM (fun x hx y hy s => ih x y (ha.2 x hx) (hv.2 y hy) s)
      (fun x hx => t.evals_length w x (ha.2 x hx)) (fun x hx => t.flat_length x (hv.2 x hx))
      (ha.1.trans hv.1.symm) s

end exact

/-! ## Soundness of is_eq and switch -/

section sound
variable {w : Index → F}

theorem ite_mul_ite (p q : Prop) [Decidable p] [Decidable q] :
    (if p then (1 : F) else 0) * (if q then 1 else 0) = if p ∧ q then 1 else 0 := by
  by_cases hp : p <;> by_cases hq : q <;> simp [hp, hq]

theorem spec_isEqLoop {S : Type} (hw : IsAssignment w) {f : S → S → M F (CBool F)} {g : S → List F}
    {k : Nat} {as bs : List S} {n : Nat} (hn : as.length = n) (hn' : bs.length = n)
    (hf : ∀ a ∈ as, ∀ b ∈ bs, ∀ s, Spec w s (f a b)
      (fun r _ => r.num.eval w = if g a = g b then 1 else 0))
    (ha : ∀ a ∈ as, (g a).length = k) (hb : ∀ a ∈ bs, (g a).length = k) (s : CS F) (acc : CNum F) :
    Spec w s (isEqLoop f n as bs acc) (fun r _ =>
      r.eval w = acc.eval w * if as.flatMap g = bs.flatMap g then 1 else 0) := by
  induction n generalizing as bs acc s with
  | zero =>
    have h1 := List.eq_nil_of_length_eq_zero hn
    have h2 := List.eq_nil_of_length_eq_zero hn'
    subst h1 h2
    exact Spec.pure fun _ => by simp
  | succ n ih =>
    cases as with
    | nil => simp at hn
    | cons a as =>
      cases bs with
      | nil => simp at hn'
      | cons b bs =>
        unfold isEqLoop
        refine Spec.bind (hf a (by simp) b (by simp) s) fun e s1 _ he => ?_
        refine Spec.bind (spec_mul hw acc e.num) fun acc' s2 _ hacc => ?_
        refine (ih (by simpa using hn) (by simpa using hn')
          (fun a ha b hb => hf a (by simp [ha]) b (by simp [hb])) (fun x hx => ha x (by simp [hx]))
          (fun x hx => hb x (by simp [hx])) s2 acc').mono ?_
        rintro r s3 _ hr
        rw [hr, hacc, he, mul_assoc, ite_mul_ite]
        congr 1
        refine if_congr ?_ rfl rfl
        simp only [List.flatMap_cons]
        rw [append_eq_iff (by rw [ha a (by simp), hb b (by simp)])]

theorem Ty.spec_isEq (t : Ty) (hw : IsAssignment w) (a b : t.S F) (ha : t.ok F a) (hb : t.ok F b)
    (s : CS F) : Spec w s (t.isEq a b)
      (fun r _ => r.num.eval w = if t.evals w a = t.evals w b then 1 else 0) := by
  induction t generalizing s with
  | num =>
    refine (Fawkes.spec_isEq hw (show CNum F from a) (show CNum F from b)).mono ?_
    rintro r s' _ h; rw [h]; exact if_congr (singleton_eq_iff _ _).symm rfl rfl
  | bool =>
    refine (Fawkes.spec_isEq hw (CBool.num a) (CBool.num b)).mono ?_
    rintro r s' _ h; rw [h]; exact if_congr (singleton_eq_iff _ _).symm rfl rfl
  | pair t u iht ihu =>
    refine Spec.bind (iht a.1 b.1 ha.1 hb.1 s) fun e s1 _ h1 => ?_
    refine Spec.bind (spec_mul hw _ _) fun acc s2 _ h2 => ?_
    refine Spec.bind (ihu a.2 b.2 ha.2 hb.2 s2) fun e' s3 _ h3 => ?_
    refine Spec.bind (spec_mul hw _ _) fun acc' s4 _ h4 => ?_
    refine Spec.pure fun _ => ?_
    rw [h4, h2, h3, h1, CNum.eval_one hw, one_mul, ite_mul_ite]
    refine if_congr ?_ rfl rfl
    rw [Ty.evals_pair, Ty.evals_pair,
      append_eq_iff (by rw [t.evals_length w _ ha.1, t.evals_length w _ hb.1])]
  | vec n t ih =>
    simp only [Ty.evals_vec]
    have : (Ty.vec n t).isEq a b = vecIsEq t.isEq n a.items b.items := rfl
    rw [this]
    unfold vecIsEq
    split
    · exact Spec.panic
    · refine Spec.bind (spec_isEqLoop hw ha.1 hb.1
        (fun x hx y hy s => ih x y (ha.2 x hx) (hb.2 y hy) s)
        (fun x hx => t.evals_length w x (ha.2 x hx)) (fun x hx => t.evals_length w x (hb.2 x hx)) s _) ?_
      rintro acc s1 _ h1
      refine Spec.pure fun _ => ?_
      rw [h1, CNum.eval_one hw, one_mul]

theorem spec_zipMapM {A B C D : Type} {f : A → B → M F C} {P : C → Prop} {Q : A → B → C → Prop}
    {as : List A} {bs : List B} (hl : as.length = bs.length)
    (hf : ∀ a ∈ as, ∀ b ∈ bs, ∀ s, Spec w s (f a b) (fun c _ => P c ∧ Q a b c)) (s : CS F)
    {g : A → List D} {g' : B → List D} {h : C → List D} {X Y : Prop}
    (hX : ∀ a b c, Q a b c → X → h c = g a) (hY : ∀ a b c, Q a b c → Y → h c = g' b) :
    Spec w s (zipMapM f as bs) (fun cs _ => (∀ c ∈ cs, P c) ∧ cs.length = as.length ∧
      (X → cs.flatMap h = as.flatMap g) ∧ (Y → cs.flatMap h = bs.flatMap g')) := by
  induction as generalizing bs s with
  | nil => cases bs with
    | nil => exact Spec.pure fun _ => by simp
    | cons => simp at hl
  | cons a as ih => cases bs with
    | nil => simp at hl
    | cons b bs =>
      refine Spec.bind (hf a (by simp) b (by simp) s) fun c s1 _ h1 => ?_
      refine Spec.bind (ih (bs := bs) (by simpa using hl)
        (fun a ha b hb => hf a (by simp [ha]) b (by simp [hb])) s1) fun cs s2 _ h2 => ?_
      refine Spec.pure fun _ => ⟨?_, by simp [h2.2.1], ?_, ?_⟩
      · intro x hx
        rcases List.mem_cons.1 hx with rfl | hx
        · exact h1.1
        · exact h2.1 x hx
      · intro hx; simp only [List.flatMap_cons]; rw [hX _ _ _ h1.2 hx, h2.2.2.1 hx]
      · intro hy; simp only [List.flatMap_cons]; rw [hY _ _ _ h1.2 hy, h2.2.2.2 hy]

theorem Ty.spec_switch (t : Ty) (hw : IsAssignment w) (x y : t.S F) (c : CBool F) (hx : t.ok F x)
    (hy : t.ok F y) (s : CS F) : Spec w s (t.switch x c y) (fun r _ => t.ok F r ∧
      (c.num.eval w = 1 → t.evals w r = t.evals w x) ∧ (c.num.eval w = 0 → t.evals w r = t.evals w y)) := by
  induction t generalizing s with
  | num =>
    refine (Fawkes.spec_switch hw (show CNum F from x) (show CNum F from y) c).mono ?_
    rintro r s' _ h
    refine ⟨trivial, fun hc => ?_, fun hc => ?_⟩ <;>
    · refine (singleton_eq_iff _ _).2 ?_
      simp only [CNum.eval] at h hc ⊢
      rw [h, hc]; ring
  | bool =>
    show Spec w s (CBool.switch x c y) _
    refine Spec.bind (Fawkes.spec_switch hw (CBool.num x) (CBool.num y) c) fun r s' _ h => ?_
    refine Spec.pure fun _ => ⟨trivial, fun hc => ?_, fun hc => ?_⟩ <;>
    · refine (singleton_eq_iff _ _).2 ?_
      simp only [CNum.eval] at h hc ⊢
      rw [h, hc]; ring
  | pair t u iht ihu =>
    refine Spec.bind (iht x.1 y.1 hx.1 hy.1 s) fun r s1 _ h1 => ?_
    refine Spec.bind (ihu x.2 y.2 hx.2 hy.2 s1) fun r' s2 _ h2 => ?_
    refine Spec.pure fun _ => ⟨⟨h1.1, h2.1⟩, fun hc => ?_, fun hc => ?_⟩
    · exact (Ty.evals_pair t u w (r, r')).trans
        ((congrArg₂ (· ++ ·) (h1.2.1 hc) (h2.2.1 hc)).trans (Ty.evals_pair t u w x).symm)
    · exact (Ty.evals_pair t u w (r, r')).trans
        ((congrArg₂ (· ++ ·) (h1.2.2 hc) (h2.2.2 hc)).trans (Ty.evals_pair t u w y).symm)
  | vec n t ih =>
    simp only [Ty.evals_vec]
    refine Spec.bind (spec_zipMapM (P := t.ok F) (hx.1.trans hy.1.symm)
      (fun a ha b hb s => ih a b (hx.2 a ha) (hy.2 b hb) s) s
      (X := c.num.eval w = 1) (Y := c.num.eval w = 0) (h := t.evals w) (g := t.evals w) (g' := t.evals w)
      (fun a b r h hX => h.1 hX) (fun a b r h hY => h.2 hY)) ?_
    rintro l s1 _ ⟨h1, h2, h3, h4⟩
    refine Spec.lift ?_
    intro r hr
    unfold SizedVec.collect at hr
    split at hr
    · next hlen =>
      injection hr with hr; subst hr
      exact ⟨⟨hlen, h1⟩, h3, h4⟩
    · cases hr

end sound

/-! ## Completeness -/

section complete
variable {s : CS F}

theorem runs_zipForM {A B : Type} {f : A → B → M F Unit} {R : CS F → A → B → Prop}
    (hmono : ∀ {s s' : CS F} {a b}, s.Ext s' → R s a b → R s' a b)
    (hf : ∀ {s : CS F} {a b}, s.Honest → R s a b → Runs s (f a b) (fun _ _ => True))
    (hs : s.Honest) {as : List A} {bs : List B} (h : List.Forall₂ (R s) as bs) :
    Runs s (zipForM f as bs) (fun _ _ => True) := by
  induction as generalizing bs s with
  | nil => cases h; exact Runs.pure hs trivial
  | cons a as ih =>
    cases h with
    | cons h1 h2 =>
      refine Runs.bind (hf hs h1) fun _ s1 e1 hs1 _ => ?_
      exact ih hs1 (h2.imp fun x y hxy => hmono e1 hxy)

theorem Ty.runs_assertConst (t : Ty) (hs : s.Honest) {a : t.S F} {v : t.V F} (ha : t.Carries s a v) :
    Runs s (t.assertConst a v) (fun _ _ => True) := by
  induction t generalizing s with
  | num => exact Fawkes.runs_assertConst hs ha
  | bool => exact Fawkes.runs_assertConst hs ha
  | pair t u iht ihu =>
    refine Runs.bind (iht hs ha.1) fun _ s1 e1 hs1 _ => ?_
    exact ihu hs1 (ha.2.mono e1)
  | vec n t ih =>
    exact runs_zipForM (R := t.Carries) (fun e h => h.mono e) (fun hs h => ih hs h) hs ha.2

theorem forall₂_common {A B C : Type} {R : A → C → Prop} {R' : B → C → Prop} {as : List A} {bs : List B}
    {cs : List C} (h : List.Forall₂ R as cs) (h' : List.Forall₂ R' bs cs) :
    List.Forall₂ (fun a b => ∃ c, R a c ∧ R' b c) as bs := by
  induction h generalizing bs with
  | nil => cases h'; exact .nil
  | cons h1 _ ih => cases h' with
    | cons h2 h3 => exact .cons ⟨_, h1, h2⟩ (ih h3)

theorem Ty.runs_assertEq (t : Ty) (hs : s.Honest) {a b : t.S F} {v : t.V F} (ha : t.Carries s a v)
    (hb : t.Carries s b v) : Runs s (t.assertEq a b) (fun _ _ => True) := by
  induction t generalizing s with
  | num => exact Fawkes.runs_assertEq hs ha hb
  | bool => exact Fawkes.runs_assertEq hs ha hb
  | pair t u iht ihu =>
    refine Runs.bind (iht hs ha.1 hb.1) fun _ s1 e1 hs1 _ => ?_
    exact ihu hs1 (ha.2.mono e1) (hb.2.mono e1)
  | vec n t ih =>
    refine runs_zipForM (R := fun s x y => ∃ c, t.Carries s x c ∧ t.Carries s y c)
      ?_ ?_ hs (forall₂_common ha.2 hb.2)
    · rintro s s' a b e ⟨c, h1, h2⟩; exact ⟨c, h1.mono e, h2.mono e⟩
    · rintro s a b hs ⟨c, h1, h2⟩; exact ih hs h1 h2

theorem runs_isEqLoop {S V : Type} {f : S → S → M F (CBool F)} {R : CS F → S → V → Prop}
    (hmono : ∀ {s s' : CS F} {a b}, s.Ext s' → R s a b → R s' a b)
    (hf : ∀ {s : CS F} {a b u v}, s.Honest → R s a u → R s b v →
      Runs s (f a b) (fun r s' => (u = v → Has s' r.num 1) ∧ (u ≠ v → Has s' r.num 0)))
    {n : Nat} {as bs : List S} {us vs : List V} (hn : as.length = n) (hn' : bs.length = n)
    (ha : List.Forall₂ (R s) as us) (hb : List.Forall₂ (R s) bs vs) (hs : s.Honest) {acc : CNum F} {c : F}
    (hacc : Has s acc c) :
    Runs s (isEqLoop f n as bs acc) (fun r s' => (us = vs → Has s' r c) ∧ (us ≠ vs → Has s' r 0)) := by
  induction n generalizing as bs us vs s acc c with
  | zero =>
    have h1 := List.eq_nil_of_length_eq_zero hn
    have h2 := List.eq_nil_of_length_eq_zero hn'
    subst h1 h2; cases ha; cases hb
    exact Runs.pure hs ⟨fun _ => hacc, fun h => absurd rfl h⟩
  | succ n ih =>
    cases ha with
    | nil => simp at hn
    | @cons a u as us h1 h2 =>
      cases hb with
      | nil => simp at hn'
      | @cons b v bs vs h3 h4 =>
        unfold isEqLoop
        refine Runs.bind (hf hs h1 h3) fun e s1 e1 hs1 he => ?_
        have hm2 := h2.imp fun x y hxy => hmono e1 hxy
        have hm4 := h4.imp fun x y hxy => hmono e1 hxy
        by_cases huv : u = v
        · refine Runs.bind (runs_mul hs1 (hacc.mono e1) (he.1 huv)) fun acc' s2 e2 hs2 hacc' => ?_
          rw [mul_one] at hacc'
          refine (ih (by simpa using hn) (by simpa using hn') (hm2.imp fun x y hxy => hmono e2 hxy)
            (hm4.imp fun x y hxy => hmono e2 hxy) hs2 hacc').mono ?_
          rintro r s3 _ _ ⟨ht, hf⟩
          refine ⟨fun h => ht (by injection h), fun h => hf fun h' => h (by rw [huv, h'])⟩
        · refine Runs.bind (runs_mul hs1 (hacc.mono e1) (he.2 huv)) fun acc' s2 e2 hs2 hacc' => ?_
          rw [mul_zero] at hacc'
          refine (ih (by simpa using hn) (by simpa using hn') (hm2.imp fun x y hxy => hmono e2 hxy)
            (hm4.imp fun x y hxy => hmono e2 hxy) hs2 hacc').mono ?_
          rintro r s3 _ _ ⟨ht, hf⟩
          refine ⟨fun h => absurd (by injection h) huv, fun _ => ?_⟩
          by_cases h' : us = vs
          · exact ht h'
          · exact hf h'

theorem runs_isEq_num (hs : s.Honest) {a b : CNum F} {u v : F} (ha : Has s a u) (hb : Has s b v) :
    Runs s (CNum.isEq a b) (fun r s' => (u = v → Has s' r.num 1) ∧ (u ≠ v → Has s' r.num 0)) := by
  refine (Fawkes.runs_isEq hs ha hb).mono ?_
  rintro r s' _ _ h
  refine ⟨fun e => ?_, fun e => ?_⟩
  · rw [if_pos e] at h; exact h
  · rw [if_neg e] at h; exact h

theorem runs_isEq_bool (hs : s.Honest) {a b : CBool F} {u v : Bool} (ha : Has s a.num (boolToF u))
    (hb : Has s b.num (boolToF v)) :
    Runs s (CNum.isEq a.num b.num) (fun r s' => (u = v → Has s' r.num 1) ∧ (u ≠ v → Has s' r.num 0)) := by
  refine (Fawkes.runs_isEq hs ha hb).mono ?_
  rintro r s' _ _ h
  refine ⟨fun e => ?_, fun e => ?_⟩
  · subst e; rw [if_pos rfl] at h; exact h
  · rw [if_neg (by cases u <;> cases v <;> simp_all [boolToF])] at h; exact h

theorem Ty.runs_isEq (t : Ty) (hne : t.NonEmpty) (hs : s.Honest) {a b : t.S F} {u v : t.V F}
    (ha : t.Carries s a u) (hb : t.Carries s b v) :
    Runs s (t.isEq a b) (fun r s' => (u = v → Has s' r.num 1) ∧ (u ≠ v → Has s' r.num 0)) := by
  induction t generalizing s with
  | num => exact runs_isEq_num hs ha hb
  | bool => exact runs_isEq_bool hs ha hb
  | pair t t' iht ihu =>
    refine Runs.bind (iht hne.1 hs ha.1 hb.1) fun e s1 e1 hs1 h1 => ?_
    by_cases h12 : u.1 = v.1
    · refine Runs.bind (runs_mul hs1 has_one (h1.1 h12)) fun acc s2 e2 hs2 h2 => ?_
      refine Runs.bind (ihu hne.2 hs2 ((ha.2.mono e1).mono e2) ((hb.2.mono e1).mono e2))
        fun e' s3 e3 hs3 h3 => ?_
      by_cases h22 : u.2 = v.2
      · refine Runs.bind (runs_mul hs3 (h2.mono e3) (h3.1 h22)) fun acc' s4 e4 hs4 h4 => ?_
        refine Runs.pure hs4 ⟨fun _ => by simpa using h4, fun h => absurd (Prod.ext h12 h22) h⟩
      · refine Runs.bind (runs_mul hs3 (h2.mono e3) (h3.2 h22)) fun acc' s4 e4 hs4 h4 => ?_
        refine Runs.pure hs4 ⟨fun h => absurd (by rw [h]) h22, fun _ => by simpa using h4⟩
    · refine Runs.bind (runs_mul hs1 has_one (h1.2 h12)) fun acc s2 e2 hs2 h2 => ?_
      refine Runs.bind (ihu hne.2 hs2 ((ha.2.mono e1).mono e2) ((hb.2.mono e1).mono e2))
        fun e' s3 e3 hs3 h3 => ?_
      have h3' : ∃ z, Has s3 e'.num z := by
        by_cases h22 : u.2 = v.2
        · exact ⟨1, h3.1 h22⟩
        · exact ⟨0, h3.2 h22⟩
      obtain ⟨z, hz⟩ := h3'
      refine Runs.bind (runs_mul hs3 (h2.mono e3) hz) fun acc' s4 e4 hs4 h4 => ?_
      refine Runs.pure hs4 ⟨fun h => absurd (by rw [h]) h12, fun _ => by simpa using h4⟩
  | vec n t ih =>
    have : (Ty.vec n t).isEq a b = vecIsEq t.isEq n a.items b.items := rfl
    rw [this]
    unfold vecIsEq
    split
    · next h =>
      have := ha.1; rw [h] at this
      have h0 := hne.1
      simp at this; omega
    · refine Runs.bind (runs_isEqLoop (R := t.Carries) (fun e h => h.mono e)
        (fun hs h h' => ih hne.2 hs h h') ha.1 hb.1 ha.2 hb.2 hs has_one) ?_
      rintro acc s1 e1 hs1 h1
      refine Runs.pure hs1 ⟨fun h => h1.1 (by rw [h]), fun h => h1.2 fun h' => h ?_⟩
      obtain ⟨u⟩ := u; obtain ⟨v⟩ := v; exact congrArg SizedVec.mk h'

theorem runs_zipMapM {A B C U : Type} {f : A → B → M F C} {R : CS F → A → U → Prop}
    {R' : CS F → B → U → Prop} {R'' : CS F → C → U → Prop} {c : Bool} {bit : CBool F}
    (hmono : ∀ {s s' : CS F} {a b}, s.Ext s' → R s a b → R s' a b)
    (hmono' : ∀ {s s' : CS F} {a b}, s.Ext s' → R' s a b → R' s' a b)
    (hmono'' : ∀ {s s' : CS F} {a b}, s.Ext s' → R'' s a b → R'' s' a b)
    (hf : ∀ {s : CS F} {a b u v}, s.Honest → R s a u → R' s b v → Has s bit.num (boolToF c) →
      Runs s (f a b) (fun r s' => R'' s' r (if c then u else v)))
    {as : List A} {bs : List B} {us vs : List U}
    (ha : List.Forall₂ (R s) as us) (hb : List.Forall₂ (R' s) bs vs) (hl : as.length = bs.length)
    (hbit : Has s bit.num (boolToF c)) (hs : s.Honest) :
    Runs s (zipMapM f as bs) (fun r s' => List.Forall₂ (R'' s') r (if c then us else vs)) := by
  induction as generalizing bs us vs s with
  | nil =>
    cases ha
    cases bs with
    | nil => cases hb; exact Runs.pure hs (by cases c <;> exact .nil)
    | cons => simp at hl
  | cons a as ih =>
    cases ha with
    | cons h1 h2 =>
      cases hb with
      | nil => simp at hl
      | cons h3 h4 =>
        refine Runs.bind (hf hs h1 h3 hbit) fun r s1 e1 hs1 hr => ?_
        refine Runs.bind (ih (h2.imp fun x y h => hmono e1 h) (h4.imp fun x y h => hmono' e1 h)
          (by simpa using hl) (hbit.mono e1) hs1) fun rs s2 e2 hs2 hrs => ?_
        refine Runs.pure hs2 ?_
        cases c
        · exact .cons (hmono'' e2 hr) hrs
        · exact .cons (hmono'' e2 hr) hrs

theorem runs_switch_num (hs : s.Honest) {x y : CNum F} {u v : F} {c : Bool} {bit : CBool F}
    (hx : Has s x u) (hy : Has s y v) (hb : Has s bit.num (boolToF c)) :
    Runs s (CNum.switch x bit y) (fun r s' => Has s' r (if c then u else v)) := by
  refine (Fawkes.runs_switch hs hx hy hb (by cases c <;> simp [boolToF])).mono ?_
  rintro r s' _ _ h
  cases c <;> simpa [boolToF] using h

theorem runs_switch_bool (hs : s.Honest) {x y : CBool F} {u v : Bool} {c : Bool} {bit : CBool F}
    (hx : Has s x.num (boolToF u)) (hy : Has s y.num (boolToF v)) (hb : Has s bit.num (boolToF c)) :
    Runs s (CBool.switch x bit y) (fun r s' => Has s' r.num (boolToF (if c then u else v))) := by
  refine Runs.bind (runs_switch_num hs hx hy hb) fun r s' _ hs' h => Runs.pure hs' ?_
  cases c <;> exact h

theorem Ty.runs_switch (t : Ty) (hs : s.Honest) {x y : t.S F} {u v : t.V F} {c : Bool} {bit : CBool F}
    (hx : t.Carries s x u) (hy : t.Carries s y v) (hb : Has s bit.num (boolToF c)) :
    Runs s (t.switch x bit y) (fun r s' => t.Carries s' r (if c then u else v)) := by
  induction t generalizing s with
  | num => exact runs_switch_num hs hx hy hb
  | bool =>
    refine (runs_switch_bool hs (x := x) (y := y) (u := u) (v := v) hx hy hb).mono ?_
    intro r s' _ _ h; cases c <;> exact h
  | pair t t' iht ihu =>
    refine Runs.bind (iht hs hx.1 hy.1 hb) fun r s1 e1 hs1 h1 => ?_
    refine Runs.bind (ihu hs1 (hx.2.mono e1) (hy.2.mono e1) (hb.mono e1)) fun r' s2 e2 hs2 h2 => ?_
    refine Runs.pure hs2 ?_
    cases c
    · exact ⟨h1.mono e2, h2⟩
    · exact ⟨h1.mono e2, h2⟩
  | vec n t ih =>
    refine Runs.bind (runs_zipMapM (R := t.Carries) (R' := t.Carries) (R'' := t.Carries) (c := c) (bit := bit)
      (fun e h => h.mono e) (fun e h => h.mono e) (fun e h => h.mono e)
      (fun hs h h' hb => ih hs h h' hb) hx.2 hy.2 (hx.1.trans hy.1.symm) hb hs) ?_
    rintro l s1 e1 hs1 h1
    have hlen : l.length = n := by
      have := h1.length_eq
      cases c
      · rw [this]; exact hy.2.length_eq.symm.trans hy.1
      · rw [this]; exact hx.2.length_eq.symm.trans hx.1
    refine Runs.lift (a := ⟨l⟩) hs1 (SizedVec.collect_ok hlen) ?_
    cases c
    · exact ⟨hlen, h1⟩
    · exact ⟨hlen, h1⟩

theorem runs_listMapM {A B C : Type} {f : A → M F B} {R : CS F → B → C → Prop} {g : A → C}
    (hmono : ∀ {s s' : CS F} {a b}, s.Ext s' → R s a b → R s' a b) {as : List A}
    (hf : ∀ {s : CS F}, ∀ a ∈ as, s.Honest → Runs s (f a) (fun r s' => R s' r (g a)))
    (hs : s.Honest) : Runs s (listMapM f as) (fun r s' => List.Forall₂ (R s') r (as.map g)) := by
  induction as generalizing s with
  | nil => exact Runs.pure hs .nil
  | cons a as ih =>
    refine Runs.bind (hf a (by simp) hs) fun r s1 e1 hs1 h1 => ?_
    refine Runs.bind (ih (fun a ha hs => hf a (by simp [ha]) hs) hs1) fun rs s2 e2 hs2 h2 => ?_
    exact Runs.pure hs2 (.cons (hmono e2 h1) h2)

theorem runs_alloc_bool (hs : s.Honest) (v : Bool) :
    Runs s (CBool.alloc (some v)) (fun r s' => Has s' r.num (boolToF v)) := by
  refine Runs.bind (Fawkes.runs_alloc hs (boolToF v)) fun x s' _ hs' h => ?_
  exact Runs.pure hs' h.1

theorem Ty.runs_alloc (t : Ty) (hs : s.Honest) (v : t.V F) (hv : t.okV F v) :
    Runs s (t.alloc (some v)) (fun r s' => t.Carries s' r v) := by
  induction t generalizing s with
  | num => exact (Fawkes.runs_alloc hs (show F from v)).mono fun x s' _ _ h => h.1
  | bool =>
    exact runs_alloc_bool hs v
  | pair t t' iht ihu =>
    refine Runs.bind (iht hs v.1 hv.1) fun r s1 e1 hs1 h1 => ?_
    refine Runs.bind (ihu hs1 v.2 hv.2) fun r' s2 e2 hs2 h2 => ?_
    exact Runs.pure hs2 ⟨h1.mono e2, h2⟩
  | vec n t ih =>
    refine Runs.bind (runs_listMapM (R := t.Carries) (g := id) (fun e h => h.mono e)
      (fun a ha hs => ih hs a (hv.2 a ha)) hs) ?_
    rintro l s1 e1 hs1 h1
    rw [List.map_id] at h1
    have hlen : l.length = n := h1.length_eq.trans hv.1
    exact Runs.lift (a := ⟨l⟩) hs1 (SizedVec.collect_ok hlen) ⟨hlen, h1⟩

theorem collectOption_all {T : Type} {n : Nat} (acc : List T) (l : List T) :
    (SizedVec.collectOption acc (l.map fun x => .ok (some x)) : Except Panic (Option (SizedVec T n))) =
      (SizedVec.collect (acc ++ l)).map some := by
  induction l generalizing acc with
  | nil => simp [SizedVec.collectOption]
  | cons a l ih => simp only [List.map_cons, SizedVec.collectOption]; rw [ih]; simp

theorem map_forall₂ {A B C : Type} {R : A → B → Prop} {f : A → C} {g : B → C} {as : List A} {bs : List B}
    (h : List.Forall₂ R as bs) (hf : ∀ a b, R a b → f a = g b) : as.map f = bs.map g := by
  induction h with
  | nil => rfl
  | cons h _ ih => simp [hf _ _ h, ih]

theorem getValue_bool {a : CBool F} {v : Bool} (h : Has s a.num (boolToF v)) :
    CBool.getValue a = .ok (some v) := by
  unfold CBool.getValue
  rw [Has.value h]
  cases v <;> simp [intoBool, boolToF, Except.map]

theorem Ty.getValue_carries (t : Ty) {a : t.S F} {v : t.V F} (h : t.Carries s a v) :
    t.getValue a = .ok (some v) := by
  induction t with
  | num => exact congrArg Except.ok (Has.value h)
  | bool => exact getValue_bool h
  | pair t t' iht ihu =>
    show optPair (t.getValue a.1) (t'.getValue a.2) = _
    rw [iht h.1, ihu h.2]; rfl
  | vec n t ih =>
    show SizedVec.collectOption [] (a.items.map t.getValue) = _
    rw [map_forall₂ h.2 (g := fun x => .ok (some x)) (fun x y hxy => ih hxy), collectOption_all]
    have : v.items.length = n := h.2.length_eq.symm.trans h.1
    rw [List.nil_append, SizedVec.collect_ok this]; rfl

end complete

/-! ## Public inputs -/

section inputize
variable {w : Index → F}

/-- `k` public inputs were added, with the values `l` under every satisfying assignment. -/
def InputsAre (w : Index → F) (s s' : CS F) (l : List F) : Prop :=
  s'.ninputs = s.ninputs + l.length ∧ s'.naux = s.naux ∧
    ∀ i (h : i < l.length), w (.input (s.ninputs + i)) = l[i]

theorem spec_inputize (hw : IsAssignment w) (a : CNum F) (s : CS F) :
    Spec w s (CNum.inputize a) (fun _ s' => InputsAre w s s' [a.lc.eval w]) := by
  have key : ∀ (v : Option F) (c : CNum F), c.eval w = a.eval w →
      Spec w s (CS.allocInput v >>= fun i => CS.enforce (CNum.fromVar v i) CNum.one c)
        (fun _ s' => InputsAre w s s' [a.lc.eval w]) := by
    intro v c hc
    refine Spec.bind (Q := fun i s' => i = .input s.ninputs ∧ s' = s.pushVar (.input s.ninputs) v) ?_ ?_
    · intro i s' h _
      rw [run_csallocInput] at h
      split at h
      · cases h
      · injection h with h; injection h with h1 h2; exact ⟨h1.symm, h2.symm⟩
    · rintro i s1 _ ⟨rfl, rfl⟩
      intro u s' h hs
      have h1 := spec_enforce _ _ _ u s' h hs
      obtain ⟨rfl, -⟩ := post_enforce _ _ _ _ _ _ h
      refine ⟨rfl, rfl, ?_⟩
      intro i hi
      have : i = 0 := by simpa using hi
      subst this
      rw [CNum.eval_fromVar, CNum.eval_one hw, mul_one, hc] at h1
      exact h1
  unfold CNum.inputize
  split
  · next v h =>
    exact key (some v) (CNum.fromConst v) (by rw [CNum.eval_fromConst hw, CNum.eval_of_asConst hw h])
  · exact key a.value a rfl

theorem InputsAre.append {s s1 s2 : CS F} {l l' : List F} (h : InputsAre w s s1 l)
    (h' : InputsAre w s1 s2 l') : InputsAre w s s2 (l ++ l') := by
  refine ⟨by rw [h'.1, h.1, List.length_append]; omega, h'.2.1.trans h.2.1, ?_⟩
  intro i hi
  by_cases hil : i < l.length
  · rw [List.getElem_append_left hil]; exact h.2.2 i hil
  · have : i - l.length < l'.length := by rw [List.length_append] at hi; omega
    rw [List.getElem_append_right (by omega), ← h'.2.2 _ this, h.1]
    congr 2; omega

theorem spec_listForM {A : Type} {f : A → M F Unit} {g : A → List F} (as : List A) (s : CS F)
    (hf : ∀ s, ∀ a ∈ as, Spec w s (f a) (fun _ s' => InputsAre w s s' (g a))) :
    Spec w s (listForM f as) (fun _ s' => InputsAre w s s' (as.flatMap g)) := by
  induction as generalizing s with
  | nil => exact Spec.pure fun _ => ⟨by simp, rfl, by simp⟩
  | cons a as ih =>
    refine Spec.bind (hf s a (by simp)) fun _ s1 _ h1 => ?_
    refine (ih s1 fun s x hx => hf s x (by simp [hx])).mono fun _ s2 _ h2 => ?_
    rw [List.flatMap_cons]; exact h1.append h2

theorem Ty.spec_inputize (t : Ty) (hw : IsAssignment w) (a : t.S F) (s : CS F) :
    Spec w s (t.inputize a) (fun _ s' => InputsAre w s s' (t.evals w a)) := by
  induction t generalizing s with
  | num => exact Fawkes.spec_inputize hw a s
  | bool => exact Fawkes.spec_inputize hw (CBool.num a) s
  | pair t t' iht ihu =>
    refine Spec.bind (iht a.1 s) fun _ s1 _ h1 => ?_
    refine (ihu a.2 s1).mono fun _ s2 _ h2 => ?_
    rw [Ty.evals_pair]; exact h1.append h2
  | vec n t ih =>
    rw [Ty.evals_vec]
    exact spec_listForM _ s fun s x _ => ih x s

theorem runs_inputize {s : CS F} (hs : s.Honest) {a : CNum F} {x : F} (ha : Has s a x) :
    Runs s (CNum.inputize a) (fun _ _ => True) := by
  unfold CNum.inputize
  split
  · refine Runs.bind (runs_allocInput hs _) ?_
    rintro i s1 e1 hs1 ⟨rfl, rfl, h⟩
    exact runs_enforce hs1 h has_one (has_fromConst _) (mul_one _)
  · rw [ha.value]
    refine Runs.bind (runs_allocInput hs _) ?_
    rintro i s1 e1 hs1 ⟨rfl, rfl, h⟩
    exact runs_enforce hs1 h has_one (ha.mono e1) (mul_one _)

theorem runs_listForM {A B : Type} {f : A → M F Unit} {R : CS F → A → B → Prop}
    (hmono : ∀ {s s' : CS F} {a b}, s.Ext s' → R s a b → R s' a b)
    (hf : ∀ {s : CS F} {a b}, s.Honest → R s a b → Runs s (f a) (fun _ _ => True))
    {s : CS F} (hs : s.Honest) {as : List A} {bs : List B} (h : List.Forall₂ (R s) as bs) :
    Runs s (listForM f as) (fun _ _ => True) := by
  induction as generalizing bs s with
  | nil => exact Runs.pure hs trivial
  | cons a as ih =>
    cases h with
    | cons h1 h2 =>
      refine Runs.bind (hf hs h1) fun _ s1 e1 hs1 _ => ?_
      exact ih hs1 (h2.imp fun x y hxy => hmono e1 hxy)

theorem Ty.runs_inputize (t : Ty) {s : CS F} (hs : s.Honest) {a : t.S F} {v : t.V F}
    (ha : t.Carries s a v) : Runs s (t.inputize a) (fun _ _ => True) := by
  induction t generalizing s with
  | num => exact Fawkes.runs_inputize hs ha
  | bool => exact Fawkes.runs_inputize hs ha
  | pair t u iht ihu =>
    refine Runs.bind (iht hs ha.1) fun _ s1 e1 hs1 _ => ?_
    exact ihu hs1 (ha.2.mono e1)
  | vec n t ih =>
    exact runs_listForM (R := t.Carries) (fun e h => h.mono e) (fun hs h => ih hs h) hs ha.2

/-- `l` are the values of the public inputs added between `s` and `s'`. -/
def Recorded (s s' : CS F) (l : List F) : Prop :=
  s'.ninputs = s.ninputs + l.length ∧ ∀ i (h : i < l.length),
    Index.input (s.ninputs + i) ∈ s'.vars.map Prod.fst ∧ s'.assign (.input (s.ninputs + i)) = l[i]

omit [DecidableEq F] in
theorem Recorded.append {s s1 s2 : CS F} {l l' : List F} (h : Recorded s s1 l) (h' : Recorded s1 s2 l') (e : s1.Ext s2) :
    Recorded s s2 (l ++ l') := by
  refine ⟨by rw [h'.1, h.1, List.length_append]; omega, ?_⟩
  intro i hi
  by_cases hil : i < l.length
  · rw [List.getElem_append_left hil]
    obtain ⟨h1, h2⟩ := h.2 i hil
    exact ⟨(e.vars.map Prod.fst).subset h1, (e.assign (.inr h1)).trans h2⟩
  · have : i - l.length < l'.length := by rw [List.length_append] at hi; omega
    rw [List.getElem_append_right (by omega)]
    have h2 := h'.2 _ this
    rw [h.1, show s.ninputs + l.length + (i - l.length) = s.ninputs + i by omega] at h2
    exact h2

/-- Publishing records the value of the signal, whether or not the constraints so far are satisfied. -/
theorem recorded_inputize {s : CS F} (hs : s.WF) {a : CNum F} {x : F} (ha : Has s a x) {u : Unit} {s' : CS F}
    (h : (CNum.inputize a).run s = .ok (u, s')) : Recorded s s' [x] := by
  have key : ∀ c : CNum F, (CS.allocInput (some x) >>= fun i => CS.enforce (CNum.fromVar (some x) i) CNum.one c).run s =
      .ok (u, s') → Recorded s s' [x] := by
    intro c h
    obtain ⟨i, s1, h1, h2⟩ := M.bind_ok h
    rw [run_csallocInput] at h1
    rw [if_neg (by simp)] at h1
    injection h1 with h1; injection h1 with h1 h1'; subst h1 h1'
    have e := M.run_ext h2
    obtain ⟨rfl, -⟩ := post_enforce _ _ _ _ _ _ h2
    have hmem : Index.input s.ninputs ∈ (s.pushVar (.input s.ninputs) (some x)).vars.map Prod.fst := by
      rw [pushVar_vars]; simp
    refine ⟨rfl, fun i hi => ?_⟩
    have : i = 0 := by simpa using hi
    subst this
    refine ⟨hmem, (e.assign (.inr hmem)).trans (assign_pushVar ?_ ?_)⟩
    · intro h; injection h with h; have := hs.pos; omega
    · intro hm; have := hs.input_lt _ hm; omega
  unfold CNum.inputize at h
  split at h
  · next v hv =>
    rw [ha.const hv] at h
    exact key _ h
  · rw [ha.value] at h
    exact key _ h

theorem recorded_listForM {A B : Type} {f : A → M F Unit} {R : CS F → A → B → Prop} {g : B → List F}
    (hmono : ∀ {s s' : CS F} {a b}, s.Ext s' → R s a b → R s' a b)
    (hf : ∀ {s : CS F} {a b u s'}, s.WF → R s a b → (f a).run s = .ok (u, s') → Recorded s s' (g b))
    {s : CS F} (hs : s.WF) {as : List A} {bs : List B} (h : List.Forall₂ (R s) as bs) {u : Unit} {s' : CS F}
    (hr : (listForM f as).run s = .ok (u, s')) : Recorded s s' (bs.flatMap g) := by
  induction as generalizing bs s with
  | nil =>
    cases h
    unfold listForM at hr
    rw [M.run_pure] at hr; injection hr with hr; injection hr with _ hr; subst hr
    exact ⟨by simp, by simp⟩
  | cons a as ih =>
    cases h with
    | cons h1 h2 =>
      unfold listForM at hr
      obtain ⟨_, s1, hr1, hr2⟩ := M.bind_ok hr
      have e1 := M.run_ext hr1
      rw [List.flatMap_cons]
      exact (hf hs h1 hr1).append (ih (e1.wf hs) (h2.imp fun x y hxy => hmono e1 hxy) hr2) (M.run_ext hr2)

theorem Ty.recorded_inputize (t : Ty) {s : CS F} (hs : s.WF) {a : t.S F} {v : t.V F} (ha : t.Carries s a v)
    {u : Unit} {s' : CS F} (h : (t.inputize a).run s = .ok (u, s')) : Recorded s s' (t.flat F v) := by
  induction t generalizing s u s' with
  | num => exact Fawkes.recorded_inputize hs ha h
  | bool => exact Fawkes.recorded_inputize hs ha h
  | pair t u iht ihu =>
    obtain ⟨_, s1, h1, h2⟩ := M.bind_ok h
    have e1 := M.run_ext h1
    exact (iht hs ha.1 h1).append (ihu (e1.wf hs) (ha.2.mono e1) h2) (M.run_ext h2)
  | vec n t ih =>
    exact recorded_listForM (R := t.Carries) (fun e h => h.mono e) (fun hs h hr => ih hs h hr) hs ha.2 h

end inputize

/-! ## Allocation -/

theorem post_listMapM {A B : Type} {f : A → M F B} {P : B → Prop} {I : CS F → CS F → Prop}
    (hrefl : ∀ s, I s s) (htrans : ∀ s t u, I s t → I t u → I s u) (as : List A)
    (hf : ∀ a ∈ as, ∀ s, Post s (f a) (fun b s' => P b ∧ I s s')) (s : CS F) :
    Post s (listMapM f as) (fun bs s' => bs.length = as.length ∧ (∀ b ∈ bs, P b) ∧ I s s') := by
  induction as generalizing s with
  | nil => exact Post.pure ⟨rfl, by simp, hrefl s⟩
  | cons a as ih =>
    refine Post.bind (hf a (by simp) s) fun b s1 _ h1 => ?_
    refine Post.bind (ih (fun a ha => hf a (by simp [ha])) s1) fun bs s2 _ h2 => ?_
    refine Post.pure ⟨by simp [h2.1], ?_, htrans _ _ _ h1.2 h2.2.2⟩
    intro x hx
    rcases List.mem_cons.1 hx with rfl | hx
    · exact h1.1
    · exact h2.2.1 x hx

/-- The public inputs are untouched on the Groth16 back ends. -/
def KeepInputs (s s' : CS F) : Prop :=
  s'.backend = s.backend ∧ (s.backend ≠ .test → s'.ninputs = s.ninputs)

theorem KeepInputs.refl (s : CS F) : KeepInputs s s := ⟨rfl, fun _ => rfl⟩

theorem KeepInputs.trans (s t u : CS F) (h : KeepInputs s t) (h' : KeepInputs t u) : KeepInputs s u :=
  ⟨h'.1.trans h.1, fun hs => (h'.2 (h.1 ▸ hs)).trans (h.2 hs)⟩

theorem post_alloc_keep (v : Option F) (s : CS F) : Post s (CNum.alloc v) (fun _ s' => KeepInputs s s') := by
  intro a s' h
  obtain ⟨-, -, rfl⟩ := post_alloc s v _ _ h
  refine ⟨(M.run_ext h).backend, fun hb => ?_⟩
  unfold CS.nextAlloc
  cases hs : s.backend with
  | test => exact absurd hs hb
  | setup => rfl
  | prove => rfl

theorem post_alloc_bool (v : Option Bool) (s : CS F) :
    Post s (CBool.alloc v) (fun _ s' => KeepInputs s s') :=
  Post.bind (post_alloc_keep _ s) fun _ _ _ h => Post.pure h

theorem Ty.post_alloc (t : Ty) (v : Option (t.V F)) (s : CS F) :
    Post s (t.alloc v) (fun a s' => t.ok F a ∧ KeepInputs s s') := by
  induction t generalizing s with
  | num => exact (post_alloc_keep (show Option F from v) s).mono fun _ _ _ h => ⟨trivial, h⟩
  | bool =>
    exact (post_alloc_bool v s).mono fun _ _ _ h => ⟨trivial, h⟩
  | pair t u iht ihu =>
    refine Post.bind (iht _ s) fun a s1 _ h1 => ?_
    refine Post.bind (ihu _ s1) fun b s2 _ h2 => ?_
    exact Post.pure ⟨⟨h1.1, h2.1⟩, h1.2.trans _ _ _ h2.2⟩
  | vec n t ih =>
    cases v with
    | none =>
      refine Post.bind (post_listMapM (P := t.ok F) KeepInputs.refl KeepInputs.trans _
        (fun a _ s => ih none s) s) fun l s1 _ h1 => Post.lift ?_
      intro r hr
      unfold SizedVec.collect at hr
      split at hr
      · next hlen => injection hr with hr; subst hr; exact ⟨⟨hlen, h1.2.1⟩, h1.2.2⟩
      · cases hr
    | some v =>
      refine Post.bind (post_listMapM (P := t.ok F) KeepInputs.refl KeepInputs.trans _
        (fun a _ s => ih (some a) s) s) fun l s1 _ h1 => Post.lift ?_
      intro r hr
      unfold SizedVec.collect at hr
      split at hr
      · next hlen => injection hr with hr; subst hr; exact ⟨⟨hlen, h1.2.1⟩, h1.2.2⟩
      · cases hr

theorem Ty.Carries.leaves {t : Ty} {s : CS F} {a : t.S F} {v : t.V F} (h : t.Carries s a v) :
    List.Forall₂ (Has s) (t.leaves F a) (t.flat F v) := by
  induction t with
  | num => exact .cons h .nil
  | bool => exact .cons h .nil
  | pair t u iht ihu => exact List.rel_append (iht h.1) (ihu h.2)
  | vec n t ih => exact List.rel_flatMap h.2 fun x y hxy => ih hxy

theorem mapM_forall₂ {s : CS F} {l : List (CNum F)} {m : List F} (h : List.Forall₂ (Has s) l m) :
    l.mapM (fun x => x.value) = some m := by
  induction h with
  | nil => rfl
  | cons h _ ih => simp [List.mapM_cons, ih, h.value]

theorem Ty.carries_fromConst (t : Ty) {s : CS F} (v : t.V F) (hv : t.okV F v) :
    t.Carries s (t.fromConst v) v := by
  induction t with
  | num => exact has_fromConst _
  | bool => exact has_fromConst _
  | pair t u iht ihu => exact ⟨iht _ hv.1, ihu _ hv.2⟩
  | vec n t ih =>
    refine ⟨(List.length_map _).trans hv.1, ?_⟩
    show List.Forall₂ _ (v.items.map t.fromConst) v.items
    rw [List.forall₂_map_left_iff]
    exact List.forall₂_same.2 fun x hx => ih x (hv.2 x hx)

theorem asConst_bool (v : Bool) : CBool.asConst (CBool.fromConst v : CBool F) = .ok (some v) := by
  cases v <;> simp [CBool.asConst, CBool.fromConst, CNum.asConst, CNum.fromConst, intoBool, boolToF, Except.map]

theorem Ty.asConst_fromConst (t : Ty) (v : t.V F) (hv : t.okV F v) :
    t.asConst (t.fromConst v) = .ok (some v) := by
  induction t with
  | num => rfl
  | bool => exact asConst_bool v
  | pair t t' iht ihu =>
    show optPair (t.asConst (t.fromConst v.1)) (t'.asConst (t'.fromConst v.2)) = _
    rw [iht _ hv.1, ihu _ hv.2]; rfl
  | vec n t ih =>
    show SizedVec.collectOption [] ((v.items.map t.fromConst).map t.asConst) = _
    rw [List.map_map, List.map_congr_left (g := fun x => .ok (some x)) (fun x hx => ih x (hv.2 x hx)),
      collectOption_all, List.nil_append, SizedVec.collect_ok hv.1]; rfl

end Fawkes
