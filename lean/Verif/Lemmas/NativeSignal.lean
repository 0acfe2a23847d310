import Verif.Lemmas.NativeCode
import Verif.Lemmas.Knowledge

/-!
# Allocating and publishing whole signals, with values of one's choice
-/

namespace Fawkes

variable {r : Nat} [Fact r.Prime] {w : Index → ZMod r}

/-- Every number can be published. -/
theorem complete_inputize {s s' : CS (ZMod r)} (hs : Solves s w) {a : CNum (ZMod r)} (ha : a.lc.Canonical ∧ a.lc.Alloc s)
    (h : (CNum.inputize a).run s = .ok ((), s')) : ∃ w', Agree w w' s ∧ Solves s' w' := by
  have hr : ((Call.prim (.inputize 0) : Call r Unit).exec none [a]).run s = .ok ([a], s') := by
    show (reg [a] 0 >>= fun x => CNum.inputize x >>= fun _ => pure [a]).run s = _
    unfold reg
    simp only [List.getElem?_cons_zero]
    rw [pure_bind, M.run_bind, h]; rfl
  obtain ⟨w', h1, h2, -⟩ := step_complete (c := (Call.prim (.inputize 0) : Call r Unit)) (q := [a]) hs (by simpa [Tidy] using ha) trivial hr (ins := []) (ins' := []) (new := [])
    (pub := [a.lc.eval w]) rfl
  exact ⟨w', h1, h2⟩

theorem Ty.post_alloc_tidy (t : Ty) (v : Option (t.V (ZMod r))) (s : CS (ZMod r)) (hs : s.WF) :
    Post s (t.alloc v) (fun a s' => ∀ x ∈ t.linearize a, (x.lc.Canonical ∧ x.lc.Alloc s') ∧ x.asConst = none) :=
  (t.post_alloc_new v s hs).mono fun _ _ _ h x hx => by
    obtain ⟨h1, h2⟩ := h x hx
    obtain ⟨k, hk, h0, h3⟩ := h2
    exact ⟨⟨by rw [hk]; exact LC.canonical_single _ _ (Or.inr one_ne_zero), h1⟩, FreshVar.asConst ⟨k, hk, h0, h3⟩⟩

theorem Ty.evals_agree (t : Ty) {w' : Index → ZMod r} {s : CS (ZMod r)} (h : Agree w w' s) (h1 : IsAssignment w) (h2 : IsAssignment w')
    {a : t.S (ZMod r)} (ha : ∀ x ∈ t.linearize a, x.lc.Alloc s) : t.evals w' a = t.evals w a := by
  unfold Ty.evals
  rw [← t.linearize_eq]
  exact List.map_congr_left fun x hx => h.eval h1 h2 (ha x hx)

/-- Allocating a signal adds no constraint. -/
theorem Ty.post_alloc_cons (t : Ty) (v : Option (t.V (ZMod r))) (s : CS (ZMod r)) : Post s (t.alloc v) (fun _ s' => s'.cons = s.cons) := by
  have hnum : ∀ (u : Option (ZMod r)) (s : CS (ZMod r)), Post s (CNum.alloc u) (fun _ s' => s'.cons = s.cons) := by
    intro u s a s' h
    obtain ⟨-, -, rfl⟩ := Fawkes.post_alloc s u _ _ h
    exact pushVar_cons _ _ _
  induction t generalizing s with
  | num => exact hnum _ s
  | bool => exact Post.bind (hnum _ s) fun _ _ _ h => Post.pure h
  | pair t u iht ihu =>
    exact Post.bind (iht _ s) fun _ s1 _ h1 => Post.bind (ihu _ s1) fun _ _ _ h2 => Post.pure (h2.trans h1)
  | vec n t ih =>
    have key : ∀ {A : Type} (f : A → M (ZMod r) (t.S (ZMod r))) (as : List A),
        (∀ a (s : CS (ZMod r)), Post s (f a) (fun _ s' => s'.cons = s.cons)) →
        Post s (listMapM f as >>= fun l => M.lift (SizedVec.collect l)) (fun (_ : (Ty.vec n t).S (ZMod r)) s' => s'.cons = s.cons) := by
      intro A f as hf
      have hl : ∀ s : CS (ZMod r), Post s (listMapM f as) (fun _ s' => s'.cons = s.cons) := by
        clear ih
        induction as with
        | nil => exact fun s => Post.pure rfl
        | cons a as ih =>
          exact fun s => Post.bind (hf a s) fun _ s1 _ h1 => Post.bind (ih s1) fun _ _ _ h2 => Post.pure (h2.trans h1)
      exact Post.bind (hl s) fun l s1 _ h1 => Post.lift fun r hr => h1
    cases v with
    | none => exact key _ _ fun a s => ih none s
    | some v => exact key _ _ fun a s => ih (some a) s

/-- Every signal can be published. -/
theorem Ty.complete_inputize (t : Ty) {s s' : CS (ZMod r)} (hs : Solves s w) {a : t.S (ZMod r)}
    (ha : ∀ x ∈ t.linearize a, x.lc.Canonical ∧ x.lc.Alloc s) (h : (t.inputize a).run s = .ok ((), s')) :
    ∃ w', Agree w w' s ∧ Solves s' w' := by
  induction t generalizing s s' w with
  | num => exact Fawkes.complete_inputize hs (ha _ (List.mem_singleton.2 rfl)) h
  | bool => exact Fawkes.complete_inputize hs (ha _ (List.mem_singleton.2 rfl)) h
  | pair t u iht ihu =>
    obtain ⟨⟨⟩, s1, r1, h⟩ := M.bind_ok h
    have e := M.run_ext r1
    obtain ⟨w1, a1, g1⟩ := iht hs (fun x hx => ha x (List.mem_append_left _ hx)) r1
    obtain ⟨w2, a2, g2⟩ := ihu g1 (fun x hx => ⟨(ha x (List.mem_append_right _ hx)).1, (ha x (List.mem_append_right _ hx)).2.mono e⟩) h
    exact ⟨w2, a1.trans_ext e a2, g2⟩
  | vec n t ih =>
    have key : ∀ (l : List (t.S (ZMod r))) (s s' : CS (ZMod r)) (w : Index → ZMod r), Solves s w →
        (∀ b ∈ l, ∀ x ∈ t.linearize b, x.lc.Canonical ∧ x.lc.Alloc s) → (listForM (fun b => t.inputize b) l).run s = .ok ((), s') →
        ∃ w', Agree w w' s ∧ Solves s' w' := by
      intro l
      induction l with
      | nil =>
        intro s s' w hs ha h
        rw [listForM, M.run_pure] at h; injection h with h; injection h with _ e2; subst e2
        exact ⟨w, fun _ _ => rfl, hs⟩
      | cons b l ihl =>
        intro s s' w hs ha h
        obtain ⟨⟨⟩, s1, r1, h⟩ := M.bind_ok h
        have e := M.run_ext r1
        obtain ⟨w1, a1, g1⟩ := ih hs (ha b (by simp)) r1
        obtain ⟨w2, a2, g2⟩ := ihl _ _ _ g1 (fun c hc x hx => ⟨(ha c (by simp [hc]) x hx).1, (ha c (by simp [hc]) x hx).2.mono e⟩) h
        exact ⟨w2, a1.trans_ext e a2, g2⟩
    exact key a.items s s' w hs (fun b hb x hx => ha x (List.mem_flatMap.2 ⟨b, hb, hx⟩)) h

end Fawkes
