import Verif.Lemmas.LinkSignal

/-!
# Trusted setup follows proving

The first run is on the prover, the second one, with possibly fewer values, on the key generator.
-/

set_option linter.unusedSectionVars false

namespace Fawkes

variable {F : Type} [Field F] [DecidableEq F]

/-- A proving run and a key generation run. -/
def setupLink (F : Type) [Field F] [DecidableEq F] : Link F where
  st s t := s.SameShape t ∧ s.backend = .prove ∧ t.backend = .setup
  ok _ _ _ := True
  ok_mid _ _ _ := ⟨trivial, trivial⟩
  lax := true
  known := false
  fit a b := a.lc = b.lc ∧ (b.value = none ∨ b.value = a.value)
  fit_value h := h.2.imp (fun h => ⟨rfl, h⟩) (fun h => ⟨h, fun h => by cases h⟩)
  fit_asConst h := CNum.asConst_congr h.1
  fit_length h := by rw [h.1]
  fit_const v := ⟨rfl, Or.inr rfl⟩
  fit_addAssign ha hb := by
    refine ⟨shape_addAssign ha.1 hb.1, ?_⟩
    rcases ha.2 with h | h
    · left; simp [CNum.addAssign, CNum.value₂, h]
    · rcases hb.2 with h' | h'
      · left; simp [CNum.addAssign, CNum.value₂, h']
      · right; simp [CNum.addAssign, h, h']
  fit_sub ha hb := by
    refine ⟨shape_sub ha.1 hb.1, ?_⟩
    rcases ha.2 with h | h
    · left; simp [CNum.sub, CNum.value₂, h]
    · rcases hb.2 with h' | h'
      · left; simp [CNum.sub, CNum.value₂, h']
      · right; simp [CNum.sub, h, h']
  fit_scale k _ h := by
    refine ⟨by simp [h.1], ?_⟩
    rcases h.2 with h | h
    · left; simp [h]
    · right; simp [h]
  sim_alloc' := by
    rintro u v h s t ⟨hst, hs, ht⟩ a s' h1 -
    obtain ⟨g1, g2, g3⟩ := post_alloc s u _ _ h1
    have hr : ∃ b t', (CNum.alloc v).run t = .ok (b, t') := by
      unfold CNum.alloc
      rw [M.run_bind, run_csalloc]
      simp [ht]
      exact ⟨_, _, rfl⟩
    obtain ⟨b, t', h2⟩ := hr
    obtain ⟨k1, k2, k3⟩ := post_alloc t v _ _ h2
    obtain ⟨j1, j2⟩ := rel_alloc u v s t hst _ _ _ _ h1 h2
    refine ⟨b, t', h2, ⟨j1, ?_, ?_⟩, j2, ?_⟩
    · rw [(M.run_ext h1).backend, hs]
    · rw [(M.run_ext h2).backend, ht]
    · rw [g1, k1]; exact h.imp And.right And.left
  sim_allocInput' := by
    rintro u v h s t ⟨hst, hs, ht⟩ a s' h1 -
    have hr : ∃ b t', (CS.allocInput v).run t = .ok (b, t') := by
      rw [run_csallocInput]; simp [ht]
    obtain ⟨b, t', h2⟩ := hr
    obtain ⟨j1, rfl⟩ := rel_allocInput u v s t hst _ _ _ _ h1 h2
    exact ⟨a, t', h2, ⟨j1, by rw [(M.run_ext h1).backend, hs], by rw [(M.run_ext h2).backend, ht]⟩, rfl,
      h.imp And.right And.left⟩
  sim_enforce' := by
    rintro p a b c a' b' c' ha hb hc s t ⟨hst, hs, ht⟩ u s' h1 -
    have hr : ∃ x t', (CS.enforce a' b' c').run t = .ok (x, t') := by
      rw [run_enforce]; simp [ht]
    obtain ⟨x, t', h2⟩ := hr
    obtain ⟨j1, j2⟩ := rel_enforce ha.1 hb.1 hc.1 s t hst _ _ _ _ h1 h2
    exact ⟨x, t', h2, ⟨j1, by rw [(M.run_ext h1).backend, hs], by rw [(M.run_ext h2).backend, ht]⟩, trivial⟩

theorem setupLink_pub {α β : Type} {p q : Bool} {m₁ : M F α} {m₂ : M F β} {Q : α → β → Prop} (h : Sim (setupLink F) p m₁ m₂ Q) :
    Sim (setupLink F) q m₁ m₂ Q := fun s t hst a s' hr _ => h s t hst a s' hr trivial

theorem setupLink_lcs {q q' : List (CNum F)} (h : List.Forall₂ (setupLink F).fit q q') :
    q.map CNum.lc = q'.map CNum.lc := by
  induction h with
  | nil => rfl
  | cons h _ ih => rw [List.map_cons, List.map_cons, ih]; congr 1; exact h.1

variable {r : Nat} [Fact r.Prime] {W : Type}

theorem setupLink_sees (c : Code r W) : c.Sees (setupLink (ZMod r)) := by
  induction c with
  | done => trivial
  | call c next ih => exact ⟨fun q q' h => by rw [setupLink_lcs h], fun l => ih l⟩

theorem setupLink_ok (c : Code r W) (w : Option W) (q : List (CNum (ZMod r))) (s : CS (ZMod r)) :
    c.Ok (setupLink (ZMod r)) w q s := by
  induction c generalizing q s with
  | done => trivial
  | call c next ih => exact fun q1 s1 _ => ⟨trivial, ih _ _ _⟩

theorem sim_setup (w : Option W) (c : Code r W) (hc : c.WidthsFit) {q q' : List (CNum (ZMod r))}
    (h : FitsLcs (setupLink (ZMod r)) q q') (p : Bool) :
    Sim (setupLink (ZMod r)) p (c.exec w q) (c.exec none q') (FitsLcs (setupLink (ZMod r))) :=
  fun s t hst a s' hr _ => sim_code (X := setupLink (ZMod r)) (Or.inl ⟨rfl, rfl⟩) c (fun _ => hc) (fun k => by cases k)
    (setupLink_sees c) h s t hst a s' hr (setupLink_ok c w q s)

end Fawkes
