import Verif.Lemmas.CostGadgets
import Verif.Lemmas.NativeRuns
import Verif.Props.Unique

/-!
# Satisfying assignments of a program are the runs of the native code
-/

set_option linter.unusedSectionVars false

namespace Fawkes

variable {r : Nat} [Fact r.Prime] {W : Type} {q : List (CNum (ZMod r))} {s : CS (ZMod r)} {w : Index → ZMod r}

/-! ### The same state with other values -/

/-- The state with the values of `w` in place of the recorded ones. -/
def twin (w : Index → ZMod r) (s : CS (ZMod r)) : CS (ZMod r) := { s with vars := s.vars.map fun kv => (kv.1, some (w kv.1)) }

/-- The registers with the values of `w`. -/
def retag (w : Index → ZMod r) (q : List (CNum (ZMod r))) : List (CNum (ZMod r)) := q.map fun a => ⟨some (a.lc.eval w), a.lc⟩

theorem twin_keys : (twin w s).vars.map Prod.fst = s.vars.map Prod.fst := by simp [twin, Function.comp_def]

theorem twin_shape : s.SameShape (twin w s) := ⟨Iff.rfl, rfl, rfl, twin_keys.symm, rfl⟩

theorem retag_lcs : SameLcs q (retag w q) := by simp [SameLcs, retag, Function.comp_def]

theorem twin_alloc {l : LC (ZMod r)} : l.Alloc (twin w s) ↔ l.Alloc s := by unfold LC.Alloc; rw [twin_keys]

theorem lookup_map (l : List (Index × Option (ZMod r))) {k : Index} (h : k ∈ l.map Prod.fst) :
    (l.map fun kv => (kv.1, some (w kv.1))).lookup k = some (some (w k)) := by
  induction l with
  | nil => cases h
  | cons x l ih =>
    rw [List.map_cons, List.lookup_cons]
    by_cases hk : k = x.1
    · simp [hk]
    · rw [List.map_cons, List.mem_cons] at h
      simp only [beq_eq_false_iff_ne.2 hk]
      exact ih (h.resolve_left hk)

theorem twin_assign (hw : IsAssignment w) {k : Index} (h : k = .input 0 ∨ k ∈ s.vars.map Prod.fst) : (twin w s).assign k = w k := by
  unfold CS.assign
  by_cases h0 : k = .input 0
  · rw [if_pos h0, h0]; exact hw.symm
  · rw [if_neg h0]
    have : (twin w s).vars.lookup k = some (some (w k)) := lookup_map _ (h.resolve_left h0)
    rw [this]

theorem twin_eval (hw : IsAssignment w) {l : LC (ZMod r)} (h : l.Alloc s) : l.eval (twin w s).assign = l.eval w := by
  unfold LC.eval
  congr 1
  refine List.map_congr_left fun kv hkv => ?_
  rw [twin_assign hw (h kv.1 (List.mem_map_of_mem hkv))]

theorem Solves.twin (h : Solves s w) : (twin w s).Honest := by
  have hk : (Fawkes.twin w s).vars.map Prod.fst = s.vars.map Prod.fst := twin_keys
  refine ⟨⟨h.wf.pos, by rw [hk]; exact h.wf.nodup, by rw [hk]; exact h.wf.input_lt, by rw [hk]; exact h.wf.aux_lt⟩, ?_, ?_⟩
  · intro c hc
    obtain ⟨h1, h2, h3⟩ := h.closed c hc
    unfold Constraint.Sat
    rw [twin_eval h.one h1, twin_eval h.one h2, twin_eval h.one h3]
    exact h.sat c hc
  · intro c hc
    obtain ⟨h1, h2, h3⟩ := h.closed c hc
    exact ⟨twin_alloc.2 h1, twin_alloc.2 h2, twin_alloc.2 h3⟩

theorem valuesOf_retag (h : Tidy s q) (hw : IsAssignment w) : valuesOf (twin w s).assign (retag w q) = valuesOf w q := by
  unfold valuesOf retag
  rw [List.map_map]
  exact List.map_congr_left fun a ha => twin_eval hw (h a ha).2

theorem retag_tidy (h : Tidy s q) : Tidy (twin w s) (retag w q) := by
  intro a ha
  obtain ⟨b, hb, rfl⟩ := List.mem_map.1 ha
  exact ⟨(h b hb).1, twin_alloc.2 (h b hb).2⟩

theorem retag_carried (h : Tidy s q) (hw : IsAssignment w) : Carried (twin w s) (retag w q) := by
  intro a ha
  obtain ⟨b, hb, rfl⟩ := List.mem_map.1 ha
  exact ⟨twin_alloc.2 (h b hb).2, by simp only; rw [twin_eval hw (h b hb).2], rfl⟩

/-! ### Proper calls depend on the linear combinations only -/

theorem varies_lc {a b : CNum (ZMod r)} (h : a.lc = b.lc) : Varies a ↔ Varies b := by unfold Varies; rw [h]

theorem combine_lc (ks : List (ZMod r)) {l l' : List (CNum (ZMod r))} (h : l.map CNum.lc = l'.map CNum.lc) (w : Index → ZMod r) :
    combine ks l w = combine ks l' w := by
  have key : ∀ l : List (CNum (ZMod r)), combine ks l w = (List.zipWith (fun k (a : LC (ZMod r)) => k * a.eval w) ks (l.map CNum.lc)).sum := by
    intro l; unfold combine; rw [List.zipWith_map_right]
  rw [key, key, h]

theorem independent_lc {l l' : List (CNum (ZMod r))} (h : l.map CNum.lc = l'.map CNum.lc) (hi : Independent l) : Independent l' := by
  have hlen : l.length = l'.length := by simpa using congrArg List.length h
  intro ks hk hc
  refine hi ks (hk.trans hlen.symm) fun w w' hw hw' => ?_
  rw [combine_lc ks h, combine_lc ks h]
  exact hc w w' hw hw'

theorem get_same {q0 : List (CNum (ZMod r))} (hl : SameLcs q q0) {i : Nat} {a : CNum (ZMod r)} (ha : q0[i]? = some a) :
    ∃ b, q[i]? = some b ∧ b.lc = a.lc := get_lc hl ha

theorem AreSignals.lcs {q0 : List (CNum (ZMod r))} (hl : SameLcs q q0) {is : List Nat} (h : AreSignals q is) : AreSignals q0 is := by
  intro i hi a ha
  obtain ⟨b, hb, e⟩ := get_same hl ha
  rw [← asConst_lc e]; exact h i hi b hb

theorem Call.Proper.lcs {q0 : List (CNum (ZMod r))} (hl : SameLcs q q0) {vals : List (ZMod r)} {c : Call r W} (h : c.Proper q vals) :
    c.Proper q0 vals := by
  cases c with
  | prim o =>
    cases o with
    | div i j => exact ⟨h.1.lcs hl, h.2⟩
    | _ => exact h
  | intoBits i n =>
    refine ⟨h.1, h.2.1, fun a ha hc => ?_⟩
    obtain ⟨b, hb, e⟩ := get_same hl ha
    exact h.2.2 b hb ((asConst_lc e).trans hc)
  | edDouble x y J => exact ⟨h.1, h.2.1, h.2.2.lcs hl⟩
  | edMulByCofactor x y J => exact ⟨h.1, h.2.1, h.2.2.lcs hl⟩
  | edAdd x1 y1 x2 y2 J => exact ⟨h.1, h.2.1, h.2.2.1, h.2.2.2.lcs hl⟩
  | intoMontgomery x y => exact ⟨h.1, h.2.1, h.2.2.lcs hl⟩
  | edMul x y is J =>
    obtain ⟨h1, h2, h3, h4, h5⟩ := h
    refine ⟨h1, h2, h3, h4, ?_⟩
    rcases h5 with h5 | ⟨⟨a, b, ha, hb, hca, hcb⟩, h6, h7⟩
    · exact Or.inl (h5.lcs hl)
    · obtain ⟨a', ha', e1⟩ := get_lc (q0 := q0) hl.symm ha
      obtain ⟨b', hb', e2⟩ := get_lc (q0 := q0) hl.symm hb
      refine Or.inr ⟨⟨a', b', ha', hb', by rwa [asConst_lc e1], by rwa [asConst_lc e2]⟩, h6, fun xs hx => ?_⟩
      rw [← lookups_eq_pick] at hx
      obtain ⟨ys, hy, e⟩ := lookups_lc hl hx
      refine independent_lc ?_ (h7 ys (by rw [← lookups_eq_pick]; exact hy))
      rw [List.map_take, List.map_take, e]
  | fromScalar sqrt t J => exact ⟨h.1, h.2.1, h.2.2.1, h.2.2.2.1.lcs hl, h.2.2.2.2⟩
  | montDouble x y J => exact ⟨h.1, h.2.1, h.2.2.1, h.2.2.2.1, h.2.2.2.2.lcs hl⟩
  | montAdd x1 y1 x2 y2 J =>
    refine ⟨h.1, fun b d hb hd => ?_⟩
    obtain ⟨b', hb', e1⟩ := get_same hl hb
    obtain ⟨d', hd', e2⟩ := get_same hl hd
    refine (varies_lc ?_).1 (h.2 b' d' hb' hd')
    show LC.sub d'.lc b'.lc = LC.sub d.lc b.lc
    rw [e1, e2]
  | intoEdwards x y => exact ⟨h.1, h.2.1, h.2.2.lcs hl⟩
  | eddsaVerify sqrt si ri ai mi P J hl' =>
    obtain ⟨h1, h2, h3, h4, h5, h6, h7, h8, h9, h10⟩ := h
    exact ⟨h1, h2, h3, h4, h5, h6, h7, h8, h9.lcs hl, h10⟩
  | _ => exact h

/-! ### One call -/

/-- A call on which the native code succeeds extends every satisfying assignment. -/
theorem complete_call (hs : Solves s w) (ht : Tidy s q) {v : Option W} {c : Call r W} (hc : c.Proper q (valuesOf w q)) {new : List (ZMod r)}
    (hn : c.native (valuesOf w q) = some new) {q' : List (CNum (ZMod r))} {s' : CS (ZMod r)} (h : (c.exec v q).run s = .ok (q', s')) :
    ∃ w', Agree w w' s ∧ Solves s' w' := by
  obtain ⟨o, t, hr, et, hon, -⟩ := runs_call (v := v) hs.twin (retag_carried ht hs.one) (retag_tidy ht)
    (c := c) (by rw [valuesOf_retag ht hs.one]; exact hc.lcs retag_lcs) (by rw [valuesOf_retag ht hs.one]; exact hn)
    ⟨v, q, s, _, retag_lcs, h⟩
  have sh := (rel_call (retag_lcs (w := w)) v v c s (twin w s) twin_shape _ _ _ _ h hr).1
  have e := M.run_ext h
  refine ⟨t.assign, ?_, e.wf hs.wf, ?_, t.assign_isAssignment, ?_⟩
  · intro k hk
    rw [← twin_assign hs.one (Or.inr hk)]
    exact (et.assign (Or.inr (by rw [twin_keys]; exact hk))).symm
  · intro c hc
    have : c.shape ∈ t.cons.map Constraint.shape := by rw [← sh.cons]; exact List.mem_map_of_mem hc
    obtain ⟨d, hd, he⟩ := List.mem_map.1 this
    have := hon.alloc d hd
    unfold Constraint.shape at he
    injection he with a1 he; injection he with a2 a3
    rw [a1, a2, a3] at this
    unfold LC.Alloc at this ⊢
    rwa [← sh.vars] at this
  · intro c hc
    have : c.shape ∈ t.cons.map Constraint.shape := by rw [← sh.cons]; exact List.mem_map_of_mem hc
    obtain ⟨d, hd, he⟩ := List.mem_map.1 this
    have := hon.sat d hd
    unfold Constraint.shape at he
    injection he with a1 he; injection he with a2 a3
    unfold Constraint.Sat at this ⊢
    rwa [a1, a2, a3] at this

/-- The public inputs from `s` to `s'` have the values `l`. -/
def Shows (w : Index → ZMod r) (s s' : CS (ZMod r)) (l : List (ZMod r)) : Prop :=
  s'.ninputs = s.ninputs + l.length ∧ ∀ i (h : i < l.length), w (.input (s.ninputs + i)) = l[i]

theorem Shows.nil {s' : CS (ZMod r)} (h : s'.ninputs = s.ninputs) : Shows w s s' [] := ⟨h, by simp⟩

theorem Shows.append {s1 s2 : CS (ZMod r)} {l l' : List (ZMod r)} (h : Shows w s s1 l) (h' : Shows w s1 s2 l') : Shows w s s2 (l ++ l') := by
  refine ⟨by rw [h'.1, h.1, List.length_append]; omega, ?_⟩
  intro i hi
  by_cases hil : i < l.length
  · rw [List.getElem_append_left hil]; exact h.2 i hil
  · have : i - l.length < l'.length := by rw [List.length_append] at hi; omega
    rw [List.getElem_append_right (by omega), ← h'.2 _ this, h.1]
    congr 2; omega

theorem Shows.eq {s' : CS (ZMod r)} {l : List (ZMod r)} (h : Shows w s s' l) : publicsBetween w s s' = l := by
  unfold publicsBetween
  rw [h.1, Nat.add_sub_cancel_left]
  apply List.ext_getElem
  · simp
  · intro i h1 h2
    rw [List.getElem_map, List.getElem_range', one_mul]
    exact h.2 i h2

theorem step_other {c : Call r W} (h1 : ¬ c.Own) (h2 : c.publishes = false) (ins vals : List (ZMod r)) :
    c.step ins vals = (c.native vals).bind fun xs => some (ins, xs, []) := by
  cases c with
  | prim o =>
    cases o with
    | alloc v => exact absurd trivial h1
    | allocInput v => exact absurd trivial h1
    | inputize i => cases h2
    | _ => rfl
  | alloc is hint => exact absurd trivial h1
  | allocInput is hint => exact absurd trivial h1
  | _ => rfl

theorem ownVar_other {c : Call r W} (h1 : ¬ c.Own) : c.ownVar s = [] := by
  cases c with
  | prim o =>
    cases o with
    | alloc v => exact absurd trivial h1
    | allocInput v => exact absurd trivial h1
    | _ => rfl
  | alloc is hint => exact absurd trivial h1
  | allocInput is hint => exact absurd trivial h1
  | _ => rfl

theorem publishes_cases {c : Call r W} (h1 : ¬ c.Own) : c.publishes = false ∨ ∃ i, c = .prim (.inputize i) := by
  cases c with
  | prim o =>
    cases o with
    | alloc v => exact absurd trivial h1
    | allocInput v => exact absurd trivial h1
    | inputize i => exact Or.inr ⟨i, rfl⟩
    | _ => exact Or.inl rfl
  | alloc is hint => exact absurd trivial h1
  | allocInput is hint => exact absurd trivial h1
  | _ => exact Or.inl rfl

theorem post_regs_state {is : List Nat} (xs : List (CNum (ZMod r))) (s s0 : CS (ZMod r)) (h : (regs q is).run s = .ok (xs, s0)) : s0 = s := by
  rw [run_regs] at h
  cases hl : lookups q is with
  | none => rw [hl] at h; rw [M.run_panic] at h; cases h
  | some ys => rw [hl] at h; rw [M.run_pure] at h; injection h with h; injection h with _ h; exact h.symm

theorem post_lift_state {α : Type} {x : Except Panic α} (a : α) (s s0 : CS (ZMod r)) (h : (M.lift x : M (ZMod r) α).run s = .ok (a, s0)) : s0 = s := by
  rw [M.run_lift] at h
  cases x with
  | error e => cases h
  | ok y => injection h with h; injection h with _ h; exact h.symm

/-- What the client's own allocations do. -/
theorem own_run {v : Option W} {c : Call r W} (hc : c.Own) {q' : List (CNum (ZMod r))} {s' : CS (ZMod r)}
    (h : (c.exec v q).run s = .ok (q', s')) : ∃ (i : Index) (x : CNum (ZMod r)) (u : Option (ZMod r)) (pub : Bool),
      (i = if pub then .input s.ninputs else s.nextAlloc) ∧ c.ownVar s = [i] ∧ x.lc = [(i, 1)] ∧ q' = q ++ [x] ∧ s' = s.pushVar i u ∧
      (∀ (y : ZMod r) ins vals, c.step (y :: ins) vals = some (ins, [y], if pub then [y] else [])) ∧ ∀ vals, c.step [] vals = none := by
  cases c with
  | prim o =>
    cases o with
    | alloc u =>
      obtain ⟨x, s1, r1, h⟩ := M.bind_ok h
      rw [M.run_pure] at h; injection h with h; injection h with e1 e2; subst e1 e2
      obtain ⟨-, hl, hs⟩ := post_alloc _ _ _ _ r1
      exact ⟨s.nextAlloc, x, u, false, rfl, rfl, hl, rfl, hs, fun _ _ _ => rfl, fun _ => rfl⟩
    | allocInput u =>
      obtain ⟨i, s1, r1, h⟩ := M.bind_ok h
      rw [M.run_pure] at h; injection h with h; injection h with e1 e2; subst e1 e2
      rw [run_csallocInput] at r1
      split at r1
      · cases r1
      · injection r1 with r1; injection r1 with e1 e2; subst e1 e2
        exact ⟨_, _, u, true, rfl, rfl, rfl, rfl, rfl, fun _ _ _ => rfl, fun _ => rfl⟩
    | _ => exact hc.elim
  | alloc is hint =>
    obtain ⟨xs, s0, r0, h1⟩ := M.bind_ok h
    obtain ⟨u, s1, r1, h2⟩ := M.bind_ok h1
    obtain ⟨x, s2, r2, h3⟩ := M.bind_ok h2
    have e0 : s0 = s := (post_regs_state _ _ _ r0)
    have e1 : s1 = s0 := (post_lift_state _ _ _ r1)
    subst e1 e0
    rw [M.run_pure] at h3; injection h3 with h3; injection h3 with e1 e2; subst e1 e2
    obtain ⟨-, hl, hs⟩ := post_alloc _ _ _ _ r2
    exact ⟨s1.nextAlloc, x, u, false, rfl, rfl, hl, rfl, hs, fun _ _ _ => rfl, fun _ => rfl⟩
  | allocInput is hint =>
    obtain ⟨xs, s0, r0, h1⟩ := M.bind_ok h
    obtain ⟨u, s1, r1, h2⟩ := M.bind_ok h1
    obtain ⟨i, s2, r2, h3⟩ := M.bind_ok h2
    have e0 : s0 = s := (post_regs_state _ _ _ r0)
    have e1 : s1 = s0 := (post_lift_state _ _ _ r1)
    subst e1 e0
    rw [M.run_pure] at h3; injection h3 with h3; injection h3 with e1 e2; subst e1 e2
    rw [run_csallocInput] at r2
    split at r2
    · cases r2
    · injection r2 with r2; injection r2 with e1 e2; subst e1 e2
      exact ⟨_, _, u, true, rfl, rfl, rfl, rfl, rfl, fun _ _ _ => rfl, fun _ => rfl⟩
  | _ => exact hc.elim

/-- One call: the values of a satisfying assignment are those of the native code. -/
theorem step_sound (hw : IsAssignment w) (hs : s.WF) (ht : Tidy s q) {v : Option W} {c : Call r W} (hc : c.Proper q (valuesOf w q))
    {q' : List (CNum (ZMod r))} {s' : CS (ZMod r)} (h : (c.exec v q).run s = .ok (q', s')) (hsat : s'.Sat w) (ins : List (ZMod r)) :
    ∃ new pub, c.step ((c.ownVar s).map w ++ ins) (valuesOf w q) = some (ins, new, pub) ∧ valuesOf w q' = valuesOf w q ++ new ∧
      (s.backend ≠ .test → Shows w s s' pub) := by
  by_cases hown : c.Own
  · obtain ⟨i, x, u, pub, hi, ho, hx, rfl, rfl, hstep, -⟩ := own_run hown h
    refine ⟨[w i], if pub then [w i] else [], ?_, ?_, ?_⟩
    · rw [ho]; exact hstep _ _ _
    · rw [valuesOf_append]; simp [valuesOf, hx, LC.eval]
    · intro hb
      cases pub
      · refine Shows.nil ?_
        rw [hi]
        simp only [Bool.false_eq_true, if_false]
        unfold CS.nextAlloc
        split
        · next h => exact absurd h hb
        · rfl
      · simp only [if_true] at hi ⊢
        subst hi
        exact ⟨rfl, by simp⟩
  · rw [ownVar_other hown]
    obtain ⟨new, hn, hv⟩ := sound_call hw hs ht hc hown _ _ h hsat
    rcases publishes_cases hown with hp | ⟨i, rfl⟩
    · refine ⟨new, [], ?_, hv, fun hb => Shows.nil ((cost_call v q c _ _ _ h).2 hp hb)⟩
      rw [step_other hown hp, hn]; rfl
    · obtain ⟨a, ha, hn⟩ := get_reg hn
      injection hn with hn
      refine ⟨[], [a.lc.eval w], by simp only [Call.step, valuesOf_get ha]; rfl, hn ▸ hv, fun _ => ?_⟩
      have : Spec w s ((Call.prim (.inputize i) : Call r W).exec v q) (fun _ s' => InputsAre w s s' [a.lc.eval w]) := by
        refine spec_reg fun b hb => Spec.bind (spec_inputize hw b s) fun _ s1 _ h1 => Spec.pure fun _ => ?_
        rw [ha] at hb; injection hb with hb; rw [hb]; exact h1
      obtain ⟨h1, -, h2⟩ := this _ _ h hsat
      exact ⟨h1, h2⟩

/-- One call: a step of the native code extends every satisfying assignment. -/
theorem step_complete (hs : Solves s w) (ht : Tidy s q) {v : Option W} {c : Call r W} (hc : c.Proper q (valuesOf w q))
    {q' : List (CNum (ZMod r))} {s' : CS (ZMod r)} (h : (c.exec v q).run s = .ok (q', s')) {ins ins' new pub : List (ZMod r)}
    (hstep : c.step ins (valuesOf w q) = some (ins', new, pub)) :
    ∃ w', Agree w w' s ∧ Solves s' w' ∧ (c.ownVar s).map w' ++ ins' = ins ∧ ∀ i ∈ c.ownVar s, i ∈ s'.vars.map Prod.fst := by
  by_cases hown : c.Own
  · have e := M.run_ext h
    obtain ⟨i, x, u, pub', hi, ho, hx, rfl, rfl, hst, hst0⟩ := own_run hown h
    cases ins with
    | nil => rw [hst0] at hstep; cases hstep
    | cons y ins =>
      rw [hst] at hstep
      injection hstep with hstep; injection hstep with hstep _
      have hfresh : i ≠ .input 0 ∧ i ∉ s.vars.map Prod.fst := by
        rw [hi]
        split
        · refine ⟨?_, fun h => ?_⟩
          · intro h; injection h with h; have := hs.wf.pos; omega
          · exact absurd (hs.wf.input_lt _ h).2 (lt_irrefl _)
        · exact nextAlloc_fresh hs.wf
      have h1 : IsAssignment (Function.update w i y) := by
        unfold IsAssignment
        rw [Function.update_of_ne hfresh.1.symm]; exact hs.one
      have hag : Agree w (Function.update w i y) s := by
        intro k hk
        rw [Function.update_of_ne]
        rintro rfl
        exact hfresh.2 hk
      refine ⟨_, hag, ⟨e.wf hs.wf, ?_, h1, ?_⟩, ?_, ?_⟩
      · intro c hc
        rw [pushVar_cons] at hc
        obtain ⟨a1, a2, a3⟩ := hs.closed c hc
        exact ⟨a1.mono e, a2.mono e, a3.mono e⟩
      · intro c hc
        rw [pushVar_cons] at hc
        exact hs.closed.sat hs.one h1 hag hs.sat c hc
      · rw [ho, ← hstep]; simp
      · rw [ho]
        intro k hk
        rw [List.mem_singleton] at hk; subst hk
        cases k <;> simp [CS.pushVar]
  · rw [ownVar_other hown]
    rcases publishes_cases hown with hp | ⟨i, rfl⟩
    · rw [step_other hown hp] at hstep
      obtain ⟨xs, hn, he⟩ := get_some hstep
      obtain ⟨w', h1, h2⟩ := complete_call hs ht hc hn h
      injection he with he; injection he with he
      exact ⟨w', h1, h2, by simpa using he.symm, by simp⟩
    · obtain ⟨a, ha, he⟩ := get_reg hstep
      obtain ⟨w', h1, h2⟩ := complete_call hs ht hc (new := []) (by simp only [Call.native, Op.native, valuesOf_get ha]; rfl) h
      injection he with he; injection he with he
      exact ⟨w', h1, h2, by simpa using he.symm, by simp⟩

/-! ### Programs -/

/-- The values of a satisfying assignment are those of the native run. -/
theorem code_sound (hw : IsAssignment w) (hs : s.WF) (ht : Tidy s q) {v : Option W} {code : Code r W} {o : List (CNum (ZMod r))}
    {s' : CS (ZMod r)} (h : (code.exec v q).run s = .ok (o, s')) (hsat : s'.Sat w)
    (hp : code.Proper v q s ((code.ownVars v q s).map w) (valuesOf w q)) :
    ∃ pubs, nativeRun (code.calls v q s) ((code.ownVars v q s).map w) (valuesOf w q) = some (valuesOf w o, pubs) ∧
      (s.backend ≠ .test → Shows w s s' pubs) := by
  induction code generalizing q s with
  | done =>
    rw [Code.exec, M.run_pure] at h
    injection h with h; injection h with e1 e2; subst e1 e2
    exact ⟨[], rfl, fun _ => Shows.nil rfl⟩
  | call c next ih =>
    obtain ⟨q1, s1, r1, h⟩ := M.bind_ok h
    have e := M.run_ext r1
    have e' := M.run_ext h
    have hv : (Code.call c next).ownVars v q s = c.ownVar s ++ (next (q1.map CNum.lc)).ownVars v q1 s1 := by
      rw [Code.ownVars, r1]
    have hcalls : (Code.call c next).calls v q s = c :: (next (q1.map CNum.lc)).calls v q1 s1 := by
      rw [Code.calls, r1]
    rw [hv, List.map_append] at hp ⊢
    rw [hcalls]
    obtain ⟨hp1, hp2⟩ := hp
    obtain ⟨new, pub, hstep, hval, hsh⟩ := step_sound hw hs ht hp1 r1 (e'.sat hsat) (((next (q1.map CNum.lc)).ownVars v q1 s1).map w)
    have hp2 := hp2 q1 s1 _ new pub r1 hstep
    rw [← hval] at hp2
    obtain ⟨pubs, hrun, hsh'⟩ := ih _ (e.wf hs) (tidy_call hs ht r1) h hp2
    refine ⟨pub ++ pubs, ?_, fun hb => (hsh hb).append (hsh' (by rw [e.backend]; exact hb))⟩
    rw [nativeRun, hstep]
    show ((nativeRun _ _ (valuesOf w q ++ new)).bind _) = _
    rw [← hval, hrun]
    rfl

/-- Every native run belongs to a satisfying assignment. -/
theorem code_complete (hs : Solves s w) (ht : Tidy s q) {v : Option W} {code : Code r W} {o : List (CNum (ZMod r))}
    {s' : CS (ZMod r)} (h : (code.exec v q).run s = .ok (o, s')) {ins out pubs : List (ZMod r)}
    (hp : code.Proper v q s ins (valuesOf w q)) (hrun : nativeRun (code.calls v q s) ins (valuesOf w q) = some (out, pubs)) :
    ∃ w', Agree w w' s ∧ Solves s' w' ∧ (code.ownVars v q s).map w' = ins := by
  induction code generalizing q s w ins out pubs with
  | done =>
    rw [Code.exec, M.run_pure] at h
    injection h with h; injection h with e1 e2; subst e1 e2
    have : nativeRun ([] : List (Call r W)) ins (valuesOf w q) = some (out, pubs) := hrun
    rw [nativeRun] at this
    split at this
    · next hi => exact ⟨w, fun _ _ => rfl, hs, hi.symm⟩
    · cases this
  | call c next ih =>
    obtain ⟨q1, s1, r1, h⟩ := M.bind_ok h
    have e := M.run_ext r1
    have e' := M.run_ext h
    have hv : (Code.call c next).ownVars v q s = c.ownVar s ++ (next (q1.map CNum.lc)).ownVars v q1 s1 := by
      rw [Code.ownVars, r1]
    have hcalls : (Code.call c next).calls v q s = c :: (next (q1.map CNum.lc)).calls v q1 s1 := by
      rw [Code.calls, r1]
    rw [hcalls] at hrun
    obtain ⟨hp1, hp2⟩ := hp
    obtain ⟨⟨ins1, new, pub⟩, hstep, hrun⟩ := get_some hrun
    obtain ⟨⟨out', pubs'⟩, hrun, -⟩ := get_some hrun
    obtain ⟨w1, hag, hs1, hins, hmem⟩ := step_complete hs ht hp1 r1 hstep
    have hvq : valuesOf w1 q = valuesOf w q := by
      unfold valuesOf
      exact List.map_congr_left fun a ha => hag.eval hs.one hs1.one (ht a ha).2
    have hval : valuesOf w1 q1 = valuesOf w q ++ new := by
      obtain ⟨new', pub', hstep', hval, -⟩ := step_sound hs1.one hs.wf ht (by rw [hvq]; exact hp1) r1 hs1.sat ins1
      rw [hins, hvq, hstep] at hstep'
      injection hstep' with hstep'; injection hstep' with _ hstep'; injection hstep' with h1 _
      rw [hval, hvq, h1]
    have hp2 := hp2 q1 s1 _ new pub r1 hstep
    rw [← hval] at hp2
    change nativeRun _ ins1 (valuesOf w q ++ new) = _ at hrun
    rw [← hval] at hrun
    obtain ⟨w2, hag2, hs2, hins2⟩ := ih _ hs1 (tidy_call hs.wf ht r1) h hp2 hrun
    refine ⟨w2, hag.trans_ext e hag2, hs2, ?_⟩
    rw [hv, List.map_append, hins2, ← hins]
    congr 1
    exact List.map_congr_left fun i hi => (hag2 i (hmem i hi)).symm

end Fawkes
