import Verif.Lemmas.Varies
import Verif.Lemmas.Poseidon

/-!
# The hash of a signal that is not a constant is not a constant
-/

set_option linter.unusedSectionVars false

namespace Fawkes.CPoseidon

variable {F : Type} [Field F] [DecidableEq F] {s s' : CS F}

/-- A variable allocated between `s` and `s'`. -/
def NewKey (s s' : CS F) (k : Index) : Prop := k ≠ .input 0 ∧ k ∉ s.vars.map Prod.fst ∧ k ∈ s'.vars.map Prod.fst

theorem fresh_key {x : CNum F} (h : FreshVar s x) (ha : x.lc.Alloc s') : ∃ k, NewKey s s' k ∧ coef k x ≠ 0 := by
  obtain ⟨k, hl, hk, hn⟩ := h
  refine ⟨k, ⟨hk, hn, ?_⟩, by rw [coef_var hl hk]; exact one_ne_zero⟩
  have : k ∈ x.lc.keys := by rw [hl]; simp [LC.keys]
  exact (ha k this).resolve_left hk

theorem post_sigma (hs : s.WF) {a : CNum F} (ha : a.lc.Alloc s) :
    Post s (sigma a) (fun r s' => r.lc.Alloc s' ∧ (Varies a → ∃ k, NewKey s s' k ∧ coef k r ≠ 0)) := by
  unfold sigma
  refine Post.bind (post_mul hs a a) fun b s1 e1 h1 => ?_
  have hb := h1.1 ha ha
  refine Post.bind (post_mul (e1.wf hs) b b) fun c s2 e2 h2 => ?_
  have hc := h2.1 hb hb
  refine (post_mul (e2.wf (e1.wf hs)) c a).mono fun d s3 e3 h3 => ?_
  have hd := h3.1 hc (ha.mono (e1.trans e2))
  refine ⟨hd, fun hv => ?_⟩
  have vb := (h1.2 hv.asConst hv.asConst).varies
  have vc := (h2.2 vb.asConst vb.asConst).varies
  obtain ⟨k, ⟨h4, h5, h6⟩, h7⟩ := fresh_key (h3.2 vc.asConst hv.asConst) hd
  exact ⟨k, ⟨h4, fun h => h5 (mem_vars_mono (e1.trans e2) h), h6⟩, h7⟩

theorem post_sigma_coef (hs : s.WF) {a : CNum F} {k : Index} (hk : k ≠ .input 0) (hm : k ∈ s.vars.map Prod.fst)
    (ha : coef k a = 0) : Post s (sigma a) (fun r _ => coef k r = 0) := by
  unfold sigma
  refine Post.bind (post_mul_coef hs hk hm ha ha) fun b s1 e1 h1 => ?_
  refine Post.bind (post_mul_coef (e1.wf hs) hk (mem_vars_mono e1 hm) h1 h1) fun c s2 e2 h2 => ?_
  exact post_mul_coef (e2.wf (e1.wf hs)) hk (mem_vars_mono (e1.trans e2) hm) h2 ha

theorem post_sigmaAll_coef {k : Index} (hk : k ≠ .input 0) (l : List (CNum F)) : ∀ {s : CS F}, s.WF →
    k ∈ s.vars.map Prod.fst → (∀ a ∈ l, coef k a = 0) → Post s (sigmaAll l) (fun r _ => ∀ b ∈ r, coef k b = 0) := by
  induction l with
  | nil => intro s _ _ _; exact Post.pure (by simp)
  | cons x xs ih =>
    intro s hs hm h
    unfold sigmaAll
    refine Post.bind (post_sigma_coef hs hk hm (h x (by simp))) fun y s1 e1 hy => ?_
    refine Post.bind (ih (e1.wf hs) (mem_vars_mono e1 hm) fun a ha => h a (by simp [ha])) fun ys s2 e2 hys => ?_
    refine Post.pure fun b hb => ?_
    rcases List.mem_cons.1 hb with rfl | hb
    · exact hy
    · exact hys b hb

/-- Exactly one element of the list contains the variable `k`. -/
def Single (k : Index) (l : List (CNum F)) : Prop :=
  ∃ pre x post, l = pre ++ x :: post ∧ coef k x ≠ 0 ∧ (∀ y ∈ pre, coef k y = 0) ∧ ∀ y ∈ post, coef k y = 0

theorem post_sigmaAll (l : List (CNum F)) : ∀ {s : CS F}, s.WF → (∀ a ∈ l, a.lc.Alloc s) →
    Post s (sigmaAll l) (fun r s' => (∀ a ∈ r, a.lc.Alloc s') ∧ ((∃ a ∈ l, Varies a) → ∃ k, NewKey s s' k ∧ Single k r)) := by
  induction l with
  | nil => intro s _ _; exact Post.pure ⟨by simp, by simp⟩
  | cons x xs ih =>
    intro s hs hl
    unfold sigmaAll
    refine Post.bind (post_sigma hs (hl x (by simp))) fun y s1 e1 ⟨hya, hy⟩ => ?_
    have hxs : ∀ a ∈ xs, a.lc.Alloc s1 := fun a ha => (hl a (by simp [ha])).mono e1
    by_cases hv : Varies x
    · obtain ⟨k, hk, hc⟩ := hy hv
      refine Post.bind (Post.and (ih (e1.wf hs) hxs) (post_sigmaAll_coef hk.1 xs (e1.wf hs) hk.2.2
        fun a ha => coef_alloc (hl a (by simp [ha])) hk.1 hk.2.1)) fun ys s2 e2 ⟨⟨h1, _⟩, h2⟩ => ?_
      refine Post.pure ⟨?_, fun _ => ⟨k, ⟨hk.1, hk.2.1, mem_vars_mono e2 hk.2.2⟩, [], y, ys, rfl, hc, by simp, h2⟩⟩
      intro a ha
      rcases List.mem_cons.1 ha with rfl | ha
      · exact hya.mono e2
      · exact h1 a ha
    · refine Post.bind (ih (e1.wf hs) hxs) fun ys s2 e2 ⟨h1, h2⟩ => ?_
      refine Post.pure ⟨?_, ?_⟩
      · intro a ha
        rcases List.mem_cons.1 ha with rfl | ha
        · exact hya.mono e2
        · exact h1 a ha
      · rintro ⟨a, ha, hav⟩
        rcases List.mem_cons.1 ha with rfl | ha
        · exact absurd hav hv
        · obtain ⟨k, ⟨h3, h4, h5⟩, pre, z, post, rfl, h6, h7, h8⟩ := h2 ⟨a, ha, hav⟩
          refine ⟨k, ⟨h3, fun h => h4 (mem_vars_mono e1 h), h5⟩, y :: pre, z, post, rfl, h6, ?_, h8⟩
          intro b hb
          rcases List.mem_cons.1 hb with rfl | hb
          · exact coef_alloc hya h3 h4
          · exact h7 b hb

theorem alloc_mixRow {st : List (CNum F)} (h : ∀ a ∈ st, a.lc.Alloc s) (row : List F) {acc r : CNum F} (ha : acc.lc.Alloc s)
    (hr : mixRow st row acc = .ok r) : r.lc.Alloc s := by
  induction st generalizing row acc with
  | nil => unfold mixRow at hr; cases hr; exact ha
  | cons x st ih =>
    cases row with
    | nil => unfold mixRow at hr; cases hr
    | cons c row =>
      unfold mixRow at hr
      exact ih (fun a ha => h a (by simp [ha])) row (alloc_addAssign ha (alloc_mulConst (h x (by simp)) _)) hr

theorem coef_mixRow_zero {k : Index} {st : List (CNum F)} (h : ∀ a ∈ st, coef k a = 0) (row : List F) {acc r : CNum F}
    (hr : mixRow st row acc = .ok r) : coef k r = coef k acc := by
  induction st generalizing row acc with
  | nil => unfold mixRow at hr; cases hr; rfl
  | cons x st ih =>
    cases row with
    | nil => unfold mixRow at hr; cases hr
    | cons c row =>
      unfold mixRow at hr
      rw [ih (fun a ha => h a (by simp [ha])) row hr, coef_addAssign, coef_mulConst, h x (by simp), zero_mul, add_zero]

theorem coef_mixRow {k : Index} {st : List (CNum F)} (h : Single k st) (row : List F) (hrow : ∀ c ∈ row, c ≠ 0)
    {acc r : CNum F} (ha : coef k acc = 0) (hr : mixRow st row acc = .ok r) : coef k r ≠ 0 := by
  obtain ⟨pre, x, post, rfl, hx, hpre, hpost⟩ := h
  induction pre generalizing row acc with
  | nil =>
    cases row with
    | nil => unfold mixRow at hr; cases hr
    | cons c row =>
      rw [List.nil_append] at hr
      unfold mixRow at hr
      rw [coef_mixRow_zero hpost row hr, coef_addAssign, coef_mulConst, ha, zero_add]
      exact mul_ne_zero hx (hrow c (by simp))
  | cons y pre ih =>
    cases row with
    | nil => rw [List.cons_append] at hr; unfold mixRow at hr; cases hr
    | cons c row =>
      rw [List.cons_append] at hr
      unfold mixRow at hr
      exact ih row (fun c hc => hrow c (by simp [hc]))
        (by rw [coef_addAssign, coef_mulConst, ha, hpre y (by simp), zero_mul, add_zero]) hr (fun a ha => hpre a (by simp [ha]))

theorem mixRows_coef {k : Index} {st : List (CNum F)} (h : Single k st) (hal : ∀ a ∈ st, a.lc.Alloc s) (rows : List (List F))
    (hrows : ∀ row ∈ rows, ∀ c ∈ row, c ≠ 0) (n : Nat) {r : List (CNum F)} (hr : mixRows st rows n = .ok r) :
    ∀ a ∈ r, a.lc.Alloc s ∧ coef k a ≠ 0 := by
  induction n generalizing rows r with
  | zero => unfold mixRows at hr; cases hr; simp
  | succ n ih =>
    cases rows with
    | nil => unfold mixRows at hr; cases hr
    | cons row rows =>
      unfold mixRows at hr
      simp only [bind, Except.bind] at hr
      split at hr
      · cases hr
      · next x hx =>
        split at hr
        · cases hr
        · next xs hxs =>
          cases hr
          intro a ha
          rcases List.mem_cons.1 ha with rfl | ha
          · exact ⟨alloc_mixRow hal row (alloc_fromConst 0) hx,
              coef_mixRow h row (hrows row (by simp)) coef_zero hx⟩
          · exact ih rows (fun r hr => hrows r (by simp [hr])) hxs a ha

theorem mixRows_varies {k : Index} {st : List (CNum F)} (h : Single k st) (hal : ∀ a ∈ st, a.lc.Alloc s) (rows : List (List F))
    (hrows : ∀ row ∈ rows, ∀ c ∈ row, c ≠ 0) (n : Nat) {r : List (CNum F)} (hr : mixRows st rows n = .ok r) :
    ∀ a ∈ r, a.lc.Alloc s ∧ Varies a := fun a ha =>
  ⟨(mixRows_coef h hal rows hrows n hr a ha).1, Varies.of_coef (mixRows_coef h hal rows hrows n hr a ha).2⟩

theorem alloc_ark {st : List (CNum F)} (h : ∀ a ∈ st, a.lc.Alloc s) (c : F) : ∀ a ∈ ark st c, a.lc.Alloc s := by
  intro a ha
  obtain ⟨b, hb, rfl⟩ := List.mem_map.1 ha
  exact alloc_addConst (h b hb) c

/-- The nonlinear layer creates a variable of its own in one element: in a full round if some element varies, in every
round if all do. -/
theorem post_layer (P : PoseidonParams F) (i : Nat) {st : List (CNum F)} (hs : s.WF) (hal : ∀ a ∈ st, a.lc.Alloc s)
    (h : (i < P.f / 2 ∧ ∃ a ∈ st, Varies a) ∨ (st ≠ [] ∧ ∀ a ∈ st, Varies a)) :
    Post s (layer P i st) (fun r s' => (∀ a ∈ r, a.lc.Alloc s') ∧ ∃ k, NewKey s s' k ∧ Single k r) := by
  unfold layer
  split
  · refine (post_sigmaAll st hs hal).mono fun r s1 e1 ⟨h1, h2⟩ => ⟨h1, ?_⟩
    exact h2 (by
      rcases h with h | ⟨h0, h⟩
      · exact h.2
      · match st, h0 with
        | x :: _, _ => exact ⟨x, by simp, h x (by simp)⟩)
  · next hi =>
    push Not at hi
    rcases h with h | ⟨h0, h⟩
    · omega
    · match st, h0 with
      | x :: xs, _ =>
        refine Post.bind (post_sigma hs (hal x (by simp))) fun y s1 e1 ⟨hya, hy⟩ => ?_
        obtain ⟨k, hk, hc⟩ := hy (h x (by simp))
        refine Post.pure ⟨?_, k, hk, [], y, xs, rfl, hc, by simp,
          fun a ha => coef_alloc (hal a (by simp [ha])) hk.1 hk.2.1⟩
        intro a ha
        rcases List.mem_cons.1 ha with rfl | ha
        · exact hya
        · exact (hal a (by simp [ha])).mono e1

theorem post_rounds (P : PoseidonParams F) (hm : ∀ row ∈ P.m, ∀ c ∈ row, c ≠ 0) (n i : Nat) {st : List (CNum F)} (hs : s.WF)
    (hal : ∀ a ∈ st, a.lc.Alloc s) (h0 : st ≠ []) (h : ∀ a ∈ st, Varies a) :
    Post s (rounds P n i st) (fun r s' => ∀ a ∈ r, a.lc.Alloc s' ∧ Varies a) := by
  induction n generalizing i st s with
  | zero => exact Post.pure fun a ha => ⟨hal a ha, h a ha⟩
  | succ n ih =>
    unfold rounds
    refine Post.bind (Q := fun _ s' => s' = s) (Post.lift fun _ _ => rfl) ?_
    intro c s1 _ hs1
    rw [hs1]
    refine Post.bind (post_layer P i hs (alloc_ark hal c) (Or.inr ⟨by simpa [ark] using h0, ?_⟩)) ?_
    · intro a ha
      obtain ⟨b, hb, rfl⟩ := List.mem_map.1 ha
      exact (h b hb).addConst c
    · rintro st2 s2 e2 ⟨h1, k, -, h2⟩
      refine Post.bind (Q := fun r s' => s' = s2 ∧ mix st2 P = .ok r) (Post.lift fun _ h => ⟨rfl, h⟩) ?_
      rintro st3 s3 _ ⟨hs3, hmx⟩
      rw [hs3]
      have h3 := mixRows_varies h2 h1 P.m hm _ hmx
      refine ih _ (e2.wf hs) (fun a ha => (h3 a ha).1) ?_ fun a ha => (h3 a ha).2
      intro hnil
      have hl := mixRows_length _ _ _ _ hmx
      rw [hnil] at hl
      obtain ⟨pre, x, post, rfl, -⟩ := h2
      simp at hl

/-- The hash of inputs one of which varies varies, if there is a full round at the beginning and no entry of the matrix is
zero. -/
theorem post_poseidon_varies (P : PoseidonParams F) (hm : ∀ row ∈ P.m, ∀ c ∈ row, c ≠ 0) (hf : 2 ≤ P.f)
    {inputs : List (CNum F)} (hs : s.WF) (hal : ∀ a ∈ inputs, a.lc.Alloc s) (hv : ∃ a ∈ inputs, Varies a) :
    Post s (poseidon inputs P) (fun r s' => r.lc.Alloc s' ∧ Varies r) := by
  unfold poseidon
  split
  · exact Post.panic
  split
  · exact Post.panic
  obtain ⟨n, hn⟩ : ∃ n, P.f + P.p = n + 1 := ⟨P.f + P.p - 1, by omega⟩
  have hal' : ∀ a ∈ inputs ++ List.replicate (P.t - inputs.length) CNum.zero, a.lc.Alloc s := by
    intro a ha
    rcases List.mem_append.1 ha with ha | ha
    · exact hal a ha
    · rw [(List.mem_replicate.1 ha).2]; exact alloc_fromConst 0
  have key : Post s (rounds P (P.f + P.p) 0 (inputs ++ List.replicate (P.t - inputs.length) CNum.zero))
      (fun r s' => ∀ a ∈ r, a.lc.Alloc s' ∧ Varies a) := by
    rw [hn]
    unfold rounds
    refine Post.bind (Q := fun _ s' => s' = s) (Post.lift fun _ _ => rfl) ?_
    intro c s1 _ hs1
    rw [hs1]
    refine Post.bind (post_layer P 0 hs (alloc_ark hal' c) (Or.inl ⟨by omega, ?_⟩)) ?_
    · obtain ⟨a, ha, hva⟩ := hv
      exact ⟨_, List.mem_map.2 ⟨a, List.mem_append_left _ ha, rfl⟩, hva.addConst c⟩
    · rintro st2 s2 e2 ⟨h1, k, -, h2⟩
      refine Post.bind (Q := fun r s' => s' = s2 ∧ mix st2 P = .ok r) (Post.lift fun _ h => ⟨rfl, h⟩) ?_
      rintro st3 s3 _ ⟨hs3, hmx⟩
      rw [hs3]
      have h3 := mixRows_varies h2 h1 P.m hm _ hmx
      refine post_rounds P hm _ _ (e2.wf hs) (fun a ha => (h3 a ha).1) ?_ fun a ha => (h3 a ha).2
      intro hnil
      have hl := mixRows_length _ _ _ _ hmx
      rw [hnil] at hl
      obtain ⟨pre, x, post, rfl, -⟩ := h2
      simp at hl
  refine Post.bind key fun st s1 e1 h1 => ?_
  refine Post.lift fun x hx => ?_
  have := List.mem_of_getElem? (getIdx_ok.1 hx)
  exact h1 x this

/-- The same without conditions on the parameters: the hash belongs to the circuit. -/
theorem post_rounds_alloc (P : PoseidonParams F) (n i : Nat) {st : List (CNum F)} (hs : s.WF) (hal : ∀ a ∈ st, a.lc.Alloc s) :
    Post s (rounds P n i st) (fun r s' => ∀ a ∈ r, a.lc.Alloc s') := by
  induction n generalizing i st s with
  | zero => exact Post.pure hal
  | succ n ih =>
    unfold rounds
    refine Post.bind (Q := fun _ s' => s' = s) (Post.lift fun _ _ => rfl) ?_
    intro c s1 _ hs1
    rw [hs1]
    have hl : Post s (layer P i (ark st c)) (fun r s' => ∀ a ∈ r, a.lc.Alloc s') := by
      have ha := alloc_ark hal c
      unfold layer
      split
      · exact (post_sigmaAll _ hs ha).mono fun _ _ _ h => h.1
      · split
        · exact Post.panic
        · next x xs heq =>
          refine Post.bind (post_sigma hs (ha x (by rw [heq]; simp))) fun y s1 e1 hy => Post.pure fun a h => ?_
          rcases List.mem_cons.1 h with rfl | h
          · exact hy.1
          · exact (ha a (by rw [heq]; simp [h])).mono e1
    refine Post.bind hl fun st2 s2 e2 h1 => ?_
    refine Post.bind (Q := fun r s' => s' = s2 ∧ mix st2 P = .ok r) (Post.lift fun _ h => ⟨rfl, h⟩) ?_
    rintro st3 s3 _ ⟨hs3, hmx⟩
    rw [hs3]
    refine ih _ (e2.wf hs) ?_
    have : ∀ (rows : List (List F)) (n : Nat) (r : List (CNum F)), mixRows st2 rows n = .ok r → ∀ a ∈ r, a.lc.Alloc s2 := by
      intro rows n
      induction n generalizing rows with
      | zero => intro r hr; unfold mixRows at hr; cases hr; simp
      | succ n ih =>
        intro r hr
        cases rows with
        | nil => unfold mixRows at hr; cases hr
        | cons row rows =>
          unfold mixRows at hr
          simp only [bind, Except.bind] at hr
          split at hr
          · cases hr
          · next x hx =>
            split at hr
            · cases hr
            · next xs hxs =>
              cases hr
              intro a ha
              rcases List.mem_cons.1 ha with rfl | ha
              · exact alloc_mixRow h1 row (alloc_fromConst 0) hx
              · exact ih rows xs hxs a ha
    exact this _ _ _ hmx

theorem post_poseidon_alloc (P : PoseidonParams F) {inputs : List (CNum F)} (hs : s.WF) (hal : ∀ a ∈ inputs, a.lc.Alloc s) :
    Post s (poseidon inputs P) (fun r s' => r.lc.Alloc s') := by
  unfold poseidon
  split
  · exact Post.panic
  split
  · exact Post.panic
  refine Post.bind (post_rounds_alloc P _ _ hs ?_) fun st s1 e1 h1 => ?_
  · intro a ha
    rcases List.mem_append.1 ha with ha | ha
    · exact hal a ha
    · rw [(List.mem_replicate.1 ha).2]; exact alloc_fromConst 0
  · exact Post.lift fun x hx => h1 x (List.mem_of_getElem? (getIdx_ok.1 hx))

theorem post_salt_alloc (seed : F) (P : PoseidonParams F) {inputs : List (CNum F)} (hs : s.WF)
    (hal : ∀ a ∈ inputs, a.lc.Alloc s) : Post s (poseidonWithSalt inputs seed P) (fun r s' => r.lc.Alloc s') := by
  unfold poseidonWithSalt
  split
  · exact Post.panic
  split
  · exact Post.panic
  refine post_poseidon_alloc P hs fun a ha => ?_
  rcases List.mem_append.1 ha with ha | ha
  · exact hal a ha
  · rw [List.mem_singleton.1 ha]; exact alloc_fromConst _

theorem post_salt_varies (seed : F) (P : PoseidonParams F) (hm : ∀ row ∈ P.m, ∀ c ∈ row, c ≠ 0) (hf : 2 ≤ P.f)
    {inputs : List (CNum F)} (hs : s.WF) (hal : ∀ a ∈ inputs, a.lc.Alloc s) (hv : ∃ a ∈ inputs, Varies a) :
    Post s (poseidonWithSalt inputs seed P) (fun r s' => r.lc.Alloc s' ∧ Varies r) := by
  unfold poseidonWithSalt
  split
  · exact Post.panic
  split
  · exact Post.panic
  refine post_poseidon_varies P hm hf hs ?_ ?_
  · intro a ha
    rcases List.mem_append.1 ha with ha | ha
    · exact hal a ha
    · rw [List.mem_singleton.1 ha]; exact alloc_fromConst _
  · obtain ⟨a, ha, hva⟩ := hv
    exact ⟨a, List.mem_append_left _ ha, hva⟩

end Fawkes.CPoseidon
