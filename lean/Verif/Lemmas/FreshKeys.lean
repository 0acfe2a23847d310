import Verif.Lemmas.Counts
import Verif.Lemmas.Used

/-!
# Outputs made of new variables only

A Poseidon hash is a combination of variables that the hash itself allocated: it contains no variable of its inputs.  Hence a sibling of a
Merkle proof occurs in the constraint of the switch of its level.
-/

namespace Fawkes

variable {F : Type} [Field F] [DecidableEq F] {s : CS F}

/-- The signal contains no variable that `s` has allocated. -/
def KeysNew (s : CS F) (a : CNum F) : Prop := ∀ k ∈ a.lc.keys, k = .input 0 ∨ k ∉ s.vars.map Prod.fst

omit [Field F] [DecidableEq F] in
theorem KeysNew.anti {s s' : CS F} {a : CNum F} (h : KeysNew s' a) (e : s.Ext s') : KeysNew s a := fun k hk =>
  (h k hk).imp id fun h hm => h ((e.vars.map Prod.fst).subset hm)

omit [Field F] [DecidableEq F] in
theorem FreshVar.keysNew [Field F] {s : CS F} {a : CNum F} (h : FreshVar s a) : KeysNew s a := by
  obtain ⟨k, hk, -, h⟩ := h
  intro j hj
  rw [hk] at hj
  simp only [LC.keys_cons, LC.keys_nil, List.mem_singleton] at hj
  subst hj
  exact .inr h

omit [DecidableEq F] in
theorem keysNew_fromConst (c : F) : KeysNew s (CNum.fromConst c) := by
  intro k hk
  simp only [CNum.fromConst, LC.keys_cons, LC.keys_nil, List.mem_singleton] at hk
  exact .inl hk

omit [DecidableEq F] in
theorem keysNew_of_const {a : CNum F} {c : F} (h : a.asConst = some c) : KeysNew s a := by
  intro k hk
  by_contra hn
  rw [not_or] at hn
  rw [CNum.asConst_eq_none hk hn.1] at h
  cases h

theorem KeysNew.addAssign {a b : CNum F} (ha : KeysNew s a) (hb : KeysNew s b) : KeysNew s (CNum.addAssign a b) := fun k hk =>
  (LC.mem_keys_add_of hk).elim (ha k) (hb k)

theorem KeysNew.addConst {a : CNum F} (ha : KeysNew s a) (c : F) : KeysNew s (CNum.addConst a c) :=
  ha.addAssign (keysNew_fromConst c)

theorem KeysNew.mulConst {a : CNum F} (ha : KeysNew s a) (c : F) : KeysNew s (CNum.mulConst a c) := by
  unfold CNum.mulConst
  split
  · exact keysNew_fromConst 0
  · intro k hk
    rw [show LC.keys (a.lc.map fun kv => (kv.1, kv.2 * c)) = LC.keys a.lc from LC.keys_map _ fun kv => kv.2 * c] at hk
    exact ha k hk

/-- A product of two signals that are not constants is a new variable. -/
theorem post_mul_new (hs : s.WF) {a b : CNum F} (ha : a.asConst = none) (hb : b.asConst = none) :
    Post s (CNum.mul a b) (fun c _ => FreshVar s c) := by
  unfold CNum.mul
  rw [ha, hb]
  exact Post.bind (post_alloc_fresh hs _) fun c s1 _ h1 => Post.bind Post.true fun _ _ _ _ => Post.pure h1.1

theorem post_mul_const {a b : CNum F} (ha : a.asConst ≠ none) (hb : b.asConst ≠ none) :
    Post s (CNum.mul a b) (fun c _ => c.asConst ≠ none) := by
  obtain ⟨x, hx⟩ := Option.ne_none_iff_exists'.1 ha
  unfold CNum.mul
  rw [hx]
  refine Post.pure fun h => ?_
  obtain ⟨y, hy⟩ := Option.ne_none_iff_exists'.1 hb
  unfold CNum.mulConst at h
  split at h
  · simp [CNum.zero, CNum.fromConst, CNum.asConst] at h
  · unfold CNum.asConst at h hy
    revert h hy
    match b.lc with
    | [] => simp
    | [(k, v)] => intro hy; dsimp only at hy ⊢; simp only [List.map_cons, List.map_nil]; split <;> simp_all
    | _ :: _ :: _ => simp

namespace CPoseidon

theorem post_sigma_new (hs : s.WF) (a : CNum F) : Post s (sigma a) (fun c _ => KeysNew s c) := by
  unfold sigma
  by_cases ha : a.asConst = none
  · refine Post.bind (post_mul_new hs ha ha) fun b s1 e1 hb => Post.bind (post_mul_new (e1.wf hs) hb.asConst hb.asConst)
      fun c s2 e2 hc => (post_mul_new (e2.wf (e1.wf hs)) hc.asConst ha).mono fun d _ _ hd => ?_
    exact hd.keysNew.anti (e1.trans e2)
  · refine Post.bind (post_mul_const ha ha) fun b s1 e1 hb => Post.bind (post_mul_const hb hb)
      fun c s2 e2 hc => (post_mul_const hc ha).mono fun d _ _ hd => ?_
    obtain ⟨x, hx⟩ := Option.ne_none_iff_exists'.1 hd
    exact keysNew_of_const hx

theorem post_sigmaAll_new (l : List (CNum F)) : ∀ {s : CS F}, s.WF → Post s (sigmaAll l) (fun l' _ => ∀ a ∈ l', KeysNew s a) := by
  induction l with
  | nil => intro s hs; exact Post.pure (by simp)
  | cons x l ih =>
    intro s hs
    refine Post.bind (post_sigma_new hs x) fun y s1 e1 hy => Post.bind (ih (e1.wf hs)) fun ys s2 e2 hys => Post.pure ?_
    intro a ha
    rcases List.mem_cons.1 ha with rfl | ha
    · exact hy
    · exact (hys a ha).anti e1

theorem mixRow_new (st : List (CNum F)) : ∀ (row : List F) (acc : CNum F), KeysNew s acc → (∀ a ∈ st, KeysNew s a) → ∀ b,
    mixRow st row acc = .ok b → KeysNew s b := by
  induction st with
  | nil => intro row acc ha _ b h; injection h with h; exact h ▸ ha
  | cons x st ih =>
    intro row acc ha hst b h
    cases row with
    | nil => cases h
    | cons c row => exact ih row _ (ha.addAssign ((hst x (by simp)).mulConst c)) (fun a ha => hst a (by simp [ha])) b h

theorem mixRows_new {st : List (CNum F)} (hst : ∀ a ∈ st, KeysNew s a) : ∀ (n : Nat) (rows : List (List F)) (l : List (CNum F)),
    mixRows st rows n = .ok l → ∀ a ∈ l, KeysNew s a := by
  intro n
  induction n with
  | zero =>
    intro rows l h
    unfold mixRows at h
    injection h with h; subst h; simp
  | succ n ih =>
    intro rows l h
    cases rows with
    | nil => cases h
    | cons row rows =>
      unfold mixRows at h
      cases h1 : mixRow st row CNum.zero with
      | error e => rw [h1] at h; cases h
      | ok x =>
        rw [h1] at h
        cases h2 : mixRows st rows n with
        | error e => simp only [bind, Except.bind, h2] at h; cases h
        | ok xs =>
          simp only [bind, Except.bind, h2, Pure.pure, Except.pure] at h
          injection h with h; subst h
          intro a ha
          rcases List.mem_cons.1 ha with rfl | ha
          · exact mixRow_new st row _ (keysNew_fromConst 0) hst _ h1
          · exact ih rows xs h2 a ha

theorem post_rounds_new (P : PoseidonParams F) (n : Nat) : ∀ (i : Nat) {s s0 : CS F} (st : List (CNum F)), s0.Ext s → s.WF →
    (∀ a ∈ st, KeysNew s0 a) → Post s (rounds P n i st) (fun st' _ => ∀ a ∈ st', KeysNew s0 a) := by
  induction n with
  | zero => intro i s s0 st _ _ h; exact Post.pure h
  | succ n ih =>
    intro i s s0 st e hs h
    unfold rounds
    refine Post.bind (Q := fun _ s' => s' = s) (Post.lift fun _ _ => rfl) ?_
    rintro c s1 e1 rfl
    refine Post.bind (Q := fun st' _ => ∀ a ∈ st', KeysNew s0 a) ?_ fun st1 s2 e2 h1 => ?_
    · have hark : ∀ a ∈ ark st c, KeysNew s0 a := by
        intro a ha
        obtain ⟨b, hb, rfl⟩ := List.mem_map.1 ha
        exact (h b hb).addConst c
      unfold layer
      split
      · exact (post_sigmaAll_new _ hs).mono fun l _ _ hl a ha => (hl a ha).anti e
      · split
        · exact Post.panic
        · next x xs hx =>
          refine Post.bind (post_sigma_new hs x) fun y s2 e2 hy => Post.pure fun a ha => ?_
          rcases List.mem_cons.1 ha with rfl | ha
          · exact hy.anti e
          · exact hark a (by rw [hx]; simp [ha])
    · refine Post.bind (Q := fun st' s' => s' = s2 ∧ ∀ a ∈ st', KeysNew s0 a)
        (Post.lift fun st2 h2 => ⟨rfl, mixRows_new h1 _ _ _ h2⟩) ?_
      rintro st2 s3 _ ⟨rfl, h2⟩
      exact ih (i + 1) st2 (e.trans e2) (e2.wf hs) h2

/-- A hash contains none of the variables that were there before. -/
theorem post_poseidon_new (hs : s.WF) (P : PoseidonParams F) (hf : 2 ≤ P.f) (inputs : List (CNum F)) :
    Post s (poseidon inputs P) (fun c _ => KeysNew s c) := by
  unfold poseidon
  split
  · exact Post.panic
  · split
    · exact Post.panic
    · refine Post.bind (Q := fun st' _ => ∀ a ∈ st', KeysNew s a) ?_ fun st' s1 _ h => Post.lift fun a ha => ?_
      · obtain ⟨n, hn⟩ : ∃ n, P.f + P.p = n + 1 := ⟨P.f + P.p - 1, by omega⟩
        rw [hn]
        unfold rounds
        refine Post.bind (Q := fun _ s' => s' = s) (Post.lift fun _ _ => rfl) ?_
        rintro c s1 e1 rfl
        refine Post.bind (Q := fun st' _ => ∀ a ∈ st', KeysNew s1 a) ?_ fun st1 s2 e2 h1 => ?_
        · unfold layer
          rw [if_pos (.inl (by omega))]
          exact post_sigmaAll_new _ hs
        · refine Post.bind (Q := fun st' s' => s' = s2 ∧ ∀ a ∈ st', KeysNew s1 a)
            (Post.lift fun st2 h2 => ⟨rfl, mixRows_new h1 _ _ _ h2⟩) ?_
          rintro st2 s3 _ ⟨rfl, h2⟩
          exact post_rounds_new P n 1 st2 e2 (e2.wf hs) h2
      · exact h a (List.mem_of_getElem? (getIdx_ok.1 ha))

end CPoseidon

/-- A variable in one of the two operands of a switch occurs in its constraint. -/
theorem post_switch_occurs {t f : CNum F} {b : CBool F} {i : Index} (hb : Varies b.num) (hi : i ≠ .input 0) (ht : i ∈ t.lc.keys)
    (htn : t.lc.keys.Nodup) (hf : i ∉ f.lc.keys) : Post s (CNum.switch t b f) (fun _ s' => s'.Occurs i) := by
  have h1 : i ∈ (CNum.sub t f).lc.keys := LC.mem_keys_sub ht hf
  have h2 : i ∈ (CNum.sub f t).lc.keys := LC.mem_keys_sub_new hf ht htn
  have key : ∀ (s : CS F) (x y : CNum F), x.asConst = none → i ∈ y.lc.keys → Post s (CNum.mul x y) (fun _ s' => s'.Occurs i) := by
    intro s x y hx hy
    unfold CNum.mul
    rw [hx, CNum.asConst_eq_none hy hi]
    refine Post.bind Post.true fun c s1 _ _ => Post.bind (Q := fun _ s' => s'.Occurs i) ?_ fun _ s2 _ h => Post.pure h
    exact (post_enforce s1 x y c).mono fun _ s' _ h => ⟨⟨x, y, c⟩, by rw [h.1]; simp, by simp [hy]⟩
  have hn : b.asConst = .ok none := by unfold CBool.asConst; rw [hb.asConst]
  unfold CNum.switch
  rw [hn]
  refine Post.bind (Q := fun o _ => o = none) (Post.lift fun _ h => by injection h with h; exact h.symm) ?_
  rintro _ s1 _ rfl
  dsimp only
  split
  · exact Post.bind (key s1 _ _ hb.asConst h1) fun p s2 _ h => Post.pure h
  · exact Post.bind (key s1 _ _ (hb.constSub 1).asConst h2) fun p s2 _ h => Post.pure h

/-- Every sibling of a Merkle proof occurs in a constraint. -/
theorem CPoseidon.post_proofLoop_occurs (P : PoseidonParams F) (hf : 2 ≤ P.f) (l : List (CBool F × CNum F)) :
    ∀ {s s0 : CS F} {root : CNum F}, s0.Ext s → s.WF → (∀ x ∈ l, Varies x.1.num ∧ ∃ i, x.2.lc = [(i, 1)] ∧ i ≠ .input 0 ∧
      i ∈ s0.vars.map Prod.fst ∧ i ∉ root.lc.keys) →
    Post s (CPoseidon.proofLoop P root l) (fun _ s' => ∀ x ∈ l, ∀ k ∈ x.2.lc.keys, s'.Occurs k) := by
  induction l with
  | nil => intro s s0 root _ _ _; exact Post.pure (by simp)
  | cons x l ih =>
    intro s s0 root e hs hl
    obtain ⟨b, x⟩ := x
    obtain ⟨hb, i, hx, hi, hmem, hroot⟩ := hl (b, x) (by simp)
    change x.lc = _ at hx
    unfold proofLoop
    refine Post.bind (post_switch_occurs (i := i) hb hi (by simp [hx]) (by simp [hx]) hroot) fun first s1 e1 h1 => ?_
    refine Post.bind (post_poseidon_new (e1.wf hs) P hf _) fun root' s2 e2 h2 => ?_
    refine (ih (e.trans (e1.trans e2)) ((e1.trans e2).wf hs) fun y hy => ?_).mono fun _ s3 e3 h3 => ?_
    · obtain ⟨hb', j, hy', hj, hm, -⟩ := hl y (by simp [hy])
      exact ⟨hb', j, hy', hj, hm, fun hk => (h2 j hk).elim hj fun hn => hn (((e.trans e1).vars.map Prod.fst).subset hm)⟩
    · intro y hy k hk
      rcases List.mem_cons.1 hy with rfl | hy
      · change k ∈ x.lc.keys at hk
        simp only [hx, LC.keys_cons, LC.keys_nil, List.mem_singleton] at hk
        subst hk
        exact h1.mono (e2.trans e3)
      · exact h3 y hy k hk

end Fawkes
