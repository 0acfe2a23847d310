import Verif.Lemmas.PoseidonVaries
import Verif.Lemmas.BitsShape
import Verif.Lemmas.CEccConst
import Verif.Spec.Counts

/-!
# Exact numbers of constraints
-/

set_option linter.unusedSectionVars false

namespace Fawkes

variable {F : Type} [Field F] [DecidableEq F] {α β : Type} {s s' : CS F}

/-- Exactly `n` constraints are added, and the result satisfies `Q`. -/
def Takes (s : CS F) (m : M F α) (n : Nat) (Q : α → CS F → Prop) : Prop :=
  Post s m fun r s' => s'.cons.length = s.cons.length + n ∧ Q r s'

namespace Takes

variable {Q : α → CS F → Prop} {R : β → CS F → Prop} {m : M F α} {f : α → M F β} {n k : Nat}

theorem adds (h : Takes s m n Q) : Adds s m n := fun a s' hr => (h a s' hr).1

theorem pure {a : α} (h : Q a s) : Takes s (Pure.pure a : M F α) 0 Q := Post.pure ⟨rfl, h⟩

theorem panic {e : Panic} : Takes s (M.panic e : M F α) n Q := Post.panic

theorem lift {x : Except Panic α} (h : ∀ a, x = .ok a → Q a s) : Takes s (M.lift x) 0 Q :=
  Post.lift fun a ha => ⟨rfl, h a ha⟩

theorem assert {b : Bool} {e : Panic} {Q : Unit → CS F → Prop} (h : b = true → Q () s) : Takes s (M.assert b e) 0 Q :=
  Post.assert fun hb => ⟨rfl, h hb⟩

theorem bind (hm : Takes s m k Q) (hf : ∀ a s1, s.Ext s1 → Q a s1 → Takes s1 (f a) n R) : Takes s (m >>= f) (k + n) R := by
  refine Post.bind hm fun a s1 e1 ⟨h1, h2⟩ => (hf a s1 e1 h2).mono fun b s2 _ ⟨h3, h4⟩ => ⟨by omega, h4⟩

theorem mono {Q' : α → CS F → Prop} (h : Takes s m n Q) (hq : ∀ a s', s.Ext s' → Q a s' → Q' a s') : Takes s m n Q' :=
  Post.mono h fun a s' e h => ⟨h.1, hq a s' e h.2⟩

theorem cast {n' : Nat} (h : Takes s m n Q) (hn : n = n') : Takes s m n' Q := hn ▸ h

theorem and {Q' : α → CS F → Prop} (h : Takes s m n Q) (h' : Post s m Q') : Takes s m n fun a s' => Q a s' ∧ Q' a s' :=
  fun a s' hr => ⟨(h a s' hr).1, (h a s' hr).2, h' a s' hr⟩

end Takes

/-! ## Arithmetic -/

theorem takes_alloc (hs : s.WF) (v : Option F) : Takes s (CNum.alloc v) 0 (fun x s' => FreshVar s x ∧ x.lc.Alloc s') :=
  ((post_alloc s v).and (post_alloc_fresh hs v)).mono fun x s' _ h =>
    ⟨by rw [h.1.2.2, pushVar_cons]; rfl, h.2.1, h.2.2.1⟩

theorem takes_enforce (a b c : CNum F) : Takes s (CS.enforce a b c) 1 (fun _ _ => True) :=
  (post_enforce s a b c).mono fun _ s' _ h => ⟨by rw [h.1]; simp, trivial⟩

theorem takes_mul (hs : s.WF) {a b : CNum F} (va : Varies a) (vb : Varies b) :
    Takes s (CNum.mul a b) 1 (fun c s' => FreshVar s c ∧ c.lc.Alloc s') := by
  unfold CNum.mul
  rw [va.asConst, vb.asConst]
  refine (Takes.bind (takes_alloc hs _) fun c s1 e1 h1 => ?_ : Takes s _ (0 + (1 + 0)) _)
  exact Takes.bind (takes_enforce a b c) fun _ s2 e2 _ => Takes.pure ⟨h1.1, h1.2.mono e2⟩

theorem takes_mul_const {a b : CNum F} (h : a.asConst ≠ none ∨ b.asConst ≠ none) (Q : CNum F → CS F → Prop)
    (hQ : Post s (CNum.mul a b) Q) : Takes s (CNum.mul a b) 0 Q := by
  refine Post.and ?_ hQ
  unfold CNum.mul
  split
  · exact Post.pure rfl
  · exact Post.pure rfl
  · next h1 h2 => rcases h with h | h <;> [exact absurd h1 h; exact absurd h2 h]

theorem takes_div (hs : s.WF) {a b : CNum F} (va : Varies a) (vb : Varies b) :
    Takes s (CNum.div a b) 1 (fun c s' => FreshVar s c ∧ c.lc.Alloc s') := by
  unfold CNum.div
  rw [va.asConst, vb.asConst]
  have h0 : Takes s (CNum.divValue a.value b.value) 0 (fun _ s' => s' = s) := by
    unfold CNum.divValue
    split
    · split
      · exact Takes.panic
      · exact Takes.pure rfl
    · exact Takes.pure rfl
  refine (Takes.bind h0 fun v s0 e0 h => ?_ : Takes s _ (0 + (0 + (1 + 0))) _)
  subst h
  refine Takes.bind (takes_alloc hs _) fun c s1 e1 h1 => ?_
  exact Takes.bind (takes_enforce _ _ _) fun _ s2 e2 _ => Takes.pure ⟨h1.1, h1.2.mono e2⟩

theorem takes_assertBit {a : CNum F} (h : a.asConst = none) : Takes s (CNum.assertBit a) 1 (fun _ _ => True) := by
  unfold CNum.assertBit; rw [h]; exact takes_enforce _ _ _

theorem takes_assertConst {a : CNum F} (h : a.asConst = none) (c : F) : Takes s (CNum.assertConst a c) 1 (fun _ _ => True) := by
  unfold CNum.assertConst; rw [h]; exact takes_enforce _ _ _

theorem takes_assertNonzero (hs : s.WF) {a : CNum F} (h : a.asConst = none) :
    Takes s (CNum.assertNonzero a) 1 (fun _ _ => True) := by
  unfold CNum.assertNonzero; rw [h]
  exact Takes.bind (takes_alloc hs _) fun _ _ _ _ => takes_enforce _ _ _

theorem takes_isZero (hs : s.WF) {a : CNum F} (va : Varies a) :
    Takes s (CNum.isZero a) 3 (fun c s' => c.num.lc.Alloc s' ∧ NewIn s c.num) := by
  unfold CNum.isZero
  rw [va.asConst]
  refine (Takes.bind (takes_alloc hs _) fun inv s1 e1 h1 => ?_ : Takes s _ (0 + (1 + (1 + (1 + 0)))) _)
  refine Takes.bind (takes_assertNonzero (e1.wf hs) h1.1.asConst) fun _ s2 e2 _ => ?_
  refine Takes.bind (takes_mul (e2.wf (e1.wf hs)) h1.1.varies va) fun res s3 e3 h3 => ?_
  refine Takes.bind (takes_assertBit h3.1.asConst) fun _ s4 e4 _ => ?_
  exact Takes.pure ⟨alloc_sub (alloc_fromConst _) (h3.2.mono e4),
    (h3.1.anti (e1.trans e2)).newIn.sub_left (alloc_fromConst 1)⟩

theorem takes_switch (hs : s.WF) {t f : CNum F} {b : CBool F} (ht : t.lc.Alloc s) (hf : f.lc.Alloc s) (hb : Varies b.num)
    (hv : Varies (CNum.sub t f)) :
    Takes s (CNum.switch t b f) 1 (fun r s' => r.lc.Alloc s' ∧ NewIn s r) := by
  have hv' : Varies (CNum.sub f t) := by
    obtain ⟨w, w', hw, hw', h⟩ := varies_iff.1 hv
    refine varies_iff.2 ⟨w, w', hw, hw', fun e => h ?_⟩
    rw [CNum.eval_sub, CNum.eval_sub] at e ⊢
    linear_combination -e
  have hn : b.asConst = .ok none := by unfold CBool.asConst; rw [hb.asConst]
  unfold CNum.switch
  have h0 : Takes s (M.lift b.asConst) 0 (fun r s' => s' = s ∧ r = none) :=
    Takes.lift fun _ h => ⟨rfl, by rw [hn] at h; injection h with h; exact h.symm⟩
  refine (Takes.bind h0 ?_ :
    Takes s _ (0 + (1 + 0)) _)
  rintro r s1 _ ⟨hs1, rfl⟩
  subst hs1
  dsimp only
  split
  · refine Takes.bind (takes_mul hs hb hv) fun p s2 e2 h2 => ?_
    exact Takes.pure ⟨alloc_addAssign h2.2 (hf.mono e2), h2.1.newIn.addAssign hf⟩
  · refine Takes.bind (takes_mul hs (hb.constSub 1) hv') fun p s2 e2 h2 => ?_
    exact Takes.pure ⟨alloc_addAssign h2.2 (ht.mono e2), h2.1.newIn.addAssign ht⟩

/-! ## Poseidon -/

namespace CPoseidon

theorem takes_sigma (hs : s.WF) {a : CNum F} (va : Varies a) : Takes s (sigma a) 3 (fun _ _ => True) := by
  unfold sigma
  refine (Takes.bind (takes_mul hs va va) fun b s1 e1 h1 => ?_ : Takes s _ (1 + (1 + 1)) _)
  refine Takes.bind (takes_mul (e1.wf hs) h1.1.varies h1.1.varies) fun c s2 e2 h2 => ?_
  exact (takes_mul (e2.wf (e1.wf hs)) h2.1.varies va).mono fun _ _ _ _ => trivial

theorem takes_sigma_const {a : CNum F} {c : F} (ha : a.asConst = some c) : Takes s (sigma a) 0 (fun _ _ => True) := by
  have key : ∀ {s : CS F} {x y : CNum F} {c d : F}, x.asConst = some c → y.asConst = some d →
      Takes s (CNum.mul x y) 0 (fun z _ => ∃ e, z.asConst = some e) := by
    intro s x y c d hx hy
    refine takes_mul_const (Or.inl (by rw [hx]; simp)) _ ?_
    unfold CNum.mul
    rw [hx]
    exact Post.pure ⟨_, CNum.asConst_mulConst hy _⟩
  unfold sigma
  refine (Takes.bind (key ha ha) fun b s1 e1 ⟨_, h1⟩ => ?_ : Takes s _ (0 + (0 + 0)) _)
  refine Takes.bind (key h1 h1) fun c s2 e2 ⟨_, h2⟩ => ?_
  exact (key h2 ha).mono fun _ _ _ _ => trivial

theorem takes_sigmaAll (l : List (CNum F)) (hv : ∀ a ∈ l, Plain a) : ∀ {s : CS F}, s.WF →
    Takes s (sigmaAll l) (3 * l.countP fun a => a.asConst.isNone) (fun _ _ => True) := by
  induction l with
  | nil => intro s hs; exact Takes.pure trivial
  | cons x xs ih =>
    intro s hs
    unfold sigmaAll
    rw [List.countP_cons]
    have hx : Takes s (sigma x) (3 * if x.asConst.isNone = true then 1 else 0) (fun _ _ => True) := by
      cases h : x.asConst with
      | none => exact takes_sigma hs (hv x (by simp) h)
      | some c => exact takes_sigma_const h
    refine Takes.cast (Takes.bind hx fun y s1 e1 _ => Takes.bind (ih (fun a ha => hv a (by simp [ha])) (e1.wf hs)) fun ys s2 e2 _ =>
      Takes.pure trivial) ?_
    ring

theorem takes_layer (P : PoseidonParams F) (i : Nat) {st : List (CNum F)} (hs : s.WF) (hl : st.length = P.t)
    (h : ∀ a ∈ st, Varies a) : Takes s (layer P i st) (roundCost P i) (fun _ _ => True) := by
  unfold layer roundCost Poseidon.isFull
  by_cases hi : i < P.f / 2 ∨ P.f / 2 + P.p ≤ i
  · rw [if_pos hi, if_pos (by simpa using hi)]
    refine (takes_sigmaAll st (fun a ha => Plain.of_varies (h a ha)) hs).cast ?_
    rw [← hl, List.countP_eq_length.2 fun a ha => by rw [(h a ha).asConst]; rfl]
  · rw [if_neg hi, if_neg (by simpa using hi)]
    cases st with
    | nil => exact Takes.panic
    | cons x xs => exact Takes.cast (Takes.bind (takes_sigma hs (h x (by simp))) fun _ _ _ _ => Takes.pure trivial) rfl

theorem takes_rounds (P : PoseidonParams F) (hm : ∀ row ∈ P.m, ∀ c ∈ row, c ≠ 0) (n i : Nat) {st : List (CNum F)} (hs : s.WF)
    (hal : ∀ a ∈ st, a.lc.Alloc s) (h0 : st ≠ []) (hl : st.length = P.t) (h : ∀ a ∈ st, Varies a) :
    Takes s (rounds P n i st) (((List.range' i n).map (roundCost P)).sum) (fun r s' => ∀ a ∈ r, a.lc.Alloc s' ∧ (0 < n → NewIn s a)) := by
  induction n generalizing i st s with
  | zero => exact Takes.pure fun a ha => ⟨hal a ha, fun h => absurd h (lt_irrefl 0)⟩
  | succ n ih =>
    unfold rounds
    rw [List.range'_succ, List.map_cons, List.sum_cons]
    refine Takes.cast (Takes.bind (Q := fun _ s' => s' = s) (Takes.lift fun _ _ => rfl) ?_) (Nat.zero_add _)
    intro c s1 _ hs1
    rw [hs1]
    have hark : ∀ a ∈ ark st c, Varies a := by
      intro a ha
      obtain ⟨b, hb, rfl⟩ := List.mem_map.1 ha
      exact (h b hb).addConst c
    have hlen : (ark st c).length = P.t := by simp [ark, hl]
    refine Takes.bind ((takes_layer P i hs hlen hark).and ((post_layer P i hs (alloc_ark hal c) (Or.inr ⟨by simpa [ark] using h0, hark⟩)).and
      (fun a s' h => layer_length P i _ s s' a h))) ?_
    rintro st2 s2 e2 ⟨-, ⟨h1, k, hk, h2⟩, hl2⟩
    rw [hlen] at hl2
    refine Takes.cast (Takes.bind (Q := fun r s' => s' = s2 ∧ mix st2 P = .ok r) (Takes.lift fun _ h => ⟨rfl, h⟩) ?_) (Nat.zero_add _)
    rintro st3 s3 _ ⟨hs3, hmx⟩
    rw [hs3]
    have h3 := mixRows_coef h2 h1 P.m hm _ hmx
    have hl3 := mixRows_length _ _ _ _ hmx
    have hne3 : st3 ≠ [] := by
      intro hnil
      rw [hnil] at hl3
      obtain ⟨pre, x, post, rfl, -⟩ := h2
      simp at hl3
    cases n with
    | zero => exact Takes.pure fun a ha => ⟨(h3 a ha).1, fun _ => ⟨k, hk.1, hk.2.1, (h3 a ha).2⟩⟩
    | succ n =>
      exact (ih _ (e2.wf hs) (fun a ha => (h3 a ha).1) hne3 (hl3.trans hl2) fun a ha => Varies.of_coef (h3 a ha).2).mono
        fun r s' e' h' a ha => ⟨(h' a ha).1, fun _ => ((h' a ha).2 (Nat.succ_pos n)).anti e2⟩

theorem takes_poseidon (P : PoseidonParams F) (hm : ∀ row ∈ P.m, ∀ c ∈ row, c ≠ 0) (hf : 2 ≤ P.f)
    {inputs : List (CNum F)} (hs : s.WF) (hal : ∀ a ∈ inputs, a.lc.Alloc s) (hpl : ∀ a ∈ inputs, Plain a)
    (hv : ∃ a ∈ inputs, a.asConst = none) :
    Takes s (poseidon inputs P) (3 * ((inputs.countP fun a => a.asConst.isNone) + (P.f - 1) * P.t + P.p))
      (fun r s' => r.lc.Alloc s' ∧ NewIn s r) := by
  have hv' : ∃ a ∈ inputs, Varies a := by
    obtain ⟨a, ha, h⟩ := hv
    exact ⟨a, ha, hpl a ha h⟩
  unfold poseidon
  split
  · exact Takes.panic
  next hle =>
  split
  · exact Takes.panic
  push Not at hle
  obtain ⟨n, hn⟩ : ∃ n, P.f + P.p = n + 1 := ⟨P.f + P.p - 1, by omega⟩
  have hal' : ∀ a ∈ inputs ++ List.replicate (P.t - inputs.length) CNum.zero, a.lc.Alloc s := by
    intro a ha
    rcases List.mem_append.1 ha with ha | ha
    · exact hal a ha
    · rw [(List.mem_replicate.1 ha).2]; exact alloc_fromConst 0
  have hsum : 3 * ((inputs.countP fun a => a.asConst.isNone) + (P.f - 1) * P.t + P.p) =
      3 * (inputs.countP fun a => a.asConst.isNone) + ((List.range' 1 n).map (roundCost P)).sum := by
    have ht := total_cost P
    rw [hn, List.range'_succ, List.map_cons, List.sum_cons] at ht
    have h0 : roundCost P 0 = 3 * P.t := by
      unfold roundCost Poseidon.isFull; rw [if_pos]; simp; left; omega
    rw [h0] at ht
    obtain ⟨g, hg⟩ : ∃ g, P.f = g + 1 := ⟨P.f - 1, by omega⟩
    rw [hg] at ht ⊢
    simp only [Nat.add_sub_cancel]
    have h2 : P.t * (g + 1) = g * P.t + P.t := by ring
    rw [h2] at ht
    generalize ((List.range' 1 n).map (roundCost P)).sum = S at ht ⊢
    generalize g * P.t = G at ht ⊢
    omega
  rw [hsum]
  refine Takes.cast (Takes.bind (Q := fun r s' => ∀ a ∈ r, a.lc.Alloc s' ∧ NewIn s a) ?_ fun st s1 _ h1 =>
    Takes.lift fun x hx => h1 x (List.mem_of_getElem? (getIdx_ok.1 hx))) (Nat.add_zero _)
  rw [hn]
  unfold rounds
  refine Takes.cast (Takes.bind (Q := fun _ s' => s' = s) (Takes.lift fun _ _ => rfl) ?_) (Nat.zero_add _)
  intro c s1 _ hs1
  rw [hs1]
  set st0 := inputs ++ List.replicate (P.t - inputs.length) CNum.zero with hst0
  have hlen : (ark st0 c).length = P.t := by simp [ark, hst0]; omega
  have hconst : ∀ (a : CNum F) (v : F), a.asConst = some v → ∃ v', (CNum.addConst a c).asConst = some v' := fun a v h =>
    ⟨_, CNum.asConst_addAssign h (CNum.isConst_fromConst c).1⟩
  have hcount : (ark st0 c).countP (fun a => a.asConst.isNone) = inputs.countP fun a => a.asConst.isNone := by
    have hz : (List.replicate (P.t - inputs.length) (CNum.zero : CNum F)).countP (fun a => (CNum.addConst a c).asConst.isNone) = 0 := by
      rw [List.countP_eq_zero]
      intro a ha
      rw [(List.mem_replicate.1 ha).2]
      obtain ⟨v', hv'⟩ := hconst CNum.zero 0 (CNum.asConst_fromConst 0)
      rw [hv']; simp
    unfold ark
    rw [List.countP_map, hst0, List.countP_append]
    simp only [Function.comp_def]
    rw [hz, Nat.add_zero]
    refine List.countP_congr fun a ha => ?_
    cases h : a.asConst with
    | none => rw [((hpl a ha h).addConst c).asConst]
    | some v =>
      obtain ⟨v', hv'⟩ := hconst a v h
      rw [hv']; simp
  have hplain : ∀ a ∈ ark st0 c, Plain a := by
    intro a ha
    obtain ⟨b, hb, rfl⟩ := List.mem_map.1 ha
    have hb' : Plain b := by
      rcases List.mem_append.1 hb with hb | hb
      · exact hpl b hb
      · rw [(List.mem_replicate.1 hb).2]; intro h; rw [show (CNum.zero : CNum F).asConst = some 0 from CNum.asConst_fromConst 0] at h; cases h
    intro h
    cases hbc : b.asConst with
    | none => exact (hb' hbc).addConst c
    | some v =>
      obtain ⟨v', hv'⟩ := hconst b v hbc
      rw [hv'] at h; cases h
  have hlayer : Takes s (layer P 0 (ark st0 c)) (3 * inputs.countP fun a => a.asConst.isNone) (fun _ _ => True) := by
    unfold layer
    rw [if_pos (Or.inl (by omega)), ← hcount]
    exact takes_sigmaAll _ hplain hs
  refine Takes.bind (hlayer.and ((post_layer P 0 hs (alloc_ark hal' c) (Or.inl ⟨by omega, ?_⟩)).and
    (fun a s' h => layer_length P 0 _ s s' a h))) ?_
  · obtain ⟨a, ha, hva⟩ := hv'
    exact ⟨_, List.mem_map.2 ⟨a, List.mem_append_left _ ha, rfl⟩, hva.addConst c⟩
  · rintro st2 s2 e2 ⟨-, ⟨h1, k, hk, h2⟩, hl2⟩
    rw [hlen] at hl2
    refine Takes.cast (Takes.bind (Q := fun r s' => s' = s2 ∧ mix st2 P = .ok r) (Takes.lift fun _ h => ⟨rfl, h⟩) ?_) (Nat.zero_add _)
    rintro st3 s3 _ ⟨hs3, hmx⟩
    rw [hs3]
    have h3 := mixRows_coef h2 h1 P.m hm _ hmx
    have hl3 := mixRows_length _ _ _ _ hmx
    have hne3 : st3 ≠ [] := by
      intro hnil
      rw [hnil] at hl3
      obtain ⟨pre, x, post, rfl, -⟩ := h2
      simp at hl3
    cases n with
    | zero => exact Takes.pure fun a ha => ⟨(h3 a ha).1, ⟨k, hk.1, hk.2.1, (h3 a ha).2⟩⟩
    | succ n =>
      exact (takes_rounds P hm _ _ (e2.wf hs) (fun a ha => (h3 a ha).1) hne3 (hl3.trans hl2) fun a ha => Varies.of_coef (h3 a ha).2).mono
        fun r s' e' h' a ha => ⟨(h' a ha).1, ((h' a ha).2 (Nat.succ_pos n)).anti e2⟩

theorem takes_salt (seed : F) (P : PoseidonParams F) (hm : ∀ row ∈ P.m, ∀ c ∈ row, c ≠ 0) (hf : 2 ≤ P.f)
    {inputs : List (CNum F)} (hs : s.WF) (hal : ∀ a ∈ inputs, a.lc.Alloc s) (hpl : ∀ a ∈ inputs, Plain a)
    (hv : ∃ a ∈ inputs, a.asConst = none) :
    Takes s (poseidonWithSalt inputs seed P) (3 * ((inputs.countP fun a => a.asConst.isNone) + (P.f - 1) * P.t + P.p))
      (fun r s' => r.lc.Alloc s' ∧ NewIn s r) := by
  unfold poseidonWithSalt
  split
  · exact Takes.panic
  split
  · exact Takes.panic
  have hc : (inputs ++ [CNum.fromConst seed]).countP (fun a => a.asConst.isNone) = inputs.countP fun a => a.asConst.isNone := by
    rw [List.countP_append]; simp [CNum.asConst_fromConst]
  rw [← hc]
  refine takes_poseidon P hm hf hs ?_ ?_ ?_
  · intro a ha
    rcases List.mem_append.1 ha with ha | ha
    · exact hal a ha
    · rw [List.mem_singleton.1 ha]; exact alloc_fromConst _
  · intro a ha
    rcases List.mem_append.1 ha with ha | ha
    · exact hpl a ha
    · rw [List.mem_singleton.1 ha]; intro h; rw [CNum.asConst_fromConst] at h; cases h
  · obtain ⟨a, ha, hva⟩ := hv
    exact ⟨a, List.mem_append_left _ ha, hva⟩

/-- One level of a Merkle proof costs one constraint more than the hash of two signals. -/
theorem takes_proofLoop (P : PoseidonParams F) (hm : ∀ row ∈ P.m, ∀ c ∈ row, c ≠ 0) (hf : 2 ≤ P.f) (l : List (CBool F × CNum F)) :
    ∀ {s s0 : CS F} {root : CNum F}, s0.Ext s → s.WF → root.lc.Alloc s → (∀ x ∈ l, x.2.lc.Alloc s0 ∧ Varies x.1.num) →
    (∀ x ∈ l.head?, Varies (CNum.sub x.2 root)) →
    Takes s (proofLoop P root l) (l.length * (1 + 3 * (2 + (P.f - 1) * P.t + P.p)))
      (fun r s' => r.lc.Alloc s' ∧ (l = [] ∧ r = root ∨ NewIn s r)) := by
  induction l with
  | nil => intro s s0 root _ hs hr _ _; exact (Takes.pure ⟨hr, .inl ⟨rfl, rfl⟩⟩).cast (by simp)
  | cons x l ih =>
    intro s s0 root e hs hr hl hh
    obtain ⟨b, x⟩ := x
    unfold proofLoop
    obtain ⟨hx, hb⟩ := hl (b, x) (by simp)
    have hx' := hx.mono e
    refine Takes.cast (Takes.bind (takes_switch hs hx' hr hb (hh (b, x) (by simp))) fun first s1 e1 h1 => ?_)
      (show 1 + (3 * (2 + (P.f - 1) * P.t + P.p) + l.length * (1 + 3 * (2 + (P.f - 1) * P.t + P.p))) = _ by
        rw [List.length_cons]; ring)
    have v1 := h1.2.varies
    have v2 : Varies (CNum.sub (CNum.add root x) first) := (h1.2.sub_left (alloc_add hr hx')).varies
    have a2 := alloc_sub (alloc_add (hr.mono e1) (hx'.mono e1)) h1.1
    have hp := takes_poseidon P hm hf (inputs := [first, CNum.sub (CNum.add root x) first]) (e1.wf hs)
      (by intro a ha; simp only [List.mem_cons, List.not_mem_nil, or_false] at ha; rcases ha with rfl | rfl <;> [exact h1.1; exact a2])
      (by
        intro a ha; simp only [List.mem_cons, List.not_mem_nil, or_false] at ha
        rcases ha with rfl | rfl <;> [exact Plain.of_varies v1; exact Plain.of_varies v2])
      ⟨first, by simp, v1.asConst⟩
    have hc : [first, CNum.sub (CNum.add root x) first].countP (fun a => a.asConst.isNone) = 2 := by
      rw [List.countP_cons, List.countP_cons, v1.asConst, v2.asConst]; rfl
    rw [hc] at hp
    refine Takes.bind hp fun root' s2 e2 h2 => ?_
    have e12 := e.trans e1
    refine (ih (e12.trans e2) ((e1.trans e2).wf hs) h2.1 (fun y hy => hl y (by simp [hy])) fun y hy => ?_).mono fun r s' _ h => ?_
    · have hy' : y ∈ l := List.mem_of_mem_head? hy
      exact (h2.2.sub_left ((hl y (by simp [hy'])).1.mono e12)).varies
    · refine ⟨h.1, .inr ?_⟩
      rcases h.2 with ⟨_, rfl⟩ | h
      · exact h2.2.anti e1
      · exact h.anti (e1.trans e2)

end CPoseidon

end Fawkes
