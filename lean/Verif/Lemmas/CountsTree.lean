import Verif.Lemmas.Counts
import Verif.Spec.CountsTree

/-!
# The number of constraints of a Merkle tree
-/

set_option linter.unusedSectionVars false

namespace Fawkes

variable {F : Type} [Field F] [DecidableEq F] {s s' : CS F}

/-- `as_const` recognises the constant. -/
def Known (a : CNum F) : Prop := ∃ v, a.asConst = some v

theorem Known.alloc {a : CNum F} (h : Known a) : a.lc.Alloc s := by
  obtain ⟨v, h⟩ := h
  intro j hj
  left
  rcases CNum.asConst_iff.1 h with ⟨h, -⟩ | h <;> rw [h] at hj <;> simp [LC.keys] at hj
  exact hj

theorem takes_mul_known {a b : CNum F} (ha : Known a) (hb : Known b) : Takes s (CNum.mul a b) 0 (fun z _ => Known z) := by
  obtain ⟨c, ha⟩ := ha
  obtain ⟨d, hb⟩ := hb
  refine takes_mul_const (Or.inl (by rw [ha]; simp)) _ ?_
  unfold CNum.mul
  rw [ha]
  exact Post.pure ⟨_, CNum.asConst_mulConst hb _⟩

namespace CPoseidon

theorem takes_sigma_known {a : CNum F} (ha : Known a) : Takes s (sigma a) 0 (fun z _ => Known z) := by
  unfold sigma
  refine (Takes.bind (takes_mul_known ha ha) fun b s1 e1 h1 => ?_ : Takes s _ (0 + (0 + 0)) _)
  refine Takes.bind (takes_mul_known h1 h1) fun c s2 e2 h2 => ?_
  exact takes_mul_known h2 ha

theorem takes_sigmaAll_known (l : List (CNum F)) (h : ∀ a ∈ l, Known a) : ∀ {s : CS F},
    Takes s (sigmaAll l) 0 (fun r _ => ∀ a ∈ r, Known a) := by
  induction l with
  | nil => intro s; exact Takes.pure (by simp)
  | cons x xs ih =>
    intro s
    unfold sigmaAll
    refine (Takes.bind (takes_sigma_known (h x (by simp))) fun y s1 e1 hy => ?_ : Takes s _ (0 + (0 + 0)) _)
    refine Takes.bind (ih (fun a ha => h a (by simp [ha]))) fun ys s2 e2 hys => Takes.pure ?_
    intro a ha
    rcases List.mem_cons.1 ha with rfl | ha <;> [exact hy; exact hys a ha]

theorem takes_layer_known (P : PoseidonParams F) (i : Nat) {st : List (CNum F)} (h : ∀ a ∈ st, Known a) :
    Takes s (layer P i st) 0 (fun r _ => ∀ a ∈ r, Known a) := by
  unfold layer
  split
  · exact takes_sigmaAll_known st h
  · cases st with
    | nil => exact Takes.panic
    | cons x xs =>
      refine (Takes.bind (takes_sigma_known (h x (by simp))) fun y s1 e1 hy => Takes.pure ?_ : Takes s _ (0 + 0) _)
      intro a ha
      rcases List.mem_cons.1 ha with rfl | ha <;> [exact hy; exact h a (by simp [ha])]

theorem mixRow_known (st : List (CNum F)) : ∀ (row : List F) (acc r : CNum F), (∀ a ∈ st, Known a) → Known acc →
    mixRow st row acc = .ok r → Known r := by
  induction st with
  | nil =>
    intro row acc r _ hacc hr
    rw [mixRow] at hr
    injection hr with hr
    exact hr ▸ hacc
  | cons x st ih =>
    intro row acc r h hacc hr
    cases row with
    | nil => cases hr
    | cons c row =>
      rw [mixRow] at hr
      obtain ⟨v, hv⟩ := h x (by simp)
      obtain ⟨u, hu⟩ := hacc
      exact ih row _ r (fun a ha => h a (by simp [ha])) ⟨_, CNum.asConst_addAssign hu (CNum.asConst_mulConst hv c)⟩ hr

theorem mixRows_known {st : List (CNum F)} (h : ∀ a ∈ st, Known a) (n : Nat) : ∀ (rows : List (List F)) (r : List (CNum F)),
    mixRows st rows n = .ok r → ∀ a ∈ r, Known a := by
  induction n with
  | zero =>
    intro rows r hr
    rw [mixRows] at hr
    injection hr with hr
    subst hr
    simp
  | succ n ih =>
    intro rows r hr
    cases rows with
    | nil => cases hr
    | cons row rows =>
      rw [mixRows] at hr
      cases h1 : mixRow st row CNum.zero with
      | error e => rw [h1] at hr; cases hr
      | ok x =>
        cases h2 : mixRows st rows n with
        | error e => rw [h1, h2] at hr; cases hr
        | ok xs =>
          rw [h1, h2] at hr
          injection hr with hr
          subst hr
          intro a ha
          rcases List.mem_cons.1 ha with rfl | ha
          · exact mixRow_known st row _ _ h ⟨0, CNum.asConst_fromConst 0⟩ h1
          · exact ih rows xs h2 a ha

theorem takes_rounds_known (P : PoseidonParams F) (n : Nat) : ∀ (i : Nat) {s : CS F} {st : List (CNum F)}, (∀ a ∈ st, Known a) →
    Takes s (rounds P n i st) 0 (fun r _ => ∀ a ∈ r, Known a) := by
  induction n with
  | zero => intro i s st h; exact Takes.pure h
  | succ n ih =>
    intro i s st h
    unfold rounds
    refine (Takes.bind (Q := fun _ _ => True) (Takes.lift fun _ _ => trivial) fun c s1 _ _ => ?_ : Takes s _ (0 + (0 + (0 + 0))) _)
    have hark : ∀ a ∈ ark st c, Known a := by
      intro a ha
      obtain ⟨b, hb, rfl⟩ := List.mem_map.1 ha
      obtain ⟨v, hv⟩ := h b hb
      exact ⟨_, CNum.asConst_addAssign hv (CNum.isConst_fromConst c).1⟩
    refine Takes.bind (takes_layer_known P i hark) fun st2 s2 _ h2 => ?_
    refine Takes.bind (Q := fun r _ => ∀ a ∈ r, Known a) (Takes.lift fun r hr => mixRows_known h2 _ _ r hr) fun st3 s3 _ h3 => ?_
    exact ih (i + 1) h3

theorem takes_poseidon_known (P : PoseidonParams F) {inputs : List (CNum F)} (h : ∀ a ∈ inputs, Known a) :
    Takes s (poseidon inputs P) 0 (fun r _ => Known r) := by
  unfold poseidon
  split
  · exact Takes.panic
  split
  · exact Takes.panic
  refine (Takes.bind (takes_rounds_known P _ 0 (st := inputs ++ List.replicate (P.t - inputs.length) CNum.zero) ?_) fun st s1 _ h1 => ?_ :
    Takes s _ (0 + 0) _)
  · intro a ha
    rcases List.mem_append.1 ha with ha | ha
    · exact h a ha
    · rw [(List.mem_replicate.1 ha).2]; exact ⟨0, CNum.asConst_fromConst 0⟩
  · exact Takes.lift fun x hx => h1 x (List.mem_of_getElem? (getIdx_ok.1 hx))

/-- The first `c` nodes of a level vary, the others are constants. -/
def Node (s : CS F) (c k : Nat) (a : CNum F) : Prop := if k < c then a.lc.Alloc s ∧ Varies a else Known a

theorem Node.mono {c k : Nat} {a : CNum F} (e : s.Ext s') (h : Node s c k a) : Node s' c k a := by
  unfold Node at h ⊢
  split
  · rw [if_pos ‹_›] at h; exact ⟨h.1.mono e, h.2⟩
  · rw [if_neg ‹_›] at h; exact h

theorem Known.plain {a : CNum F} (h : Known a) : Plain a := by
  obtain ⟨v, h⟩ := h
  intro h'
  rw [h] at h'
  cases h'

/-- The node above the nodes `2 k` and `2 k + 1`. -/
theorem takes_parent (P : PoseidonParams F) (hm : ∀ row ∈ P.m, ∀ c ∈ row, c ≠ 0) (hf : 2 ≤ P.f) (hs : s.WF) {c k : Nat} {a b : CNum F}
    (ha : Node s c (2 * k) a) (hb : Node s c (2 * k + 1) b) :
    Takes s (poseidon [a, b] P)
      (3 * ((c - 2 * k) - (c - 2 * (k + 1))) + 3 * ((P.f - 1) * P.t + P.p) * (((c + 1) / 2 - k) - ((c + 1) / 2 - (k + 1))))
      (fun r s' => Node s' ((c + 1) / 2) k r) := by
  have mem : ∀ {Q : CNum F → Prop}, Q a → Q b → ∀ x ∈ [a, b], Q x := by
    intro Q h1 h2 x hx
    simp only [List.mem_cons, List.not_mem_nil, or_false] at hx
    rcases hx with rfl | rfl <;> [exact h1; exact h2]
  unfold Node at ha hb ⊢
  by_cases h1 : 2 * k < c
  · rw [if_pos h1] at ha
    simp only [if_pos (by omega : k < (c + 1) / 2)]
    have h3 : (c + 1) / 2 - k - ((c + 1) / 2 - (k + 1)) = 1 := by omega
    have key : Plain b → b.lc.Alloc s → _ := fun h h' => takes_poseidon P hm hf (inputs := [a, b]) hs (mem ha.1 h')
      (mem (Plain.of_varies ha.2) h) ⟨a, by simp, ha.2.asConst⟩
    rw [h3]
    by_cases h2 : 2 * k + 1 < c
    · rw [if_pos h2] at hb
      have := key (Plain.of_varies hb.2) hb.1
      rw [List.countP_cons, List.countP_cons, ha.2.asConst, hb.2.asConst] at this
      rw [show c - 2 * k - (c - 2 * (k + 1)) = 2 by omega]
      refine (this.mono fun r s' _ h => ⟨h.1, h.2.varies⟩).cast ?_
      simp only [Option.isNone_none, if_true, List.countP_nil]
      ring
    · rw [if_neg h2] at hb
      have := key (Known.plain hb) hb.alloc
      obtain ⟨v, hv⟩ := hb
      rw [List.countP_cons, List.countP_cons, ha.2.asConst, hv] at this
      rw [show c - 2 * k - (c - 2 * (k + 1)) = 1 by omega]
      refine (this.mono fun r s' _ h => ⟨h.1, h.2.varies⟩).cast ?_
      simp
      ring
  · rw [if_neg h1] at ha
    rw [if_neg (by omega)] at hb
    simp only [if_neg (by omega : ¬ k < (c + 1) / 2)]
    rw [show c - 2 * k - (c - 2 * (k + 1)) = 0 by omega,
      show (c + 1) / 2 - k - ((c + 1) / 2 - (k + 1)) = 0 by omega]
    exact (takes_poseidon_known P (mem ha hb)).cast (by simp)

theorem takes_treeInner (P : PoseidonParams F) (hm : ∀ row ∈ P.m, ∀ c ∈ row, c ≠ 0) (hf : 2 ≤ P.f) (c n : Nat) :
    ∀ (i : Nat) {s : CS F} {st : List (CNum F)}, s.WF → c ≤ 2 * (i + n) →
    (∀ k a, 2 * i ≤ k → k < 2 * (i + n) → st[k]? = some a → Node s c k a) →
    (∀ k a, k < i → st[k]? = some a → Node s ((c + 1) / 2) k a) →
    Takes s (treeInner P n i st) (3 * (c - 2 * i) + 3 * ((P.f - 1) * P.t + P.p) * ((c + 1) / 2 - i))
      (fun r s' => ∀ k a, k < i + n → r[k]? = some a → Node s' ((c + 1) / 2) k a) := by
  induction n with
  | zero =>
    intro i s st hs hc h1 h2
    rw [show c - 2 * i = 0 by omega, show (c + 1) / 2 - i = 0 by omega]
    exact Takes.pure h2
  | succ n ih =>
    intro i s st hs hc h1 h2
    unfold treeInner
    refine Takes.cast (Takes.bind (Q := fun a s' => s' = s ∧ st[2 * i]? = some a) (Takes.lift fun a ha => ⟨rfl, getIdx_ok.1 ha⟩) ?_)
      (Nat.zero_add _)
    rintro a s1 _ ⟨rfl, ha⟩
    refine Takes.cast (Takes.bind (Q := fun b s' => s' = s1 ∧ st[2 * i + 1]? = some b) (Takes.lift fun a ha => ⟨rfl, getIdx_ok.1 ha⟩) ?_)
      (Nat.zero_add _)
    rintro b s2 _ ⟨rfl, hb⟩
    refine Takes.cast (Takes.bind (takes_parent P hm hf hs (h1 _ _ (by omega) (by omega) ha) (h1 _ _ (by omega) (by omega) hb))
      fun r s3 e3 hr => ?_) (?_ : _ + (3 * (c - 2 * (i + 1)) + 3 * ((P.f - 1) * P.t + P.p) * ((c + 1) / 2 - (i + 1))) = _)
    · have := ih (i + 1) (s := s3) (st := st.set i r) (e3.wf hs) (by omega) ?_ ?_
      · exact this.mono fun r s' _ h k a hk => h k a (by omega)
      · intro k a hk1 hk2 hka
        rw [List.getElem?_set_ne (by omega)] at hka
        exact (h1 k a (by omega) (by omega) hka).mono e3
      · intro k a hk hka
        by_cases hki : k = i
        · subst hki
          rw [List.getElem?_set_self (by have := (List.getElem?_eq_some_iff.1 ha).1; omega)] at hka
          cases hka
          exact hr
        · rw [List.getElem?_set_ne (by omega)] at hka
          exact (h2 k a (by omega) hka).mono e3
    · have e1 : c - 2 * i - (c - 2 * (i + 1)) + (c - 2 * (i + 1)) = c - 2 * i := by omega
      have e2 : (c + 1) / 2 - i - ((c + 1) / 2 - (i + 1)) + ((c + 1) / 2 - (i + 1)) = (c + 1) / 2 - i := by omega
      generalize c - 2 * i - (c - 2 * (i + 1)) = x1 at *
      generalize (c + 1) / 2 - i - ((c + 1) / 2 - (i + 1)) = x2 at *
      rw [← e1, ← e2]
      ring

theorem takes_treeLevels (P : PoseidonParams F) (hm : ∀ row ∈ P.m, ∀ c ∈ row, c ≠ 0) (hf : 2 ≤ P.f) (d n : Nat) :
    ∀ (j c : Nat) {s : CS F} {st : List (CNum F)}, s.WF → j + n = d → c ≤ 2 ^ n →
    (∀ k a, k < 2 ^ n → st[k]? = some a → Node s c k a) →
    Takes s (treeLevels P (2 ^ d) n j st) (treeCount ((P.f - 1) * P.t + P.p) n c) (fun _ _ => True) := by
  induction n with
  | zero => intro j c s st hs hj hc h; exact Takes.pure trivial
  | succ n ih =>
    intro j c s st hs hj hc h
    unfold treeLevels
    have hdiv : 2 ^ d / 2 ^ (j + 1) = 2 ^ n := by
      rw [Nat.pow_div (by omega) (by norm_num), show d - (j + 1) = n by omega]
    have hpow : 2 ^ (n + 1) = 2 * 2 ^ n := by ring
    rw [hdiv]
    have h1 := takes_treeInner P hm hf c (2 ^ n) 0 (s := s) (st := st) hs (by omega) (fun k a _ hk => h k a (by omega))
      (fun k a hk => by omega)
    refine Takes.cast (Takes.bind h1 fun r s1 e1 hr => ih (j + 1) ((c + 1) / 2) (e1.wf hs) (by omega) (by omega)
      fun k a hk => hr k a (by omega)) ?_
    rw [treeCount]
    simp only [Nat.mul_zero, Nat.sub_zero]

theorem takes_merkleTreeRoot (P : PoseidonParams F) (hm : ∀ row ∈ P.m, ∀ c ∈ row, c ≠ 0) (hf : 2 ≤ P.f) {leaves : List (CNum F)}
    (hs : s.WF) (h : ∀ a ∈ leaves, a.lc.Alloc s ∧ Varies a) :
    Takes s (merkleTreeRoot leaves P) (treeCount ((P.f - 1) * P.t + P.p) (Nat.size (leaves.length - 1)) leaves.length)
      (fun _ _ => True) := by
  unfold merkleTreeRoot
  split
  · exact Takes.panic
  next h0 =>
  push Not at h0
  have hle := Poseidon.length_le_size leaves.length h0
  refine Takes.cast (Takes.bind (takes_treeLevels P hm hf _ _ 0 leaves.length hs (by omega) hle ?_) fun _ _ _ _ =>
    Takes.lift fun _ _ => trivial) (Nat.add_zero _)
  intro k a hk hka
  unfold Node
  rcases Nat.lt_or_ge k leaves.length with hl | hl
  · rw [List.getElem?_append_left hl] at hka
    rw [if_pos hl]
    exact h a (List.mem_of_getElem? hka)
  · rw [List.getElem?_append_right hl] at hka
    rw [if_neg (by omega), (List.mem_replicate.1 (List.mem_of_getElem? hka)).2]
    exact ⟨0, CNum.asConst_fromConst 0⟩

end CPoseidon

/-- A full tree. -/
theorem treeCount_full (k d : Nat) : treeCount k d (2 ^ d) = (2 ^ d - 1) * (3 * (2 + k)) := by
  induction d with
  | zero => simp [treeCount]
  | succ d ih =>
    rw [treeCount, show (2 ^ (d + 1) + 1) / 2 = 2 ^ d by rw [pow_succ]; omega, ih]
    obtain ⟨m, hm⟩ : ∃ m, 2 ^ d = m + 1 := ⟨2 ^ d - 1, by have := Nat.one_le_two_pow (n := d); omega⟩
    rw [pow_succ, hm, show (m + 1) * 2 - 1 = 2 * m + 1 by omega, Nat.add_sub_cancel]
    ring

end Fawkes
