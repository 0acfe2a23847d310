import Verif.Lemmas.Bellman
import Verif.Spec.Canonical

/-!
# The queries of the key generator and the density trackers of the prover

The key generator leaves points at infinity out of the queries, the prover skips variables that occur in no constraint.
Here: when the two agree, a proof is the one computed from complete queries.
-/

namespace Fawkes.Groth16

open Polynomial Finset
open Fawkes.Props

section multiexp

variable {G : Type} [AddCommGroup G] [DecidableEq G] {r : Nat} [Fact r.Prime]

/-- Flags that tell which bases are not zero, and the list of these: the sum of all multiples. -/
theorem multiexp_filter {α : Type} (l : List α) (fl : α → Bool) (w : α → ZMod r) (P : α → G)
    (h : ∀ k ∈ l, fl k = true ↔ P k ≠ 0) (more : List G) :
    multiexp (l.map fun k => (fl k, w k)) ((l.map P).filter (· ≠ 0) ++ more) = .ok (sumexp (l.map w) (l.map P)) := by
  induction l with
  | nil => rfl
  | cons k l ih =>
    have ih := ih fun k hk => h k (List.mem_cons_of_mem _ hk)
    have hk := h k List.mem_cons_self
    unfold sumexp at ih ⊢
    simp only [List.map_cons, List.zipWith_cons_cons, List.sum_cons]
    cases hf : fl k with
    | false =>
      have h0 : P k = 0 := by
        by_contra h0
        rw [hk.2 h0] at hf; cases hf
      rw [List.filter_cons_of_neg (by simp [h0])]
      rw [multiexp, ih, h0, smul_zero, zero_add]
    | true =>
      have h0 : P k ≠ 0 := hk.1 hf
      rw [List.filter_cons_of_pos (by simpa using h0), List.cons_append, multiexp, if_neg (by simp [h0]), ih]
      rfl

theorem multiexp_full {α : Type} (l : List α) (xs : List (ZMod r)) (P : α → G) (h : ∀ k ∈ l, P k ≠ 0)
    (hx : xs.length ≤ l.length) (more : List G) :
    multiexp (full xs) (l.map P ++ more) = .ok (sumexp xs (l.map P)) := by
  unfold full
  induction xs generalizing l with
  | nil => rfl
  | cons x xs ih =>
    cases l with
    | nil => simp at hx
    | cons k l =>
      have h0 : P k ≠ 0 := h k List.mem_cons_self
      have ih := ih l (fun k hk => h k (List.mem_cons_of_mem _ hk)) (by simpa using hx)
      unfold sumexp at ih ⊢
      simp only [List.map_cons, List.zipWith_cons_cons, List.sum_cons, List.cons_append]
      rw [multiexp, if_neg (by simp [h0]), ih]
      rfl

/-- More variables with a flag than bases: the bases run out (or one is infinity). -/
theorem multiexp_eof (es : List (Bool × ZMod r)) (bases : List G) (h0 : ∀ b ∈ bases, b ≠ 0)
    (h : bases.length < es.countP fun e => e.1) : multiexp es bases = .error .unexpectedEof := by
  induction es generalizing bases with
  | nil => simp at h
  | cons e es ih =>
    obtain ⟨b, x⟩ := e
    cases b with
    | false => exact ih bases h0 (by simpa using h)
    | true =>
      cases bases with
      | nil => rfl
      | cons g bases =>
        rw [multiexp, if_neg (by simp [h0 g List.mem_cons_self]),
          ih bases (fun b hb => h0 b (List.mem_cons_of_mem _ hb)) (by simpa using h)]
        rfl

/-- Enough bases: no error. -/
theorem multiexp_ok (es : List (Bool × ZMod r)) (bases : List G) (h0 : ∀ b ∈ bases, b ≠ 0)
    (h : (es.countP fun e => e.1) ≤ bases.length) : ∃ g, multiexp es bases = .ok g := by
  induction es generalizing bases with
  | nil => exact ⟨0, rfl⟩
  | cons e es ih =>
    obtain ⟨b, x⟩ := e
    cases b with
    | false => exact ih bases h0 (by simpa using h)
    | true =>
      cases bases with
      | nil => simp at h
      | cons g bases =>
        obtain ⟨z, hz⟩ := ih bases (fun b hb => h0 b (List.mem_cons_of_mem _ hb)) (by simpa using h)
        refine ⟨x.val • g + z, ?_⟩
        rw [multiexp, if_neg (by simp [h0 g List.mem_cons_self]), hz]
        rfl

theorem filter_length {α : Type} (l : List α) (fl : α → Bool) (P : α → G) (h : ∀ k ∈ l, fl k = true ↔ P k ≠ 0) :
    ((l.map P).filter (· ≠ 0)).length = l.countP fl := by
  rw [← List.countP_eq_length_filter, List.countP_map]
  refine List.countP_congr fun k hk => ?_
  rw [h k hk]
  simp

end multiexp

section clean

variable {r : Nat} [Fact r.Prime]

/-- One side of a constraint. -/
abbrev Side (r : Nat) : Type := LC (ZMod r) × LC (ZMod r) × LC (ZMod r) → LC (ZMod r)

/-- The variable has a coefficient other than zero in some row. -/
def present (s : CS (ZMod r)) (f : Side r) (k : Index) : Prop := ∃ q ∈ rows s, coeff k (f q) ≠ 0

/-- The secret point is no accidental zero: the columns at the secret point vanish only if they are zero, and so do the
bases of the query `h`. -/
structure Clean (D : Domain (ZMod r)) (tau : ZMod r) (s : CS (ZMod r)) : Prop where
  colA : ∀ k ∈ inputVars s ++ auxVars s, present s (fun q => q.1) k → columnAt D tau s (fun q => q.1) k ≠ 0
  colB : ∀ k ∈ inputVars s ++ auxVars s, present s (fun q => q.2.1) k → columnAt D tau s (fun q => q.2.1) k ≠ 0
  tau0 : tau ≠ 0
  z0 : D.z tau ≠ 0

theorem coeff_eq_zero {F : Type} [Field F] {k : Index} {l : LC F} (h : ∀ t ∈ l, t.1 ≠ k) : coeff k l = 0 := by
  induction l with
  | nil => rfl
  | cons t l ih =>
    obtain ⟨k', v⟩ := t
    show (if k' = k then v + coeff k l else coeff k l) = 0
    rw [if_neg (h _ List.mem_cons_self)]
    exact ih fun t ht => h t (List.mem_cons_of_mem _ ht)

theorem column_eq_zero {F : Type} [Field F] (lag : Nat → F) {k : Index} {ls : List (LC F)}
    (h : ∀ l ∈ ls, coeff k l = 0) (j : Nat) : column lag k j ls = 0 := by
  induction ls generalizing j with
  | nil => rfl
  | cons l ls ih =>
    show lag j * coeff k l + column lag k (j + 1) ls = 0
    rw [h l List.mem_cons_self, ih (fun l hl => h l (List.mem_cons_of_mem _ hl)), mul_zero, add_zero]

theorem columnAt_eq_zero (D : Domain (ZMod r)) (tau : ZMod r) {s : CS (ZMod r)} {f : Side r} {k : Index}
    (h : ¬ present s f k) : columnAt D tau s f k = 0 := by
  refine column_eq_zero _ ?_ 0
  intro l hl
  obtain ⟨q, hq, rfl⟩ := List.mem_map.1 hl
  by_contra h0
  exact h ⟨q, hq, h0⟩

/-- What occurs with a nonzero coefficient occurs. -/
theorem occurs_of_present {s : CS (ZMod r)} {f : Side r} {k : Index} (h : present s f k) : occurs s f k = true := by
  obtain ⟨q, hq, h⟩ := h
  unfold occurs
  rw [List.any_eq_true]
  refine ⟨q, hq, ?_⟩
  by_contra h0
  rw [Bool.not_eq_true, List.any_eq_false] at h0
  exact h (coeff_eq_zero fun t ht => by simpa using h0 t ht)

theorem coeff_of_mem {F : Type} [Field F] {l : LC F} (h : l.Pairwise fun a b => a.1.Before b.1) {t : Index × F}
    (ht : t ∈ l) : coeff t.1 l = t.2 := by
  induction l with
  | nil => cases ht
  | cons u l ih =>
    obtain ⟨k, v⟩ := u
    rw [List.pairwise_cons] at h
    have irrefl : ∀ i : Index, ¬ i.Before i := by intro i; cases i <;> simp [Index.Before]
    show (if k = t.1 then v + coeff t.1 l else coeff t.1 l) = t.2
    rcases List.mem_cons.1 ht with rfl | ht
    · rw [if_pos rfl, coeff_eq_zero, add_zero]
      intro u hu hk
      have := h.1 u hu
      rw [hk] at this
      exact irrefl _ this
    · have := h.1 t ht
      rw [if_neg, ih h.2 ht]
      intro hk
      rw [hk] at this
      exact irrefl _ this

/-- In canonical linear combinations every variable other than the constant occurs with a coefficient other than zero. -/
theorem occurs_iff {s : CS (ZMod r)} {f : Side r} (hf : ∀ q ∈ rows s, (f q).Canonical) {k : Index} (hk : k ≠ .input 0) :
    occurs s f k = true ↔ present s f k := by
  refine ⟨fun h => ?_, occurs_of_present⟩
  unfold occurs at h
  rw [List.any_eq_true] at h
  obtain ⟨q, hq, h⟩ := h
  rw [List.any_eq_true] at h
  obtain ⟨t, ht, h⟩ := h
  have h : t.1 = k := by simpa using h
  refine ⟨q, hq, ?_⟩
  rw [← h, coeff_of_mem (hf q hq).sorted ht]
  exact (hf q hq).nonzero t ht (h ▸ hk)

/-- All linear combinations of all constraints are canonical. -/
def ConsCanonical (s : CS (ZMod r)) : Prop :=
  ∀ c ∈ s.cons, c.a.lc.Canonical ∧ c.b.lc.Canonical ∧ c.c.lc.Canonical

theorem ConsCanonical.rows {s : CS (ZMod r)} (h : ConsCanonical s) : ∀ q ∈ rows s,
    q.1.Canonical ∧ q.2.1.Canonical := by
  intro q hq
  rcases List.mem_append.1 hq with hq | hq
  · obtain ⟨c, hc, rfl⟩ := List.mem_map.1 hq
    exact ⟨(h c hc).1, (h c hc).2.1⟩
  · obtain ⟨i, -, rfl⟩ := List.mem_map.1 hq
    exact ⟨⟨by simp, by simp⟩, ⟨by simp, by simp⟩⟩

/-- Every public input is in the query `a`. -/
theorem present_input {s : CS (ZMod r)} {k : Index} (hk : k ∈ inputVars s) : present s (fun q => q.1) k := by
  obtain ⟨i, hi, rfl⟩ := List.mem_map.1 hk
  refine ⟨_, List.mem_append_right _ (List.mem_map.2 ⟨i, hi, rfl⟩), ?_⟩
  simp [coeff]

/-- The constant one does not occur on the right only with the coefficient zero. -/
def OneBalanced (s : CS (ZMod r)) : Prop :=
  occurs s (fun q => q.2.1) (.input 0) = true → present s (fun q => q.2.1) (.input 0)

end clean

/-! ### Complete queries -/

section dense

variable {G1 G2 : Type} [AddCommGroup G1] [AddCommGroup G2] [DecidableEq G1] [DecidableEq G2] {r : Nat} [Fact r.Prime]

/-- The keys with complete queries. -/
def denseKeys (D : Domain (ZMod r)) (t : Toxic G1 G2 r) (s : CS (ZMod r)) : Parameters G1 G2 := {
  keysOf D t s with
  a := (inputVars s ++ auxVars s).map fun k => (columnAt D t.tau s (fun q => q.1) k).val • t.g1
  bG1 := (inputVars s ++ auxVars s).map fun k => (columnAt D t.tau s (fun q => q.2.1) k).val • t.g1
  bG2 := (inputVars s ++ auxVars s).map fun k => (columnAt D t.tau s (fun q => q.2.1) k).val • t.g2 }

omit [DecidableEq G1] [DecidableEq G2] in
/-- The proof from complete queries. -/
def denseProof (D : Domain (ZMod r)) (params : Parameters G1 G2) (x y : ZMod r) (s : CS (ZMod r)) : Proof G1 G2 :=
  let h := D.quotient (side s fun q => q.1) (side s fun q => q.2.1) (side s fun q => q.2.2)
  let all := (inputVars s ++ auxVars s).map s.assign
  let aAnswer := sumexp all params.a
  let bG1Answer := sumexp all params.bG1
  { a := x.val • params.vk.deltaG1 + params.vk.alphaG1 + aAnswer
    b := y.val • params.vk.deltaG2 + params.vk.betaG2 + sumexp all params.bG2
    c := (x * y).val • params.vk.deltaG1 + y.val • params.vk.alphaG1 + x.val • params.vk.betaG1 + y.val • aAnswer +
      x.val • bG1Answer + sumexp h params.h + sumexp ((auxVars s).map s.assign) params.l }

theorem sumexp_append {G : Type} [AddCommGroup G] {α : Type} (l l' : List α) (w : α → ZMod r) (P : α → G) :
    sumexp ((l ++ l').map w) ((l ++ l').map P) = sumexp (l.map w) (l.map P) + sumexp (l'.map w) (l'.map P) := by
  unfold sumexp
  rw [List.map_append, List.map_append, List.zipWith_append (by simp), List.sum_append]

theorem smul_ne_zero_of_order {G : Type} [AddCommGroup G] {g : G} (h1 : r • g = 0) (n1 : g ≠ 0) {x : ZMod r} (hx : x ≠ 0) :
    x.val • g ≠ 0 := by
  intro h
  have ho : addOrderOf g = r := addOrderOf_eq_prime h1 n1
  have := addOrderOf_dvd_of_nsmul_eq_zero h
  rw [ho] at this
  exact hx ((ZMod.val_eq_zero _).1 (Nat.eq_zero_of_dvd_of_lt this (ZMod.val_lt _)))

theorem column_point {G : Type} [AddCommGroup G] {g : G} (h1 : r • g = 0) (n1 : g ≠ 0) {D : Domain (ZMod r)} {tau : ZMod r}
    {s : CS (ZMod r)} {f : Side r} {k : Index} (hc : present s f k → columnAt D tau s f k ≠ 0) :
    (columnAt D tau s f k).val • g ≠ 0 ↔ present s f k := by
  constructor
  · intro h
    by_contra hp
    rw [columnAt_eq_zero D tau hp, ZMod.val_zero, zero_smul] at h
    exact h rfl
  · intro hp
    exact smul_ne_zero_of_order h1 n1 (hc hp)

/-- One query with its density trackers, when these tell which bases are there. -/
theorem query_ok {G : Type} [AddCommGroup G] [DecidableEq G] (l l' : List Index) (fl : Index → Bool) (w : Index → ZMod r)
    (P : Index → G) (h : ∀ k ∈ l ++ l', fl k = true ↔ P k ≠ 0) (n : Nat) (hn : n = l.countP fl) :
    ∃ g g', multiexp (l.map fun k => (fl k, w k)) (((l ++ l').map P).filter (· ≠ 0)) = .ok g ∧
      multiexp (l'.map fun k => (fl k, w k)) ((((l ++ l').map P).filter (· ≠ 0)).drop n) = .ok g' ∧
      g + g' = sumexp ((l ++ l').map w) ((l ++ l').map P) := by
  have hl : ∀ k ∈ l, fl k = true ↔ P k ≠ 0 := fun k hk => h k (List.mem_append_left _ hk)
  have hl' : ∀ k ∈ l', fl k = true ↔ P k ≠ 0 := fun k hk => h k (List.mem_append_right _ hk)
  refine ⟨_, _, ?_, ?_, (sumexp_append l l' w P).symm⟩
  · rw [List.map_append, List.filter_append]
    exact multiexp_filter l fl w P hl _
  · rw [List.map_append, List.filter_append, List.drop_left' (by rw [filter_length l fl P hl, hn])]
    have := multiexp_filter l' fl w P hl' []
    rwa [List.append_nil] at this

variable {D : Domain (ZMod r)} {t : Toxic G1 G2 r} {s : CS (ZMod r)}

/-- The part of the proof that comes from the query `a`. -/
theorem query_a (h1 : r • t.g1 = 0) (n1 : t.g1 ≠ 0) (hc : ConsCanonical s) (hcl : Clean D t.tau s) :
    ∃ g g', multiexp (full ((inputVars s).map s.assign)) (keysOf D t s).a = .ok g ∧
      multiexp (tracked s (fun q => q.1) (auxVars s)) ((keysOf D t s).a.drop s.ninputs) = .ok g' ∧
      g + g' = sumexp ((inputVars s ++ auxVars s).map s.assign) (denseKeys D t s).a := by
  have hP : ∀ k ∈ inputVars s ++ auxVars s, occurs s (fun q => q.1) k = true ↔
      (columnAt D t.tau s (fun q => q.1) k).val • t.g1 ≠ 0 := by
    intro k hk
    rw [column_point h1 n1 (hcl.colA k hk)]
    by_cases h0 : k = .input 0
    · subst h0
      have hm : Index.input 0 ∈ inputVars s := by
        rcases List.mem_append.1 hk with hk | hk
        · exact hk
        · simp [auxVars] at hk
      have := present_input hm
      exact ⟨fun _ => this, fun _ => occurs_of_present this⟩
    · exact occurs_iff (fun q hq => (hc.rows q hq).1) h0
  have hin : ∀ k ∈ inputVars s, occurs s (fun q => q.1) k = true := fun k hk => occurs_of_present (present_input hk)
  have hn : s.ninputs = (inputVars s).countP (occurs s fun q => q.1) := by
    rw [List.countP_eq_length.2 hin]
    simp [inputVars]
  have := query_ok (inputVars s) (auxVars s) (occurs s fun q => q.1) s.assign _ hP _ hn
  have e : full ((inputVars s).map s.assign) = (inputVars s).map fun k => (occurs s (fun q => q.1) k, s.assign k) := by
    unfold full
    rw [List.map_map]
    exact List.map_congr_left fun k hk => by simp [hin k hk]
  rw [e]
  exact this

/-- The part of the proof that comes from the queries `b_g1` and `b_g2`. -/
theorem query_b {G : Type} [AddCommGroup G] [DecidableEq G] {g : G} (h1 : r • g = 0) (n1 : g ≠ 0) (hc : ConsCanonical s)
    (hcl : Clean D t.tau s) (hb : OneBalanced s) :
    ∃ g0 g', multiexp (tracked s (fun q => q.2.1) (inputVars s))
        (((inputVars s ++ auxVars s).map fun k => (columnAt D t.tau s (fun q => q.2.1) k).val • g).filter (· ≠ 0)) = .ok g0 ∧
      multiexp (tracked s (fun q => q.2.1) (auxVars s))
        ((((inputVars s ++ auxVars s).map fun k => (columnAt D t.tau s (fun q => q.2.1) k).val • g).filter (· ≠ 0)).drop
          (totalDensity s (fun q => q.2.1) (inputVars s))) = .ok g' ∧
      g0 + g' = sumexp ((inputVars s ++ auxVars s).map s.assign)
        ((inputVars s ++ auxVars s).map fun k => (columnAt D t.tau s (fun q => q.2.1) k).val • g) := by
  refine query_ok (inputVars s) (auxVars s) (occurs s fun q => q.2.1) s.assign _ ?_ _ rfl
  intro k hk
  rw [column_point h1 n1 (hcl.colB k hk)]
  by_cases h0 : k = .input 0
  · subst h0
    exact ⟨hb, occurs_of_present⟩
  · exact occurs_iff (fun q hq => (hc.rows q hq).2) h0

/-- With a clean secret point and canonical constraints the prover computes the proof from complete queries. -/
theorem proofOf_eq (h1 : r • t.g1 = 0) (h2 : r • t.g2 = 0) (n1 : t.g1 ≠ 0) (n2 : t.g2 ≠ 0) (hd : t.delta ≠ 0)
    (hl : ∀ b ∈ (keysOf D t s).l, b ≠ 0) (hc : ConsCanonical s) (hcl : Clean D t.tau s) (hb : OneBalanced s) (x y : ZMod r) :
    proofOf D (keysOf D t s) x y s = .ok (denseProof D (denseKeys D t s) x y s) := by
  obtain ⟨a, a', ha, ha', ea⟩ := query_a h1 n1 hc hcl
  obtain ⟨b, b', hb1, hb1', eb⟩ := query_b (t := t) h1 n1 hc hcl hb
  obtain ⟨c, c', hb2, hb2', ec⟩ := query_b (t := t) h2 n2 hc hcl hb
  have hh := multiexp_full (List.range (D.m - 1))
    (D.quotient (side s fun q => q.1) (side s fun q => q.2.1) (side s fun q => q.2.2))
    (fun i => (t.tau ^ i * (D.z t.tau * t.delta⁻¹)).val • t.g1)
    (fun i _ => smul_ne_zero_of_order h1 n1 (mul_ne_zero (pow_ne_zero _ hcl.tau0) (mul_ne_zero hcl.z0 (inv_ne_zero hd))))
    (by simp [Domain.quotient]) []
  rw [List.append_nil] at hh
  have hl' := multiexp_full (auxVars s) ((auxVars s).map s.assign) (fun k => (Groth16.ext D t s t.delta⁻¹ k).val • t.g1)
    (fun k hk => hl _ (List.mem_map_of_mem hk)) (by simp) []
  rw [List.append_nil] at hl'
  unfold proofOf
  rw [ha, ha']
  simp only [keysOf] at hb1 hb1' hb2 hb2' hh hl' ⊢
  rw [hb1, hb1', hb2, hb2', hh, hl']
  simp only [denseKeys, keysOf] at ea
  simp only [denseProof, denseKeys, keysOf, ← ea, ← eb, ← ec]
  rfl

/-- If the constant one occurs on the right only with the coefficient zero, there is no proof. -/
theorem proofOf_eof (h1 : r • t.g1 = 0) (n1 : t.g1 ≠ 0) (hn : 1 ≤ s.ninputs) (hc : ConsCanonical s)
    (hcl : Clean D t.tau s) (hb : ¬ OneBalanced s) (x y : ZMod r) :
    proofOf D (keysOf D t s) x y s = .error .unexpectedEof := by
  obtain ⟨a, a', ha, ha', -⟩ := query_a h1 n1 hc hcl
  unfold OneBalanced at hb
  push Not at hb
  obtain ⟨ho, hp⟩ := hb
  have h0 : ∀ b ∈ (keysOf D t s).bG1, b ≠ 0 := by
    intro b hb
    simpa using (List.mem_filter.1 hb).2
  obtain ⟨m, hm⟩ : ∃ m, s.ninputs = m + 1 := ⟨s.ninputs - 1, by omega⟩
  have hin : inputVars s = .input 0 :: (List.range m).map fun i => .input (i + 1) := by
    unfold inputVars
    rw [hm, List.range_succ_eq_map, List.map_cons, List.map_map]
    rfl
  have hiff : ∀ k ∈ inputVars s ++ auxVars s, k ≠ .input 0 → (occurs s (fun q => q.2.1) k = true ↔
      (columnAt D t.tau s (fun q => q.2.1) k).val • t.g1 ≠ 0) := fun k hk h0 => by
    rw [column_point h1 n1 (hcl.colB k hk)]
    exact occurs_iff (fun q hq => (hc.rows q hq).2) h0
  have hz : (columnAt D t.tau s (fun q => q.2.1) (.input 0)).val • t.g1 = 0 := by
    rw [columnAt_eq_zero D t.tau hp, ZMod.val_zero, zero_smul]
  have hlen : (keysOf D t s).bG1.length + 1 =
      (inputVars s).countP (occurs s fun q => q.2.1) + (auxVars s).countP (occurs s fun q => q.2.1) := by
    have e : (keysOf D t s).bG1 = (((List.range m).map fun i => Index.input (i + 1)).map
        fun k => (columnAt D t.tau s (fun q => q.2.1) k).val • t.g1).filter (· ≠ 0) ++ ((auxVars s).map
        fun k => (columnAt D t.tau s (fun q => q.2.1) k).val • t.g1).filter (· ≠ 0) := by
      show List.filter _ _ = _
      rw [hin, List.cons_append, List.map_cons, List.filter_cons_of_neg (by simp [hz]), List.map_append, List.filter_append]
    rw [e, List.length_append, filter_length _ (occurs s fun q => q.2.1), filter_length _ (occurs s fun q => q.2.1), hin,
      List.countP_cons_of_pos ho]
    · omega
    · intro k hk
      refine hiff k (List.mem_append_right _ hk) ?_
      rintro rfl
      simp [auxVars] at hk
    · intro k hk
      refine hiff k (List.mem_append_left _ (hin ▸ List.mem_cons_of_mem _ hk)) ?_
      rintro rfl
      simp at hk
  have hcount : ∀ l : List Index, ((tracked s (fun q => q.2.1) l).countP fun e => e.1) = l.countP (occurs s fun q => q.2.1) := by
    intro l
    unfold tracked
    rw [List.countP_map]
    rfl
  unfold proofOf
  rw [ha, ha']
  show (multiexp (tracked s (fun q => q.2.1) (inputVars s)) (keysOf D t s).bG1 >>= _) = _
  by_cases haux : (auxVars s).countP (occurs s fun q => q.2.1) = 0
  · rw [multiexp_eof _ _ h0 (by rw [hcount]; omega)]
    rfl
  · obtain ⟨b, hb⟩ := multiexp_ok (tracked s (fun q => q.2.1) (inputVars s)) _ h0 (by rw [hcount]; omega)
    rw [hb]
    show (multiexp (tracked s (fun q => q.2.1) (auxVars s)) ((keysOf D t s).bG1.drop _) >>= _) = _
    rw [multiexp_eof]
    · rfl
    · exact fun b hb => h0 b (List.mem_of_mem_drop hb)
    · rw [hcount, List.length_drop]
      unfold totalDensity
      omega

end dense

/-! ### Few secret points are not clean -/

section few

variable {r : Nat} [Fact r.Prime]

theorem coeff_eval_single {F : Type} [Field F] (k : Index) (l : LC F) : l.eval (fun i => if i = k then 1 else 0) = coeff k l := by
  induction l with
  | nil => rfl
  | cons t l ih =>
    obtain ⟨k', v⟩ := t
    have : LC.eval (fun i => if i = k then (1 : F) else 0) ((k', v) :: l) =
        v * (if k' = k then 1 else 0) + LC.eval (fun i => if i = k then 1 else 0) l := by simp [LC.eval]
    rw [this, ih]
    show _ = if k' = k then v + coeff k l else coeff k l
    split_ifs <;> simp

theorem column_eq_colValue {F : Type} [Field F] (lag : Nat → F) (k : Index) (j : Nat) (ls : List (LC F)) :
    column lag k j ls = colValue lag (fun i => if i = k then 1 else 0) j ls := by
  induction ls generalizing j with
  | nil => rfl
  | cons l ls ih =>
    show lag j * coeff k l + column lag k (j + 1) ls = lag j * l.eval _ + colValue lag _ (j + 1) ls
    rw [ih, coeff_eval_single]

/-- The polynomial of a column. -/
noncomputable def columnPoly (D : Domain (ZMod r)) (s : CS (ZMod r)) (f : Side r) (k : Index) : (ZMod r)[X] :=
  Domain.poly D.m (D.ifft (valueAt (fun i => if i = k then 1 else 0) ((rows s).map f)))

theorem columnPoly_eval {D : Domain (ZMod r)} {s : CS (ZMod r)} (hm : (rows s).length ≤ D.m) (tau : ZMod r) (f : Side r)
    (k : Index) : (columnPoly D s f k).eval tau = columnAt D tau s f k := by
  unfold columnAt columnPoly
  rw [column_eq_colValue, colValue_eq _ _ _ _ D.m (by simpa using hm), ← Domain.lagrange_sum]
  simp

theorem columnPoly_ne {D : Domain (ZMod r)} (hD : D.Lawful) {s : CS (ZMod r)} (hm : (rows s).length ≤ D.m) {f : Side r}
    {k : Index} (h : present s f k) : columnPoly D s f k ≠ 0 := by
  obtain ⟨q, hq, h⟩ := h
  obtain ⟨j, hj, rfl⟩ := List.mem_iff_getElem.1 hq
  intro h0
  have h3 := Domain.eval_ifft hD (valueAt (fun i => if i = k then 1 else 0) ((rows s).map f)) (k := j) (by omega)
  rw [show Domain.poly D.m (D.ifft (valueAt (fun i => if i = k then 1 else 0) ((rows s).map f))) = 0 from h0, eval_zero] at h3
  unfold valueAt at h3
  rw [List.getElem?_map, List.getElem?_eq_getElem hj] at h3
  simp only [Option.map_some, coeff_eval_single] at h3
  exact h h3.symm

open Classical in
/-- All but few secret points are clean. -/
theorem clean_few {D : Domain (ZMod r)} (hD : D.Lawful) {s : CS (ZMod r)} (hn : 1 ≤ s.ninputs) (hm : (rows s).length ≤ D.m) :
    ∃ bad : Finset (ZMod r), bad.card ≤ D.m * (2 * (s.ninputs + s.naux) + 1) ∧ ∀ tau ∉ bad, Clean D tau s := by
  let vars := (inputVars s ++ auxVars s).toFinset
  let rt (f : Side r) : Finset (ZMod r) := vars.biUnion fun k => (columnPoly D s f k).roots.toFinset
  have hcard : ∀ f, (rt f).card ≤ (s.ninputs + s.naux) * (D.m - 1) := by
    intro f
    refine Finset.card_biUnion_le_card_mul _ _ _ (fun k _ => ?_) |>.trans (Nat.mul_le_mul_right _ ?_)
    · exact (Multiset.toFinset_card_le _).trans ((Polynomial.card_roots' _).trans (Domain.degree_poly _ _))
    · exact (List.toFinset_card_le _).trans (by simp [inputVars, auxVars])
  have hz : D.vanishing.roots.toFinset.card ≤ D.m :=
    (Multiset.toFinset_card_le _).trans ((Polynomial.card_roots' _).trans Domain.vanishing_natDegree.le)
  refine ⟨rt (fun q => q.1) ∪ rt (fun q => q.2.1) ∪ {0} ∪ D.vanishing.roots.toFinset, ?_, ?_⟩
  · have h1 := hcard fun q => q.1
    have h2 := hcard fun q => q.2.1
    have hpos := hD.pos
    have : (s.ninputs + s.naux) * (D.m - 1) + (s.ninputs + s.naux) = (s.ninputs + s.naux) * D.m := by
      rw [← Nat.mul_succ]
      congr 1
      omega
    refine (Finset.card_union_le _ _).trans ?_
    refine (Nat.add_le_add_right ((Finset.card_union_le _ _).trans (Nat.add_le_add_right (Finset.card_union_le _ _) _)) _).trans ?_
    rw [Finset.card_singleton]
    have e : D.m * (2 * (s.ninputs + s.naux) + 1) = 2 * ((s.ninputs + s.naux) * D.m) + D.m := by ring
    rw [e]
    omega
  · intro tau ht
    simp only [Finset.mem_union, Finset.mem_singleton, not_or] at ht
    obtain ⟨⟨⟨hA, hB⟩, h0⟩, hv⟩ := ht
    have key : ∀ f : Side r, tau ∉ rt f → ∀ k ∈ inputVars s ++ auxVars s, present s f k → columnAt D tau s f k ≠ 0 := by
      intro f hf k hk hp hc
      apply hf
      refine Finset.mem_biUnion.2 ⟨k, List.mem_toFinset.2 hk, ?_⟩
      rw [Multiset.mem_toFinset, Polynomial.mem_roots (columnPoly_ne hD hm hp), Polynomial.IsRoot.def, columnPoly_eval hm]
      exact hc
    refine ⟨key _ hA, key _ hB, h0, ?_⟩
    intro hz
    apply hv
    rw [Multiset.mem_toFinset, Polynomial.mem_roots (Domain.vanishing_monic hD).ne_zero, Polynomial.IsRoot.def,
      Domain.eval_vanishing]
    exact hz

end few

end Fawkes.Groth16
