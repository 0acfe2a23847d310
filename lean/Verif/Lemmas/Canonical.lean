import Verif.Spec.Canonical
import Verif.Lemmas.LC

/-!
# The cursor merge computes an ordinary ordered merge, and preserves canonical form
-/

namespace Fawkes

theorem Index.lt_iff (a b : Index) : a.lt b = true ↔ a.Before b := by
  cases a <;> cases b <;> simp [Index.lt, Index.Before]

theorem Index.Before.trans {a b c : Index} (h : a.Before b) (h' : b.Before c) : a.Before c := by
  cases a <;> cases b <;> cases c <;> simp_all [Index.Before] <;> omega

theorem Index.before_irrefl (a : Index) : ¬ a.Before a := by
  cases a <;> simp [Index.Before]

theorem Index.before_total {a b : Index} (h : a ≠ b) (h' : ¬ a.Before b) : b.Before a := by
  cases a <;> cases b <;> simp_all [Index.Before] <;> omega

theorem Index.Before.asymm {a b : Index} (h : a.Before b) : ¬ b.Before a := fun h' =>
  a.before_irrefl (h.trans h')

namespace LC

variable {F : Type} [Field F] [DecidableEq F]

/-- Ordinary merge of two linear combinations, adding coefficients of equal variables. -/
def merge : LC F → LC F → LC F
  | a, [] => a
  | [], b => b
  | (k', v') :: a, (k, v) :: b =>
    if k' = k then
      if v' + v = 0 then merge a b else (k', v' + v) :: merge a b
    else if k.lt k' then (k, v) :: merge ((k', v') :: a) b
    else (k', v') :: merge a ((k, v) :: b)
termination_by a b => a.length + b.length

theorem merge_nil_left (b : LC F) : merge [] b = b := by cases b <;> simp [merge]
theorem merge_nil_right (a : LC F) : merge a [] = a := by cases a <;> simp [merge]

/-- The list a cursor stands in. -/
def flat (c : LC F × LC F) : LC F := c.1.reverse ++ c.2

theorem flat_mergeLoop_pass (x : Index × F) (b : LC F) (hb : ∀ kv ∈ b, x.1.Before kv.1)
    (pre post : LC F) : flat (mergeLoop (pre, x :: post) b) = flat (mergeLoop (x :: pre, post) b) := by
  cases b with
  | nil => simp [mergeLoop, flat]
  | cons kv b =>
    obtain ⟨k, v⟩ := kv
    have h := hb (k, v) (by simp)
    have hs : mergeStep k v (pre, x :: post) = mergeStep k v (x :: pre, post) := by
      unfold mergeStep
      have : lookup k pre (x :: post) = lookup k (x :: pre) post := by
        obtain ⟨k', v'⟩ := x
        rw [lookup]
        have h1 : k' ≠ k := by rintro rfl; exact Index.before_irrefl _ h
        have h2 : ¬ (k.lt k' = true) := by rw [Index.lt_iff]; exact h.asymm
        simp [h1, h2]
      simp only [this]
    simp only [mergeLoop, hs]

theorem flat_mergeLoop (b : LC F) (hb : b.Pairwise fun a b => a.1.Before b.1) (pre post : LC F) :
    flat (mergeLoop (pre, post) b) = pre.reverse ++ merge post b := by
  induction b generalizing pre post with
  | nil => simp [mergeLoop, flat, merge_nil_right]
  | cons kv b ih =>
    obtain ⟨k, v⟩ := kv
    rw [List.pairwise_cons] at hb
    induction post generalizing pre with
    | nil =>
      rw [mergeLoop]
      have : mergeStep k v (pre, []) = (pre, [(k, v)]) := by simp [mergeStep, lookup]
      rw [this, flat_mergeLoop_pass (k, v) b hb.1, ih hb.2, merge_nil_left, merge_nil_left]
      simp
    | cons x post ihp =>
      obtain ⟨k', v'⟩ := x
      by_cases h1 : k' = k
      · subst h1
        have hl : lookup k' pre ((k', v') :: post) = (pre, (k', v') :: post) := by simp [lookup]
        rw [mergeLoop, mergeStep]
        simp only [hl]
        rw [merge]
        by_cases h0 : v' + v = 0
        · simp only [h0, if_true]; rw [ih hb.2]
        · simp only [h0, if_true, if_false]
          rw [flat_mergeLoop_pass (k', v' + v) b hb.1, ih hb.2]; simp
      · by_cases h2 : k.lt k' = true
        · have hl : lookup k pre ((k', v') :: post) = (pre, (k', v') :: post) := by simp [lookup, h1, h2]
          rw [mergeLoop, mergeStep]
          simp only [hl]
          rw [merge]
          simp only [h1, h2, if_true, if_false]
          rw [flat_mergeLoop_pass (k, v) b hb.1, ih hb.2]; simp
        · have hl : lookup k pre ((k', v') :: post) = lookup k ((k', v') :: pre) post := by
            rw [lookup]; simp [h1, h2]
          rw [merge]
          simp only [h1, h2, if_false]
          have hm : mergeLoop (pre, (k', v') :: post) ((k, v) :: b)
              = mergeLoop ((k', v') :: pre, post) ((k, v) :: b) := by
            simp only [mergeLoop, mergeStep, hl]
          rw [hm, ihp]; simp

theorem add_eq_merge (a : LC F) {b : LC F} (hb : b.Pairwise fun a b => a.1.Before b.1) :
    a.add b = merge a b := by
  have := flat_mergeLoop b hb [] a
  simpa [flat, add] using this

theorem merge_comm (a b : LC F) : merge a b = merge b a := by
  fun_induction merge a b with
  | case1 a => rw [merge_nil_left]
  | case2 b => rw [merge_nil_right]
  | case3 k' v' a v b h0 ih => rw [merge, if_pos rfl, if_pos (by rwa [add_comm]), ih]
  | case4 k' v' a v b h0 ih =>
    rw [merge, if_pos rfl, if_neg (by rwa [add_comm]), ih, add_comm]
  | case5 k' v' a k v b h1 h2 ih =>
    rw [merge, if_neg (Ne.symm h1), if_neg (by
      rw [Index.lt_iff] at h2 ⊢; exact h2.asymm), ih]
  | case6 k' v' a k v b h1 h2 ih =>
    rw [merge, if_neg (Ne.symm h1), if_pos (by
      rw [Index.lt_iff] at h2 ⊢; exact Index.before_total (Ne.symm h1) h2), ih]

theorem mem_merge {a b : LC F} {j : Index} {u : F} (h : (j, u) ∈ merge a b) :
    (j, u) ∈ a ∨ (j, u) ∈ b ∨ (u ≠ 0 ∧ j ∈ a.keys ∧ j ∈ b.keys) := by
  fun_induction merge a b with
  | case1 a => exact Or.inl h
  | case2 b => exact Or.inr (Or.inl h)
  | case3 k' v' a v b h0 ih =>
    rcases ih h with h | h | h
    · left; simp [h]
    · right; left; simp [h]
    · right; right; exact ⟨h.1, by simp [h.2.1], by simp [h.2.2]⟩
  | case4 k' v' a v b h0 ih =>
    rw [List.mem_cons] at h
    rcases h with h | h
    · injection h with hj hu; subst hj hu; right; right; exact ⟨h0, by simp, by simp⟩
    · rcases ih h with h | h | h
      · left; simp [h]
      · right; left; simp [h]
      · right; right; exact ⟨h.1, by simp [h.2.1], by simp [h.2.2]⟩
  | case5 k' v' a k v b h1 h2 ih =>
    rw [List.mem_cons] at h
    rcases h with h | h
    · right; left; simp [h]
    · rcases ih h with h | h | h
      · left; exact h
      · right; left; simp [h]
      · right; right; exact ⟨h.1, h.2.1, by simp [h.2.2]⟩
  | case6 k' v' a k v b h1 h2 ih =>
    rw [List.mem_cons] at h
    rcases h with h | h
    · left; simp [h]
    · rcases ih h with h | h | h
      · left; simp [h]
      · right; left; exact h
      · right; right; exact ⟨h.1, by simp [h.2.1], h.2.2⟩

theorem merge_keys {a b : LC F} {kv : Index × F} (h : kv ∈ merge a b) :
    kv.1 ∈ a.keys ∨ kv.1 ∈ b.keys := by
  rcases mem_merge (j := kv.1) (u := kv.2) h with h | h | h
  · exact Or.inl (List.mem_map_of_mem h)
  · exact Or.inr (List.mem_map_of_mem h)
  · exact Or.inl h.2.1

theorem merge_sorted {a b : LC F} (ha : a.Pairwise fun a b => a.1.Before b.1)
    (hb : b.Pairwise fun a b => a.1.Before b.1) :
    (merge a b).Pairwise fun a b => a.1.Before b.1 := by
  have key : ∀ {l : LC F} {k : Index}, (∀ kv ∈ l, k.Before kv.1) → ∀ j ∈ l.keys, k.Before j := by
    intro l k h j hj
    obtain ⟨kv, hkv, rfl⟩ := List.mem_map.1 hj
    exact h kv hkv
  fun_induction merge a b with
  | case1 a => exact ha
  | case2 b => exact hb
  | case3 k' v' a v b h0 ih =>
    rw [List.pairwise_cons] at ha hb; exact ih ha.2 hb.2
  | case4 k' v' a v b h0 ih =>
    rw [List.pairwise_cons] at ha hb
    rw [List.pairwise_cons]
    refine ⟨fun kv hkv => ?_, ih ha.2 hb.2⟩
    rcases merge_keys hkv with h | h
    · exact key ha.1 _ h
    · exact key hb.1 _ h
  | case5 k' v' a k v b h1 h2 ih =>
    rw [Index.lt_iff] at h2
    have ha' := ha
    rw [List.pairwise_cons] at hb ha'
    rw [List.pairwise_cons]
    refine ⟨fun kv hkv => ?_, ih ha hb.2⟩
    rcases merge_keys hkv with h | h
    · rw [keys_cons, List.mem_cons] at h
      rcases h with h | h
      · rw [h]; exact h2
      · exact h2.trans (key ha'.1 _ h)
    · exact key hb.1 _ h
  | case6 k' v' a k v b h1 h2 ih =>
    rw [Index.lt_iff] at h2
    have hb' := hb
    rw [List.pairwise_cons] at ha hb'
    rw [List.pairwise_cons]
    have h3 := Index.before_total (Ne.symm h1) h2
    refine ⟨fun kv hkv => ?_, ih ha.2 hb⟩
    rcases merge_keys hkv with h | h
    · exact key ha.1 _ h
    · rw [keys_cons, List.mem_cons] at h
      rcases h with h | h
      · rw [h]; exact h3
      · exact h3.trans (key hb'.1 _ h)

theorem Canonical.add {a b : LC F} (ha : a.Canonical) (hb : b.Canonical) : (a.add b).Canonical := by
  rw [add_eq_merge a hb.sorted]
  refine ⟨merge_sorted ha.sorted hb.sorted, fun kv hkv h0 => ?_⟩
  rcases mem_merge (j := kv.1) (u := kv.2) hkv with h | h | h
  · exact ha.nonzero _ h h0
  · exact hb.nonzero _ h h0
  · exact h.1

omit [DecidableEq F] in
theorem Canonical.map {a : LC F} (ha : a.Canonical) (f : F → F) (hf : ∀ v, v ≠ 0 → f v ≠ 0) :
    LC.Canonical (a.map fun kv => (kv.1, f kv.2)) := by
  refine ⟨?_, ?_⟩
  · rw [List.pairwise_map]; exact ha.sorted
  · intro kv hkv h0
    obtain ⟨x, hx, rfl⟩ := List.mem_map.1 hkv
    exact hf _ (ha.nonzero x hx h0)

theorem Canonical.sub {a b : LC F} (ha : a.Canonical) (hb : b.Canonical) : (a.sub b).Canonical := by
  rw [sub_eq]; exact ha.add (hb.map (- ·) (fun _ h => neg_ne_zero.2 h))

theorem add_comm_of_canonical {a b : LC F} (ha : a.Canonical) (hb : b.Canonical) :
    a.add b = b.add a := by
  rw [add_eq_merge a hb.sorted, add_eq_merge b ha.sorted, merge_comm]

omit [DecidableEq F] in
theorem canonical_single (k : Index) (v : F) (h : k = .input 0 ∨ v ≠ 0) :
    LC.Canonical [(k, v)] := by
  refine ⟨by simp, ?_⟩
  intro kv hkv h0
  rw [List.mem_singleton] at hkv; subst hkv
  rcases h with h | h
  · exact absurd h h0
  · exact h

end LC

end Fawkes
