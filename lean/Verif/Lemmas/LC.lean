import Verif.Model.CNum
import Mathlib.Tactic.Ring
import Mathlib.Tactic.LinearCombination

/-! # Evaluation and keys of merged linear combinations -/

namespace Fawkes

namespace LC

variable {F : Type} [Field F] [DecidableEq F]

omit [DecidableEq F] in
@[simp] theorem eval_nil (w : Index → F) : LC.eval w [] = 0 := rfl

omit [DecidableEq F] in
@[simp] theorem eval_cons (w : Index → F) (kv : Index × F) (l : LC F) :
    LC.eval w (kv :: l) = kv.2 * w kv.1 + LC.eval w l := by simp [LC.eval]

omit [DecidableEq F] in
@[simp] theorem eval_append (w : Index → F) (l l' : LC F) :
    LC.eval w (l ++ l') = LC.eval w l + LC.eval w l' := by simp [LC.eval]

omit [DecidableEq F] in
@[simp] theorem eval_reverse (w : Index → F) (l : LC F) :
    LC.eval w l.reverse = LC.eval w l := by
  induction l with
  | nil => rfl
  | cons kv l ih => simp [ih]; ring

omit [DecidableEq F] in
theorem eval_map_neg (w : Index → F) (l : LC F) :
    LC.eval w (l.map fun kv => (kv.1, -kv.2)) = - LC.eval w l := by
  induction l with
  | nil => simp
  | cons kv l ih => simp only [List.map_cons, eval_cons, ih]; ring

omit [DecidableEq F] in
theorem eval_map_mul (w : Index → F) (l : LC F) (k : F) :
    LC.eval w (l.map fun kv => (kv.1, kv.2 * k)) = LC.eval w l * k := by
  induction l with
  | nil => simp
  | cons kv l ih => simp only [List.map_cons, eval_cons, ih]; ring

omit [DecidableEq F] in
theorem eval_map_div (w : Index → F) (l : LC F) (k : F) :
    LC.eval w (l.map fun kv => (kv.1, kv.2 / k)) = LC.eval w l / k := by
  simp only [div_eq_mul_inv]; exact eval_map_mul w l k⁻¹

/-- Total value of a cursor state. -/
def cev (w : Index → F) (c : LC F × LC F) : F := LC.eval w c.1 + LC.eval w c.2

omit [DecidableEq F] in
theorem lookup_cev (w : Index → F) (k : Index) (pre post : LC F) :
    cev w (lookup k pre post) = LC.eval w pre + LC.eval w post := by
  induction post generalizing pre with
  | nil => simp [lookup, cev]
  | cons kv post ih =>
    obtain ⟨k', v'⟩ := kv
    unfold lookup
    split
    · rfl
    · split
      · rfl
      · rw [ih]; simp only [eval_cons]; ring

theorem mergeStep_cev (w : Index → F) (k : Index) (v : F) (c : LC F × LC F) :
    cev w (mergeStep k v c) = cev w c + v * w k := by
  have h := lookup_cev w k c.1 c.2
  unfold mergeStep
  revert h
  generalize lookup k c.1 c.2 = r
  obtain ⟨pre, post⟩ := r
  intro h
  simp only [cev] at h ⊢
  cases post with
  | nil => simp only [eval_cons, eval_nil] at h ⊢; linear_combination h
  | cons kv post =>
    obtain ⟨k', v'⟩ := kv
    simp only [eval_cons] at h
    by_cases hk : k' = k
    · subst hk
      by_cases hv : v' + v = 0
      · simp only [if_true, hv]; linear_combination h - hv * w k'
      · simp only [if_true, hv, if_false, eval_cons]; linear_combination h
    · simp only [hk, if_false, eval_cons]; linear_combination h

theorem mergeLoop_cev (w : Index → F) (b : LC F) (c : LC F × LC F) :
    cev w (mergeLoop c b) = cev w c + LC.eval w b := by
  induction b generalizing c with
  | nil => simp [mergeLoop]
  | cons kv b ih =>
    obtain ⟨k, v⟩ := kv
    simp only [mergeLoop, ih, mergeStep_cev, eval_cons]; ring

theorem eval_add (w : Index → F) (a b : LC F) :
    LC.eval w (a.add b) = LC.eval w a + LC.eval w b := by
  have h := mergeLoop_cev w b ([], a)
  unfold LC.add
  simp only [cev, eval_nil, zero_add] at h
  simp only [eval_append, eval_reverse]
  exact h

theorem eval_sub (w : Index → F) (a b : LC F) :
    LC.eval w (a.sub b) = LC.eval w a - LC.eval w b := by
  have h := mergeLoop_cev w (b.map fun kv => (kv.1, -kv.2)) ([], a)
  unfold LC.sub
  simp only [cev, eval_nil, zero_add, eval_map_neg] at h
  simp only [eval_append, eval_reverse, sub_eq_add_neg]
  exact h

/-! ## Keys -/

omit [Field F] [DecidableEq F] in
@[simp] theorem keys_nil : LC.keys ([] : LC F) = [] := rfl
omit [Field F] [DecidableEq F] in
@[simp] theorem keys_cons (kv : Index × F) (l : LC F) : LC.keys (kv :: l) = kv.1 :: LC.keys l := rfl
omit [Field F] [DecidableEq F] in
@[simp] theorem keys_append (l l' : LC F) : LC.keys (l ++ l') = LC.keys l ++ LC.keys l' := by
  simp [LC.keys]
omit [Field F] [DecidableEq F] in
@[simp] theorem keys_reverse (l : LC F) : LC.keys l.reverse = (LC.keys l).reverse := by
  simp [LC.keys]

omit [Field F] [DecidableEq F] in
theorem keys_map (l : LC F) (f : Index × F → F) : LC.keys (l.map fun kv => (kv.1, f kv)) = LC.keys l := by
  simp [LC.keys]

/-- Keys of a cursor state. -/
def ckeys (c : LC F × LC F) : List Index := c.1.keys ++ c.2.keys

omit [Field F] [DecidableEq F] in
theorem lookup_mem (k j : Index) (pre post : LC F) :
    j ∈ ckeys (lookup k pre post) ↔ j ∈ pre.keys ++ post.keys := by
  induction post generalizing pre with
  | nil => simp [lookup, ckeys]
  | cons kv post ih =>
    obtain ⟨k', v'⟩ := kv
    unfold lookup
    split
    · rfl
    · split
      · rfl
      · rw [ih]; simp only [keys_cons, List.mem_append, List.mem_cons]; tauto

theorem mergeStep_mem_of (k j : Index) (v : F) (c : LC F × LC F) (h : j ∈ ckeys (mergeStep k v c)) :
    j = k ∨ j ∈ ckeys c := by
  have hl := lookup_mem k j c.1 c.2
  unfold mergeStep at h
  revert h hl
  generalize lookup k c.1 c.2 = r
  obtain ⟨pre, post⟩ := r
  intro hl h
  simp only [ckeys] at *
  cases post with
  | nil =>
    simp only [keys_cons, keys_nil, List.mem_append, List.mem_cons, List.not_mem_nil, or_false] at *
    tauto
  | cons kv post =>
    obtain ⟨k', v'⟩ := kv
    by_cases hk : k' = k
    · subst hk
      by_cases hv : v' + v = 0
      · simp only [if_true, hv, keys_cons, List.mem_append, List.mem_cons] at *; tauto
      · simp only [if_true, hv, if_false, keys_cons, List.mem_append, List.mem_cons] at *; tauto
    · simp only [hk, if_false, keys_cons, List.mem_append, List.mem_cons] at *; tauto

theorem mergeStep_mem (k j : Index) (v : F) (c : LC F × LC F) (hj : j ≠ k) (h : j ∈ ckeys c) :
    j ∈ ckeys (mergeStep k v c) := by
  have hl := lookup_mem k j c.1 c.2
  unfold mergeStep
  revert hl
  generalize lookup k c.1 c.2 = r
  obtain ⟨pre, post⟩ := r
  intro hl
  simp only [ckeys] at *
  cases post with
  | nil =>
    simp only [keys_cons, keys_nil, List.mem_append, List.mem_cons, List.not_mem_nil, or_false] at *
    tauto
  | cons kv post =>
    obtain ⟨k', v'⟩ := kv
    by_cases hk : k' = k
    · subst hk
      by_cases hv : v' + v = 0
      · simp only [if_true, hv, keys_cons, List.mem_append, List.mem_cons] at *; tauto
      · simp only [if_true, hv, if_false, keys_cons, List.mem_append, List.mem_cons] at *; tauto
    · simp only [hk, if_false, keys_cons, List.mem_append, List.mem_cons] at *; tauto

theorem mergeStep_mem_new (k : Index) (v : F) (c : LC F × LC F) (h : k ∉ ckeys c) :
    k ∈ ckeys (mergeStep k v c) := by
  have hl := lookup_mem k k c.1 c.2
  unfold mergeStep
  revert hl
  generalize lookup k c.1 c.2 = r
  obtain ⟨pre, post⟩ := r
  intro hl
  simp only [ckeys] at *
  cases post with
  | nil => simp
  | cons kv post =>
    obtain ⟨k', v'⟩ := kv
    by_cases hk : k' = k
    · subst hk
      exfalso; apply h; simp only [keys_cons, List.mem_append, List.mem_cons] at *; tauto
    · simp [hk]

theorem mergeLoop_mem_of (j : Index) (b : LC F) (c : LC F × LC F) (h : j ∈ ckeys (mergeLoop c b)) :
    j ∈ b.keys ∨ j ∈ ckeys c := by
  induction b generalizing c with
  | nil => exact Or.inr h
  | cons kv b ih =>
    obtain ⟨k, v⟩ := kv
    simp only [mergeLoop] at h
    rcases ih _ h with h | h
    · left; simp [h]
    · rcases mergeStep_mem_of _ _ _ _ h with h | h
      · left; simp [h]
      · right; exact h

theorem mergeLoop_mem (j : Index) (b : LC F) (c : LC F × LC F) (hj : j ∉ b.keys) (h : j ∈ ckeys c) :
    j ∈ ckeys (mergeLoop c b) := by
  induction b generalizing c with
  | nil => exact h
  | cons kv b ih =>
    obtain ⟨k, v⟩ := kv
    simp only [keys_cons, List.mem_cons, not_or] at hj
    exact ih _ hj.2 (mergeStep_mem _ _ _ _ hj.1 h)

theorem mem_keys_add_of {j : Index} {a b : LC F} (h : j ∈ (a.add b).keys) : j ∈ a.keys ∨ j ∈ b.keys := by
  have := mergeLoop_mem_of j b ([], a) (by
    unfold LC.add at h; simpa [ckeys] using h)
  simpa [ckeys, or_comm] using this

theorem mem_keys_add {j : Index} {a b : LC F} (ha : j ∈ a.keys) (hb : j ∉ b.keys) :
    j ∈ (a.add b).keys := by
  have := mergeLoop_mem j b ([], a) hb (by simpa [ckeys] using ha)
  unfold LC.add; simpa [ckeys] using this

theorem sub_eq (a b : LC F) : a.sub b = a.add (b.map fun kv => (kv.1, -kv.2)) := rfl

theorem mem_keys_sub_of {j : Index} {a b : LC F} (h : j ∈ (a.sub b).keys) : j ∈ a.keys ∨ j ∈ b.keys := by
  rw [sub_eq] at h
  simpa [keys_map] using mem_keys_add_of h

theorem mem_keys_sub {j : Index} {a b : LC F} (ha : j ∈ a.keys) (hb : j ∉ b.keys) :
    j ∈ (a.sub b).keys := by
  rw [sub_eq]; exact mem_keys_add ha (by rwa [keys_map])

theorem mergeLoop_mem_new (j : Index) (b : LC F) (c : LC F × LC F) (hj : j ∈ b.keys) (hn : b.keys.Nodup)
    (h : j ∉ ckeys c) : j ∈ ckeys (mergeLoop c b) := by
  induction b generalizing c with
  | nil => cases hj
  | cons kv b ih =>
    obtain ⟨k, v⟩ := kv
    simp only [keys_cons, List.mem_cons, List.nodup_cons] at hj hn
    by_cases hk : j = k
    · subst hk
      exact mergeLoop_mem j b (mergeStep j v c) hn.1 (mergeStep_mem_new j v c h)
    · refine ih _ (hj.resolve_left hk) hn.2 fun hm => ?_
      rcases mergeStep_mem_of _ _ _ _ hm with h' | h'
      · exact hk h'
      · exact h h'

theorem mem_keys_add_new {j : Index} {a b : LC F} (ha : j ∉ a.keys) (hb : j ∈ b.keys) (hn : b.keys.Nodup) :
    j ∈ (a.add b).keys := by
  have := mergeLoop_mem_new j b ([], a) hb hn (by simpa [ckeys] using ha)
  unfold LC.add; simpa [ckeys] using this

theorem mem_keys_sub_new {j : Index} {a b : LC F} (ha : j ∉ a.keys) (hb : j ∈ b.keys) (hn : b.keys.Nodup) :
    j ∈ (a.sub b).keys := by
  rw [sub_eq]; exact mem_keys_add_new ha (by rwa [keys_map]) (by rwa [keys_map])

end LC

namespace CNum

variable {F : Type} [Field F] [DecidableEq F]

/-- The value of a signal under an assignment. -/
abbrev eval (w : Index → F) (a : CNum F) : F := a.lc.eval w

section
variable (w : Index → F)

theorem eval_addAssign (a b : CNum F) : (addAssign a b).eval w = a.eval w + b.eval w :=
  LC.eval_add w _ _

theorem eval_add (a b : CNum F) : (add a b).eval w = a.eval w + b.eval w := by
  unfold add; split
  · exact eval_addAssign w a b
  · rw [eval_addAssign, add_comm]

theorem eval_sub (a b : CNum F) : (sub a b).eval w = a.eval w - b.eval w := LC.eval_sub w _ _

omit [DecidableEq F] in
theorem eval_neg (a : CNum F) : (neg a).eval w = - a.eval w := LC.eval_map_neg w _

omit [DecidableEq F] in
theorem eval_fromConst {w : Index → F} (hw : IsAssignment w) (k : F) :
    (fromConst k).eval w = k := by
  unfold IsAssignment at hw; simp [fromConst, eval, hw]

omit [DecidableEq F] in
@[simp] theorem eval_fromVar (v : Option F) (i : Index) : (fromVar v i).eval w = w i := by
  simp [fromVar, eval]

theorem eval_mulConst {w : Index → F} (hw : IsAssignment w) (a : CNum F) (k : F) :
    (mulConst a k).eval w = a.eval w * k := by
  unfold mulConst; split
  · next h => subst h; rw [zero, eval_fromConst hw, mul_zero]
  · exact LC.eval_map_mul w _ _

theorem eval_addConst {w : Index → F} (hw : IsAssignment w) (a : CNum F) (k : F) :
    (addConst a k).eval w = a.eval w + k := by
  rw [addConst, eval_addAssign, eval_fromConst hw]

theorem eval_subConst {w : Index → F} (hw : IsAssignment w) (a : CNum F) (k : F) :
    (subConst a k).eval w = a.eval w - k := by
  rw [subConst, eval_sub, eval_fromConst hw]

theorem eval_constSub {w : Index → F} (hw : IsAssignment w) (a : CNum F) (k : F) :
    (constSub k a).eval w = k - a.eval w := by
  rw [constSub, eval_sub, eval_fromConst hw]

omit [DecidableEq F] in
theorem eval_zero {w : Index → F} (hw : IsAssignment w) : (zero : CNum F).eval w = 0 :=
  eval_fromConst hw 0

omit [DecidableEq F] in
theorem eval_one {w : Index → F} (hw : IsAssignment w) : (one : CNum F).eval w = 1 :=
  eval_fromConst hw 1

omit [DecidableEq F] in
theorem eval_of_asConst {w : Index → F} (hw : IsAssignment w) {a : CNum F} {c : F}
    (h : a.asConst = some c) : a.eval w = c := by
  unfold asConst at h
  unfold IsAssignment at hw
  split at h
  · next h' => injection h with h; simp [eval, h', h]
  · next k v h' =>
    split at h
    · next hk => injection h with h; subst hk; simp [eval, h', hw, h]
    · cases h
  · cases h

end

omit [DecidableEq F] in
theorem asConst_eq_none {a : CNum F} {k : Index} (hk : k ∈ a.lc.keys) (h0 : k ≠ .input 0) :
    a.asConst = none := by
  unfold asConst
  split
  · next h => rw [h] at hk; cases hk
  · next k' v h =>
    rw [h] at hk
    simp only [LC.keys_cons, LC.keys_nil, List.mem_singleton] at hk
    subst hk
    simp [h0]
  · rfl

end CNum

end Fawkes
