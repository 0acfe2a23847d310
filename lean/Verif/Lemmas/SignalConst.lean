import Verif.Lemmas.Signal
import Verif.Lemmas.CEccConst

/-!
# Assertions on constant signals

An assertion on a compound signal all of whose components are constants is decided at once: it adds no constraint, and panics exactly if
the components differ.
-/

namespace Fawkes

variable {F : Type} [Field F] [DecidableEq F] {w : Index → F}

theorem run_zipForM_const {A B C : Type} [DecidableEq C] {f : A → B → M F Unit} {g : A → List C} {g' : B → List C}
    {as : List A} {bs : List B} {k : Nat} {s : CS F}
    (hf : ∀ a ∈ as, ∀ b ∈ bs, (f a b).run s = if g a = g' b then .ok ((), s) else .error .assertion)
    (ha : ∀ a ∈ as, (g a).length = k) (hb : ∀ b ∈ bs, (g' b).length = k) (hl : as.length = bs.length) :
    (zipForM f as bs).run s = if as.flatMap g = bs.flatMap g' then .ok ((), s) else .error .assertion := by
  induction as generalizing bs with
  | nil => cases bs with
    | nil => rfl
    | cons => simp at hl
  | cons a as ih => cases bs with
    | nil => simp at hl
    | cons b bs =>
      have h1 := hf a (by simp) b (by simp)
      have h2 := ih (bs := bs) (fun a ha b hb => hf a (by simp [ha]) b (by simp [hb]))
        (fun a h => ha a (by simp [h])) (fun b h => hb b (by simp [h])) (by simpa using hl)
      rw [List.flatMap_cons, List.flatMap_cons]
      unfold zipForM
      rw [M.run_bind, h1]
      by_cases h : g a = g' b
      · rw [if_pos h]
        show (zipForM f as bs).run s = _
        rw [h2]
        simp only [h, List.append_cancel_left_eq]
      · rw [if_neg h, if_neg (fun e => h ((append_eq_iff (by rw [ha a (by simp), hb b (by simp)])).1 e).1)]

theorem run_assertConst_const (hw : IsAssignment w) {a : CNum F} (ha : a.asConst ≠ none) (c : F) (s : CS F) :
    (CNum.assertConst a c).run s = if [a.lc.eval w] = [c] then .ok ((), s) else .error .assertion := by
  obtain ⟨v, hv⟩ := Option.ne_none_iff_exists'.1 ha
  have he : a.lc.eval w = v := CNum.eval_of_asConst hw hv
  unfold CNum.assertConst; rw [hv]; simp only; rw [M.run_assert, he]; simp

theorem asConst_sub {a b : CNum F} (ha : a.asConst ≠ none) (hb : b.asConst ≠ none) : (CNum.sub a b).asConst ≠ none := by
  obtain ⟨x, hx⟩ := Option.ne_none_iff_exists'.1 ha
  obtain ⟨y, hy⟩ := Option.ne_none_iff_exists'.1 hb
  have h := CNum.asConst_addAssign hx (CNum.asConst_map hy (- ·) (by simp) none)
  exact fun e => Option.some_ne_none _ (h.symm.trans e)

theorem run_assertEq_const (hw : IsAssignment w) {a b : CNum F} (ha : a.asConst ≠ none) (hb : b.asConst ≠ none) (s : CS F) :
    (CNum.assertEq a b).run s = if [a.lc.eval w] = [b.lc.eval w] then .ok ((), s) else .error .assertion := by
  have h := run_assertConst_const hw (asConst_sub ha hb) 0 s
  rw [show (CNum.sub a b).lc.eval w = _ from CNum.eval_sub w a b] at h
  rw [show (CNum.assertEq a b).run s = _ from h]
  simp only [singleton_eq_iff, sub_eq_zero]

theorem run_seq_const {m m' : M F Unit} {p q : Prop} [Decidable p] [Decidable q] {s : CS F}
    (h : m.run s = if p then .ok ((), s) else .error .assertion) (h' : m'.run s = if q then .ok ((), s) else .error .assertion) :
    (m >>= fun _ => m').run s = if p ∧ q then .ok ((), s) else .error .assertion := by
  rw [M.run_bind, h]
  by_cases hp : p
  · rw [if_pos hp]; show m'.run s = _; rw [h']; simp [hp]
  · rw [if_neg hp, if_neg (fun e => hp e.1)]

theorem Ty.run_assertEq_const (t : Ty) (hw : IsAssignment w) (a b : t.S F) (ha : t.ok F a) (hb : t.ok F b)
    (ca : ∀ x ∈ t.leaves F a, x.asConst ≠ none) (cb : ∀ x ∈ t.leaves F b, x.asConst ≠ none) (s : CS F) :
    (t.assertEq a b).run s = if t.evals w a = t.evals w b then .ok ((), s) else .error .assertion := by
  induction t with
  | num => exact Fawkes.run_assertEq_const hw (ca a (List.mem_singleton.2 rfl)) (cb b (List.mem_singleton.2 rfl)) s
  | bool => exact Fawkes.run_assertEq_const hw (ca (CBool.num a) (List.mem_singleton.2 rfl)) (cb (CBool.num b) (List.mem_singleton.2 rfl)) s
  | pair t u iht ihu =>
    have h := run_seq_const (iht a.1 b.1 ha.1 hb.1 (fun x hx => ca x (List.mem_append_left _ hx)) (fun x hx => cb x (List.mem_append_left _ hx)))
      (ihu a.2 b.2 ha.2 hb.2 (fun x hx => ca x (List.mem_append_right _ hx)) (fun x hx => cb x (List.mem_append_right _ hx)))
    simp only [Ty.evals_pair, append_eq_iff (show (t.evals w a.1).length = (t.evals w b.1).length by
      rw [t.evals_length w _ ha.1, t.evals_length w _ hb.1])]
    exact h
  | vec n t ih =>
    simp only [Ty.evals_vec]
    exact run_zipForM_const (fun x hx y hy => ih x y (ha.2 x hx) (hb.2 y hy) (fun z hz => ca z (List.mem_flatMap.2 ⟨x, hx, hz⟩))
        (fun z hz => cb z (List.mem_flatMap.2 ⟨y, hy, hz⟩)))
      (fun x hx => t.evals_length w x (ha.2 x hx)) (fun x hx => t.evals_length w x (hb.2 x hx))
      (ha.1.trans hb.1.symm)

theorem Ty.run_assertConst_const (t : Ty) (hw : IsAssignment w) (a : t.S F) (v : t.V F) (ha : t.ok F a) (hv : t.okV F v)
    (ca : ∀ x ∈ t.leaves F a, x.asConst ≠ none) (s : CS F) :
    (t.assertConst a v).run s = if t.evals w a = t.flat F v then .ok ((), s) else .error .assertion := by
  induction t with
  | num => exact Fawkes.run_assertConst_const hw (ca a (List.mem_singleton.2 rfl)) v s
  | bool => exact Fawkes.run_assertConst_const hw (ca (CBool.num a) (List.mem_singleton.2 rfl)) (boolToF (show Bool from v)) s
  | pair t u iht ihu =>
    have h := run_seq_const (iht a.1 v.1 ha.1 hv.1 (fun x hx => ca x (List.mem_append_left _ hx)))
      (ihu a.2 v.2 ha.2 hv.2 (fun x hx => ca x (List.mem_append_right _ hx)))
    simp only [Ty.evals_pair, Ty.flat, append_eq_iff (show (t.evals w a.1).length = (t.flat F v.1).length by
      rw [t.evals_length w _ ha.1, t.flat_length _ hv.1])]
    exact h
  | vec n t ih =>
    simp only [Ty.evals_vec]
    exact run_zipForM_const (fun x hx y hy => ih x y (ha.2 x hx) (hv.2 y hy) (fun z hz => ca z (List.mem_flatMap.2 ⟨x, hx, hz⟩)))
      (fun x hx => t.evals_length w x (ha.2 x hx)) (fun x hx => t.flat_length x (hv.2 x hx))
      (ha.1.trans hv.1.symm)

end Fawkes
