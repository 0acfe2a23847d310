import Verif.Lemmas.SelfLink
import Mathlib.Data.List.Perm.Basic
import Mathlib.Data.List.Nodup

/-!
# Renaming of variables

`TestCS` numbers all variables consecutively, `Groth16CS` numbers public inputs and other variables separately.
Linear combinations are sorted by number, so that the terms appear in another order as well.
-/

set_option linter.unusedSectionVars false

namespace Fawkes

variable {F : Type} [Field F] [DecidableEq F]

namespace LC

theorem not_mem_keys_of_before {l : LC F} {k : Index} (h : ∀ kv ∈ l, k.Before kv.1) : k ∉ l.keys := by
  intro hk
  obtain ⟨kv, hkv, rfl⟩ := List.mem_map.1 hk
  exact Index.before_irrefl _ (h kv hkv)

/-- The terms of a sum. -/
theorem mem_merge_iff {a b : LC F} (ha : a.Pairwise fun a b => a.1.Before b.1) (hb : b.Pairwise fun a b => a.1.Before b.1)
    (j : Index) (u : F) : (j, u) ∈ merge a b ↔ ((j, u) ∈ a ∧ j ∉ b.keys) ∨ ((j, u) ∈ b ∧ j ∉ a.keys) ∨
      ∃ v v', (j, v) ∈ a ∧ (j, v') ∈ b ∧ u = v + v' ∧ u ≠ 0 := by
  have key : ∀ {l : LC F} {k : Index} {v : F}, (k, v) ∈ l → k ∈ l.keys := fun h => List.mem_map_of_mem (f := Prod.fst) h
  fun_induction merge a b with
  | case1 a => simp [keys]
  | case2 b => simp [keys]
  | case3 v' a k v b h0 ih =>
    rw [List.pairwise_cons] at ha hb
    have na := not_mem_keys_of_before ha.1
    have nb := not_mem_keys_of_before hb.1
    have e := ih ha.2 hb.2
    rw [propext e]
    by_cases hj : j = k
    · subst hj
      constructor
      · rintro (h | h | ⟨x, y, h, -⟩)
        · exact absurd (key h.1) na
        · exact absurd (key h.1) nb
        · exact absurd (key h) na
      · rintro (h | h | ⟨x, y, h1, h2, h3, h4⟩)
        · exact absurd (by simp [keys]) h.2
        · exact absurd (by simp [keys]) h.2
        · rw [List.mem_cons] at h1 h2
          rcases h1 with h1 | h1
          · rcases h2 with h2 | h2
            · injection h1 with _ h1; injection h2 with _ h2
              subst h1 h2 h3; exact absurd h0 h4
            · exact absurd (key h2) nb
          · exact absurd (key h1) na
    · simp [keys_cons, hj]
  | case4 v' a k v b h0 ih =>
    rw [List.pairwise_cons] at ha hb
    have na := not_mem_keys_of_before ha.1
    have nb := not_mem_keys_of_before hb.1
    have e := ih ha.2 hb.2
    rw [List.mem_cons, propext e]
    by_cases hj : j = k
    · subst hj
      constructor
      · rintro (h | h | h | ⟨x, y, h, -⟩)
        · injection h with _ h; subst h
          exact Or.inr (Or.inr ⟨v', v, by simp, by simp, rfl, h0⟩)
        · exact absurd (key h.1) na
        · exact absurd (key h.1) nb
        · exact absurd (key h) na
      · rintro (h | h | ⟨x, y, h1, h2, h3, h4⟩)
        · exact absurd (by simp [keys]) h.2
        · exact absurd (by simp [keys]) h.2
        · rw [List.mem_cons] at h1 h2
          rcases h1 with h1 | h1
          · rcases h2 with h2 | h2
            · injection h1 with _ h1; injection h2 with _ h2
              subst h1 h2 h3; exact Or.inl rfl
            · exact absurd (key h2) nb
          · exact absurd (key h1) na
    · simp [keys_cons, hj]
  | case5 k' v' a k v b h1 h2 ih =>
    rw [Index.lt_iff] at h2
    have ha' := ha
    rw [List.pairwise_cons] at ha' hb
    have na : k ∉ keys ((k', v') :: a) := by
      apply not_mem_keys_of_before
      intro kv hkv
      rcases List.mem_cons.1 hkv with h | h
      · rw [h]; exact h2
      · exact h2.trans (ha'.1 kv h)
    have nb := not_mem_keys_of_before hb.1
    have e := ih ha hb.2
    rw [List.mem_cons, propext e]
    by_cases hj : j = k
    · subst hj
      constructor
      · rintro (h | h | h | ⟨x, y, h, -⟩)
        · exact Or.inr (Or.inl ⟨by simp [h], na⟩)
        · exact absurd (key h.1) na
        · exact absurd (key h.1) nb
        · exact absurd (key h) na
      · rintro (h | h | ⟨x, y, h, -⟩)
        · exact absurd (key h.1) na
        · rcases List.mem_cons.1 h.1 with h' | h'
          · exact Or.inl h'
          · exact absurd (key h') nb
        · exact absurd (key h) na
    · simp [keys_cons, hj]
  | case6 k' v' a k v b h1 h2 ih =>
    rw [Index.lt_iff] at h2
    have h3 := Index.before_total (Ne.symm h1) h2
    have hb' := hb
    rw [List.pairwise_cons] at ha hb'
    have nb : k' ∉ keys ((k, v) :: b) := by
      apply not_mem_keys_of_before
      intro kv hkv
      rcases List.mem_cons.1 hkv with h | h
      · rw [h]; exact h3
      · exact h3.trans (hb'.1 kv h)
    have na := not_mem_keys_of_before ha.1
    have e := ih ha.2 hb
    rw [List.mem_cons, propext e]
    by_cases hj : j = k'
    · subst hj
      constructor
      · rintro (h | h | h | ⟨x, y, h, -⟩)
        · exact Or.inl ⟨by simp [h], nb⟩
        · exact absurd (key h.1) na
        · exact absurd (key h.1) nb
        · exact absurd (key h) na
      · rintro (h | h | ⟨x, y, -, h, -⟩)
        · rcases List.mem_cons.1 h.1 with h' | h'
          · exact Or.inl h'
          · exact absurd (key h') na
        · exact absurd (key h.1) nb
        · exact absurd (key h) nb
    · simp [keys_cons, hj]

theorem Canonical.nodup {l : LC F} (h : l.Canonical) : l.Nodup :=
  h.sorted.imp fun h => by rintro rfl; exact Index.before_irrefl _ h

/-- Rename the variables. -/
def ren (ρ : Index → Index) (l : LC F) : LC F := l.map fun kv => (ρ kv.1, kv.2)

end LC

/-- A renaming of some variables that keeps the constant. -/
structure Ren where
  ρ : Index → Index
  dom : Index → Prop
  zero : ρ (.input 0) = .input 0
  dom_zero : dom (.input 0)
  inj : ∀ i j, dom i → dom j → ρ i = ρ j → i = j

namespace LC

variable {R : Ren}

theorem mem_ren {l : LC F} (hd : ∀ k ∈ l.keys, R.dom k) {j : Index} (hj : R.dom j) (u : F) :
    (R.ρ j, u) ∈ l.ren R.ρ ↔ (j, u) ∈ l := by
  unfold ren
  rw [List.mem_map]
  constructor
  · rintro ⟨⟨k, v⟩, hk, h⟩
    injection h with h1 h2
    simp only at h1 h2
    rw [← R.inj k j (hd _ (List.mem_map_of_mem (f := Prod.fst) hk)) hj h1, ← h2]; exact hk
  · intro h; exact ⟨_, h, rfl⟩

theorem mem_keys_ren {l : LC F} (hd : ∀ k ∈ l.keys, R.dom k) {j : Index} (hj : R.dom j) :
    R.ρ j ∈ (l.ren R.ρ).keys ↔ j ∈ l.keys := by
  constructor
  · intro h
    obtain ⟨⟨k, v⟩, hk, h⟩ := List.mem_map.1 h
    simp only at h; subst h
    exact List.mem_map_of_mem (f := Prod.fst) ((mem_ren hd hj v).1 hk)
  · intro h
    obtain ⟨⟨k, v⟩, hk, h⟩ := List.mem_map.1 h
    simp only at h; subst h
    exact List.mem_map_of_mem (f := Prod.fst) ((mem_ren hd hj v).2 hk)

theorem ren_nodup {l : LC F} (hl : l.Nodup) (hd : ∀ k ∈ l.keys, R.dom k) : (l.ren R.ρ).Nodup := by
  refine List.Nodup.map_on ?_ hl
  intro a ha b hb h
  injection h with h1 h2
  exact Prod.ext (R.inj _ _ (hd _ (List.mem_map_of_mem (f := Prod.fst) ha)) (hd _ (List.mem_map_of_mem (f := Prod.fst) hb)) h1) h2

theorem keys_perm {a b : LC F} (h : a.Perm b) (j : Index) : j ∈ a.keys ↔ j ∈ b.keys := (h.map Prod.fst).mem_iff

/-- Renaming commutes with addition, up to the order of the terms. -/
theorem ren_add {a b a' b' : LC F} (ha : a.Canonical) (hb : b.Canonical) (ha' : a'.Canonical) (hb' : b'.Canonical)
    (da : ∀ k ∈ a.keys, R.dom k) (db : ∀ k ∈ b.keys, R.dom k) (pa : (a.ren R.ρ).Perm a') (pb : (b.ren R.ρ).Perm b') :
    ((a.add b).ren R.ρ).Perm (a'.add b') := by
  have dab : ∀ k ∈ (a.add b).keys, R.dom k := fun k hk => (mem_keys_add_of hk).elim (da k) (db k)
  rw [List.perm_ext_iff_of_nodup (ren_nodup (ha.add hb).nodup dab) (ha'.add hb').nodup]
  rintro ⟨j', u⟩
  rw [add_eq_merge a' hb'.sorted, mem_merge_iff ha'.sorted hb'.sorted]
  have ea : ∀ v, (j', v) ∈ a' ↔ (j', v) ∈ a.ren R.ρ := fun v => pa.mem_iff.symm
  have eb : ∀ v, (j', v) ∈ b' ↔ (j', v) ∈ b.ren R.ρ := fun v => pb.mem_iff.symm
  rw [← keys_perm pa, ← keys_perm pb]
  simp only [ea, eb]
  by_cases hj : ∃ j, R.dom j ∧ R.ρ j = j'
  · obtain ⟨j, hj, rfl⟩ := hj
    rw [mem_ren dab hj, add_eq_merge a hb.sorted, mem_merge_iff ha.sorted hb.sorted, mem_keys_ren da hj, mem_keys_ren db hj]
    simp only [mem_ren da hj, mem_ren db hj]
  · have no : ∀ {l : LC F} {v : F}, (∀ k ∈ l.keys, R.dom k) → (j', v) ∉ l.ren R.ρ := by
      intro l v hd h
      obtain ⟨⟨k, x⟩, hk, h⟩ := List.mem_map.1 h
      injection h with h1 h2
      exact hj ⟨k, hd k (List.mem_map_of_mem (f := Prod.fst) hk), h1⟩
    constructor
    · intro h; exact absurd h (no dab)
    · rintro (h | h | ⟨x, y, h, -⟩)
      · exact absurd h.1 (no da)
      · exact absurd h.1 (no db)
      · exact absurd h (no da)

theorem ren_map {a : LC F} (ρ : Index → Index) (f : F → F) :
    LC.ren ρ (a.map fun kv => (kv.1, f kv.2)) = (a.ren ρ).map fun kv => (kv.1, f kv.2) := by
  simp [ren]

theorem eval_perm {a b : LC F} (h : a.Perm b) (w : Index → F) : a.eval w = b.eval w := (h.map _).sum_eq

theorem eval_ren {a : LC F} (ρ : Index → Index) (w : Index → F) : (a.ren ρ).eval w = a.eval (w ∘ ρ) := by
  simp [ren, eval, Function.comp_def]

end LC

/-- Corresponding signals: the terms are the same up to renaming and order, and so is the value, which is the value of the
linear combination. -/
structure RFit (R : Ren) (w : Index → F) (a b : CNum F) : Prop where
  ca : a.lc.Canonical
  cb : b.lc.Canonical
  dom : ∀ k ∈ a.lc.keys, R.dom k
  perm : (a.lc.ren R.ρ).Perm b.lc
  value : a.value = some (a.lc.eval w)
  same : b.value = a.value

namespace RFit

variable {R : Ren} {w : Index → F} {a b a' b' : CNum F}

theorem asConst (h : RFit R w a a') : a.asConst = a'.asConst := by
  obtain ⟨v, l⟩ := a
  obtain ⟨v', l'⟩ := a'
  have hp := h.perm
  have hd := h.dom
  unfold CNum.asConst
  simp only at hp hd ⊢
  match l, hp, hd with
  | [], hp, _ =>
    simp only [LC.ren, List.map_nil] at hp
    rw [hp.nil_eq]
  | [(k, x)], hp, hd =>
    simp only [LC.ren, List.map_cons, List.map_nil] at hp
    rw [← List.singleton_perm.1 hp]
    simp only
    have hk : k = .input 0 ↔ R.ρ k = .input 0 := by
      constructor
      · rintro rfl; exact R.zero
      · intro h; exact R.inj _ _ (hd k (by simp [LC.keys])) R.dom_zero (h.trans R.zero.symm)
    by_cases h0 : k = .input 0
    · rw [if_pos h0, if_pos (hk.1 h0)]
    · rw [if_neg h0, if_neg fun h => h0 (hk.2 h)]
  | x :: y :: l, hp, _ =>
    have := hp.length_eq
    simp only [LC.ren, List.length_map, List.length_cons] at this
    match l' with
    | [] => simp at this
    | [_] => simp at this
    | _ :: _ :: _ => rfl

theorem length (h : RFit R w a a') : a.lc.length = a'.lc.length := by
  have := h.perm.length_eq
  simpa [LC.ren] using this

theorem const (hw : IsAssignment w) (v : F) : RFit R w (CNum.fromConst v) (CNum.fromConst v) where
  ca := canon_fromConst v
  cb := canon_fromConst v
  dom := by simpa [CNum.fromConst, LC.keys] using R.dom_zero
  perm := by simp [CNum.fromConst, LC.ren, R.zero]
  value := by rw [show (CNum.fromConst v).lc.eval w = v from CNum.eval_fromConst hw v]; rfl
  same := rfl

theorem addAssign (h : RFit R w a a') (h' : RFit R w b b') : RFit R w (CNum.addAssign a b) (CNum.addAssign a' b') where
  ca := canon_addAssign h.ca h'.ca
  cb := canon_addAssign h.cb h'.cb
  dom k hk := (LC.mem_keys_add_of hk).elim (h.dom k) (h'.dom k)
  perm := LC.ren_add h.ca h'.ca h.cb h'.cb h.dom h'.dom h.perm h'.perm
  value := by
    have := CNum.eval_addAssign (w := w) a b
    unfold CNum.eval at this
    rw [this]
    simp [CNum.addAssign, h.value, h'.value, CNum.value₂]
  same := by simp [CNum.addAssign, h.same, h'.same]

theorem sub (h : RFit R w a a') (h' : RFit R w b b') : RFit R w (CNum.sub a b) (CNum.sub a' b') where
  ca := canon_sub h.ca h'.ca
  cb := canon_sub h.cb h'.cb
  dom k hk := (LC.mem_keys_sub_of hk).elim (h.dom k) (h'.dom k)
  perm := by
    simp only [CNum.sub, LC.sub_eq]
    refine LC.ren_add h.ca (h'.ca.map (- ·) fun _ h => neg_ne_zero.2 h) h.cb (h'.cb.map (- ·) fun _ h => neg_ne_zero.2 h) h.dom
      ?_ h.perm ?_
    · intro k hk
      rw [LC.keys_map b.lc (fun kv => -kv.2)] at hk
      exact h'.dom k hk
    · rw [LC.ren_map]; exact h'.perm.map _
  value := by
    have := CNum.eval_sub (w := w) a b
    unfold CNum.eval at this
    rw [this]
    simp [CNum.sub, h.value, h'.value, CNum.value₂]
  same := by simp [CNum.sub, h.same, h'.same]

theorem scale {k : F} (hk : k ≠ 0) (h : RFit R w a a') :
    RFit R w ⟨a.value.map (· * k), a.lc.map fun kv => (kv.1, kv.2 * k)⟩ ⟨a'.value.map (· * k), a'.lc.map fun kv => (kv.1, kv.2 * k)⟩ where
  ca := h.ca.map (· * k) fun v hv => mul_ne_zero hv hk
  cb := h.cb.map (· * k) fun v hv => mul_ne_zero hv hk
  dom := by
    intro j hj
    rw [LC.keys_map a.lc (fun kv => kv.2 * k)] at hj
    exact h.dom j hj
  perm := by simp only; rw [LC.ren_map R.ρ (· * k)]; exact h.perm.map _
  value := by simp only; rw [h.value, LC.eval_map_mul]; rfl
  same := by simp [h.same]

theorem var {i : Index} {v : F} (hi : R.dom i) (hv : w i = v) : RFit R w (CNum.fromVar (some v) i) (CNum.fromVar (some v) (R.ρ i)) where
  ca := canon_fromVar _ i
  cb := canon_fromVar _ _
  dom := by simpa [CNum.fromVar, LC.keys] using hi
  perm := by simp [CNum.fromVar, LC.ren]
  value := by simp [CNum.fromVar, LC.eval, hv]
  same := rfl

theorem eval (h : RFit R w a a') (w' : Index → F) (hw : ∀ k, R.dom k → w' (R.ρ k) = w k) : a'.lc.eval w' = a.lc.eval w := by
  rw [← LC.eval_perm h.perm, LC.eval_ren]
  unfold LC.eval
  congr 1
  apply List.map_congr_left
  intro kv hkv
  rw [Function.comp, hw _ (h.dom _ (List.mem_map_of_mem (f := Prod.fst) hkv))]

end RFit

end Fawkes
