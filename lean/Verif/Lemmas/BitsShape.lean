import Verif.Lemmas.Varies
import Verif.Lemmas.Bitify

/-!
# The signals `c_into_bits_le` returns

All but the first are new variables; the first is the input minus the weighted sum of the others.
-/

set_option linter.unusedSectionVars false

namespace Fawkes

open Bitify

section independent

variable {F : Type} [Field F] [DecidableEq F]

/-- The coefficient of `k` in a linear combination of signals. -/
theorem combine_coef {ks : List F} {l : List (CNum F)} (k : Index)
    (h : ∀ w w', IsAssignment w → IsAssignment w' → combine ks l w = combine ks l w') :
    (List.zipWith (fun c a => c * coef k a) ks l).sum = 0 := by
  have h1 := h (bump k) (bump (.input 0)) (bump_isAssignment k) (bump_isAssignment _)
  have h2 : ∀ (ks : List F) (l : List (CNum F)), (List.zipWith (fun c a => c * coef k a) ks l).sum =
      combine ks l (bump k) - combine ks l (bump (.input 0)) := by
    intro ks
    induction ks with
    | nil => intro l; simp [combine]
    | cons c ks ih =>
      intro l
      cases l with
      | nil => simp [combine]
      | cons a l =>
        have := ih l
        simp only [combine, List.zipWith_cons_cons, List.sum_cons] at this ⊢
        rw [this]
        unfold coef CNum.eval
        ring
  rw [h2, h1, sub_self]

/-- Three signals with a variable of their own each are independent. -/
theorem Independent.of_keys {a b c : CNum F} {i j k : Index} (ha : coef i a ≠ 0) (hb : coef j b ≠ 0) (hc : coef k c ≠ 0)
    (hib : coef i b = 0) (hic : coef i c = 0) (hjc : coef j c = 0) (hkb : coef k b = 0) :
    Independent [a, b, c] := by
  intro ks hk h
  match ks, hk with
  | [x, y, z], _ =>
    have h1 := combine_coef i h
    have h2 := combine_coef j h
    have h3 := combine_coef k h
    simp only [List.zipWith_cons_cons, List.zipWith_nil_right, List.sum_cons, List.sum_nil, hib, hic, hjc, hkb, mul_zero,
      add_zero, zero_add] at h1 h2 h3
    have hx : x = 0 := (mul_eq_zero.1 h1).resolve_right ha
    rw [hx, zero_mul, zero_add] at h2 h3
    have hy : y = 0 := (mul_eq_zero.1 h2).resolve_right hb
    have hz : z = 0 := (mul_eq_zero.1 h3).resolve_right hc
    intro k hk
    simp only [List.mem_cons, List.not_mem_nil, or_false] at hk
    rcases hk with rfl | rfl | rfl <;> assumption

theorem coef_other {a : CNum F} {j k : Index} (h : a.lc = [(j, 1)]) (hk : k ≠ .input 0) (hne : k ≠ j) : coef k a = 0 := by
  unfold coef CNum.eval; rw [h]
  by_cases hj : j = .input 0
  · simp [bump, hj]
  · simp [bump, hj, Ne.symm hne]

end independent

variable {p : Nat} [hp : Fact p.Prime]

/-- The variables the loop creates, and the coefficients they have in the remaining signal. -/
theorem post_allocLoop_shape (vb : List (Option Bool)) (n i : Nat) (k : ZMod p) (rem : CNum (ZMod p)) (s : CS (ZMod p))
    (hs : s.WF) (hra : rem.lc.Alloc s) :
    Post s (allocLoop vb n i k rem) (fun r s' => ∃ ks : List Index, ks.length = n ∧
      List.Forall₂ (fun (b : CBool (ZMod p)) j => b.num.lc = [(j, 1)]) r.1 ks ∧ ks.Nodup ∧
      (∀ j ∈ ks, j ≠ .input 0 ∧ j ∉ s.vars.map Prod.fst ∧ j ∈ s'.vars.map Prod.fst) ∧ r.2.lc.Alloc s' ∧
      (∀ m j, ks[m]? = some j → coef j r.2 = -(2 ^ (m + 1) * k)) ∧
      (∀ j ∈ s.vars.map Prod.fst, j ≠ .input 0 → coef j r.2 = coef j rem)) := by
  induction n generalizing i k rem s with
  | zero => exact Post.pure ⟨[], rfl, .nil, by simp, by simp, hra, by simp, fun _ _ _ => rfl⟩
  | succ n ih =>
    unfold allocLoop
    split
    · exact Post.panic
    · next v _ =>
      refine Post.bind (Q := fun c s' => FreshVar s c.num ∧ c.num.lc.Alloc s') ?_ fun c s1 e1 ⟨hf, hca⟩ => ?_
      · unfold CBool.alloc
        exact Post.bind (post_alloc_fresh hs _) fun c s1 e1 h => Post.pure ⟨h.1, h.2.1⟩
      refine Post.bind Post.true fun _ s2 e2 _ => ?_
      obtain ⟨j, hj, hj0, hjf⟩ := hf
      have hjm : j ∈ s1.vars.map Prod.fst := by
        rcases hca j (by simp [hj, LC.keys]) with h | h
        · exact absurd h hj0
        · exact h
      have e12 := e1.trans e2
      have hra' := alloc_sub (hra.mono e12) (alloc_mulConst (hca.mono e2) (2 * k))
      refine Post.bind (ih (i + 1) (2 * k) (CNum.sub rem (CNum.mulConst c.num (2 * k))) s2 (e12.wf hs) hra') ?_
      rintro ⟨bits, rem'⟩ s3 e3 ⟨ks, hlen, hall, hnd, hks, hal, hco, hold⟩
      have hj2 : j ∈ s2.vars.map Prod.fst := mem_vars_mono e2 hjm
      refine Post.pure ⟨j :: ks, by simp [hlen], .cons hj hall, ?_, ?_, hal, ?_, ?_⟩
      · exact List.nodup_cons.2 ⟨fun h => (hks j h).2.1 hj2, hnd⟩
      · intro x hx
        rcases List.mem_cons.1 hx with rfl | hx
        · exact ⟨hj0, hjf, mem_vars_mono e3 hj2⟩
        · obtain ⟨h1, h2, h3⟩ := hks x hx
          exact ⟨h1, fun h => h2 (mem_vars_mono e12 h), h3⟩
      · intro m x hm
        cases m with
        | zero =>
          simp only [List.getElem?_cons_zero, Option.some.injEq] at hm
          subst hm
          show coef j rem' = _
          rw [hold j hj2 hj0, coef_sub, coef_mulConst, coef_alloc hra hj0 hjf, coef_var hj hj0]
          ring
        | succ m =>
          rw [List.getElem?_cons_succ] at hm
          show coef x rem' = _
          rw [hco m x hm]; ring
      · intro x hx hx0
        show coef x rem' = _
        rw [hold x (mem_vars_mono e12 hx) hx0, coef_sub, coef_mulConst, coef_other hj hx0 (by rintro rfl; exact hjf hx)]
        ring

/-- What `c_into_bits_le` returns for a signal that is not a constant: bits that belong to the circuit and are no constants
in disguise, the second one not a constant, and — from four bits on — the first three independent. -/
theorem post_intoBits_shape {x : CNum (ZMod p)} {n : Nat} (h2 : p ≠ 2) (hn : 2 ≤ n) {s : CS (ZMod p)} (hs : s.WF)
    (hxa : x.lc.Alloc s) (hx : x.asConst = none) :
    Post s (intoBitsLE x n) (fun bits s' => bits.length = n ∧ (∀ b ∈ bits, b.num.lc.Alloc s' ∧ Varies b.num) ∧
      (4 ≤ n → Independent ((bits.take 3).map CBool.num))) := by
  unfold intoBitsLE
  rw [hx]
  have h20 : (2 : ZMod p) ≠ 0 := by
    intro h
    have : ((2 : ℕ) : ZMod p) = 0 := by exact_mod_cast h
    rw [ZMod.natCast_eq_zero_iff] at this
    exact h2 ((Nat.prime_dvd_prime_iff_eq hp.out Nat.prime_two).1 this)
  refine Post.bind (post_allocLoop_shape _ _ _ _ _ s hs hxa) ?_
  rintro ⟨bits, rem⟩ s1 e1 ⟨ks, hlen, hall, hnd, hks, hal, hco, -⟩
  refine Post.bind Post.true fun _ s2 e2 _ => ?_
  rw [if_neg (by omega)]
  have hbl : bits.length = n - 1 := by rw [← hlen]; exact hall.length_eq
  have hpow : ∀ m : Nat, (-(2 ^ (m + 1) * (1 : ZMod p))) ≠ 0 := fun m => by
    rw [mul_one]; exact neg_ne_zero.2 (pow_ne_zero _ h20)
  refine Post.pure ⟨by simp [hbl]; omega, ?_, ?_⟩
  · intro b hb
    rcases List.mem_cons.1 hb with rfl | hb
    · refine ⟨hal.mono e2, ?_⟩
      match ks, hlen with
      | [], h => simp at h; omega
      | j :: _, _ => exact Varies.of_coef (k := j) (by rw [hco 0 j rfl]; exact hpow 0)
    · obtain ⟨j, hj, hbj⟩ : ∃ j ∈ ks, b.num.lc = [(j, 1)] := by
        clear hco hnd hks hlen hbl hal
        dsimp only at hall
        induction hall with
        | nil => cases hb
        | cons h1 h2 ih =>
          rcases List.mem_cons.1 hb with rfl | hb
          · exact ⟨_, by simp, h1⟩
          · obtain ⟨j, hj, h⟩ := ih (by simp [hb]) hb
            exact ⟨j, by simp [hj], h⟩
      obtain ⟨h0, -, hm⟩ := hks j hj
      refine ⟨LC.Alloc.mono (s := s1) ?_ e2, Varies.of_coef (k := j) (by rw [coef_var hbj h0]; exact one_ne_zero)⟩
      intro k hk
      rw [hbj] at hk
      simp only [LC.keys, List.map_cons, List.map_nil, List.mem_singleton] at hk
      subst hk; exact Or.inr hm
  · intro h4
    match ks, hlen with
    | [], h => simp at h; omega
    | [_], h => simp at h; omega
    | [_, _], h => simp at h; omega
    | j1 :: j2 :: j3 :: ks, _ =>
      obtain ⟨b1, bits1, hb1, hall1, rfl⟩ := List.forall₂_cons_right_iff.1 hall
      obtain ⟨b2, bits2, hb2, hall2, rfl⟩ := List.forall₂_cons_right_iff.1 hall1
      obtain ⟨b3, bits3, hb3, hall3, rfl⟩ := List.forall₂_cons_right_iff.1 hall2
      have n1 := (hks j1 (by simp)).1
      have n2 := (hks j2 (by simp)).1
      have n3 := (hks j3 (by simp)).1
      simp only [List.nodup_cons, List.mem_cons, not_or] at hnd
      show Independent [rem, b1.num, b2.num]
      refine Independent.of_keys (i := j3) (j := j1) (k := j2) ?_ ?_ ?_ ?_ ?_ ?_ ?_
      · rw [hco 2 j3 rfl]; exact hpow 2
      · rw [coef_var hb1 n1]; exact one_ne_zero
      · rw [coef_var hb2 n2]; exact one_ne_zero
      · exact coef_other hb1 n3 (Ne.symm hnd.1.2.1)
      · exact coef_other hb2 n3 (Ne.symm hnd.2.1.1)
      · exact coef_other hb2 n1 hnd.1.1
      · exact coef_other hb1 n2 (Ne.symm hnd.1.1)

/-- What it returns for a constant. -/
theorem post_intoBits_const {x : CNum (ZMod p)} {c : ZMod p} {n : Nat} {s : CS (ZMod p)} (hx : x.asConst = some c) :
    Post s (intoBitsLE x n) (fun bits s' => s' = s ∧ ∃ bs : List Bool, bits = bs.map CBool.fromConst) := by
  have hl : ∀ (vb : List Bool) (n i : Nat) (k rem : ZMod p) (r : List (CBool (ZMod p)) × ZMod p), constLoop vb n i k rem = .ok r →
      ∃ bs : List Bool, r.1 = bs.map CBool.fromConst := by
    intro vb n
    induction n with
    | zero => intro i k rem r h; unfold constLoop at h; cases h; exact ⟨[], rfl⟩
    | succ n ih =>
      intro i k rem r h
      unfold constLoop at h
      split at h
      · cases h
      · next bit _ =>
        split at h
        · cases h
        · next bits rem' he =>
          cases h
          obtain ⟨bs, hbs⟩ := ih _ _ _ _ he
          exact ⟨bit :: bs, by simpa using hbs⟩
  unfold intoBitsLE
  rw [hx]
  refine Post.bind (Q := fun r s' => s' = s ∧ ∃ bs : List Bool, r.1 = bs.map CBool.fromConst)
    (Post.lift fun r h => ⟨rfl, hl _ _ _ _ _ r h⟩) ?_
  rintro ⟨bits, rem⟩ s1 _ ⟨rfl, hb⟩
  exact Post.bind (Q := fun _ s' => s' = s1) (Post.assert fun _ => rfl) fun _ s2 _ h2 => Post.pure ⟨h2, hb⟩

/-- In all cases the bits belong to the circuit and are no constants in disguise. -/
theorem post_intoBits_plain {x : CNum (ZMod p)} {n : Nat} (h2 : p ≠ 2) (hn : 2 ≤ n) {s : CS (ZMod p)} (hs : s.WF)
    (hxa : x.lc.Alloc s) : Post s (intoBitsLE x n) (fun bits s' => ∀ b ∈ bits, b.num.lc.Alloc s' ∧ Plain b.num) := by
  cases hx : x.asConst with
  | none => exact (post_intoBits_shape h2 hn hs hxa hx).mono fun bits s' _ h b hb => ⟨(h.2.1 b hb).1, Plain.of_varies (h.2.1 b hb).2⟩
  | some c =>
    refine (post_intoBits_const hx).mono ?_
    rintro bits s' _ ⟨rfl, bs, rfl⟩ b hb
    obtain ⟨v, -, rfl⟩ := List.mem_map.1 hb
    refine ⟨alloc_fromConst _, fun h => ?_⟩
    unfold CBool.fromConst at h
    simp [CNum.asConst, CNum.fromConst] at h

theorem post_strict_plain {x : CNum (ZMod p)} (h8 : 8 ≤ p) {s : CS (ZMod p)} (hs : s.WF) (hxa : x.lc.Alloc s) :
    Post s (intoBitsLEStrict x) (fun bits s' => ∀ b ∈ bits, b.num.lc.Alloc s' ∧ Plain b.num) := by
  unfold intoBitsLEStrict
  have h4 : 4 ≤ numBits p := Nat.lt_size.2 (by omega)
  refine Post.bind (post_intoBits_plain (by omega) (by omega) hs hxa) fun bits s1 e1 h1 => ?_
  refine Post.bind Post.true fun _ s2 e2 _ => Post.bind Post.true fun _ s3 e3 _ => ?_
  exact Post.pure fun b hb => ⟨(h1 b hb).1.mono (e2.trans e3), (h1 b hb).2⟩

theorem post_strict_shape {x : CNum (ZMod p)} (h8 : 8 ≤ p) {s : CS (ZMod p)} (hs : s.WF) (hxa : x.lc.Alloc s)
    (hx : x.asConst = none) :
    Post s (intoBitsLEStrict x) (fun bits s' => bits ≠ [] ∧ ∀ b ∈ bits, b.num.lc.Alloc s' ∧ Varies b.num) := by
  unfold intoBitsLEStrict
  have h4 : 4 ≤ numBits p := Nat.lt_size.2 (by omega)
  refine Post.bind (post_intoBits_shape (by omega) (by omega) hs hxa hx) fun bits s1 e1 h1 => ?_
  refine Post.bind Post.true fun _ s2 e2 _ => Post.bind Post.true fun _ s3 e3 _ => ?_
  refine Post.pure ⟨fun h => ?_, fun b hb => ⟨(h1.2.1 b hb).1.mono (e2.trans e3), (h1.2.1 b hb).2⟩⟩
  have := h1.1
  rw [h] at this
  simp at this
  omega

end Fawkes
