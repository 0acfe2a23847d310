import Verif.Model.Forger
import Mathlib.Data.Fintype.BigOperators
import Mathlib.Algebra.Order.Chebyshev

/-!
# Attacks on a signer: rewinding and counting
-/

namespace Fawkes.Eddsa

variable {F S : Type} [DecidableEq F] [DecidableEq S] {accept : F → S → F → F → Bool}
  {signer : List (Entry F S) → F → F × S → Option (Entry F S)} {a : F}

theorem lookup_some {rx a m : F} {log : List (Entry F S)} {i : Nat} {h : F} (hl : Entry.lookup rx a m log = some (i, h)) :
    ∃ e, log.reverse[i]? = some e ∧ i < log.length ∧ e ∈ log ∧ e.rx = rx ∧ e.a = a ∧ e.m = m ∧ e.h = h := by
  induction log with
  | nil => cases hl
  | cons e log ih =>
    unfold Entry.lookup at hl
    by_cases hc : e.rx = rx ∧ e.a = a ∧ e.m = m
    · rw [if_pos hc] at hl
      cases hl
      refine ⟨e, ?_, by simp, by simp, hc.1, hc.2.1, hc.2.2, rfl⟩
      rw [List.reverse_cons, List.getElem?_append_right (by simp)]
      simp
    · rw [if_neg hc] at hl
      obtain ⟨e', h1, h2, h3, h4⟩ := ih hl
      refine ⟨e', ?_, by simp; omega, by simp [h3], h4⟩
      rw [List.reverse_cons, List.getElem?_append_left (by simpa using h2), h1]

theorem not_given {s : S} {rx m : F} {log : List (Entry F S)} (h : Entry.given s rx m log = false) {e : Entry F S} (he : e ∈ log)
    (h1 : e.rx = rx) (h2 : e.m = m) : e.sig ≠ some s := by
  intro hs
  unfold Entry.given at h
  rw [List.any_eq_false] at h
  exact h e he (by simp [h1, h2, hs])

/-- A forgery whose challenge was fixed before: what its entry says. -/
theorem attack_old {f : Forger F S} {log : List (Entry F S)} {tape : List (F × S)} {w : Win F S}
    (h : attack accept signer a f log tape = some w) (hi : w.idx < log.length) :
    ∃ e, log.reverse[w.idx]? = some e ∧ e.h = w.h ∧ e.sig ≠ some w.s ∧ accept e.h w.s e.rx e.m = true := by
  induction f generalizing log tape with
  | forge s rx m =>
    unfold attack at h
    split at h
    · rename_i i h' hl
      split at h
      · rename_i hc
        simp only [Bool.and_eq_true, Bool.not_eq_true'] at hc
        cases h
        obtain ⟨e, h1, h2, h3, h4, h5, h6, h7⟩ := lookup_some hl
        exact ⟨e, h1, h7, not_given hc.2 h3 h4 h6, by rw [h7, h4, h6]; exact hc.1⟩
      · cases h
    · split at h
      · cases h; simp at hi
      · cases h
    · cases h
  | ask rx a' m next ih =>
    unfold attack at h
    split at h
    · exact ih _ h hi
    · obtain ⟨e, h1, h2⟩ := ih _ h (by simp; omega)
      refine ⟨e, ?_, h2⟩
      rw [List.reverse_cons, List.getElem?_append_left (by simpa using hi)] at h1
      exact h1
    · cases h
  | sign m next ih =>
    unfold attack at h
    split at h
    · exact ih _ h hi
    · split at h
      · obtain ⟨e, h1, h2⟩ := ih _ h (by simp; omega)
        refine ⟨e, ?_, h2⟩
        rw [List.reverse_cons, List.getElem?_append_left (by simpa using hi)] at h1
        exact h1
      · cases h
    · cases h

/-- The challenge of a forgery was read from the tape. -/
theorem attack_idx {f : Forger F S} {log : List (Entry F S)} {tape : List (F × S)} {w : Win F S}
    (h : attack accept signer a f log tape = some w) : w.idx < log.length + tape.length := by
  induction f generalizing log tape with
  | forge s rx m =>
    unfold attack at h
    split at h
    · rename_i i h' hl
      split at h
      · cases h
        obtain ⟨e, -, h2, -⟩ := lookup_some hl
        show i < _
        omega
      · cases h
    · split at h
      · cases h; simp
      · cases h
    · cases h
  | ask rx a' m next ih =>
    unfold attack at h
    split at h
    · exact ih _ h
    · have := ih _ h
      simp only [List.length_cons] at this ⊢
      omega
    · cases h
  | sign m next ih =>
    unfold attack at h
    split at h
    · exact ih _ h
    · split at h
      · have := ih _ h
        simp only [List.length_cons] at this ⊢
        omega
      · cases h
    · cases h

/-- The newest entry of the log is that of the forgery. -/
theorem attack_last {f : Forger F S} {e : Entry F S} {log : List (Entry F S)} {tape : List (F × S)} {w : Win F S}
    (h : attack accept signer a f (e :: log) tape = some w) (hi : w.idx = log.length) :
    e.h = w.h ∧ e.sig ≠ some w.s ∧ accept e.h w.s e.rx e.m = true := by
  obtain ⟨e', h1, h2⟩ := attack_old h (by simp [hi])
  rw [List.reverse_cons, hi, List.getElem?_append_right (by simp)] at h1
  simp only [List.length_reverse, Nat.sub_self, List.getElem?_cons_zero, Option.some.injEq] at h1
  exact h1 ▸ h2

/-- Rewinding: two forgeries on tapes that agree up to the symbol with the challenge of both are forgeries for the same point, and their
challenges are the symbols of the tapes. -/
theorem attack_fork (hu : ∀ h s s' rx m, accept h s rx m = true → accept h s' rx m = true → s = s')
    (hsig : ∀ log m x e s, signer log m x = some e → e.sig = some s → accept e.h s e.rx e.m = true)
    {f : Forger F S} {log : List (Entry F S)} {p u u' : List (F × S)} {w w' : Win F S}
    (h : attack accept signer a f log (p ++ u) = some w) (h' : attack accept signer a f log (p ++ u') = some w')
    (hi : w.idx = log.length + p.length) (hi' : w'.idx = log.length + p.length) :
    ∃ rx m, (∃ x v, u = (w.h, x) :: v) ∧ (∃ x v, u' = (w'.h, x) :: v) ∧ accept w.h w.s rx m = true ∧ accept w'.h w'.s rx m = true := by
  induction f generalizing log p with
  | forge s rx m =>
    have key : ∀ (u : List (F × S)) (w : Win F S), attack accept signer a (.forge s rx m) log (p ++ u) = some w →
        w.idx = log.length + p.length → (∃ x v, u = (w.h, x) :: v) ∧ accept w.h w.s rx m = true := by
      intro u w h hi
      unfold attack at h
      split at h
      · rename_i i h' hl
        obtain ⟨e, -, h2, -⟩ := lookup_some hl
        split at h
        · cases h
          simp only at hi
          omega
        · cases h
      · rename_i hh x v hlk hp
        split at h
        · rename_i hc
          simp only [Bool.and_eq_true] at hc
          cases h
          simp only at hi
          have hp0 : p = [] := List.eq_nil_of_length_eq_zero (by omega)
          subst hp0
          exact ⟨⟨x, v, hp⟩, hc.1⟩
        · cases h
      · cases h
    exact ⟨rx, m, (key u w h hi).1, (key u' w' h' hi').1, (key u w h hi).2, (key u' w' h' hi').2⟩
  | ask rx a' m next ih =>
    unfold attack at h h'
    cases hl : Entry.lookup rx a' m log with
    | some x =>
      rw [hl] at h h'
      exact ih _ h h' hi hi'
    | none =>
      rw [hl] at h h'
      cases p with
      | nil =>
        have key : ∀ (u : List (F × S)) (w : Win F S), (match (none : Option (Nat × F)), [] ++ u with
            | some (_, h), tape => attack accept signer a (next h) log tape
            | none, (h, _) :: tape => attack accept signer a (next h) (⟨rx, a', m, h, none⟩ :: log) tape
            | none, [] => none) = some w → w.idx = log.length → (∃ x v, u = (w.h, x) :: v) ∧ accept w.h w.s rx m = true := by
          intro u w h hi
          cases u with
          | nil => cases h
          | cons y v =>
            obtain ⟨h1, -, h2⟩ := attack_last (e := ⟨rx, a', m, y.1, none⟩) h hi
            simp only at h1 h2
            rw [h1] at h2
            exact ⟨⟨y.2, v, by rw [← h1]⟩, h2⟩
        exact ⟨rx, m, (key u w h hi).1, (key u' w' h' hi').1, (key u w h hi).2, (key u' w' h' hi').2⟩
      | cons y p =>
        simp only [List.length_cons] at hi hi'
        exact ih _ (p := p) h h' (by simp only [List.length_cons]; omega) (by simp only [List.length_cons]; omega)
  | sign m next ih =>
    unfold attack at h h'
    cases hl : Entry.signature m log with
    | some x =>
      rw [hl] at h h'
      exact ih _ h h' hi hi'
    | none =>
      rw [hl] at h h'
      cases p with
      | nil =>
        exfalso
        cases u with
        | nil => cases h
        | cons y v =>
          simp only [List.nil_append] at h
          split at h
          · rename_i rx a'' m' hh s hs
            obtain ⟨h1, h2, h3⟩ := attack_last h hi
            exact h2 (congrArg some (hu _ _ _ _ _ (hsig _ _ _ _ _ hs rfl) h3))
          · cases h
      | cons y p =>
        simp only [List.length_cons] at hi hi'
        simp only [List.cons_append] at h h'
        cases hs : signer log m y with
        | none => rw [hs] at h; cases h
        | some e =>
          obtain ⟨rx, a'', m', hh, sg⟩ := e
          rw [hs] at h h'
          cases sg with
          | none => cases h
          | some s =>
            exact ih _ (p := p) h h' (by simp only [List.length_cons]; omega) (by simp only [List.length_cons]; omega)

/-! ### Counting tapes -/

open Finset

theorem ite_le_one (p : Prop) [Decidable p] : (if p then 1 else 0) ≤ 1 := by split <;> simp

theorem sum_tape {A : Type} [Fintype A] (n : Nat) (g : List A → Nat) :
    ∑ t : Fin (n + 1) → A, g (List.ofFn t) = ∑ x, ∑ t : Fin n → A, g (x :: List.ofFn t) := by
  rw [← Fintype.sum_prod_type' (f := fun x (t : Fin n → A) => g (x :: List.ofFn t))]
  refine Fintype.sum_equiv (Fin.consEquiv fun _ => A).symm _ _ ?_
  intro t
  rw [List.ofFn_succ]
  rfl

variable [Fintype F] [Fintype S] [AddCommGroup S]

/-- On how many tapes the client wins. -/
def wins (accept : F → S → F → F → Bool) (signer : List (Entry F S) → F → F × S → Option (Entry F S)) (a : F) (f : Forger F S)
    (log : List (Entry F S)) (n : Nat) : Nat :=
  ∑ t : Fin n → F × S, if (attack accept signer a f log (List.ofFn t)).isSome then 1 else 0

omit [AddCommGroup S] in
theorem wins_le (f : Forger F S) (log : List (Entry F S)) (n : Nat) :
    wins accept signer a f log n ≤ (Fintype.card F * Fintype.card S) ^ n := by
  unfold wins
  refine (sum_le_sum (g := fun _ => 1) fun t _ => ite_le_one _).trans ?_
  simp

/-- A signature made with the nonce `k` and a signature made from `s = k + c` are the same, unless the value of the hash was fixed before. -/
theorem wins_simulate {own sim : List (Entry F S) → F → F × S → Option (Entry F S)} {ρ : S → F} {c : F → S} (hρ : Function.Injective ρ)
    (hown : ∀ log m h k, Entry.lookup (ρ k) a m log = none → own log m (h, k) = some ⟨ρ k, a, m, h, some (k + c h)⟩)
    (hsim : ∀ log m h k, Entry.lookup (ρ k) a m log = none → sim log m (h, k + c h) = some ⟨ρ k, a, m, h, some (k + c h)⟩)
    (L : Nat) (f : Forger F S) (log : List (Entry F S)) (n : Nat) (hn : log.length + n ≤ L) :
    wins accept own a f log n ≤ wins accept sim a f log n + n * (L * (Fintype.card F * (Fintype.card F * Fintype.card S) ^ (n - 1))) := by
  have hpow : ∀ n B C : Nat, B * (n * (L * (C * B ^ (n - 1)))) = n * (L * (C * B ^ n)) := by
    intro n B C
    cases n with
    | zero => simp
    | succ n => rw [Nat.add_sub_cancel, pow_succ]; ring
  induction f generalizing log n with
  | forge s rx m =>
    refine le_trans (le_of_eq ?_) (Nat.le_add_right _ _)
    unfold wins
    refine sum_congr rfl fun t _ => ?_
    unfold attack
    rfl
  | ask rx a' m next ih =>
    cases hl : Entry.lookup rx a' m log with
    | some x =>
      have e : ∀ sg, wins accept sg a (.ask rx a' m next) log n = wins accept sg a (next x.2) log n := by
        intro sg
        unfold wins
        refine sum_congr rfl fun t _ => ?_
        conv_lhs => unfold attack
        rw [hl]
      rw [e, e]
      exact ih _ _ _ hn
    | none =>
      cases n with
      | zero =>
        refine le_trans (le_of_eq ?_) (Nat.le_add_right _ _)
        unfold wins
        refine sum_congr rfl fun t _ => ?_
        conv_lhs => unfold attack
        conv_rhs => unfold attack
        rw [hl]
        simp
      | succ n =>
        have e : ∀ sg, wins accept sg a (.ask rx a' m next) log (n + 1) =
            ∑ x : F × S, wins accept sg a (next x.1) (⟨rx, a', m, x.1, none⟩ :: log) n := by
          intro sg
          unfold wins
          rw [sum_tape n (fun l => if (attack accept sg a (.ask rx a' m next) log l).isSome then 1 else 0)]
          refine sum_congr rfl fun x _ => sum_congr rfl fun t _ => ?_
          conv_lhs => unfold attack
          rw [hl]
        rw [e, e]
        refine (sum_le_sum fun x _ => ih x.1 _ n (by simp only [List.length_cons]; omega)).trans ?_
        rw [sum_add_distrib, sum_const, card_univ, Fintype.card_prod, smul_eq_mul, hpow, Nat.add_sub_cancel]
        exact Nat.add_le_add_left (Nat.mul_le_mul_right _ (Nat.le_succ n)) _
  | sign m next ih =>
    cases hl : Entry.signature m log with
    | some x =>
      have e : ∀ sg, wins accept sg a (.sign m next) log n = wins accept sg a (next x) log n := by
        intro sg
        unfold wins
        refine sum_congr rfl fun t _ => ?_
        conv_lhs => unfold attack
        rw [hl]
      rw [e, e]
      exact ih _ _ _ hn
    | none =>
      cases n with
      | zero =>
        refine le_trans (le_of_eq ?_) (Nat.le_add_right _ _)
        unfold wins
        refine sum_congr rfl fun t _ => ?_
        conv_lhs => unfold attack
        conv_rhs => unfold attack
        rw [hl]
        simp
      | succ n =>
        let v : (List (Entry F S) → F → F × S → Option (Entry F S)) → F × S → Nat := fun sg x =>
          ∑ t : Fin n → F × S, if (match sg log m x with
            | some ⟨rx, a', m', h, some s⟩ => attack accept sg a (next (s, rx)) (⟨rx, a', m', h, some s⟩ :: log) (List.ofFn t)
            | _ => none).isSome then 1 else 0
        have e : ∀ sg, wins accept sg a (.sign m next) log (n + 1) = ∑ h : F, ∑ k : S, v sg (h, k) := by
          intro sg
          rw [← Fintype.sum_prod_type (f := v sg)]
          unfold wins
          rw [sum_tape n (fun l => if (attack accept sg a (.sign m next) log l).isSome then 1 else 0)]
          refine sum_congr rfl fun x _ => sum_congr rfl fun t _ => ?_
          conv_lhs => unfold attack
          rw [hl]
          rfl
        have hv : ∀ sg x, v sg x ≤ (Fintype.card F * Fintype.card S) ^ n := by
          intro sg x
          refine (sum_le_sum (g := fun _ => 1) fun t _ => ite_le_one _).trans ?_
          simp
        have hgood : ∀ h k, Entry.lookup (ρ k) a m log = none → v own (h, k) ≤ v sim (h, k + c h) +
            n * (L * (Fintype.card F * (Fintype.card F * Fintype.card S) ^ (n - 1))) := by
          intro h k hk
          have := ih (k + c h, ρ k) (⟨ρ k, a, m, h, some (k + c h)⟩ :: log) n (by simp only [List.length_cons]; omega)
          refine le_trans (le_of_eq ?_) (this.trans (le_of_eq ?_))
          · refine sum_congr rfl fun t _ => ?_
            rw [hown log m h k hk]
          · congr 1
            refine sum_congr rfl fun t _ => ?_
            rw [hsim log m h k hk]
        have hbad : (univ.filter fun k => Entry.lookup (ρ k) a m log ≠ none).card ≤ L := by
          rw [← card_image_of_injective _ hρ]
          refine (card_le_card (t := (log.map Entry.rx).toFinset) ?_).trans ((List.toFinset_card_le _).trans ?_)
          · intro y hy
            obtain ⟨k, hk, rfl⟩ := mem_image.1 hy
            have hk := (mem_filter.1 hk).2
            obtain ⟨⟨i, h⟩, hx⟩ := Option.ne_none_iff_exists'.1 hk
            obtain ⟨e, -, -, h3, h4, -⟩ := lookup_some hx
            rw [List.mem_toFinset, List.mem_map]
            exact ⟨e, h3, h4⟩
          · rw [List.length_map]; omega
        have hstep : ∀ h, ∑ k : S, v own (h, k) ≤ ∑ k : S, v sim (h, k) + (L * (Fintype.card F * Fintype.card S) ^ n +
            Fintype.card S * (n * (L * (Fintype.card F * (Fintype.card F * Fintype.card S) ^ (n - 1))))) := by
          intro h
          rw [← Equiv.sum_comp (Equiv.addRight (c h)) (fun k => v sim (h, k))]
          simp only [Equiv.coe_addRight]
          have : ∀ k, v own (h, k) ≤ v sim (h, k + c h) + ((if Entry.lookup (ρ k) a m log ≠ none then (Fintype.card F * Fintype.card S) ^ n else 0) +
              n * (L * (Fintype.card F * (Fintype.card F * Fintype.card S) ^ (n - 1)))) := by
            intro k
            by_cases hk : Entry.lookup (ρ k) a m log = none
            · rw [if_neg (by simpa using hk), zero_add]
              exact hgood h k hk
            · rw [if_pos hk]
              have := hv own (h, k)
              omega
          refine (sum_le_sum fun k _ => this k).trans ?_
          rw [sum_add_distrib, sum_add_distrib, sum_const, card_univ, smul_eq_mul, ← sum_filter, sum_const, smul_eq_mul]
          have := Nat.mul_le_mul_right ((Fintype.card F * Fintype.card S) ^ n) hbad
          omega
        rw [e, e]
        refine (sum_le_sum fun h _ => hstep h).trans ?_
        rw [sum_add_distrib, sum_const, card_univ, smul_eq_mul, Nat.add_sub_cancel]
        refine Nat.add_le_add_left (le_of_eq ?_) _
        have := hpow n (Fintype.card F * Fintype.card S) (Fintype.card F)
        rw [mul_add, ← mul_assoc (Fintype.card F) (Fintype.card S), this]
        ring

end Fawkes.Eddsa
