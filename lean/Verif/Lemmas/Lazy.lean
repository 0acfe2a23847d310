import Verif.Lemmas.Rewind

/-!
# Random functions and answers chosen when first needed

Choosing a whole function at random, or each of its values when it is asked for, gives a client the same chance.
-/

namespace Fawkes.Eddsa

open Finset

open Classical in
/-- The number of elements with a property. -/
noncomputable def count {X : Type} [Fintype X] (p : X → Prop) : Nat := ∑ x, if p x then 1 else 0

theorem count_congr {X : Type} [Fintype X] {p q : X → Prop} (h : ∀ x, p x ↔ q x) : count p = count q :=
  congrArg count (funext fun x => propext (h x))

theorem count_split {X B : Type} [Fintype X] [Fintype B] [DecidableEq B] (p : X → Prop) (get : X → B) :
    count p = ∑ b, count fun x => p x ∧ get x = b := by
  unfold count
  rw [sum_comm]
  refine sum_congr rfl fun x _ => ?_
  by_cases h : p x <;> simp [h]

theorem count_const {X : Type} [Fintype X] (K p : X → Prop) (b : Bool)
    (h : ∀ x, K x → (p x ↔ b = true)) : (count fun x => K x ∧ p x) = count K * (if b = true then 1 else 0) := by
  cases b with
  | true =>
    simp only [if_true, mul_one]
    exact count_congr fun x => ⟨fun hx => hx.1, fun hx => ⟨hx, (h x hx).2 rfl⟩⟩
  | false =>
    simp only [Bool.false_eq_true, if_false, mul_zero]
    unfold count
    refine sum_eq_zero fun x _ => if_neg ?_
    rintro ⟨h1, h2⟩
    exact absurd ((h x h1).1 h2) (by simp)

/-- A place of a structure that a property says nothing about has all values equally often. -/
theorem count_free {X B : Type} [Fintype X] [Fintype B] [DecidableEq B] (K : X → Prop) (get : X → B) (set : X → B → X)
    (h1 : ∀ x b, get (set x b) = b) (h2 : ∀ x, set x (get x) = x) (h3 : ∀ x b b', set (set x b) b' = set x b')
    (hK : ∀ x b, K x → K (set x b)) (b : B) : (count fun x => K x ∧ get x = b) * Fintype.card B = count K := by
  classical
  have hc : ∀ p : X → Prop, count p = Nat.card {x // p x} := by
    intro p
    unfold count
    rw [← card_filter, Nat.card_eq_fintype_card, Fintype.card_subtype]
  rw [hc, hc, ← Nat.card_eq_fintype_card, ← Nat.card_prod]
  refine Nat.card_congr ⟨fun p => ⟨set p.1.1 p.2, hK _ _ p.1.2.1⟩, fun x => (⟨set x.1 b, hK _ _ x.2, h1 _ _⟩, get x.1), ?_, ?_⟩
  · rintro ⟨⟨x, hx, rfl⟩, b'⟩
    simp only [h3, h2, h1]
  · rintro ⟨x, hx⟩
    simp only [h3, h2]

variable {F S : Type} [DecidableEq F] [DecidableEq S]

/-- The attack with functions, in terms of the group. -/
def playA (accept : F → S → F → F → Bool) (ρ : S → F) (sg : F → S → S) (a : F) (H : F × F × F → F) (N : F → S) :
    Forger F S → List (S × F × F) → Bool
  | .forge s rx m, given => accept (H (rx, a, m)) s rx m && !decide ((s, rx, m) ∈ given)
  | .ask rx a' m next, given => playA accept ρ sg a H N (next (H (rx, a', m))) given
  | .sign m next, given =>
    playA accept ρ sg a H N (next (sg (H (ρ (N m), a, m)) (N m), ρ (N m))) ((sg (H (ρ (N m), a, m)) (N m), ρ (N m), m) :: given)

/-- Functions that agree with what has been answered. -/
def Agrees (ρ : S → F) (sg : F → S → S) (a : F) (log : List (Entry F S)) (x : (F × F × F → F) × (F → S)) : Prop :=
  ∀ e ∈ log, x.1 (e.rx, e.a, e.m) = e.h ∧ ∀ s, e.sig = some s → e.a = a ∧ e.rx = ρ (x.2 e.m) ∧ s = sg e.h (x.2 e.m)

theorem agrees_cons {ρ : S → F} {sg : F → S → S} {a : F} {e : Entry F S} {log : List (Entry F S)} {x : (F × F × F → F) × (F → S)} :
    Agrees ρ sg a (e :: log) x ↔ Agrees ρ sg a log x ∧ x.1 (e.rx, e.a, e.m) = e.h ∧
      ∀ s, e.sig = some s → e.a = a ∧ e.rx = ρ (x.2 e.m) ∧ s = sg e.h (x.2 e.m) := by
  unfold Agrees
  rw [List.forall_mem_cons, and_comm]

theorem lookup_agrees {ρ : S → F} {sg : F → S → S} {a : F} {log : List (Entry F S)} {x : (F × F × F → F) × (F → S)}
    (h : Agrees ρ sg a log x) {rx a' m : F} {i : Nat} {c : F} (hl : Entry.lookup rx a' m log = some (i, c)) : x.1 (rx, a', m) = c := by
  obtain ⟨e, -, -, he, rfl, rfl, rfl, rfl⟩ := lookup_some hl
  exact (h e he).1

theorem lookup_none {rx a m : F} {log : List (Entry F S)} (hl : Entry.lookup rx a m log = none) {e : Entry F S} (he : e ∈ log) :
    (e.rx, e.a, e.m) ≠ (rx, a, m) := by
  induction log with
  | nil => cases he
  | cons d log ih =>
    unfold Entry.lookup at hl
    split at hl
    · cases hl
    · rename_i hc
      rcases List.mem_cons.1 he with rfl | he
      · intro heq
        simp only [Prod.mk.injEq] at heq
        exact hc heq
      · exact ih hl he

theorem signature_some {m : F} {log : List (Entry F S)} {x : S × F} (hl : Entry.signature m log = some x) :
    ∃ e ∈ log, e.sig = some x.1 ∧ e.m = m ∧ e.rx = x.2 := by
  induction log with
  | nil => cases hl
  | cons d log ih =>
    unfold Entry.signature at hl
    split at hl
    · rename_i s hs
      split at hl
      · rename_i hm
        cases hl
        exact ⟨d, by simp, hs, hm, rfl⟩
      · obtain ⟨e, he, h⟩ := ih hl
        exact ⟨e, by simp [he], h⟩
    · obtain ⟨e, he, h⟩ := ih hl
      exact ⟨e, by simp [he], h⟩

theorem signature_none {m : F} {log : List (Entry F S)} (hl : Entry.signature m log = none) {e : Entry F S} (he : e ∈ log) {s : S}
    (hs : e.sig = some s) : e.m ≠ m := by
  induction log with
  | nil => cases he
  | cons d log ih =>
    unfold Entry.signature at hl
    rcases List.mem_cons.1 he with rfl | he
    · rw [hs] at hl
      simp only at hl
      split at hl
      · cases hl
      · assumption
    · split at hl
      · split at hl
        · cases hl
        · exact ih hl he
      · exact ih hl he

theorem given_iff {s : S} {rx m : F} {log : List (Entry F S)} : Entry.given s rx m log = true ↔ ∃ e ∈ log, e.sig = some s ∧ e.rx = rx ∧ e.m = m := by
  unfold Entry.given
  rw [List.any_eq_true]
  simp only [decide_eq_true_eq]

omit [DecidableEq F] [DecidableEq S] in
theorem AtMost_succ {f : Forger F S} {n : Nat} (h : f.AtMost n) : f.AtMost (n + 1) := by
  induction f generalizing n with
  | forge => exact trivial
  | ask rx a m next ih =>
    cases n with
    | zero => exact absurd h id
    | succ n => exact fun x => ih x (h x)
  | sign m next ih =>
    cases n with
    | zero => exact absurd h id
    | succ n => exact fun x => ih x (h x)

variable [Fintype F] [Fintype S]

section free

variable {ρ : S → F} {sg : F → S → S} {a : F} {log : List (Entry F S)}

open Classical in
theorem count_hash (K : (F × F × F → F) × (F → S) → Prop) (q : F × F × F) (hK : ∀ x h, K x → K (Function.update x.1 q h, x.2)) (h : F) :
    (count fun x => K x ∧ x.1 q = h) * Fintype.card F = count K :=
  count_free K (fun x => x.1 q) (fun x h => (Function.update x.1 q h, x.2)) (fun x b => by simp) (fun x => by simp) (fun x b b' => by simp) hK h

open Classical in
theorem count_nonce (K : (F × F × F → F) × (F → S) → Prop) (m : F) (hK : ∀ x k, K x → K (x.1, Function.update x.2 m k)) (k : S) :
    (count fun x => K x ∧ x.2 m = k) * Fintype.card S = count K :=
  count_free K (fun x => x.2 m) (fun x k => (x.1, Function.update x.2 m k)) (fun x b => by simp) (fun x => by simp) (fun x b b' => by simp) hK k

theorem agrees_update_hash {rx a' m : F} (hl : Entry.lookup rx a' m log = none) (x : (F × F × F → F) × (F → S)) (h : F)
    (hx : Agrees ρ sg a log x) : Agrees ρ sg a log (Function.update x.1 (rx, a', m) h, x.2) := by
  intro e he
  obtain ⟨h1, h2⟩ := hx e he
  refine ⟨?_, h2⟩
  simp only
  rw [Function.update_of_ne (lookup_none hl he)]
  exact h1

theorem agrees_update_nonce {m : F} (hl : Entry.signature m log = none) (x : (F × F × F → F) × (F → S)) (k : S)
    (hx : Agrees ρ sg a log x) : Agrees ρ sg a log (x.1, Function.update x.2 m k) := by
  intro e he
  obtain ⟨h1, h2⟩ := hx e he
  refine ⟨h1, fun s hs => ?_⟩
  simp only
  rw [Function.update_of_ne (signature_none hl he hs)]
  exact h2 s hs

end free

open Classical in
/-- Choosing functions beforehand and choosing answers when first needed: the client wins equally often. -/
theorem lazy_eq {accept : F → S → F → F → Bool} {own : List (Entry F S) → F → F × S → Option (Entry F S)} {ρ : S → F} {sg : F → S → S} {a : F}
    (hρ : Function.Injective ρ)
    (hown : ∀ log m h k, own log m (h, k) = some ⟨ρ k, a, m, ((Entry.lookup (ρ k) a m log).map Prod.snd).getD h,
      some (sg (((Entry.lookup (ρ k) a m log).map Prod.snd).getD h) k)⟩)
    (f : Forger F S) (n : Nat) (hf : f.AtMost n) (log : List (Entry F S)) (given : List (S × F × F))
    (hg : ∀ s rx m, (s, rx, m) ∈ given ↔ Entry.given s rx m log = true) :
    (count fun x : (F × F × F → F) × (F → S) => Agrees ρ sg a log x ∧ playA accept ρ sg a x.1 x.2 f given = true) *
        (Fintype.card F * Fintype.card S) ^ (n + 1) =
      (count fun x : (F × F × F → F) × (F → S) => Agrees ρ sg a log x) * wins accept own a f log (n + 1) := by
  have const : ∀ (b : Bool) (n : Nat), (∑ t : Fin n → F × S, if b = true then 1 else 0) = (if b = true then 1 else 0) * (Fintype.card F * Fintype.card S) ^ n := by
    intro b n
    rw [sum_const, card_univ, Fintype.card_fun, Fintype.card_prod, Fintype.card_fin, smul_eq_mul, mul_comm]
  induction f generalizing n log given with
  | forge s rx m =>
    have hb : (!decide ((s, rx, m) ∈ given)) = !Entry.given s rx m log := by
      congr 1
      rw [Bool.eq_iff_iff, decide_eq_true_eq]
      exact hg s rx m
    cases hl : Entry.lookup rx a m log with
    | some y =>
      obtain ⟨i, c⟩ := y
      have hw : wins accept own a (.forge s rx m) log (n + 1) =
          (if (accept c s rx m && !Entry.given s rx m log) = true then 1 else 0) * (Fintype.card F * Fintype.card S) ^ (n + 1) := by
        rw [← const]
        unfold wins
        refine sum_congr rfl fun t _ => ?_
        unfold attack
        rw [hl]
        cases hc : (accept c s rx m && !Entry.given s rx m log) <;> simp [hc]
      rw [hw]
      have hp : (count fun x : (F × F × F → F) × (F → S) => Agrees ρ sg a log x ∧ playA accept ρ sg a x.1 x.2 (.forge s rx m) given = true) =
          (count fun x : (F × F × F → F) × (F → S) => Agrees ρ sg a log x) * (if (accept c s rx m && !Entry.given s rx m log) = true then 1 else 0) := by
        refine count_const _ _ _ fun x hx => ?_
        unfold playA
        rw [lookup_agrees hx hl, hb]
      rw [hp]; ring
    | none =>
      have hw : wins accept own a (.forge s rx m) log (n + 1) =
          ∑ h, Fintype.card S * ((if (accept h s rx m && !Entry.given s rx m log) = true then 1 else 0) * (Fintype.card F * Fintype.card S) ^ n) := by
        unfold wins
        rw [sum_tape n (fun l => if (attack accept own a (.forge s rx m) log l).isSome then 1 else 0), Fintype.sum_prod_type]
        refine sum_congr rfl fun h _ => ?_
        rw [← const, ← smul_eq_mul, ← card_univ, ← sum_const]
        refine sum_congr rfl fun k _ => sum_congr rfl fun t _ => ?_
        unfold attack
        rw [hl]
        cases hc : (accept h s rx m && !Entry.given s rx m log) <;> simp [hc]
      rw [hw, count_split _ (fun x => x.1 (rx, a, m)), sum_mul, mul_sum]
      refine sum_congr rfl fun h _ => ?_
      have hp : (count fun x : (F × F × F → F) × (F → S) => (Agrees ρ sg a log x ∧ playA accept ρ sg a x.1 x.2 (.forge s rx m) given = true) ∧ x.1 (rx, a, m) = h) =
          (count fun x : (F × F × F → F) × (F → S) => Agrees ρ sg a log x ∧ x.1 (rx, a, m) = h) * (if (accept h s rx m && !Entry.given s rx m log) = true then 1 else 0) := by
        rw [← count_const (fun x : (F × F × F → F) × (F → S) => Agrees ρ sg a log x ∧ x.1 (rx, a, m) = h)
          (fun x => playA accept ρ sg a x.1 x.2 (.forge s rx m) given = true)]
        · exact count_congr fun x => ⟨fun hx => ⟨⟨hx.1.1, hx.2⟩, hx.1.2⟩, fun hx => ⟨⟨hx.1.1, hx.2⟩, hx.1.2⟩⟩
        · intro x hx
          unfold playA
          rw [hx.2, hb]
      rw [hp, ← count_hash (Agrees ρ sg a log) (rx, a, m) (agrees_update_hash hl) h, pow_succ]
      ring
  | ask rx a' m next ih =>
    obtain ⟨n, rfl⟩ : ∃ n', n = n' + 1 := by
      cases n with
      | zero => exact absurd hf id
      | succ n => exact ⟨n, rfl⟩
    have hf : ∀ h, (next h).AtMost n := hf
    cases hl : Entry.lookup rx a' m log with
    | some y =>
      obtain ⟨i, c⟩ := y
      have hw : wins accept own a (.ask rx a' m next) log (n + 1 + 1) = wins accept own a (next c) log (n + 1 + 1) := by
        unfold wins
        refine sum_congr rfl fun t _ => ?_
        conv_lhs => unfold attack
        rw [hl]
      rw [hw, ← ih c (n + 1) (AtMost_succ (hf c)) log given hg]
      congr 1
      refine count_congr fun x => and_congr_right fun hx => ?_
      conv_lhs => unfold playA
      rw [lookup_agrees hx hl]
    | none =>
      have hw : wins accept own a (.ask rx a' m next) log (n + 1 + 1) =
          ∑ h, Fintype.card S * wins accept own a (next h) (⟨rx, a', m, h, none⟩ :: log) (n + 1) := by
        unfold wins
        rw [sum_tape (n + 1) (fun l => if (attack accept own a (.ask rx a' m next) log l).isSome then 1 else 0), Fintype.sum_prod_type]
        refine sum_congr rfl fun h _ => ?_
        rw [← smul_eq_mul, ← card_univ, ← sum_const]
        refine sum_congr rfl fun k _ => sum_congr rfl fun t _ => ?_
        conv_lhs => unfold attack
        rw [hl]
      rw [hw, count_split _ (fun x => x.1 (rx, a', m)), sum_mul, mul_sum]
      refine sum_congr rfl fun h _ => ?_
      have hcons : ∀ x : (F × F × F → F) × (F → S), Agrees ρ sg a (⟨rx, a', m, h, none⟩ :: log) x ↔ Agrees ρ sg a log x ∧ x.1 (rx, a', m) = h := by
        intro x
        rw [agrees_cons]
        simp
      have h1 := ih h n (hf h) (⟨rx, a', m, h, none⟩ :: log) given (by
        intro s rx' m'
        rw [hg, given_iff, given_iff]
        simp)
      have h2 : (count fun x : (F × F × F → F) × (F → S) => (Agrees ρ sg a log x ∧ playA accept ρ sg a x.1 x.2 (.ask rx a' m next) given = true) ∧ x.1 (rx, a', m) = h) =
          count fun x : (F × F × F → F) × (F → S) => Agrees ρ sg a (⟨rx, a', m, h, none⟩ :: log) x ∧ playA accept ρ sg a x.1 x.2 (next h) given = true := by
        refine count_congr fun x => ?_
        rw [hcons]
        conv_lhs => unfold playA
        constructor
        · rintro ⟨⟨h1, h2⟩, h3⟩
          rw [h3] at h2
          exact ⟨⟨h1, h3⟩, h2⟩
        · rintro ⟨⟨h1, h3⟩, h2⟩
          refine ⟨⟨h1, ?_⟩, h3⟩
          rw [h3]; exact h2
      have h3 : (count fun x : (F × F × F → F) × (F → S) => Agrees ρ sg a (⟨rx, a', m, h, none⟩ :: log) x) * Fintype.card F =
          count (Agrees ρ sg a log) := by
        rw [← count_hash (Agrees ρ sg a log) (rx, a', m) (agrees_update_hash hl) h]
        congr 1
        exact count_congr hcons
      rw [h2, pow_succ, ← mul_assoc, h1, ← h3]
      ring
  | sign m next ih =>
    obtain ⟨n, rfl⟩ : ∃ n', n = n' + 1 := by
      cases n with
      | zero => exact absurd hf id
      | succ n => exact ⟨n, rfl⟩
    have hf : ∀ h, (next h).AtMost n := hf
    cases hl : Entry.signature m log with
    | some y =>
      have hw : wins accept own a (.sign m next) log (n + 1 + 1) = wins accept own a (next y) log (n + 1 + 1) := by
        unfold wins
        refine sum_congr rfl fun t _ => ?_
        conv_lhs => unfold attack
        rw [hl]
      obtain ⟨e, he, h1, h2, h3⟩ := signature_some hl
      rw [hw, ← ih y (n + 1) (AtMost_succ (hf y)) log ((y.1, y.2, m) :: given) (by
        intro s rx' m'
        rw [List.mem_cons, hg]
        constructor
        · rintro (heq | h)
          · cases heq
            exact given_iff.2 ⟨e, he, h1, h3, h2⟩
          · exact h
        · exact .inr)]
      congr 1
      refine count_congr fun x => and_congr_right fun hx => ?_
      obtain ⟨h4, h5⟩ := hx e he
      obtain ⟨h6, h7, h8⟩ := h5 _ h1
      conv_lhs => unfold playA
      subst h2
      rw [← h7, ← h6, h4, ← h8, h3]
    | none =>
      have hw : wins accept own a (.sign m next) log (n + 1 + 1) =
          ∑ k, ∑ h, wins accept own a (next (sg (((Entry.lookup (ρ k) a m log).map Prod.snd).getD h) k, ρ k))
            (⟨ρ k, a, m, ((Entry.lookup (ρ k) a m log).map Prod.snd).getD h, some (sg (((Entry.lookup (ρ k) a m log).map Prod.snd).getD h) k)⟩ :: log) (n + 1) := by
        unfold wins
        rw [sum_tape (n + 1) (fun l => if (attack accept own a (.sign m next) log l).isSome then 1 else 0), Fintype.sum_prod_type_right]
        refine sum_congr rfl fun k _ => sum_congr rfl fun h _ => sum_congr rfl fun t _ => ?_
        refine congrArg (fun o : Option (Win F S) => if o.isSome then 1 else 0) ?_
        conv_lhs => unfold attack
        rw [hl]
        dsimp only
        rw [hown]
      rw [hw, count_split _ (fun x => x.2 m), sum_mul, mul_sum]
      refine sum_congr rfl fun k _ => ?_
      have hcons : ∀ (c : F) (x : (F × F × F → F) × (F → S)), Agrees ρ sg a (⟨ρ k, a, m, c, some (sg c k)⟩ :: log) x ↔
          (Agrees ρ sg a log x ∧ x.2 m = k) ∧ x.1 (ρ k, a, m) = c := by
        intro c x
        rw [agrees_cons]
        constructor
        · rintro ⟨h1, h2, h3⟩
          exact ⟨⟨h1, (hρ (h3 _ rfl).2.1).symm⟩, h2⟩
        · rintro ⟨⟨h1, rfl⟩, h2⟩
          refine ⟨h1, h2, fun s hs => ?_⟩
          cases hs
          exact ⟨rfl, rfl, rfl⟩
      have hplay : ∀ c : F, (count fun x : (F × F × F → F) × (F → S) => ((Agrees ρ sg a log x ∧ playA accept ρ sg a x.1 x.2 (.sign m next) given = true) ∧
            x.2 m = k) ∧ x.1 (ρ k, a, m) = c) * (Fintype.card F * Fintype.card S) ^ (n + 1) =
          (count fun x : (F × F × F → F) × (F → S) => (Agrees ρ sg a log x ∧ x.2 m = k) ∧ x.1 (ρ k, a, m) = c) *
            wins accept own a (next (sg c k, ρ k)) (⟨ρ k, a, m, c, some (sg c k)⟩ :: log) (n + 1) := by
        intro c
        have h1 := ih (sg c k, ρ k) n (hf _) (⟨ρ k, a, m, c, some (sg c k)⟩ :: log) ((sg c k, ρ k, m) :: given) (by
          intro s rx' m'
          rw [List.mem_cons, hg, given_iff, given_iff]
          constructor
          · rintro (heq | ⟨e, he, h⟩)
            · cases heq
              exact ⟨_, List.mem_cons_self, rfl, rfl, rfl⟩
            · exact ⟨e, List.mem_cons_of_mem _ he, h⟩
          · rintro ⟨e, he, h1, h2, h3⟩
            rcases List.mem_cons.1 he with rfl | he
            · left
              simp only [Option.some.injEq] at h1 h2 h3
              rw [h1, h2, h3]
            · exact .inr ⟨e, he, h1, h2, h3⟩)
        rw [← count_congr (hcons c), ← h1]
        congr 1
        refine count_congr fun x => ?_
        rw [hcons]
        conv_lhs => unfold playA
        constructor
        · rintro ⟨⟨⟨h1, h2⟩, h3⟩, h4⟩
          rw [h3, h4] at h2
          exact ⟨⟨⟨h1, h3⟩, h4⟩, h2⟩
        · rintro ⟨⟨⟨h1, h3⟩, h4⟩, h2⟩
          refine ⟨⟨⟨h1, ?_⟩, h3⟩, h4⟩
          rw [h3, h4]; exact h2
      have hN := count_nonce (Agrees ρ sg a log) m (agrees_update_nonce hl) k
      cases hk : Entry.lookup (ρ k) a m log with
      | some y =>
        obtain ⟨i, c⟩ := y
        simp only [Option.map_some, Option.getD_some]
        rw [sum_const, card_univ, smul_eq_mul, pow_succ, ← mul_assoc]
        have h1 := hplay c
        have e1 : (count fun x : (F × F × F → F) × (F → S) => ((Agrees ρ sg a log x ∧ playA accept ρ sg a x.1 x.2 (.sign m next) given = true) ∧
            x.2 m = k) ∧ x.1 (ρ k, a, m) = c) =
            count fun x : (F × F × F → F) × (F → S) => (Agrees ρ sg a log x ∧ playA accept ρ sg a x.1 x.2 (.sign m next) given = true) ∧ x.2 m = k :=
          count_congr fun x => ⟨fun h => h.1, fun h => ⟨h, lookup_agrees h.1.1 hk⟩⟩
        have e2 : (count fun x : (F × F × F → F) × (F → S) => (Agrees ρ sg a log x ∧ x.2 m = k) ∧ x.1 (ρ k, a, m) = c) =
            count fun x : (F × F × F → F) × (F → S) => Agrees ρ sg a log x ∧ x.2 m = k :=
          count_congr fun x => ⟨fun h => h.1, fun h => ⟨h, lookup_agrees h.1 hk⟩⟩
        rw [e1, e2] at h1
        rw [h1, ← hN]
        ring
      | none =>
        simp only [Option.map_none, Option.getD_none]
        rw [count_split _ (fun x => x.1 (ρ k, a, m)), sum_mul, mul_sum]
        refine sum_congr rfl fun h _ => ?_
        rw [pow_succ, ← mul_assoc, hplay h, ← hN,
          ← count_hash (fun x => Agrees ρ sg a log x ∧ x.2 m = k) (ρ k, a, m) (fun x h hx => ⟨agrees_update_hash hk x h hx.1, hx.2⟩) h]
        ring

end Fawkes.Eddsa
