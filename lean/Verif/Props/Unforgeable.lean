import Verif.Spec.Forger
import Verif.Lemmas.Forking
import Verif.Lemmas.Lazy
import Verif.Props.SignatureForm
import Mathlib.Analysis.Real.Sqrt
import Mathlib.Algebra.BigOperators.Field

/-!
# C109: forging a signature is as hard as finding the secret key, if the hash is ideal
-/

set_option linter.unusedSectionVars false

namespace Fawkes.Props

open Eddsa EddsaSpec

variable {r : Nat} [Fact r.Prime] {C : EdCurve (ZMod r)} {J : JubJubParams (ZMod r)} [Fact J.l.Prime]
  {sqrt : ZMod r → Option (ZMod r)}

/-- C109 (code): with the hash functions of the code, `signWith` and `verifyWith` are `eddsaposeidon_sign` and
`eddsaposeidon_verify`. -/
theorem C109_code (sk s : ZMod J.l) (rx a m : ZMod r) (P : PoseidonParams (ZMod r)) :
    signWith J (hashR sk m) (fun rx a m => hashRam rx a m P) sk m = sign J sk m P ∧
      verifyWith sqrt J (fun rx a m => hashRam rx a m P) s rx a m = verify sqrt J s rx a m P := ⟨rfl, rfl⟩

theorem accepts_iff (hv : J.Valid C) (hsq : IsSqrt sqrt) (har : Aligned r) (hal : Aligned J.l) {G : EdPoint C} (hG : J.g = G.affine)
    (sk : ZMod J.l) (h : ZMod r) (s : ZMod J.l) (rx m : ZMod r) :
    accepts sqrt J (sk.val • G).x h s rx m = true ↔
      ∃ R, InSubgroup J.l R ∧ R.x = rx ∧ s.val • G = R + ((h.val : ZMod J.l) * sk).val • G := by
  have hA : InSubgroup J.l (sk.val • G) := base_sub hv hG _
  obtain ⟨oa, hoa, hpa⟩ := C31_subgroup_decompress hsq hv (sk.val • G).x
  obtain ⟨or, hor, hpr⟩ := C31_subgroup_decompress hsq hv rx
  have hoa' := (hpa (sk.val • G).affine).2 ⟨_, hA, rfl, rfl⟩
  subst hoa'
  unfold accepts verifyWith
  rw [hoa]
  simp only [bind, Except.bind]
  rw [hor]
  cases or with
  | none =>
    simp only [pure, Except.pure, Bool.false_eq_true, false_iff]
    rintro ⟨R, hR, hrx, -⟩
    have := (hpr R.affine).2 ⟨R, hR, hrx, rfl⟩
    cases this
  | some pr =>
    obtain ⟨R, hR, hrx, rfl⟩ := (hpr pr).1 rfl
    dsimp only
    rw [(C47_residue har hal _).1]
    dsimp only
    rw [C28_mul hv.d_eq, hG]
    dsimp only
    rw [C28_mul hv.d_eq]
    dsimp only
    rw [add_affine hv.d_eq]
    simp only [pure, Except.pure, EdPoint.affine, Bool.and_eq_true, beq_iff_eq]
    rw [← EdPoint.ext_iff, add_comm, ← mul_nsmul', ← EdPoint.val_mul_nsmul (order_base hv hG).1]
    constructor
    · exact fun h => ⟨R, hR, hrx, h⟩
    · rintro ⟨R', hR', hrx', h⟩
      rw [C31_unique hv hR' hR (hrx'.trans hrx.symm)] at h
      exact h

theorem accepts_form (hv : J.Valid C) (hsq : IsSqrt sqrt) (har : Aligned r) (hal : Aligned J.l) {G : EdPoint C} (hG : J.g = G.affine)
    {sk : ZMod J.l} {h : ZMod r} {s : ZMod J.l} {rx m : ZMod r} (ha : accepts sqrt J (sk.val • G).x h s rx m = true) :
    ∃ R : EdPoint C, InSubgroup J.l R ∧ R.x = rx ∧ (s - (h.val : ZMod J.l) * sk).val • G = R := by
  obtain ⟨R, hR, hrx, he⟩ := (accepts_iff hv hsq har hal hG _ _ _ _ _).1 ha
  refine ⟨R, hR, hrx, ?_⟩
  have := EdPoint.val_add_nsmul (order_base hv hG).1 (s - (h.val : ZMod J.l) * sk) ((h.val : ZMod J.l) * sk)
  rw [sub_add_cancel, he] at this
  exact (add_right_cancel this).symm

theorem accepts_unique (hv : J.Valid C) (hsq : IsSqrt sqrt) (har : Aligned r) (hal : Aligned J.l) {G : EdPoint C} (hG : J.g = G.affine)
    {sk : ZMod J.l} {h h' : ZMod r} {s s' : ZMod J.l} {rx m : ZMod r} (ha : accepts sqrt J (sk.val • G).x h s rx m = true)
    (ha' : accepts sqrt J (sk.val • G).x h' s' rx m = true) : s - (h.val : ZMod J.l) * sk = s' - (h'.val : ZMod J.l) * sk := by
  obtain ⟨R, hR, hrx, he⟩ := accepts_form hv hsq har hal hG ha
  obtain ⟨R', hR', hrx', he'⟩ := accepts_form hv hsq har hal hG ha'
  have := C31_unique hv hR hR' (hrx.trans hrx'.symm)
  subst this
  exact base_injective hv hG (he.trans he'.symm)

theorem simulate_ok (hv : J.Valid C) (hsq : IsSqrt sqrt) (har : Aligned r) (hal : Aligned J.l) {G : EdPoint C} (hG : J.g = G.affine)
    (sk : ZMod J.l) (h : ZMod r) (s : ZMod J.l) :
    simulate sqrt J (sk.val • G).x h s = .ok (some ((s - (h.val : ZMod J.l) * sk).val • G).x) := by
  have hA : InSubgroup J.l (sk.val • G) := base_sub hv hG _
  obtain ⟨oa, hoa, hpa⟩ := C31_subgroup_decompress hsq hv (sk.val • G).x
  have hoa' := (hpa (sk.val • G).affine).2 ⟨_, hA, rfl, rfl⟩
  subst hoa'
  unfold simulate
  rw [hoa]
  simp only [bind, Except.bind]
  rw [(C47_residue har hal _).1]
  dsimp only
  rw [C28_mul hv.d_eq, hG]
  dsimp only
  rw [C28_mul hv.d_eq]
  dsimp only
  rw [add_affine hv.d_eq, ← mul_nsmul', ← EdPoint.val_mul_nsmul (order_base hv hG).1, ← EdPoint.val_add_nsmul (order_base hv hG).1]
  dsimp only
  rw [neg_mul, ← sub_eq_add_neg]
  rfl

theorem simSigner_eq (hv : J.Valid C) (hsq : IsSqrt sqrt) (har : Aligned r) (hal : Aligned J.l) {G : EdPoint C} (hG : J.g = G.affine)
    (sk : ZMod J.l) (log : List (Entry (ZMod r) (ZMod J.l))) (m : ZMod r) (h : ZMod r) (s : ZMod J.l) :
    simSigner sqrt J (sk.val • G).x log m (h, s) =
      match Entry.lookup ((s - (h.val : ZMod J.l) * sk).val • G).x (sk.val • G).x m log with
      | some _ => none
      | none => some ⟨((s - (h.val : ZMod J.l) * sk).val • G).x, (sk.val • G).x, m, h, some s⟩ := by
  unfold simSigner
  rw [simulate_ok hv hsq har hal hG]
  rfl

theorem ownSigner_eq (hv : J.Valid C) (har : Aligned r) (hal : Aligned J.l) {G : EdPoint C} (hG : J.g = G.affine)
    (sk : ZMod J.l) (log : List (Entry (ZMod r) (ZMod J.l))) (m : ZMod r) (h : ZMod r) (k : ZMod J.l)
    (hl : Entry.lookup (k.val • G).x (sk.val • G).x m log = none) :
    ownSigner J sk (sk.val • G).x log m (h, k) =
      some ⟨(k.val • G).x, (sk.val • G).x, m, h, some (k + (h.val : ZMod J.l) * sk)⟩ := by
  unfold ownSigner signWith
  simp only [bind, Except.bind]
  rw [hG, C28_mul hv.d_eq]; dsimp only
  rw [C28_mul hv.d_eq]; dsimp only [EdPoint.affine]
  rw [(C47_residue har hal _).1]
  simp only [pure, Except.pure, hl]

theorem abscissa_injective (hv : J.Valid C) {G : EdPoint C} (hG : J.g = G.affine) :
    Function.Injective fun k : ZMod J.l => (k.val • G).x := fun _ _ h =>
  base_injective hv hG (C31_unique hv (base_sub hv hG _) (base_sub hv hG _) h)

/-- The number of tapes of length `q`. -/
theorem card_tapes (q : Nat) : Fintype.card (Fin q → ZMod r × ZMod J.l) = (r * J.l) ^ q := by
  rw [Fintype.card_fun, Fintype.card_prod, ZMod.card, ZMod.card, Fintype.card_fin]

theorem simSigner_accepts (hv : J.Valid C) (hsq : IsSqrt sqrt) (har : Aligned r) (hal : Aligned J.l) {G : EdPoint C} (hG : J.g = G.affine)
    (sk : ZMod J.l) (log : List (Entry (ZMod r) (ZMod J.l))) (m : ZMod r) (x : ZMod r × ZMod J.l) (e : Entry (ZMod r) (ZMod J.l))
    (s : ZMod J.l) (he : simSigner sqrt J (sk.val • G).x log m x = some e) (hes : e.sig = some s) :
    accepts sqrt J (sk.val • G).x e.h s e.rx e.m = true := by
  obtain ⟨h, s0⟩ := x
  rw [simSigner_eq hv hsq har hal hG] at he
  split at he
  · cases he
  · cases he
    cases hes
    refine (accepts_iff hv hsq har hal hG _ _ _ _ _).2 ⟨_, base_sub hv hG _, rfl, ?_⟩
    rw [← EdPoint.val_add_nsmul (order_base hv hG).1, sub_add_cancel]

/-- Two forgeries on tapes that agree up to the challenge. -/
theorem sim_fork (hv : J.Valid C) (hsq : IsSqrt sqrt) (har : Aligned r) (hal : Aligned J.l) {G : EdPoint C} (hG : J.g = G.affine)
    (sk : ZMod J.l) (f : Forger (ZMod r) (ZMod J.l)) (t t' : List (ZMod r × ZMod J.l)) (w w' : Win (ZMod r) (ZMod J.l))
    (hw : attackSim sqrt J (sk.val • G).x f t = some w) (hw' : attackSim sqrt J (sk.val • G).x f (t.take w.idx ++ t'.drop w.idx) = some w')
    (hi : w.idx = w'.idx) :
    w.s - (w.h.val : ZMod J.l) * sk = w'.s - (w'.h.val : ZMod J.l) * sk ∧ t[w.idx]?.map Prod.fst = some w.h ∧ t'[w.idx]?.map Prod.fst = some w'.h := by
  have hlen := attack_idx hw
  simp only [List.length_nil, Nat.zero_add] at hlen
  have hlen' : (t.take w.idx).length = w.idx := by simp; omega
  have ht : t = t.take w.idx ++ t.drop w.idx := (List.take_append_drop _ _).symm
  have hw2 : attack (accepts sqrt J (sk.val • G).x) (simSigner sqrt J (sk.val • G).x) (sk.val • G).x f [] (t.take w.idx ++ t.drop w.idx) = some w := by
    rw [← ht]; exact hw
  have hu : ∀ h s s' rx m, accepts sqrt J (sk.val • G).x h s rx m = true → accepts sqrt J (sk.val • G).x h s' rx m = true → s = s' := by
    intro h s s' rx m h1 h2
    exact sub_left_injective (accepts_unique hv hsq har hal hG h1 h2)
  obtain ⟨rx, m, ⟨x, v, hx⟩, ⟨x', v', hx'⟩, h1, h2⟩ := attack_fork hu (simSigner_accepts hv hsq har hal hG sk) hw2 hw'
    (by simp only [List.length_nil, hlen']; omega) (by simp only [List.length_nil, hlen']; omega)
  refine ⟨accepts_unique hv hsq har hal hG h1 h2, ?_, ?_⟩
  · have : t[w.idx]? = (t.drop w.idx)[0]? := by simp
    rw [this, hx]; rfl
  · have : t'[w.idx]? = (t'.drop w.idx)[0]? := by simp
    rw [this, hx']; rfl

theorem extract_eq (hv : J.Valid C) (hsq : IsSqrt sqrt) (har : Aligned r) (hal : Aligned J.l) {G : EdPoint C} (hG : J.g = G.affine)
    (sk : ZMod J.l) (f : Forger (ZMod r) (ZMod J.l)) (t t' : List (ZMod r × ZMod J.l)) (w w' : Win (ZMod r) (ZMod J.l))
    (hw : attackSim sqrt J (sk.val • G).x f t = some w) (hw' : attackSim sqrt J (sk.val • G).x f (t.take w.idx ++ t'.drop w.idx) = some w')
    (hi : w.idx = w'.idx) (hne : (w.h.val : ZMod J.l) ≠ (w'.h.val : ZMod J.l)) : (w.s - w'.s) / ((w.h.val : ZMod J.l) - (w'.h.val : ZMod J.l)) = sk := by
  have he := (sim_fork hv hsq har hal hG sk f t t' w w' hw hw' hi).1
  rw [sub_eq_sub_iff_sub_eq_sub, ← sub_mul] at he
  rw [he, mul_div_cancel_left₀]
  exact sub_ne_zero.2 hne

/-- C109 (key): what the extractor finds is the secret key. -/
theorem C109_extract (hv : J.Valid C) (hsq : IsSqrt sqrt) (har : Aligned r) (hal : Aligned J.l) (sk : ZMod J.l) (A : EdwardsPoint (ZMod r))
    (hA : J.g.mul sk J = .ok A) (f : Forger (ZMod r) (ZMod J.l)) (t t' : List (ZMod r × ZMod J.l)) (x : ZMod J.l)
    (hx : extract sqrt J A.x f t t' = some x) : x = sk := by
  obtain ⟨G, hG, -⟩ := hv.base
  rw [hG, C28_mul hv.d_eq] at hA
  cases hA
  have hx : extract sqrt J (sk.val • G).x f t t' = some x := hx
  unfold extract at hx
  split at hx
  · cases hx
  · rename_i w hw
    split at hx
    · cases hx
    · rename_i w' hw'
      rw [(C47_residue har hal _).1, (C47_residue har hal _).1] at hx
      dsimp only at hx
      split at hx
      · rename_i hc
        rw [← Option.some.inj hx]
        exact extract_eq hv hsq har hal hG sk f t t' w w' hw hw' hc.1 hc.2
      · cases hx

open Finset in
theorem sim_pairs (hv : J.Valid C) (hsq : IsSqrt sqrt) (har : Aligned r) (hal : Aligned J.l) {G : EdPoint C} (hG : J.g = G.affine)
    (sk : ZMod J.l) (f : Forger (ZMod r) (ZMod J.l)) (q : Nat) :
    wins (accepts sqrt J (sk.val • G).x) (simSigner sqrt J (sk.val • G).x) (sk.val • G).x f [] q ^ 2 ≤
      q * (∑ t : Fin q → ZMod r × ZMod J.l, ∑ t' : Fin q → ZMod r × ZMod J.l,
          (if extract sqrt J (sk.val • G).x f (List.ofFn t) (List.ofFn t') = some sk then 1 else 0) +
        wins (accepts sqrt J (sk.val • G).x) (simSigner sqrt J (sk.val • G).x) (sk.val • G).x f [] q *
          ((r / J.l + 1) * J.l * (r * J.l) ^ (q - 1))) := by
  set a := (sk.val • G).x with ha
  have hidx : ∀ (t : Fin q → ZMod r × ZMod J.l) w, attackSim sqrt J a f (List.ofFn t) = some w → w.idx < q := by
    intro t w h
    have := attack_idx h
    simpa using this
  have h1 := fork_pairs (fun t : Fin q → ZMod r × ZMod J.l => (attackSim sqrt J a f (List.ofFn t)).map Win.idx) (by
    intro t i h
    obtain ⟨w, hw, rfl⟩ := Option.map_eq_some_iff.1 h
    exact hidx t w hw)
  have h0 : ∑ t : Fin q → ZMod r × ZMod J.l, (if ((attackSim sqrt J a f (List.ofFn t)).map Win.idx).isSome then 1 else 0) =
      wins (accepts sqrt J a) (simSigner sqrt J a) a f [] q := by
    unfold wins
    refine sum_congr rfl fun t _ => ?_
    rw [Option.isSome_map]; rfl
  rw [h0] at h1
  refine h1.trans (Nat.mul_le_mul_left _ ?_)
  unfold wins
  rw [sum_mul, ← sum_add_distrib]
  refine sum_le_sum fun t _ => ?_
  cases hw : attackSim sqrt J a f (List.ofFn t) with
  | none => simp
  | some w =>
    have hq := hidx t w hw
    have hw2 : (attack (accepts sqrt J a) (simSigner sqrt J a) a f [] (List.ofFn t)).isSome = true := by
      show (attackSim sqrt J a f (List.ofFn t)).isSome = true
      rw [hw]; rfl
    rw [if_pos hw2, one_mul]
    let B : Finset (ZMod r × ZMod J.l) := (univ.filter fun h : ZMod r => (h.val : ZMod J.l) = (w.h.val : ZMod J.l)) ×ˢ univ
    have hB : B.card ≤ (r / J.l + 1) * J.l := by
      rw [card_product, card_univ, ZMod.card]
      exact Nat.mul_le_mul_right _ (card_residue _)
    have hc := card_symbol (A := ZMod r × ZMod J.l) w.idx hq B
    rw [Fintype.card_prod, ZMod.card, ZMod.card] at hc
    refine le_trans ?_ (Nat.add_le_add_left ((le_of_eq hc).trans (Nat.mul_le_mul_right _ hB)) _)
    rw [card_filter, ← sum_add_distrib]
    refine sum_le_sum fun t' _ => ?_
    by_cases hex : ∃ i, (some w).map Win.idx = some i ∧ (attackSim sqrt J a f (List.ofFn (splice i t t'))).map Win.idx = some i
    · rw [if_pos hex]
      obtain ⟨i, hi, hi'⟩ := hex
      cases hi
      obtain ⟨w', hw', hii⟩ := Option.map_eq_some_iff.1 hi'
      rw [ofFn_splice] at hw'
      obtain ⟨-, -, h3⟩ := sim_fork hv hsq har hal hG sk f _ _ w w' hw hw' hii.symm
      rw [List.getElem?_ofFn, dif_pos hq] at h3
      simp only [Option.map_some, Option.some.injEq] at h3
      by_cases hne : (w.h.val : ZMod J.l) = (w'.h.val : ZMod J.l)
      · rw [if_pos (c := t' ⟨w.idx, hq⟩ ∈ B)]
        · omega
        · rw [mem_product, mem_filter]
          refine ⟨⟨mem_univ _, ?_⟩, mem_univ _⟩
          rw [h3, hne]
      · rw [if_pos]
        · omega
        · unfold extract
          rw [hw]
          dsimp only
          rw [hw']
          dsimp only
          rw [(C47_residue har hal _).1, (C47_residue har hal _).1]
          dsimp only
          rw [if_pos ⟨hii.symm, hne⟩, extract_eq hv hsq har hal hG sk f _ _ w w' hw hw' hii.symm hne]
    · rw [if_neg hex]
      exact Nat.zero_le _

theorem root_bound {x b c : ℝ} (hc : 0 ≤ c) (h : x ^ 2 ≤ c + b * x) (hb : 0 ≤ b) : x ≤ b + Real.sqrt c := by
  by_contra hlt
  rw [not_le] at hlt
  have h0 := Real.sqrt_nonneg c
  have h1 : Real.sqrt c < x - b := by linarith
  have h2 := Real.sq_sqrt hc
  nlinarith

theorem numbers_bound {R l κ q W S E : Nat} (hR : 0 < R) (hl : 0 < l) (hq : 0 < q) (hW : W ≤ S + q * (q * (R * (R * l) ^ (q - 1))))
    (hS : S ^ 2 ≤ q * (E + S * (κ * l * (R * l) ^ (q - 1)))) :
    (W : ℝ) / ((R * l) ^ q : Nat) ≤ q ^ 2 / l + q * κ / R + Real.sqrt (q * (E / ((R * l) ^ q * (R * l) ^ q : Nat))) := by
  obtain ⟨q, rfl⟩ : ∃ q', q = q' + 1 := ⟨q - 1, by omega⟩
  rw [Nat.add_sub_cancel] at hW hS
  set P := (R * l) ^ q with hP
  have hN : (R * l) ^ (q + 1) = R * l * P := by rw [pow_succ, mul_comm]
  rw [hN]
  have hP0 : (0 : ℝ) < P := by
    have : 0 < P := Nat.pow_pos (Nat.mul_pos hR hl)
    exact_mod_cast this
  have hR0 : (0 : ℝ) < R := by exact_mod_cast hR
  have hl0 : (0 : ℝ) < l := by exact_mod_cast hl
  have hW' : (W : ℝ) ≤ S + ((q + 1 : Nat) : ℝ) * (((q + 1 : Nat) : ℝ) * (R * P)) := by exact_mod_cast hW
  have hS' : (S : ℝ) ^ 2 ≤ ((q + 1 : Nat) : ℝ) * (E + S * (κ * l * P)) := by exact_mod_cast hS
  set Q := ((q + 1 : Nat) : ℝ) with hQ
  have hQ0 : 0 ≤ Q := Nat.cast_nonneg _
  push_cast
  have h1 : (W : ℝ) / (R * l * P) ≤ S / (R * l * P) + Q ^ 2 / l := by
    have : (S : ℝ) / (R * l * P) + Q ^ 2 / l = (S + Q * (Q * (R * P))) / (R * l * P) := by field_simp
    rw [this]
    gcongr
  have h2 : (S : ℝ) / (R * l * P) ≤ Q * κ / R + Real.sqrt (Q * (E / (R * l * P * (R * l * P)))) := by
    refine root_bound (by positivity) ?_ (by positivity)
    have : Q * ((E : ℝ) / (R * l * P * (R * l * P))) + Q * κ / R * (S / (R * l * P)) = Q * (E + S * (κ * l * P)) / (R * l * P) ^ 2 := by
      field_simp
    rw [this, div_pow]
    gcongr
  linarith

open Classical Finset in
theorem chance_eq {Ω : Type} [Fintype Ω] (p : Ω → Prop) [DecidablePred p] :
    chance p = ((∑ t, if p t then 1 else 0 : Nat) : ℝ) / (Fintype.card Ω : Nat) := by
  unfold chance
  rw [← card_filter]
  congr! 3
  ext x
  simp only [mem_filter]

/-- The bound for answers that are chosen when first needed. -/
theorem tapes_bound (hv : J.Valid C) (hsq : IsSqrt sqrt) (har : Aligned r) (hal : Aligned J.l) (sk : ZMod J.l)
    (A : EdwardsPoint (ZMod r)) (hA : J.g.mul sk J = .ok A) (f : Forger (ZMod r) (ZMod J.l)) (q : Nat) :
    chance (fun t : Fin q → ZMod r × ZMod J.l => (attackOwner sqrt J sk A.x f (List.ofFn t)).isSome = true) ≤
      q ^ 2 / J.l + q * (r / J.l + 1 : Nat) / r +
        Real.sqrt (q * chance (fun t : (Fin q → ZMod r × ZMod J.l) × (Fin q → ZMod r × ZMod J.l) =>
          extract sqrt J A.x f (List.ofFn t.1) (List.ofFn t.2) = some sk)) := by
  obtain ⟨G, hG, -⟩ := hv.base
  rw [hG, C28_mul hv.d_eq] at hA
  cases hA
  show chance (fun t : Fin q → ZMod r × ZMod J.l => (attackOwner sqrt J sk (sk.val • G).x f (List.ofFn t)).isSome = true) ≤ _ + Real.sqrt (q *
    chance (fun t : (Fin q → ZMod r × ZMod J.l) × (Fin q → ZMod r × ZMod J.l) =>
      extract sqrt J (sk.val • G).x f (List.ofFn t.1) (List.ofFn t.2) = some sk))
  rw [chance_eq, chance_eq, Fintype.card_prod, card_tapes, Fintype.sum_prod_type]
  rcases Nat.eq_zero_or_pos q with rfl | hq
  · have : (attackOwner sqrt J sk (sk.val • G).x f []).isSome = false := by
      cases h : attackOwner sqrt J sk (sk.val • G).x f [] with
      | none => rfl
      | some w =>
        have := attack_idx h
        simp at this
    simp [this]
  refine numbers_bound (Fact.out : r.Prime).pos (Fact.out : J.l.Prime).pos hq ?_ (sim_pairs hv hsq har hal hG sk f q)
  have := wins_simulate (accept := accepts sqrt J (sk.val • G).x) (own := ownSigner J sk (sk.val • G).x)
    (sim := simSigner sqrt J (sk.val • G).x) (c := fun h => (h.val : ZMod J.l) * sk) (abscissa_injective hv hG)
    (fun log m h k hl => ownSigner_eq hv har hal hG sk log m h k hl)
    (fun log m h k hl => by
      rw [simSigner_eq hv hsq har hal hG, add_sub_cancel_right]
      rw [hl]) q f [] q (by simp)
  rw [ZMod.card, ZMod.card] at this
  exact this

theorem chance_count {Ω : Type} [Fintype Ω] (p : Ω → Prop) : chance p = (count p : ℝ) / Fintype.card Ω := by
  unfold chance count
  rw [← Finset.card_filter]

theorem count_all {X : Type} [Fintype X] {p : X → Prop} (h : ∀ x, p x) : count p = Fintype.card X := by
  unfold count
  rw [Finset.sum_congr rfl fun x _ => if_pos (h x), Finset.sum_const, Finset.card_univ, smul_eq_mul, mul_one]

open Finset in
theorem chance_prod {K T : Type} [Fintype K] [Fintype T] (p : K → T → Prop) :
    chance (fun t : K × T => p t.1 t.2) = (∑ k, chance (p k)) / Fintype.card K := by
  classical
  rw [chance_eq, Fintype.sum_prod_type, Fintype.card_prod]
  have : ∀ k, chance (p k) = ((∑ t, if p k t then 1 else 0 : Nat) : ℝ) / (Fintype.card T : Nat) := fun k => chance_eq _
  rw [sum_congr rfl fun k _ => this k, ← sum_div, div_div, Nat.cast_mul, mul_comm (Fintype.card K : ℝ)]
  push_cast
  rfl

open Finset in
theorem mean_sqrt {K : Type} [Fintype K] (x : K → ℝ) (hx : ∀ k, 0 ≤ x k) :
    (∑ k, Real.sqrt (x k)) / Fintype.card K ≤ Real.sqrt ((∑ k, x k) / Fintype.card K) := by
  rcases Nat.eq_zero_or_pos (Fintype.card K) with h0 | h0
  · rw [h0]; simp
  have h0' : (0 : ℝ) < Fintype.card K := by exact_mod_cast h0
  refine Real.le_sqrt_of_sq_le ?_
  rw [div_pow, div_le_div_iff₀ (by positivity) h0']
  have h1 := sq_sum_le_card_mul_sum_sq (s := univ) (f := fun k => Real.sqrt (x k))
  rw [card_univ, sum_congr rfl fun k _ => Real.sq_sqrt (hx k)] at h1
  calc (∑ k, Real.sqrt (x k)) ^ 2 * Fintype.card K ≤ (Fintype.card K * ∑ k, x k) * Fintype.card K := by gcongr
    _ = (∑ k, x k) * Fintype.card K ^ 2 := by ring

theorem chance_nonneg {Ω : Type} [Fintype Ω] (p : Ω → Prop) : 0 ≤ chance p := by unfold chance; positivity

theorem chance_average {K T T' : Type} [Fintype K] [Nonempty K] [Fintype T] [Fintype T'] (p : K → T → Prop) (e : K → T' → Prop) (c q : ℝ)
    (hq : 0 ≤ q) (h : ∀ k, chance (p k) ≤ c + Real.sqrt (q * chance (e k))) :
    chance (fun t : K × T => p t.1 t.2) ≤ c + Real.sqrt (q * chance (fun t : K × T' => e t.1 t.2)) := by
  rw [chance_prod, chance_prod]
  have hc : (0 : ℝ) < Fintype.card K := by
    have : 0 < Fintype.card K := Fintype.card_pos
    exact_mod_cast this
  refine (div_le_div_of_nonneg_right (Finset.sum_le_sum fun k _ => h k) hc.le).trans ?_
  rw [Finset.sum_add_distrib, add_div, Finset.sum_const, Finset.card_univ, nsmul_eq_mul, mul_div_cancel_left₀ _ hc.ne']
  refine add_le_add_right ((mean_sqrt _ fun k => mul_nonneg hq (chance_nonneg _)).trans ?_) _
  rw [← Finset.mul_sum, mul_div_assoc]

theorem ownSigner_ok (hv : J.Valid C) (har : Aligned r) (hal : Aligned J.l) {G : EdPoint C} (hG : J.g = G.affine)
    (sk : ZMod J.l) (log : List (Entry (ZMod r) (ZMod J.l))) (m : ZMod r) (h : ZMod r) (k : ZMod J.l) :
    ownSigner J sk (sk.val • G).x log m (h, k) =
      some ⟨(k.val • G).x, (sk.val • G).x, m, ((Entry.lookup (k.val • G).x (sk.val • G).x m log).map Prod.snd).getD h,
        some (k + ((((Entry.lookup (k.val • G).x (sk.val • G).x m log).map Prod.snd).getD h).val : ZMod J.l) * sk)⟩ := by
  unfold ownSigner signWith
  simp only [bind, Except.bind]
  rw [hG, C28_mul hv.d_eq]; dsimp only
  rw [C28_mul hv.d_eq]; dsimp only [EdPoint.affine]
  rw [(C47_residue har hal _).1]
  simp only [pure, Except.pure]
  cases hl : Entry.lookup (k.val • G).x (sk.val • G).x m log <;> rfl

theorem verifyWith_ok (hv : J.Valid C) (hsq : IsSqrt sqrt) (har : Aligned r) (hal : Aligned J.l) (h : ZMod r) (s : ZMod J.l)
    (rx a m : ZMod r) : verifyWith sqrt J (fun _ _ _ => .ok h) s rx a m = .ok (accepts sqrt J a h s rx m) := by
  obtain ⟨G, hG, -⟩ := hv.base
  have : ∃ b, verifyWith sqrt J (fun _ _ _ => .ok h) s rx a m = .ok b := by
    obtain ⟨oa, hoa, hpa⟩ := C31_subgroup_decompress hsq hv a
    obtain ⟨or, hor, hpr⟩ := C31_subgroup_decompress hsq hv rx
    unfold verifyWith
    rw [hoa]
    simp only [bind, Except.bind]
    cases oa with
    | none => exact ⟨_, rfl⟩
    | some pa =>
      dsimp only
      rw [hor]
      cases or with
      | none => exact ⟨_, rfl⟩
      | some pr =>
        obtain ⟨A, hA, hax, rfl⟩ := (hpa pa).1 rfl
        obtain ⟨R, hR, hrx, rfl⟩ := (hpr pr).1 rfl
        dsimp only
        rw [(C47_residue har hal _).1]; dsimp only
        rw [C28_mul hv.d_eq, hG]; dsimp only
        rw [C28_mul hv.d_eq]; dsimp only
        rw [add_affine hv.d_eq]
        exact ⟨_, rfl⟩
  obtain ⟨b, hb⟩ := this
  unfold accepts
  rw [hb]

theorem signWith_ok (hv : J.Valid C) (har : Aligned r) (hal : Aligned J.l) {G : EdPoint C} (hG : J.g = G.affine)
    (hash : ZMod r → ZMod r → ZMod r → ZMod r) (k sk : ZMod J.l) (m : ZMod r) :
    signWith J (.ok k) (fun rx a m => .ok (hash rx a m)) sk m =
      .ok (k + ((hash (k.val • G).x (sk.val • G).x m).val : ZMod J.l) * sk, (k.val • G).x) := by
  unfold signWith
  simp only [bind, Except.bind]
  rw [hG, C28_mul hv.d_eq]; dsimp only
  rw [C28_mul hv.d_eq]; dsimp only [EdPoint.affine]
  rw [(C47_residue har hal _).1]
  rfl

/-- C109 (no panic): whatever the hash functions answer, whatever the key and whatever the client does, no call of signing or verifying
panics. -/
theorem C109_no_panic (hv : J.Valid C) (hsq : IsSqrt sqrt) (har : Aligned r) (hal : Aligned J.l) (hash : ZMod r → ZMod r → ZMod r → ZMod r)
    (nonce : ZMod r → ZMod J.l) (sk : ZMod J.l) (a : ZMod r) (f : Forger (ZMod r) (ZMod J.l)) (given : List (ZMod J.l × ZMod r × ZMod r)) :
    ∃ b, play sqrt J hash nonce sk a f given = .ok b := by
  obtain ⟨G, hG, -⟩ := hv.base
  induction f generalizing given with
  | forge s rx m =>
    unfold play
    rw [show verifyWith sqrt J (fun rx a m => .ok (hash rx a m)) s rx a m = verifyWith sqrt J (fun _ _ _ => .ok (hash rx a m)) s rx a m from rfl,
      verifyWith_ok hv hsq har hal]
    exact ⟨_, rfl⟩
  | ask rx a' m next ih => exact ih _ _
  | sign m next ih =>
    unfold play
    rw [signWith_ok hv har hal hG]
    exact ih _ _

theorem play_eq (hv : J.Valid C) (hsq : IsSqrt sqrt) (har : Aligned r) (hal : Aligned J.l) {G : EdPoint C} (hG : J.g = G.affine)
    (H : ZMod r × ZMod r × ZMod r → ZMod r) (N : ZMod r → ZMod J.l) (sk : ZMod J.l) (f : Forger (ZMod r) (ZMod J.l))
    (given : List (ZMod J.l × ZMod r × ZMod r)) :
    play sqrt J (fun rx a m => H (rx, a, m)) N sk (sk.val • G).x f given =
      .ok (playA (accepts sqrt J (sk.val • G).x) (fun k : ZMod J.l => (k.val • G).x) (fun h k => k + (h.val : ZMod J.l) * sk) (sk.val • G).x H N f given) := by
  induction f generalizing given with
  | forge s rx m =>
    unfold play
    rw [show verifyWith sqrt J (fun rx a m => .ok (H (rx, a, m))) s rx (sk.val • G).x m =
        verifyWith sqrt J (fun _ _ _ => .ok (H (rx, (sk.val • G).x, m))) s rx (sk.val • G).x m from rfl,
      verifyWith_ok hv hsq har hal]
    rfl
  | ask rx a' m next ih => exact ih _ _
  | sign m next ih =>
    unfold play
    rw [signWith_ok hv har hal hG (fun rx a m => H (rx, a, m))]
    exact ih _ _

/-- C109 (random functions): choosing the two hash functions at random beforehand is the same for the client as choosing each of their
values when it is first needed: `n` requests and the verification at the end need at most `n + 1` values. -/
theorem C109_lazy (hv : J.Valid C) (hsq : IsSqrt sqrt) (har : Aligned r) (hal : Aligned J.l) (sk : ZMod J.l)
    (A : EdwardsPoint (ZMod r)) (hA : J.g.mul sk J = .ok A) (f : Forger (ZMod r) (ZMod J.l)) (n : Nat) (hf : f.AtMost n) :
    chance (fun x : (ZMod r × ZMod r × ZMod r → ZMod r) × (ZMod r → ZMod J.l) =>
        play sqrt J (fun rx a m => x.1 (rx, a, m)) x.2 sk A.x f [] = .ok true) =
      chance (fun t : Fin (n + 1) → ZMod r × ZMod J.l => (attackOwner sqrt J sk A.x f (List.ofFn t)).isSome = true) := by
  classical
  obtain ⟨G, hG, -⟩ := hv.base
  rw [hG, C28_mul hv.d_eq] at hA
  cases hA
  show chance (fun x : (ZMod r × ZMod r × ZMod r → ZMod r) × (ZMod r → ZMod J.l) =>
        play sqrt J (fun rx a m => x.1 (rx, a, m)) x.2 sk (sk.val • G).x f [] = .ok true) =
      chance (fun t : Fin (n + 1) → ZMod r × ZMod J.l => (attackOwner sqrt J sk (sk.val • G).x f (List.ofFn t)).isSome = true)
  have key := lazy_eq (accept := accepts sqrt J (sk.val • G).x) (own := ownSigner J sk (sk.val • G).x)
    (sg := fun h k => k + (h.val : ZMod J.l) * sk) (a := (sk.val • G).x) (abscissa_injective hv hG)
    (fun log m h k => ownSigner_ok hv har hal hG sk log m h k) f n hf [] [] (by
      intro s rx m
      rw [given_iff]
      simp)
  have htriv : ∀ x, Agrees (fun k : ZMod J.l => (k.val • G).x) (fun (h : ZMod r) (k : ZMod J.l) => k + (h.val : ZMod J.l) * sk) (sk.val • G).x [] x := by
    intro x e he
    cases he
  rw [count_congr (q := fun x : (ZMod r × ZMod r × ZMod r → ZMod r) × (ZMod r → ZMod J.l) =>
      play sqrt J (fun rx a m => x.1 (rx, a, m)) x.2 sk (sk.val • G).x f [] = .ok true) (by
    intro x
    rw [play_eq hv hsq har hal hG]
    exact ⟨fun h => by rw [h.2], fun h => ⟨htriv x, Except.ok.inj h⟩⟩), ZMod.card, ZMod.card] at key
  have hall : (count fun x => Agrees (fun k : ZMod J.l => (k.val • G).x) (fun (h : ZMod r) (k : ZMod J.l) => k + (h.val : ZMod J.l) * sk) (sk.val • G).x [] x) =
      Fintype.card ((ZMod r × ZMod r × ZMod r → ZMod r) × (ZMod r → ZMod J.l)) := by
    exact count_all htriv
  rw [hall] at key
  rw [chance_count (fun x : (ZMod r × ZMod r × ZMod r → ZMod r) × (ZMod r → ZMod J.l) =>
        play sqrt J (fun rx a m => x.1 (rx, a, m)) x.2 sk (sk.val • G).x f [] = .ok true), chance_eq, card_tapes, div_eq_div_iff]
  · rw [mul_comm (Fintype.card _)] at key
    exact_mod_cast key
  · exact_mod_cast Fintype.card_ne_zero
  · have : (r * J.l) ^ (n + 1) ≠ 0 := pow_ne_zero _ (Nat.mul_ne_zero (Fact.out : r.Prime).ne_zero (Fact.out : J.l.Prime).ne_zero)
    exact_mod_cast this

/-- C109 (one key): let the challenge hash and the nonces be random functions.  A client that makes `n` requests (values of the challenge
hash, signatures), in any order and each depending on all answers before, forges a signature under the public key of `sk` with a
probability that is bounded by the probability `ε` of the extractor, which is given only the public key and runs the client twice, to
output `sk`: with `q = n + 1` it is at most `q² / l + q (⌊r / l⌋ + 1) / r + √(q ε)`. -/
theorem C109_unforgeable (hv : J.Valid C) (hsq : IsSqrt sqrt) (har : Aligned r) (hal : Aligned J.l) (sk : ZMod J.l)
    (A : EdwardsPoint (ZMod r)) (hA : J.g.mul sk J = .ok A) (f : Forger (ZMod r) (ZMod J.l)) (n : Nat) (hf : f.AtMost n) :
    chance (fun x : (ZMod r × ZMod r × ZMod r → ZMod r) × (ZMod r → ZMod J.l) =>
        play sqrt J (fun rx a m => x.1 (rx, a, m)) x.2 sk A.x f [] = .ok true) ≤
      (n + 1 : Nat) ^ 2 / J.l + (n + 1 : Nat) * (r / J.l + 1 : Nat) / r +
        Real.sqrt ((n + 1 : Nat) * chance (fun t : (Fin (n + 1) → ZMod r × ZMod J.l) × (Fin (n + 1) → ZMod r × ZMod J.l) =>
          extract sqrt J A.x f (List.ofFn t.1) (List.ofFn t.2) = some sk)) := by
  rw [C109_lazy hv hsq har hal sk A hA f n hf]
  exact tapes_bound hv hsq har hal sk A hA f (n + 1)

/-- C109 (random key): the same for a key that is chosen at random and a client that gets the public key and random coins `ω`: a client
that forges with probability more than the two small terms gives a program that computes secret keys from public keys. -/
theorem C109_average (hv : J.Valid C) (hsq : IsSqrt sqrt) (har : Aligned r) (hal : Aligned J.l) {Ω : Type} [Fintype Ω] [Nonempty Ω]
    (pk : ZMod J.l → EdwardsPoint (ZMod r)) (hpk : ∀ sk, J.g.mul sk J = .ok (pk sk)) (f : ZMod r → Ω → Forger (ZMod r) (ZMod J.l)) (n : Nat)
    (hf : ∀ a ω, (f a ω).AtMost n) :
    chance (fun t : (ZMod J.l × Ω) × ((ZMod r × ZMod r × ZMod r → ZMod r) × (ZMod r → ZMod J.l)) =>
        play sqrt J (fun rx a m => t.2.1 (rx, a, m)) t.2.2 t.1.1 (pk t.1.1).x (f (pk t.1.1).x t.1.2) [] = .ok true) ≤
      (n + 1 : Nat) ^ 2 / J.l + (n + 1 : Nat) * (r / J.l + 1 : Nat) / r +
        Real.sqrt ((n + 1 : Nat) * chance (fun t : (ZMod J.l × Ω) × ((Fin (n + 1) → ZMod r × ZMod J.l) × (Fin (n + 1) → ZMod r × ZMod J.l)) =>
          extract sqrt J (pk t.1.1).x (f (pk t.1.1).x t.1.2) (List.ofFn t.2.1) (List.ofFn t.2.2) = some t.1.1)) := by
  exact chance_average (fun (k : ZMod J.l × Ω) (x : (ZMod r × ZMod r × ZMod r → ZMod r) × (ZMod r → ZMod J.l)) =>
      play sqrt J (fun rx a m => x.1 (rx, a, m)) x.2 k.1 (pk k.1).x (f (pk k.1).x k.2) [] = .ok true)
    (fun (k : ZMod J.l × Ω) (t : (Fin (n + 1) → ZMod r × ZMod J.l) × (Fin (n + 1) → ZMod r × ZMod J.l)) =>
      extract sqrt J (pk k.1).x (f (pk k.1).x k.2) (List.ofFn t.1) (List.ofFn t.2) = some k.1) _ _ (Nat.cast_nonneg _)
    fun k => C109_unforgeable hv hsq har hal k.1 (pk k.1) (hpk k.1) (f (pk k.1).x k.2) n (hf _ _)

/-- Whoever has the secret key can sign without asking the signer. -/
def ownerClient (J : JubJubParams (ZMod r)) [Fact J.l.Prime] (sk k : ZMod J.l) (a rx m : ZMod r) : Forger (ZMod r) (ZMod J.l) :=
  .ask rx a m fun h => .forge (k + (h.val : ZMod J.l) * sk) rx m

/-- C109 (who has the key can forge): a client that has the secret key, asks for one value of the hash and signs as the code does, wins
for all hash functions; and the extractor finds the key on every two tapes whose first challenges differ modulo the order. -/
theorem C109_owner (hv : J.Valid C) (hsq : IsSqrt sqrt) (har : Aligned r) (hal : Aligned J.l) (sk k : ZMod J.l)
    (A R : EdwardsPoint (ZMod r)) (hA : J.g.mul sk J = .ok A) (hR : J.g.mul k J = .ok R) (m : ZMod r) :
    (∀ hash nonce, play sqrt J hash nonce sk A.x (ownerClient J sk k A.x R.x m) [] = .ok true) ∧
      ∀ x x' t t', (x.1.val : ZMod J.l) ≠ (x'.1.val : ZMod J.l) →
        extract sqrt J A.x (ownerClient J sk k A.x R.x m) (x :: t) (x' :: t') = some sk := by
  obtain ⟨G, hG, -⟩ := hv.base
  rw [hG, C28_mul hv.d_eq] at hA hR
  cases hA
  cases hR
  show (∀ hash nonce, play sqrt J hash nonce sk (sk.val • G).x (ownerClient J sk k (sk.val • G).x (k.val • G).x m) [] = .ok true) ∧
    ∀ x x' t t', _ → extract sqrt J (sk.val • G).x (ownerClient J sk k (sk.val • G).x (k.val • G).x m) (x :: t) (x' :: t') = some sk
  have hacc : ∀ h, accepts sqrt J (sk.val • G).x h (k + (h.val : ZMod J.l) * sk) (k.val • G).x m = true := fun h =>
    (accepts_iff hv hsq har hal hG _ _ _ _ _).2 ⟨_, base_sub hv hG _, rfl, by rw [EdPoint.val_add_nsmul (order_base hv hG).1]⟩
  have hrun : ∀ signer (x : ZMod r × ZMod J.l) t, attack (accepts sqrt J (sk.val • G).x) signer (sk.val • G).x
      (ownerClient J sk k (sk.val • G).x (k.val • G).x m) [] (x :: t) = some ⟨0, x.1, k + (x.1.val : ZMod J.l) * sk⟩ := by
    intro signer x t
    have hl : Entry.lookup (k.val • G).x (sk.val • G).x m [(⟨(k.val • G).x, (sk.val • G).x, m, x.1, none⟩ : Entry (ZMod r) (ZMod J.l))] = some (0, x.1) := by
      unfold Entry.lookup
      rw [if_pos ⟨rfl, rfl, rfl⟩]; rfl
    have hg : Entry.given (k + (x.1.val : ZMod J.l) * sk) (k.val • G).x m
        [(⟨(k.val • G).x, (sk.val • G).x, m, x.1, none⟩ : Entry (ZMod r) (ZMod J.l))] = false := by
      simp [Entry.given]
    show attack (accepts sqrt J (sk.val • G).x) signer (sk.val • G).x (.forge (k + (x.1.val : ZMod J.l) * sk) (k.val • G).x m)
      [⟨(k.val • G).x, (sk.val • G).x, m, x.1, none⟩] t = _
    unfold attack
    rw [hl]
    simp only [hacc, hg, Bool.not_false, Bool.and_self, if_true]
  constructor
  · intro hash nonce
    have := play_eq hv hsq har hal hG (fun q => hash q.1 q.2.1 q.2.2) nonce sk (ownerClient J sk k (sk.val • G).x (k.val • G).x m) []
    rw [show (fun rx a m => (fun q : ZMod r × ZMod r × ZMod r => hash q.1 q.2.1 q.2.2) (rx, a, m)) = hash from rfl] at this
    rw [this]
    congr 1
    unfold ownerClient playA playA
    rw [hacc]
    rfl
  · intro x x' t t' hne
    unfold extract attackSim
    rw [hrun]
    dsimp only
    rw [List.take_zero, List.nil_append, List.drop_zero, hrun]
    dsimp only
    rw [(C47_residue har hal _).1, (C47_residue har hal _).1]
    dsimp only
    rw [if_pos ⟨rfl, hne⟩, add_sub_add_left_eq_sub, ← sub_mul, mul_div_cancel_left₀]
    exact sub_ne_zero.2 hne

/-- C109 (numbers): for the two shipped curves and a client that gets at most `2⁶⁰` answers, the two terms that do not depend on the
extractor are less than `2⁻¹²⁰` together. -/
theorem C109_shipped (q : Nat) (hq : q ≤ 2 ^ 60) :
    (q : ℝ) ^ 2 / bnParams.l + q * (bnR / bnParams.l + 1 : Nat) / bnR < 1 / 2 ^ 120 ∧
      (q : ℝ) ^ 2 / blsParams.l + q * (blsR / blsParams.l + 1 : Nat) / blsR < 1 / 2 ^ 120 := by
  have key : ∀ l r : Nat, 2 ^ 248 ≤ l → 2 ^ 250 ≤ r → r / l + 1 ≤ 16 →
      (q : ℝ) ^ 2 / l + q * (r / l + 1 : Nat) / r < 1 / 2 ^ 120 := by
    intro l r hl hr hc
    have hl' : (2 : ℝ) ^ 248 ≤ l := by exact_mod_cast hl
    have hr' : (2 : ℝ) ^ 250 ≤ r := by exact_mod_cast hr
    have hc' : ((r / l + 1 : Nat) : ℝ) ≤ 16 := by exact_mod_cast hc
    have hq' : (q : ℝ) ≤ 2 ^ 60 := by exact_mod_cast hq
    calc (q : ℝ) ^ 2 / l + q * (r / l + 1 : Nat) / r ≤ (2 ^ 60) ^ 2 / 2 ^ 248 + 2 ^ 60 * 16 / 2 ^ 250 := by gcongr
      _ < 1 / 2 ^ 120 := by norm_num
  exact ⟨key bnL bnR (by decide +kernel) (by decide +kernel) (by decide +kernel), key blsL blsR (by decide +kernel) (by decide +kernel) (by decide +kernel)⟩

/-- Concrete: the bound for the public key of 5 on BN256, for every client with less than `2⁶⁰` requests; and the client that has the key,
which makes one request, always wins. -/
example : ∃ sqrt A, IsSqrt sqrt ∧ bnParams.g.mul (5 : ZMod bnParams.l) bnParams = .ok A ∧
    (∀ (f : Forger (ZMod bnR) (ZMod bnParams.l)) (n : Nat), f.AtMost n → n < 2 ^ 60 →
      chance (fun x : (ZMod bnR × ZMod bnR × ZMod bnR → ZMod bnR) × (ZMod bnR → ZMod bnParams.l) =>
        play sqrt bnParams (fun rx a m => x.1 (rx, a, m)) x.2 5 A.x f [] = .ok true) ≤ 1 / 2 ^ 120 + Real.sqrt ((n + 1 : Nat) *
          chance (fun t : (Fin (n + 1) → ZMod bnR × ZMod bnParams.l) × (Fin (n + 1) → ZMod bnR × ZMod bnParams.l) =>
            extract sqrt bnParams A.x f (List.ofFn t.1) (List.ofFn t.2) = some 5))) ∧
    ∃ f : Forger (ZMod bnR) (ZMod bnParams.l), f.AtMost 1 ∧ ∀ hash nonce, play sqrt bnParams hash nonce 5 A.x f [] = .ok true := by
  obtain ⟨sqrt, hs⟩ := exists_isSqrt (ZMod bnR)
  obtain ⟨G, hG, -⟩ := bnParams_valid.base
  have hmul : ∀ k : ZMod bnParams.l, bnParams.g.mul k bnParams = .ok (k.val • G).affine := fun k => by rw [hG, C28_mul bnParams_valid.d_eq]
  refine ⟨sqrt, _, hs, hmul 5, fun f n hf hn => ?_,
    ownerClient bnParams 5 3 ((5 : ZMod bnParams.l).val • G).affine.x ((3 : ZMod bnParams.l).val • G).affine.x 7, fun _ => trivial, ?_⟩
  · refine (C109_unforgeable bnParams_valid hs aligned_bnR aligned_bnL 5 _ (hmul 5) f n hf).trans ?_
    have := (C109_shipped (n + 1) hn).1
    gcongr
  · exact (C109_owner bnParams_valid hs aligned_bnR aligned_bnL 5 3 _ _ (hmul 5) (hmul 3) 7).1

end Fawkes.Props
