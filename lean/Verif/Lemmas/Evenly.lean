import Verif.Lemmas.RandomGroup
import Verif.Props.OsRng

/-!
# Lemmas: results that are equally likely
-/

namespace Fawkes.Props

open Groth16 Groth16.Contract Fawkes

/-- A permutation of the values of a function whose fibres are alike comes from a permutation of the arguments. -/
theorem lift_perm {B A : Type} (F : B → A) (he : ∀ a a', Nonempty ({x // F x = a} ≃ {x // F x = a'})) (π : Equiv.Perm A) :
    ∃ ρ : Equiv.Perm B, ∀ x, F (ρ x) = π (F x) := by
  have e : ∀ a, {x // F x = a} ≃ {x // F x = π a} := fun a => Classical.choice (he a (π a))
  refine ⟨(Equiv.sigmaFiberEquiv F).symm.trans ((Equiv.sigmaCongr π e).trans (Equiv.sigmaFiberEquiv F)), fun x => ?_⟩
  exact (e (F x) ⟨x, rfl⟩).2

theorem evenly {B T : Type} {pre : Sampler B} (hf : Free pre) (V : T → Prop) [Finite {t // V t}] (F : B → T) (hV : ∀ x, V (F x))
    (he : ∀ t t', V t → V t' → Nonempty ({x // F x = t} ≃ {x // F x = t'})) (g : Sampler T)
    (hg : ∀ b, g b = (pre b).map fun q => (F q.1, q.2)) (n : Nat) (t : T) (ht : V t) :
    strings n (fun b => ∃ rest, g b = .ok (t, rest)) * Nat.card {t // V t} = strings n (fun b => ∃ t rest, g b = .ok (t, rest)) := by
  classical
  haveI : Fintype {t // V t} := Fintype.ofFinite _
  let F' : B → {t // V t} := fun x => ⟨F x, hV x⟩
  have he' : ∀ a a', Nonempty ({x // F' x = a} ≃ {x // F' x = a'}) := by
    intro a a'
    obtain ⟨e⟩ := he a.1 a'.1 a.2 a'.2
    have conv : ∀ a : {t // V t}, {x // F' x = a} ≃ {x // F x = a.1} := fun a =>
      Equiv.subtypeEquivRight fun x => ⟨fun h => congrArg Subtype.val h, fun h => Subtype.ext h⟩
    exact ⟨(conv a).trans (e.trans (conv a').symm)⟩
  let g' : Sampler {t // V t} := fun b => (pre b).map fun q => (F' q.1, q.2)
  have H : ∀ π : Equiv.Perm {t // V t}, ∃ σ : Equiv.Perm Entropy, (∀ b, (σ b).length = b.length) ∧
      ∀ b, g' (σ b) = (g' b).map fun q => (π (id q.1), q.2) := by
    intro π
    obtain ⟨ρ, hρ⟩ := lift_perm F' he' π
    obtain ⟨σ, h1, h2⟩ := hf.perm ρ
    refine ⟨σ, h1, fun b => ?_⟩
    show (pre (σ b)).map _ = _
    rw [h2]
    show _ = ((pre b).map _).map _
    rcases pre b with k | ⟨x, s⟩
    · rfl
    · show Except.ok (F' (ρ x), s) = Except.ok (π (F' x), s)
      rw [hρ]
  have h := count_free (get := id) (set := fun _ y => y) (fun _ _ => rfl) H n {⟨t, ht⟩}
  rw [Finset.card_singleton, one_mul, ← Nat.card_eq_fintype_card] at h
  have back : ∀ (b : Entropy) (s : T) (rest : Entropy), g b = .ok (s, rest) ↔ ∃ hs : V s, g' b = .ok (⟨s, hs⟩, rest) := by
    intro b s rest
    rw [hg]
    show _ ↔ ∃ hs : V s, (pre b).map _ = _
    rcases pre b with k | ⟨x, s'⟩
    · exact ⟨fun h => (by cases h), fun ⟨_, h⟩ => (by cases h)⟩
    · constructor
      · intro h; cases h; exact ⟨hV x, rfl⟩
      · rintro ⟨hs, h⟩
        cases h
        rfl
  have e1 : (fun b => ∃ rest, g b = .ok (t, rest)) =
      fun b => ∃ a rest, g' b = .ok (a, rest) ∧ id a ∈ ({⟨t, ht⟩} : Finset {t // V t}) := by
    funext b
    refine propext ⟨?_, ?_⟩
    · rintro ⟨rest, h⟩
      obtain ⟨hs, h'⟩ := (back _ _ _).1 h
      exact ⟨_, rest, h', Finset.mem_singleton.2 rfl⟩
    · rintro ⟨a, rest, h, ha⟩
      have ha : a = ⟨t, ht⟩ := Finset.mem_singleton.1 ha
      subst ha
      exact ⟨rest, (back _ _ _).2 ⟨ht, h⟩⟩
  have e2 : (fun b => ∃ t rest, g b = .ok (t, rest)) = fun b => ∃ a rest, g' b = .ok (a, rest) := by
    funext b
    refine propext ⟨?_, ?_⟩
    · rintro ⟨s, rest, h⟩
      obtain ⟨hs, h'⟩ := (back _ _ _).1 h
      exact ⟨_, rest, h'⟩
    · rintro ⟨a, rest, h⟩
      exact ⟨a.1, rest, (back _ _ _).2 ⟨a.2, h⟩⟩
  rw [e1, e2]
  exact h

theorem fibre_prod {B1 B2 A1 A2 : Type} (f1 : B1 → A1) (f2 : B2 → A2) {a1 a1' : A1} {a2 a2' : A2}
    (e1 : Nonempty ({x // f1 x = a1} ≃ {x // f1 x = a1'})) (e2 : Nonempty ({x // f2 x = a2} ≃ {x // f2 x = a2'})) :
    Nonempty ({x : B1 × B2 // Prod.map f1 f2 x = (a1, a2)} ≃ {x : B1 × B2 // Prod.map f1 f2 x = (a1', a2')}) := by
  obtain ⟨e1⟩ := e1
  obtain ⟨e2⟩ := e2
  have conv : ∀ (a1 : A1) (a2 : A2), {x : B1 × B2 // Prod.map f1 f2 x = (a1, a2)} ≃ {x // f1 x = a1} × {x // f2 x = a2} := fun a1 a2 =>
    { toFun := fun x => (⟨x.1.1, (Prod.ext_iff.1 x.2).1⟩, ⟨x.1.2, (Prod.ext_iff.1 x.2).2⟩)
      invFun := fun y => ⟨(y.1.1, y.2.1), Prod.ext y.1.2 y.2.2⟩
      left_inv := fun _ => rfl
      right_inv := fun _ => rfl }
  exact ⟨(conv _ _).trans ((e1.prodCongr e2).trans (conv _ _).symm)⟩

theorem fibre_id {B : Type} (a a' : B) : Nonempty ({x : B // id x = a} ≃ {x : B // id x = a'}) :=
  ⟨⟨fun _ => ⟨a', rfl⟩, fun _ => ⟨a, rfl⟩, fun x => Subtype.ext x.2.symm, fun x => Subtype.ext x.2.symm⟩⟩

/-! ### The groups of BN256 -/

/-- In a group of order `r·h`, `r` prime and not a divisor of `h`, at most `r` elements are killed by `r`, and they are the multiples of `h`. -/
theorem card_torsion {G : Type} [AddCommGroup G] [Finite G] {r h : Nat} (hr : r.Prime) (hc : Nat.Coprime r h) (hG : Nat.card G = r * h)
    (g : G) (hg : r • g = 0) (hg0 : g ≠ 0) : Nat.card {x : G // r • x = 0} = r := by
  let T : AddSubgroup G := (nsmulAddMonoidHom r : G →+ G).ker
  have hT : ∀ x, x ∈ T ↔ r • x = 0 := fun x => Iff.rfl
  have e : Nat.card {x : G // r • x = 0} = Nat.card T := Nat.card_congr (Equiv.subtypeEquivRight fun x => (hT x).symm)
  rw [e]
  have hd : Nat.card T ∣ r * h := hG ▸ AddSubgroup.card_addSubgroup_dvd_card T
  have hcop : Nat.Coprime (Nat.card T) h := by
    refine Nat.Coprime.symm (Nat.coprime_of_dvd fun p hp hph hpT => ?_)
    haveI : Fact p.Prime := ⟨hp⟩
    obtain ⟨x, hx⟩ := exists_prime_addOrderOf_dvd_card' p hpT
    have hx0 : r • x = 0 := Subtype.ext ((hT x.1).1 x.2)
    have := addOrderOf_dvd_of_nsmul_eq_zero hx0
    rw [hx] at this
    have hpr : p = r := (Nat.prime_dvd_prime_iff_eq hp hr).1 this
    subst hpr
    have h1 : p ∣ 1 := hc ▸ Nat.dvd_gcd dvd_rfl hph
    exact hp.one_lt.ne' (Nat.dvd_one.1 h1)
  have hdr := hcop.dvd_of_dvd_mul_right hd
  rcases (Nat.dvd_prime hr).1 hdr with h1 | h1
  · exfalso
    have := (Nat.card_eq_one_iff_unique.1 h1).1
    exact hg0 (congrArg Subtype.val (this.elim (⟨g, hg⟩ : T) 0))
  · exact h1

theorem killed_bn (P : PointsOf bnB) : bnR • P = 0 := by
  haveI := finite_points goodBn
  have h := card_nsmul_eq_zero' (x := P)
  rwa [card_bn] at h

theorem killed_bn2 (P : PointsOf bnB2) : bnR • bnCofactor • P = 0 := by
  haveI := finite_points goodBn2
  have h := card_nsmul_eq_zero' (x := P)
  rw [card_bn2, mul_nsmul'] at h
  exact h

theorem card_bn2_torsion : Nat.card {P : PointsOf bnB2 // bnR • P = 0} = bnR := by
  haveI := finite_points goodBn2
  exact card_torsion Fact.out coprime_cofactor card_bn2 genBn2 genBn2_killed (WeierstrassCurve.Affine.Point.some_ne_zero _)

/-- An element killed by `r` is a multiple of every number that `r` does not divide. -/
theorem multiple_of_killed {G : Type} [AddCommGroup G] {r h : Nat} (hr : 1 < r) (hc : Nat.Coprime r h) (g : G) (hg : r • g = 0) :
    ∃ P : G, g = h • P := by
  obtain ⟨m, hm⟩ := Nat.exists_mul_mod_eq_one_of_coprime hc.symm hr
  refine ⟨m • g, ?_⟩
  have : h * m = r * (h * m / r) + 1 := by rw [← hm.2]; exact (Nat.div_add_mod _ _).symm
  rw [← mul_nsmul', this, add_nsmul, one_nsmul, mul_comm, mul_nsmul', hg, smul_zero, zero_add]

end Fawkes.Props
