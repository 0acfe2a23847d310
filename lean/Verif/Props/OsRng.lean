import Verif.Lemmas.OsRng
import Verif.Props.Proving
import Mathlib.Data.Fintype.Card
import Mathlib.Data.Set.Finite.List

/-!
# Properties of the randomness of keys and proofs: C82

The operating system is a string of bytes.  "Equally likely" is stated by counting: as many strings of every length lead to the one result
as to the other, by a bijection of the byte strings that preserves their lengths.
-/

set_option linter.unusedSectionVars false

namespace Fawkes.Props

open Fawkes Fawkes.Groth16

variable {r : Nat} [Fact r.Prime]

/-- C82: the field elements that `OsRng` gives are uniformly distributed: every permutation of the field comes from a bijection of the byte
strings that preserves their lengths, and the bytes that are left. -/
theorem C82_uniform (h2 : (2 : ZMod r) ≠ 0) (π : Equiv.Perm (ZMod r)) :
    ∃ σ : Equiv.Perm Entropy, (∀ b, (σ b).length = b.length) ∧
      ∀ b, OsRng.rand r (σ b) = (OsRng.rand r b).map fun q => (π q.1, q.2) :=
  (OsRng.rand_slots h2).perm (fun _ _ => rfl) π

theorem proofCoins_eq (b : Entropy) : proofCoins r b = Sampler.seq (OsRng.rand r) (OsRng.rand r) b := by
  unfold proofCoins Sampler.seq
  rcases OsRng.rand r b with e | ⟨x, s⟩
  · rfl
  · show (OsRng.rand r s >>= _) = _
    dsimp only
    rcases OsRng.rand r s with e | ⟨y, s⟩ <;> rfl

/-- C82: the two random choices of `prove` are uniform and independent of each other: every permutation of the pairs comes from a bijection of
the byte strings that preserves their lengths. -/
theorem C82_proof_coins (h2 : (2 : ZMod r) ≠ 0) (π : Equiv.Perm (ZMod r × ZMod r)) :
    ∃ σ : Equiv.Perm Entropy, (∀ b, (σ b).length = b.length) ∧
      ∀ b, proofCoins r (σ b) = (proofCoins r b).map fun q => (π q.1, q.2) := by
  obtain ⟨σ, h1, h3⟩ := ((OsRng.rand_slots h2).seq (OsRng.rand_slots h2)).perm (fun _ _ => rfl) π
  refine ⟨σ, h1, fun b => ?_⟩
  rw [proofCoins_eq, proofCoins_eq]
  exact h3 b

variable {G1 G2 : Type}

/-- The five secret field elements of the key generator. -/
def secrets (t : Toxic G1 G2 r) : ZMod r × ZMod r × ZMod r × ZMod r × ZMod r := (t.alpha, t.beta, t.gamma, t.delta, t.tau)

/-- The same points with other secret field elements. -/
def withSecrets (t : Toxic G1 G2 r) (s : ZMod r × ZMod r × ZMod r × ZMod r × ZMod r) : Toxic G1 G2 r :=
  ⟨t.g1, t.g2, s.1, s.2.1, s.2.2.1, s.2.2.2.1, s.2.2.2.2⟩

/-- Random choices as a tuple. -/
def toxicEquiv : (G1 × G2 × ZMod r × ZMod r × ZMod r × ZMod r × ZMod r) ≃ Toxic G1 G2 r where
  toFun q := ⟨q.1, q.2.1, q.2.2.1, q.2.2.2.1, q.2.2.2.2.1, q.2.2.2.2.2.1, q.2.2.2.2.2.2⟩
  invFun t := (t.g1, t.g2, t.alpha, t.beta, t.gamma, t.delta, t.tau)
  left_inv _ := rfl
  right_inv _ := rfl

variable [AddCommGroup G1] [AddCommGroup G2] [DecidableEq G1] [DecidableEq G2]

theorem setupCoins_eq (point1 : Sampler G1) (point2 : Sampler G2) (b : Entropy) :
    setupCoins r point1 point2 b = (Sampler.seq point1 (Sampler.seq point2 (Sampler.seq (OsRng.rand r) (Sampler.seq (OsRng.rand r)
      (Sampler.seq (OsRng.rand r) (Sampler.seq (OsRng.rand r) (OsRng.rand r)))))) b).map fun q => (toxicEquiv q.1, q.2) := by
  unfold setupCoins Sampler.seq
  rcases point1 b with e | ⟨g1, s⟩
  · rfl
  · show (point2 s >>= _) = _
    dsimp only
    rcases point2 s with e | ⟨g2, s⟩
    · rfl
    · show (OsRng.rand r s >>= _) = _
      dsimp only
      rcases OsRng.rand r s with e | ⟨x1, s⟩
      · rfl
      · show (OsRng.rand r s >>= _) = _
        dsimp only
        rcases OsRng.rand r s with e | ⟨x2, s⟩
        · rfl
        · show (OsRng.rand r s >>= _) = _
          dsimp only
          rcases OsRng.rand r s with e | ⟨x3, s⟩
          · rfl
          · show (OsRng.rand r s >>= _) = _
            dsimp only
            rcases OsRng.rand r s with e | ⟨x4, s⟩
            · rfl
            · show (OsRng.rand r s >>= _) = _
              dsimp only
              rcases OsRng.rand r s with e | ⟨x5, s⟩ <;> rfl

/-- C82: the five secret field elements of `generate_keys` are uniform and independent of each other and of the two random points, whatever
way those are made from the bytes. -/
theorem C82_setup_coins (h2 : (2 : ZMod r) ≠ 0) {point1 : Sampler G1} {point2 : Sampler G2} (hp1 : Reads point1) (hp2 : Reads point2)
    (π : Equiv.Perm (ZMod r × ZMod r × ZMod r × ZMod r × ZMod r)) :
    ∃ σ : Equiv.Perm Entropy, (∀ b, (σ b).length = b.length) ∧
      ∀ b, setupCoins r point1 point2 (σ b) =
        (setupCoins r point1 point2 b).map fun q => (withSecrets q.1 (π (secrets q.1)), q.2) := by
  have R := OsRng.rand_slots (p := r) h2
  have S := (hp1.slots.seq (hp2.slots.seq (R.seq (R.seq (R.seq (R.seq R)))))).map toxicEquiv (setupCoins r point1 point2)
    (setupCoins_eq point1 point2)
  obtain ⟨σ, h1, h3⟩ := S.perm (fun _ _ => rfl)
    (((Equiv.punitProd _).trans (Equiv.punitProd _)).trans (π.trans ((Equiv.punitProd _).trans (Equiv.punitProd _)).symm))
  exact ⟨σ, h1, h3⟩

/-! ### Counting -/

/-- The number of byte strings of length `n` with the property. -/
noncomputable def strings (n : Nat) (Q : Entropy → Prop) : Nat := {b : Entropy | b.length = n ∧ Q b}.ncard

theorem finite_strings (n : Nat) (Q : Entropy → Prop) : {b : Entropy | b.length = n ∧ Q b}.Finite := by
  have : Finite UInt8 := Finite.of_injective UInt8.toFin fun a b h => UInt8.toFin_inj.1 h
  exact (List.finite_length_eq UInt8 n).subset fun b h => h.1

theorem strings_mono {n : Nat} {Q Q' : Entropy → Prop} (h : ∀ b, Q b → Q' b) : strings n Q ≤ strings n Q' :=
  Set.ncard_le_ncard (fun b hb => ⟨hb.1, h b hb.2⟩) (finite_strings n Q')

theorem count_free {α B : Type} [Fintype B] [DecidableEq B] {get : α → B} {set : α → B → α} (hgs : ∀ a y, get (set a y) = y)
    {g : Sampler α} (H : ∀ π : Equiv.Perm B, ∃ σ : Equiv.Perm Entropy, (∀ b, (σ b).length = b.length) ∧
      ∀ b, g (σ b) = (g b).map fun q => (set q.1 (π (get q.1)), q.2)) (n : Nat) (bad : Finset B) :
    strings n (fun b => ∃ a rest, g b = .ok (a, rest) ∧ get a ∈ bad) * Fintype.card B =
      bad.card * strings n (fun b => ∃ a rest, g b = .ok (a, rest)) := by
  have one : ∀ z z', strings n (fun b => ∃ a rest, g b = .ok (a, rest) ∧ get a = z) =
      strings n (fun b => ∃ a rest, g b = .ok (a, rest) ∧ get a = z') := by
    intro z z'
    obtain ⟨σ, h1, h2⟩ := H (Equiv.swap z z')
    refine Nat.card_congr (σ.subtypeEquiv fun b => ?_)
    show (b.length = n ∧ ∃ a rest, g b = .ok (a, rest) ∧ get a = z) ↔
      ((σ b).length = n ∧ ∃ a rest, g (σ b) = .ok (a, rest) ∧ get a = z')
    rw [h1, h2]
    refine and_congr_right fun _ => ?_
    rcases g b with e | ⟨a, rest⟩
    · exact ⟨fun ⟨_, _, h, _⟩ => (by cases h), fun ⟨_, _, h, _⟩ => (by cases h)⟩
    · constructor
      · rintro ⟨a', rest', h, rfl⟩
        cases h
        exact ⟨_, _, rfl, by rw [hgs, Equiv.swap_apply_left]⟩
      · rintro ⟨a', rest', h, hz⟩
        cases h
        rw [hgs] at hz
        refine ⟨_, _, rfl, ?_⟩
        exact (Equiv.swap z z').injective (hz.trans (Equiv.swap_apply_left z z').symm)
  have split : ∀ s : Finset B, strings n (fun b => ∃ a rest, g b = .ok (a, rest) ∧ get a ∈ s) =
      ∑ z ∈ s, strings n (fun b => ∃ a rest, g b = .ok (a, rest) ∧ get a = z) := by
    intro s
    induction s using Finset.induction_on with
    | empty =>
      rw [Finset.sum_empty]
      unfold strings
      have : {b : Entropy | b.length = n ∧ ∃ a rest, g b = .ok (a, rest) ∧ get a ∈ (∅ : Finset B)} = ∅ := by
        ext b; simp
      rw [this, Set.ncard_empty]
    | insert z s hz ih =>
      rw [Finset.sum_insert hz, ← ih]
      unfold strings
      rw [← Set.ncard_union_eq ?_ (finite_strings _ _) (finite_strings _ _)]
      · congr 1
        ext b
        constructor
        · rintro ⟨hb, a, rest, h, ha⟩
          rcases Finset.mem_insert.1 ha with ha | ha
          · exact .inl ⟨hb, a, rest, h, ha⟩
          · exact .inr ⟨hb, a, rest, h, ha⟩
        · rintro (⟨hb, a, rest, h, ha⟩ | ⟨hb, a, rest, h, ha⟩)
          · exact ⟨hb, a, rest, h, Finset.mem_insert.2 (.inl ha)⟩
          · exact ⟨hb, a, rest, h, Finset.mem_insert.2 (.inr ha)⟩
      · rw [Set.disjoint_left]
        rintro b ⟨-, a, rest, h, rfl⟩ ⟨-, a', rest', h', ha'⟩
        rw [h] at h'
        cases h'
        exact hz ha'
  have all : strings n (fun b => ∃ a rest, g b = .ok (a, rest)) =
      strings n (fun b => ∃ a rest, g b = .ok (a, rest) ∧ get a ∈ (Finset.univ : Finset B)) := by
    congr 1; simp
  rw [all, split, split]
  by_cases hB : Nonempty B
  · obtain ⟨z0⟩ := hB
    rw [Finset.sum_congr rfl (fun z _ => one z z0), Finset.sum_congr rfl (fun z _ => one z z0), Finset.sum_const, Finset.sum_const,
      Finset.card_univ, smul_eq_mul, smul_eq_mul]
    ring
  · have : IsEmpty B := not_nonempty_iff.1 hB
    simp

/-- C82: of the byte strings with which `OsRng` gives a field element at all, equally many give each one. -/
theorem C82_counts (h2 : (2 : ZMod r) ≠ 0) (n : Nat) (x : ZMod r) :
    strings n (fun b => ∃ rest, OsRng.rand r b = .ok (x, rest)) * r = strings n (fun b => ∃ y rest, OsRng.rand r b = .ok (y, rest)) := by
  have h := count_free (get := id) (set := fun _ y => y) (fun _ _ => rfl) (fun π => C82_uniform (r := r) h2 π) n {x}
  rw [ZMod.card, Finset.card_singleton, one_mul] at h
  rw [← h]
  congr 2
  funext b
  simp

theorem count_tau (h2 : (2 : ZMod r) ≠ 0) {point1 : Sampler G1} {point2 : Sampler G2} (hp1 : Reads point1) (hp2 : Reads point2)
    (n : Nat) (bad : Finset (ZMod r)) :
    strings n (fun b => ∃ t rest, setupCoins r point1 point2 b = .ok (t, rest) ∧ t.tau ∈ bad) * r =
      bad.card * strings n (fun b => ∃ t rest, setupCoins r point1 point2 b = .ok (t, rest)) := by
  have h := count_free (get := fun t : Toxic G1 G2 r => t.tau) (set := fun t y => { t with tau := y }) (fun _ _ => rfl)
    (g := setupCoins r point1 point2) (fun π => by
      obtain ⟨σ, h1, h3⟩ := C82_setup_coins h2 hp1 hp2
        ((Equiv.refl _).prodCongr ((Equiv.refl _).prodCongr ((Equiv.refl _).prodCongr ((Equiv.refl _).prodCongr π))))
      exact ⟨σ, h1, h3⟩) n bad
  rw [ZMod.card] at h
  exact h

variable {W : Type}

/-- With the keys that `generate_keys` makes from the bytes `b`, some data that satisfy the circuit have no accepted proof: `prove`, given
bytes enough, panics or returns a proof that `verify` does not accept. -/
def Unlucky {T : Type} [CommMonoid T] [DecidableEq T] (K : TwoAdic (ZMod r)) (E : Engine G1 G2 T) (point1 : Sampler G1)
    (point2 : Sampler G2) (P Q : Ty) (code : Code r W) (b : Entropy) : Prop :=
  ∃ params, generateKeysOs K point1 point2 (generated P Q code none none none) b = .ok params ∧
    ∃ (w : W) (p : P.V (ZMod r)) (q : Q.V (ZMod r)) (a : P.S (ZMod r)) (s : CS (ZMod r)) (b' : Entropy), P.okV (ZMod r) p ∧
      (generated P Q code (some w) (some p) (some q)).run (CS.new .prove) = .ok (a, s) ∧ s.Sat s.assign ∧
      (∃ coins, proofCoins r b' = .ok coins) ∧
      ¬ ∃ proof inputs, proveOs K params (generated P Q code (some w) (some p) (some q)) b' = .ok proof ∧
        getInputs P (some p) = .ok (some inputs) ∧ verify E (truncate params.vk) proof inputs = .ok (.ok true)

/-- C82: of all byte strings of any length with which `generate_keys` gets its random choices, at most the part
`2·(constraints + inputs)·(2·variables + 1) / r` leads to keys with which an honest proof of some data fails. -/
theorem C82_setup {T : Type} [CommMonoid T] [DecidableEq T] {K : TwoAdic (ZMod r)} (hK : LawfulTwoAdic K) (h2 : (2 : ZMod r) ≠ 0)
    {E : Engine G1 G2 T} {e : G1 → G2 → Tˣ} (hE : PairingEngine E e) (hadd : ∀ a b b', e a (b + b') = e a b * e a b')
    {point1 : Sampler G1} {point2 : Sampler G2} (hp1 : Reads point1) (hp2 : Reads point2)
    (hg1 : ∀ b g rest, point1 b = .ok (g, rest) → g ≠ 0 ∧ r • g = 0) (hg2 : ∀ b g rest, point2 b = .ok (g, rest) → g ≠ 0 ∧ r • g = 0)
    (P Q : Ty) (code : Code r W) (hw : code.WidthsFit) (hc : code.Quiet) (a0 : P.S (ZMod r)) (s0 : CS (ZMod r))
    (hset : (generated P Q code none none none).run (CS.new .setup) = .ok (a0, s0)) (hone : ConstantOnRight s0) (n : Nat) :
    strings n (Unlucky K E point1 point2 P Q code) * r ≤
      2 * (s0.cons.length + s0.ninputs) * (2 * (s0.ninputs + s0.naux) + 1) *
        strings n (fun b => ∃ t rest, setupCoins r point1 point2 b = .ok (t, rest)) := by
  obtain ⟨bad, hcard, hbad⟩ := C67_accepts hK P Q code hw hc a0 s0 hset hone
  refine le_trans (Nat.mul_le_mul_right r (strings_mono (Q' := fun b => ∃ t rest, setupCoins r point1 point2 b = .ok (t, rest) ∧ t.tau ∈ bad) ?_))
    ((count_tau h2 hp1 hp2 n bad).le.trans (Nat.mul_le_mul_right _ hcard))
  rintro b ⟨params, hk, w, p, q, a, s, b', hp, hrun, hsat, ⟨coins, hcoins⟩, hno⟩
  unfold generateKeysOs at hk
  rcases ht : setupCoins r point1 point2 b with err | ⟨t, rest⟩
  · rw [ht] at hk; cases hk
  · rw [ht] at hk
    dsimp only at hk
    refine ⟨t, rest, rfl, ?_⟩
    by_contra hnot
    apply hno
    have points : (t.g1 ≠ 0 ∧ r • t.g1 = 0) ∧ t.g2 ≠ 0 ∧ r • t.g2 = 0 := by
      rw [setupCoins_eq] at ht
      rcases hq : Sampler.seq point1 (Sampler.seq point2 (Sampler.seq (OsRng.rand r) (Sampler.seq (OsRng.rand r)
        (Sampler.seq (OsRng.rand r) (Sampler.seq (OsRng.rand r) (OsRng.rand r)))))) b with err | ⟨⟨g1, g2, z⟩, rest'⟩
      · rw [hq] at ht; cases ht
      · rw [hq] at ht
        cases ht
        obtain ⟨s1, e1, e2⟩ := Sampler.seq_ok hq
        obtain ⟨s2, e3, -⟩ := Sampler.seq_ok e2
        exact ⟨hg1 _ _ _ e1, hg2 _ _ _ e3⟩
    rcases hgen : generateKeys K t (generated P Q code none none none) with err | params'
    · rw [hgen] at hk; cases hk
    · rw [hgen] at hk
      cases hk
      obtain ⟨⟨x, y⟩, rest'⟩ := coins
      obtain ⟨proof, inputs, h1, h3, h4⟩ := hbad hE hadd t points.1.2 points.2.2 points.1.1 points.2.1 hnot params hgen w p hp q a s hrun hsat x y
      refine ⟨proof, inputs, ?_, h3, h4⟩
      unfold proveOs
      rw [hcoins]
      dsimp only
      rw [h1]

/-- C82: `prove` hides the secret data from everyone who does not know the bytes of the operating system: for two sets of secret data that
satisfy the circuit with the same public data, there is a bijection of the byte strings, preserving lengths, that turns the runs with the one
into the runs with the other (proofs and panics alike).  Exceptions: few evaluation points of the key generator. -/
theorem C82_hides {K : TwoAdic (ZMod r)} (hK : LawfulTwoAdic K) (h2 : (2 : ZMod r) ≠ 0)
    (P Q : Ty) (code : Code r W) (hw : code.WidthsFit) (hc : code.Quiet) (a0 : P.S (ZMod r)) (s0 : CS (ZMod r))
    (hset : (generated P Q code none none none).run (CS.new .setup) = .ok (a0, s0)) :
    ∃ bad : Finset (ZMod r), bad.card ≤ 2 * (s0.cons.length + s0.ninputs) * (2 * (s0.ninputs + s0.naux) + 1) ∧
      ∀ (t : Toxic G1 G2 r) (_ : r • t.g1 = 0) (_ : r • t.g2 = 0) (_ : t.g1 ≠ 0) (_ : t.g2 ≠ 0) (_ : t.tau ∉ bad)
        (params : Parameters G1 G2) (_ : generateKeys K t (generated P Q code none none none) = .ok params)
        (p : P.V (ZMod r)) (_ : P.okV (ZMod r) p) (w w' : W) (q q' : Q.V (ZMod r)) (a a' : P.S (ZMod r)) (s s' : CS (ZMod r))
        (_ : (generated P Q code (some w) (some p) (some q)).run (CS.new .prove) = .ok (a, s)) (_ : s.Sat s.assign)
        (_ : (generated P Q code (some w') (some p) (some q')).run (CS.new .prove) = .ok (a', s')) (_ : s'.Sat s'.assign),
        ∃ σ : Equiv.Perm Entropy, (∀ b, (σ b).length = b.length) ∧ ∀ b,
          proveOs K params (generated P Q code (some w') (some p) (some q')) (σ b) =
          proveOs K params (generated P Q code (some w) (some p) (some q)) b := by
  obtain ⟨bad, hcard, hbad⟩ := C68_hides hK P Q code hw hc a0 s0 hset
  refine ⟨bad, hcard, ?_⟩
  intro t h1 h3 n1 n2 ht params hk p hp w w' q q' a a' s s' h hs h' hs'
  obtain ⟨f, hf⟩ := hbad t h1 h3 n1 n2 ht params hk p hp w w' q q' a a' s s' h hs h' hs'
  obtain ⟨σ, hl, hσ⟩ := C82_proof_coins h2 f
  refine ⟨σ, hl, fun b => ?_⟩
  unfold proveOs
  rw [hσ]
  rcases proofCoins r b with err | ⟨⟨x, y⟩, rest⟩
  · rfl
  · show (match prove K params (f (x, y)).1 (f (x, y)).2 (generated P Q code (some w') (some p) (some q')) with
      | .error e => .error (.key e)
      | .ok proof => .ok proof : Except OsError (Proof G1 G2)) =
      (match prove K params x y (generated P Q code (some w) (some p) (some q)) with
      | .error e => .error (.key e)
      | .ok proof => .ok proof : Except OsError (Proof G1 G2))
    rw [hf x y]

/-! ### How many bytes it takes -/

/-- The numbers that a round of `rand` rejects are at most half of all. -/
theorem rejected_half : 2 * {v : Nat | v < 2 ^ (64 * nLimbs r) ∧ ¬ v % 2 ^ numBits r < r}.ncard ≤ 2 ^ (64 * nLimbs r) := by
  set M := 2 ^ (64 * nLimbs r) with hM
  have hr0 : 0 < r := (Fact.out : r.Prime).pos
  have hnb : 0 < numBits r := Nat.size_pos.2 hr0
  obtain ⟨c, hc⟩ : ∃ c, numBits r = c + 1 := ⟨numBits r - 1, by omega⟩
  have hcr : 2 ^ c ≤ r := Nat.lt_size.1 (by show c < numBits r; omega)
  have hpow : 2 ^ numBits r = 2 * 2 ^ c := by rw [hc, pow_succ]; ring
  have fin : ∀ Q : Nat → Prop, {v : Nat | v < M ∧ Q v}.Finite := fun Q => (Set.finite_lt_nat M).subset fun v h => h.1
  let R := {v : Nat | v < M ∧ ¬ v % 2 ^ numBits r < r}
  let L := {v : Nat | v < M ∧ v % 2 ^ numBits r < 2 ^ c}
  have hle : R.ncard ≤ L.ncard := by
    refine Set.ncard_le_ncard_of_injOn (fun v => v - 2 ^ c) ?_ ?_ (fin _)
    · rintro v ⟨h1, h3⟩
      have hm : v % 2 ^ numBits r < 2 ^ numBits r := Nat.mod_lt _ (by positivity)
      have hd := Nat.div_add_mod v (2 ^ numBits r)
      refine ⟨lt_of_le_of_lt (Nat.sub_le _ _) h1, ?_⟩
      show (v - 2 ^ c) % 2 ^ numBits r < 2 ^ c
      have e : v - 2 ^ c = 2 ^ numBits r * (v / 2 ^ numBits r) + (v % 2 ^ numBits r - 2 ^ c) := by omega
      rw [e, Nat.mul_add_mod, Nat.mod_eq_of_lt (by omega)]
      omega
    · rintro v ⟨h1, h3⟩ u ⟨h1', h3'⟩ e
      have : v % 2 ^ numBits r ≤ v := Nat.mod_le _ _
      have : u % 2 ^ numBits r ≤ u := Nat.mod_le _ _
      have e' : v - 2 ^ c = u - 2 ^ c := e
      omega
  have hdis : Disjoint R L := by
    rw [Set.disjoint_left]
    rintro v ⟨_, h⟩ ⟨_, h'⟩
    omega
  have hun : (R ∪ L).ncard ≤ M := by
    have : (Set.Iio M).ncard = M := by
      rw [Set.ncard_eq_toFinset_card']; simp
    rw [← this]
    refine Set.ncard_le_ncard ?_ (Set.finite_Iio M)
    rintro v (h | h) <;> exact h.1
  rw [Set.ncard_union_eq hdis (fin _) (fin _)] at hun
  show 2 * R.ncard ≤ M
  omega

/-- C82: `OsRng` gives a field element soon: of the byte strings that suffice for `k` rounds, at most one in `2^k` yields none. -/
theorem C82_soon (k : Nat) :
    strings (8 * nLimbs r * k) (fun b => ∃ e, OsRng.rand r b = .error e) * 2 ^ k ≤ strings (8 * nLimbs r * k) (fun _ => True) := by
  induction k with
  | zero => rw [pow_zero, mul_one]; exact strings_mono fun _ _ => trivial
  | succ k ih =>
    have hN : 8 * nLimbs r * (k + 1) = 8 * nLimbs r + 8 * nLimbs r * k := by ring
    let R := {v : Nat | v < 2 ^ (64 * nLimbs r) ∧ ¬ v % 2 ^ numBits r < r}
    let A := {v : Nat | v < 2 ^ (64 * nLimbs r)}
    let join : Nat × Entropy → Entropy := fun q => OsRng.limbs (nLimbs r) q.1 ++ q.2
    have inj : Set.InjOn join (A ×ˢ Set.univ) := by
      rintro ⟨v, b⟩ ⟨hv, -⟩ ⟨v', b'⟩ ⟨hv', -⟩ e
      have h1 := OsRng.nextLimbs_limbs (nLimbs r) v b hv
      have h3 := OsRng.nextLimbs_limbs (nLimbs r) v' b' hv'
      have e' : OsRng.limbs (nLimbs r) v ++ b = OsRng.limbs (nLimbs r) v' ++ b' := e
      rw [e', h3] at h1
      cases h1; rfl
    have up : strings (8 * nLimbs r * (k + 1)) (fun b => ∃ e, OsRng.rand r b = .error e) ≤
        R.ncard * strings (8 * nLimbs r * k) (fun b => ∃ e, OsRng.rand r b = .error e) := by
      unfold strings
      rw [← Set.ncard_prod]
      refine le_trans (Set.ncard_le_ncard ?_ (Set.Finite.image join (Set.Finite.prod ?_ (finite_strings _ _)))) (Set.ncard_image_le
        (Set.Finite.prod ?_ (finite_strings _ _)))
      · rintro b ⟨hb, e, he⟩
        rw [OsRng.rand_eq] at he
        rcases h : OsRng.nextLimbs (nLimbs r) b with err | ⟨v, s⟩
        · have := (OsRng.nextLimbs_error _ _ _ h).2
          rw [hb, hN] at this
          omega
        · rw [h] at he
          dsimp only at he
          obtain ⟨hv, rfl⟩ := OsRng.nextLimbs_ok _ _ _ _ h
          by_cases hacc : v % 2 ^ numBits r < r
          · rw [if_pos hacc] at he; cases he
          · rw [if_neg hacc] at he
            rw [List.length_append, OsRng.limbs_length, hN] at hb
            have hs : s.length = 8 * nLimbs r * k := by omega
            exact ⟨(v, s), ⟨⟨hv, hacc⟩, hs, e, he⟩, rfl⟩
      · exact (Set.finite_lt_nat _).subset fun v h => h.1
      · exact (Set.finite_lt_nat _).subset fun v h => h.1
    have down : 2 ^ (64 * nLimbs r) * strings (8 * nLimbs r * k) (fun _ => True) ≤ strings (8 * nLimbs r * (k + 1)) (fun _ => True) := by
      have hA : A.ncard = 2 ^ (64 * nLimbs r) := by
        show (Set.Iio (2 ^ (64 * nLimbs r))).ncard = _
        rw [Set.ncard_eq_toFinset_card']; simp
      rw [← hA]
      unfold strings
      rw [← Set.ncard_prod, ← Set.ncard_image_of_injOn (inj.mono (Set.prod_mono_right (Set.subset_univ _)))]
      refine Set.ncard_le_ncard ?_ (finite_strings _ _)
      rintro _ ⟨⟨v, b⟩, ⟨hv, hb, -⟩, rfl⟩
      refine ⟨?_, trivial⟩
      show (OsRng.limbs (nLimbs r) v ++ b).length = _
      have hb' : b.length = 8 * nLimbs r * k := hb
      rw [List.length_append, OsRng.limbs_length, hb', hN]
    have half : 2 * R.ncard ≤ 2 ^ (64 * nLimbs r) := rejected_half
    calc _ ≤ R.ncard * strings (8 * nLimbs r * k) (fun b => ∃ e, OsRng.rand r b = .error e) * 2 ^ (k + 1) := Nat.mul_le_mul_right _ up
      _ = 2 * R.ncard * (strings (8 * nLimbs r * k) (fun b => ∃ e, OsRng.rand r b = .error e) * 2 ^ k) := by rw [pow_succ]; ring
      _ ≤ 2 ^ (64 * nLimbs r) * strings (8 * nLimbs r * k) (fun _ => True) := Nat.mul_le_mul half ih
      _ ≤ _ := down

/-! ### Cases that meet the hypotheses -/

example : (2 : ZMod bnR) ≠ 0 ∧ (2 : ZMod blsR) ≠ 0 ∧ (2 : ZMod 97) ≠ 0 := by decide +kernel

/-- A point that is not zero, from one byte. -/
def byteSampler : Sampler (ZMod 97)
  | [] => .error .unwrap
  | x :: rest => .ok (if x = 0 then 1 else if x = 97 then 2 else if x = 194 then 3 else (x.toNat : ZMod 97), rest)

theorem byteSampler_reads : Reads byteSampler := by
  intro b a rest h
  cases b with
  | nil => cases h
  | cons x b =>
    cases h
    exact ⟨[x], rfl, fun _ => rfl⟩

theorem byteSampler_points (b : Entropy) (g : ZMod 97) (rest : Entropy) (h : byteSampler b = .ok (g, rest)) : g ≠ 0 ∧ 97 • g = 0 := by
  cases b with
  | nil => cases h
  | cons x b =>
    have all : ∀ n : Fin 256, (if (UInt8.ofNat n) = 0 then (1 : ZMod 97) else if (UInt8.ofNat n) = 97 then 2
        else if (UInt8.ofNat n) = 194 then 3 else ((UInt8.ofNat n).toNat : ZMod 97)) ≠ 0 := by decide +kernel
    have hx := all ⟨x.toNat, x.toNat_lt⟩
    cases h
    refine ⟨?_, by rw [nsmul_eq_mul]; exact zero_mul _⟩
    rw [show UInt8.ofNat ((⟨x.toNat, x.toNat_lt⟩ : Fin 256) : Nat) = x from UInt8.ofNat_toNat] at hx
    exact hx

/-- A run of the loop with a rejected number: 127 is cut to seven bits and is not below 97, the next number is 5, divided by `2^64`. -/
example : (OsRng.rand 97 ([0, 0, 0, 0, 0, 0, 0, 127] ++ [0, 0, 0, 0, 0, 0, 0, 5] ++ [9])).toOption = some (5 / 2 ^ 64, [9]) := by
  decide +kernel

/-- Too few bytes. -/
example : (OsRng.rand 97 ([0, 0, 0, 0, 0, 0, 0, 127] ++ [0, 0, 0, 0, 0, 0, 5])).toOption = none := by
  decide +kernel

/-- Bytes for the key generator and for the prover. -/
def smallBytes : Entropy :=
  [3, 4] ++ [0, 0, 0, 0, 0, 0, 0, 5] ++ [0, 0, 0, 0, 0, 0, 0, 6] ++ [0, 0, 0, 0, 0, 0, 0, 127] ++ [1, 0, 0, 0, 0, 0, 0, 7] ++
    [0, 0, 0, 0, 0, 0, 0, 8] ++ [0, 0, 0, 9, 0, 0, 0, 15]

/-- The whole flow with bytes of the operating system: right factors accepted, wrong ones rejected, too few bytes: panic. -/
example :
    (do let params ← (generateKeysOs smallK byteSampler byteSampler (generated .num (.pair .num .num) productCode none none none)
          smallBytes).toOption
        let good ← (proveOs smallK params (productCircuit (5, 7)) (smallBytes.drop 2)).toOption
        let wrong ← (proveOs smallK params (productCircuit (5, 8)) (smallBytes.drop 2)).toOption
        let b1 ← (verify smallEngine (truncate params.vk) good [(35 : ZMod 97)]).toOption
        let b2 ← (verify smallEngine (truncate params.vk) wrong [(35 : ZMod 97)]).toOption
        pure (b1.toOption, b2.toOption, (proveOs smallK params (productCircuit (5, 7)) (smallBytes.take 12)).isOk)) =
      some (some true, some false, false) := by
  decide +kernel

/-- The hypotheses of `C82_setup` hold of the product circuit. -/
example (a0 : Ty.num.S (ZMod 97)) (s0 : CS (ZMod 97))
    (hset : (generated .num (.pair .num .num) productCode none none none).run (CS.new .setup) = .ok (a0, s0)) (hone : ConstantOnRight s0)
    (n : Nat) :
    strings n (Unlucky smallK smallEngine byteSampler byteSampler .num (.pair .num .num) productCode) * 97 ≤
      2 * (s0.cons.length + s0.ninputs) * (2 * (s0.ninputs + s0.naux) + 1) *
        strings n (fun b => ∃ t rest, setupCoins 97 byteSampler byteSampler b = .ok (t, rest)) :=
  C82_setup smallK_lawful (by decide) smallEngine_computes smallPairing_right byteSampler_reads byteSampler_reads byteSampler_points
    byteSampler_points _ _ _ productCode_fits.1 productCode_fits.2 a0 s0 hset hone n

end Fawkes.Props
