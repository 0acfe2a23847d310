import Verif.Props.Poseidon
import Verif.Lemmas.PoseidonBijective
import Verif.Lemmas.PoseidonShippedBn
import Verif.Lemmas.PoseidonShippedBls

/-!
# Poseidon reaches every value equally often: C93

The permutation inside the hash is a bijection, so that no value is more likely than another when all inputs are given and random: nothing
is lost before the last step, which keeps one of the `t` elements.
-/

namespace Fawkes.Props

open PoseidonSpec

variable {r : Nat} [Fact r.Prime]

/-- C93: if the matrix of the parameters has an inverse and five does not divide the order of the multiplicative group, every value is the
hash of exactly `r ^ (t - 1)` of the `r ^ t` lists of `t` numbers. -/
theorem C93_balanced (P : PoseidonParams (ZMod r)) (hP : Shaped P) (ht : 0 < P.t)
    (hN : ∃ N : Matrix (Fin P.t) (Fin P.t) (ZMod r), N * matrixOf P.t P.m = 1) (h5 : Nat.Coprime 5 (r - 1))
    (h : ZMod r) :
    Nat.card {x : List (ZMod r) // x.length = P.t ∧ Poseidon.poseidon x P = .ok h} = r ^ (P.t - 1) := by
  have e : ∀ x : List (ZMod r), (x.length = P.t ∧ Poseidon.poseidon x P = .ok h) ↔ (x.length = P.t ∧ (permute P x).headD 0 = h) := by
    intro x
    refine and_congr_right fun hx => ?_
    rw [C64_hades P hP x (by omega) (by omega), Except.ok.injEq]
    unfold PoseidonSpec.hash
    rw [hx, Nat.sub_self, List.replicate_zero, List.append_nil]
  rw [Nat.card_congr (Equiv.subtypeEquivRight e), balanced hP ht hN (pow_injective h5), ZMod.card]

/-- The parameters that the repository uses: width, full rounds, partial rounds. -/
def usedParams : List (Nat × Nat × Nat) := [(2, 8, 53), (3, 8, 53), (4, 8, 54)]

/-- C93: the parameters of the repository over the field of BN256 are of this kind. -/
theorem C93_bn (checks : Bool) (tries t f p : Nat) (ht : (t, f, p) ∈ usedParams) (P : PoseidonParams (ZMod bnR))
    (h : PoseidonParams.new bnR checks tries t f p = .ok P) (v : ZMod bnR) :
    Nat.card {x : List (ZMod bnR) // x.length = t ∧ Poseidon.poseidon x P = .ok v} = bnR ^ (t - 1) := by
  obtain ⟨e1, e2, e3⟩ := new_ok h
  have hs : Shaped P := (C60_shape _ _ _ _ _ _ h).1
  have h5 : Nat.Coprime 5 (bnR - 1) := by decide +kernel
  rw [← e1]
  simp only [usedParams, List.mem_cons, Prod.mk.injEq, List.not_mem_nil, or_false] at ht
  rcases ht with ⟨rfl, rfl, rfl⟩ | ⟨rfl, rfl, rfl⟩ | ⟨rfl, rfl, rfl⟩
  · exact C93_balanced P hs (by omega) (by rw [e1, bnRM2_eq h]; exact ⟨_, bnRM2_inv⟩) h5 v
  · exact C93_balanced P hs (by omega) (by rw [e1, bnRM3_eq h]; exact ⟨_, bnRM3_inv⟩) h5 v
  · exact C93_balanced P hs (by omega) (by rw [e1, bnRM4_eq h]; exact ⟨_, bnRM4_inv⟩) h5 v

/-- C93: and over the field of BLS12-381. -/
theorem C93_bls (checks : Bool) (tries t f p : Nat) (ht : (t, f, p) ∈ usedParams) (P : PoseidonParams (ZMod blsR))
    (h : PoseidonParams.new blsR checks tries t f p = .ok P) (v : ZMod blsR) :
    Nat.card {x : List (ZMod blsR) // x.length = t ∧ Poseidon.poseidon x P = .ok v} = blsR ^ (t - 1) := by
  obtain ⟨e1, e2, e3⟩ := new_ok h
  have hs : Shaped P := (C60_shape _ _ _ _ _ _ h).1
  have h5 : Nat.Coprime 5 (blsR - 1) := by decide +kernel
  rw [← e1]
  simp only [usedParams, List.mem_cons, Prod.mk.injEq, List.not_mem_nil, or_false] at ht
  rcases ht with ⟨rfl, rfl, rfl⟩ | ⟨rfl, rfl, rfl⟩ | ⟨rfl, rfl, rfl⟩
  · exact C93_balanced P hs (by omega) (by rw [e1, blsRM2_eq h]; exact ⟨_, blsRM2_inv⟩) h5 v
  · exact C93_balanced P hs (by omega) (by rw [e1, blsRM3_eq h]; exact ⟨_, blsRM3_inv⟩) h5 v
  · exact C93_balanced P hs (by omega) (by rw [e1, blsRM4_eq h]; exact ⟨_, blsRM4_inv⟩) h5 v

/-- The parameters exist over both fields, for all three widths. -/
theorem C93_exist : ∀ tfp ∈ usedParams, (∃ P, PoseidonParams.new bnR true 20 tfp.1 tfp.2.1 tfp.2.2 = .ok P) ∧
    ∃ P, PoseidonParams.new blsR true 20 tfp.1 tfp.2.1 tfp.2.2 = .ok P := by
  have e : ∀ {r : Nat} [Fact r.Prime] {t f p : Nat} {m : List (List (ZMod r))},
      (PoseidonParams.new r true 20 t f p).map (fun P => P.m) = .ok m → ∃ P, PoseidonParams.new r true 20 t f p = .ok P := by
    intro r _ t f p m h
    cases h' : PoseidonParams.new r true 20 t f p with
    | error e => rw [h'] at h; cases h
    | ok P => exact ⟨P, rfl⟩
  intro tfp h
  simp only [usedParams, List.mem_cons, List.not_mem_nil, or_false] at h
  rcases h with rfl | rfl | rfl
  · exact ⟨e bnRM2_new, e blsRM2_new⟩
  · exact ⟨e bnRM3_new, e blsRM3_new⟩
  · exact ⟨e bnRM4_new, e blsRM4_new⟩

end Fawkes.Props
