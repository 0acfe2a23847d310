import Verif.Props.Rand

/-!
# C65: different parameters are drawn from different salts

The bytes that `PoseidonParams::new` hands to the seedbox determine the width and the numbers of rounds, for all
sizes: no two parameter sets share a stream unless the hash of the salts collides.
-/

namespace Fawkes.Props

theorem toDigits_inj {a b : Nat} (h : Nat.toDigits 10 a = Nat.toDigits 10 b) : a = b := by
  rw [← Nat.ofDigitChars_ten_toDigits (n := a), h, Nat.ofDigitChars_ten_toDigits]

/-- Two numerals that are followed by something that is not a digit can be told apart. -/
theorem numeral_split {x y : Char} (hx : x.isDigit = false) (hy : y.isDigit = false) :
    ∀ {u v r s : List Char}, (∀ c ∈ u, c.isDigit = true) → (∀ c ∈ v, c.isDigit = true) →
      u ++ x :: r = v ++ y :: s → u = v ∧ r = s
  | [], [], _, _, _, _, h => by simp only [List.nil_append, List.cons.injEq] at h; exact ⟨rfl, h.2⟩
  | [], c :: v, _, _, _, hv, h => by
    simp only [List.nil_append, List.cons_append, List.cons.injEq] at h
    have := hv c (by simp)
    rw [← h.1, hx] at this
    cases this
  | c :: u, [], _, _, hu, _, h => by
    simp only [List.nil_append, List.cons_append, List.cons.injEq] at h
    have := hu c (by simp)
    rw [h.1, hy] at this
    cases this
  | c :: u, d :: v, _, _, hu, hv, h => by
    simp only [List.cons_append, List.cons.injEq] at h
    obtain ⟨e1, e2⟩ := numeral_split hx hy (fun c hc => hu c (by simp [hc])) (fun c hc => hv c (by simp [hc])) h.2
    exact ⟨by rw [h.1, e1], e2⟩

theorem toDigits_isDigit (n : Nat) : ∀ c ∈ Nat.toDigits 10 n, c.isDigit = true := fun _ h =>
  Nat.isDigit_of_mem_toDigits (by omega) (by omega) h

theorem salt_inj {t f p t' f' p' : Nat} (h : Poseidon.salt t f p = Poseidon.salt t' f' p') :
    t = t' ∧ f = f' ∧ p = p' := by
  unfold Poseidon.salt at h
  simp only [List.append_assoc] at h
  have h := List.append_cancel_left h
  obtain ⟨e1, h⟩ := numeral_split (x := ',') (y := ',') (by decide) (by decide)
    (toDigits_isDigit t) (toDigits_isDigit t') h
  have h := List.append_cancel_left (as := ['f', '=']) h
  obtain ⟨e2, h⟩ := numeral_split (x := ',') (y := ',') (by decide) (by decide)
    (toDigits_isDigit f) (toDigits_isDigit f') h
  have h := List.append_cancel_left (as := ['p', '=']) h
  obtain ⟨e3, -⟩ := numeral_split (x := ')') (y := ')') (by decide) (by decide)
    (toDigits_isDigit p) (toDigits_isDigit p') h
  exact ⟨toDigits_inj e1, toDigits_inj e2, toDigits_inj e3⟩

theorem salt_ascii (t f p : Nat) : ∀ c ∈ Poseidon.salt t f p, c.toNat < 256 := by
  have hd : ∀ n, ∀ c ∈ Nat.toDigits 10 n, c.toNat < 256 := fun n c hc => by
    have h := toDigits_isDigit n c hc
    simp only [Char.isDigit, Bool.and_eq_true, decide_eq_true_eq] at h
    have h2 : c.val.toNat ≤ 57 := UInt32.le_iff_toNat_le.mp h.2
    exact lt_of_le_of_lt h2 (by omega)
  have h1 : ∀ c ∈ "fawkes_poseidon(t=".toList, c.toNat < 256 := by decide
  have h2 : ∀ c ∈ ",f=".toList, c.toNat < 256 := by decide
  have h3 : ∀ c ∈ ",p=".toList, c.toNat < 256 := by decide
  have h4 : ∀ c ∈ ")".toList, c.toNat < 256 := by decide
  intro c hc
  unfold Poseidon.salt at hc
  simp only [List.mem_append] at hc
  rcases hc with (((((h | h) | h) | h) | h) | h) | h
  · exact h1 c h
  · exact hd _ c h
  · exact h2 c h
  · exact hd _ c h
  · exact h3 c h
  · exact hd _ c h
  · exact h4 c h

theorem bytes_inj : ∀ {u v : List Char}, (∀ c ∈ u, c.toNat < 256) → (∀ c ∈ v, c.toNat < 256) →
    u.map (fun c => UInt8.ofNat c.toNat) = v.map (fun c => UInt8.ofNat c.toNat) → u = v
  | [], [], _, _, _ => rfl
  | [], _ :: _, _, _, h => by simp at h
  | _ :: _, [], _, _, h => by simp at h
  | c :: u, d :: v, hu, hv, h => by
    simp only [List.map_cons, List.cons.injEq] at h
    have e := congrArg UInt8.toNat h.1
    rw [UInt8.toNat_ofNat_of_lt' (hu c (by simp)), UInt8.toNat_ofNat_of_lt' (hv d (by simp))] at e
    rw [Char.toNat_inj.mp e, bytes_inj (fun c hc => hu c (by simp [hc])) (fun c hc => hv c (by simp [hc])) h.2]

/-- C65 (salts): `PoseidonParams::new(t, f, p)` and `PoseidonParams::new(t', f', p')` give the seedbox the same bytes only
if the three numbers are the same. -/
theorem C65_salts_distinct (t f p t' f' p' : Nat) :
    (Poseidon.salt t f p).map (fun c => UInt8.ofNat c.toNat) =
      (Poseidon.salt t' f' p').map (fun c => UInt8.ofNat c.toNat) ↔ t = t' ∧ f = f' ∧ p = p' := by
  constructor
  · intro h
    exact salt_inj (bytes_inj (salt_ascii t f p) (salt_ascii t' f' p') h)
  · rintro ⟨rfl, rfl, rfl⟩; rfl

/-- Sizes whose digits are the same in sequence: `(1, 12, 3)` and `(11, 2, 3)`. -/
example : (Poseidon.salt 1 12 3).map (fun c => UInt8.ofNat c.toNat) ≠
    (Poseidon.salt 11 2 3).map (fun c => UInt8.ofNat c.toNat) := by
  rw [Ne, C65_salts_distinct]; decide

end Fawkes.Props
