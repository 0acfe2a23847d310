import Mathlib.NumberTheory.LucasPrimality
import Mathlib.Algebra.BigOperators.Associated
import Mathlib.Tactic.NormNum.Prime

/-!
# Primality certificates

`powMod` is evaluated by the kernel; `prime_of_cert` is Lucas's criterion with a complete factorisation of
`p - 1`.
-/

namespace Fawkes

/-- Square-and-multiply modulo `m`; `fuel` bounds the number of exponent bits. -/
def powMod (m : Nat) : Nat → Nat → Nat → Nat
  | 0, _, _ => 1 % m
  | f + 1, a, e =>
    if e % 2 = 1 then a * powMod m f (a * a % m) (e / 2) % m else powMod m f (a * a % m) (e / 2)

theorem powMod_eq (m f a e : Nat) (h : e < 2 ^ f) : powMod m f a e = a ^ e % m := by
  induction f generalizing a e with
  | zero =>
    have : e = 0 := by simpa using h
    subst this; simp [powMod]
  | succ f ih =>
    have h2 : e / 2 < 2 ^ f := by rw [pow_succ] at h; omega
    have key : (a * a % m) ^ (e / 2) % m = a ^ (2 * (e / 2)) % m := by
      rw [← Nat.pow_mod, ← pow_two, ← pow_mul]
    unfold powMod
    rw [ih _ _ h2, key]
    split
    · next ho =>
      rw [Nat.mul_mod, Nat.mod_mod, ← Nat.mul_mod, ← pow_succ']
      congr 2; omega
    · next ho => congr 2; omega

/-- The computation behind a certificate. -/
def certCheck (p a f : Nat) (fs : List Nat) : Bool :=
  decide (1 < p) && decide (fs.prod = p - 1) && decide (p < 2 ^ f) && decide (powMod p f a (p - 1) = 1) &&
    fs.all fun q => decide (powMod p f a ((p - 1) / q) ≠ 1)

theorem prime_of_cert (p a f : Nat) (fs : List Nat) (hc : certCheck p a f fs = true)
    (hfs : ∀ q ∈ fs, q.Prime) : p.Prime := by
  simp only [certCheck, Bool.and_eq_true, decide_eq_true_eq, List.all_eq_true] at hc
  obtain ⟨⟨⟨⟨h1, h2⟩, h3⟩, h4⟩, h5⟩ := hc
  have hlt : ∀ e, e ≤ p - 1 → e < 2 ^ f := fun e he => by omega
  have cast : ∀ e, e ≤ p - 1 → ((a : ZMod p) ^ e = 1 ↔ powMod p f a e = 1) := by
    intro e he
    rw [powMod_eq _ _ _ _ (hlt e he)]
    have : ((a : ZMod p) ^ e = 1) ↔ (((a ^ e : ℕ) : ZMod p) = ((1 : ℕ) : ZMod p)) := by push_cast; rfl
    rw [this, ZMod.natCast_eq_natCast_iff]
    unfold Nat.ModEq
    rw [Nat.mod_eq_of_lt h1]
  refine lucas_primality p (a : ZMod p) ((cast _ le_rfl).2 h4) ?_
  intro q hq hd
  rw [← h2] at hd
  obtain ⟨g, hg, hqg⟩ := (Nat.Prime.prime hq).dvd_prod_iff.1 hd
  have : q = g := (Nat.prime_dvd_prime_iff_eq hq (hfs g hg)).1 hqg
  subst this
  have := h5 q hg
  rw [Ne, cast _ (Nat.div_le_self _ _)]
  exact this

end Fawkes
