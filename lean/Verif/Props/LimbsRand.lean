import Verif.Model.LimbsRand
import Verif.Lemmas.OsRng
import Verif.Props.Limbs

/-!
# Random elements on machine words: C115
-/

namespace Fawkes.Props

open Fawkes.Limbs

variable {p : Nat} [Fact p.Prime]

/-- The words of the drawn number. -/
theorem nextWords_os (n : Nat) (s : Entropy) :
    (∀ v s', OsRng.nextLimbs n s = .ok (v, s') → ∃ w, nextWords OsRng.nextU64 n s = .ok (w, s') ∧ w.length = n ∧ reprNat w = v) ∧
      ∀ e, OsRng.nextLimbs n s = .error e → nextWords OsRng.nextU64 n s = .error e := by
  induction n generalizing s with
  | zero => exact ⟨fun v s' h => ⟨[], by cases h; rfl, rfl, by cases h; rfl⟩, fun e h => by cases h⟩
  | succ n ih =>
    unfold OsRng.nextLimbs nextWords
    cases h : OsRng.nextU64 s with
    | error e => exact ⟨fun v s' h => (by cases h), fun e' h => by cases h; rfl⟩
    | ok q =>
      obtain ⟨x, s1⟩ := q
      have hx := (OsRng.nextU64_ok h).1
      obtain ⟨i1, i2⟩ := ih s1
      simp only [bind, Except.bind, pure, Except.pure]
      cases h' : OsRng.nextLimbs n s1 with
      | error e =>
        rw [i2 e h']
        exact ⟨fun v s' h => (by cases h), fun e' h => by cases h; rfl⟩
      | ok q =>
        obtain ⟨y, s2⟩ := q
        obtain ⟨w, h3, h4, h5⟩ := i1 y s2 h'
        rw [h3]
        refine ⟨fun v s' h => ?_, fun e h => by cases h⟩
        cases h
        exact ⟨UInt64.ofNat x :: w, rfl, by simp [h4], by simp only [reprNat, h5, ofNat_toNat]; omega⟩

theorem four_bytes_lt (l : List UInt8) (i j k m : Nat) :
    (l.getD i 0).toNat + 256 * ((l.getD j 0).toNat + 256 * ((l.getD k 0).toNat + 256 * (l.getD m 0).toNat)) < 2 ^ 32 := by
  have hb : ∀ i, (l.getD i 0).toNat < 256 := fun i => (l.getD i 0).toNat_lt
  have h0 := hb i; have h1 := hb j; have h2 := hb k; have h3 := hb m
  omega

theorem seedbox_nextU32_lt {c : Bool} {s s' : SeedboxBlake2} {v : Nat} (h : s.nextU32 c = .ok (v, s')) : v < 2 ^ 32 := by
  have tail : ∀ (t : SeedboxBlake2), (if (t.nLimb + 1) * 4 ≤ t.buff.length then
      (Except.ok ((t.buff.getD (t.nLimb * 4 + 0) 0).toNat + 256 * ((t.buff.getD (t.nLimb * 4 + 1) 0).toNat +
        256 * ((t.buff.getD (t.nLimb * 4 + 2) 0).toNat + 256 * (t.buff.getD (t.nLimb * 4 + 3) 0).toNat)),
        ({ t with nLimb := t.nLimb + 1 } : SeedboxBlake2)) : Except Panic (Nat × SeedboxBlake2)) else .error .outOfBounds) =
      .ok (v, s') → v < 2 ^ 32 := by
    intro t ht
    split at ht
    · injection ht with ht
      injection ht with h1 h2
      rw [← h1]
      exact four_bytes_lt _ _ _ _ _
    · exact absurd ht (by simp)
  unfold SeedboxBlake2.nextU32 at h
  generalize Blake2s.hash 32 personalization _ = H at h
  by_cases h8 : s.nLimb = 8
  · rw [if_pos h8] at h
    rcases Bool.eq_false_or_eq_true (c && s.nIter.toNat + 1 == 2 ^ 64) with hc | hc
    · rw [if_pos hc] at h
      exact absurd h (by simp [bind, Except.bind])
    · rw [if_neg (by rw [hc]; simp)] at h
      exact tail _ h
  · rw [if_neg h8] at h
    exact tail _ h

theorem seedbox_nextU64_lt {c : Bool} {s s' : SeedboxBlake2} {v : Nat} (h : s.nextU64 c = .ok (v, s')) : v < 2 ^ 64 := by
  unfold SeedboxBlake2.nextU64 at h
  cases h1 : s.nextU32 c with
  | error e => rw [h1] at h; cases h
  | ok q =>
    obtain ⟨hi, s1⟩ := q
    rw [h1] at h
    simp only [bind, Except.bind, pure, Except.pure] at h
    cases h2 : s1.nextU32 c with
    | error e => rw [h2] at h; cases h
    | ok q =>
      obtain ⟨lo, s2⟩ := q
      rw [h2] at h
      injection h with h
      injection h with h3 h4
      have := seedbox_nextU32_lt h1
      have := seedbox_nextU32_lt h2
      omega

theorem nextWords_seedbox (c : Bool) (n : Nat) (s : SeedboxBlake2) :
    (∀ v s', s.nextLimbs c n = .ok (v, s') → ∃ w, nextWords (SeedboxBlake2.nextU64 c) n s = .ok (w, s') ∧ w.length = n ∧ reprNat w = v) ∧
      ∀ e, s.nextLimbs c n = .error e → nextWords (SeedboxBlake2.nextU64 c) n s = .error e := by
  induction n generalizing s with
  | zero => exact ⟨fun v s' h => ⟨[], by cases h; rfl, rfl, by cases h; rfl⟩, fun e h => by cases h⟩
  | succ n ih =>
    unfold SeedboxBlake2.nextLimbs nextWords
    cases h : s.nextU64 c with
    | error e => exact ⟨fun v s' h => (by cases h), fun e' h => by cases h; rfl⟩
    | ok q =>
      obtain ⟨x, s1⟩ := q
      have hx := seedbox_nextU64_lt h
      obtain ⟨i1, i2⟩ := ih s1
      simp only [bind, Except.bind, pure, Except.pure]
      cases h' : s1.nextLimbs c n with
      | error e =>
        rw [i2 e h']
        exact ⟨fun v s' h => (by cases h), fun e' h => by cases h; rfl⟩
      | ok q =>
        obtain ⟨y, s2⟩ := q
        obtain ⟨w, h3, h4, h5⟩ := i1 y s2 h'
        rw [h3]
        refine ⟨fun v s' h => ?_, fun e h => by cases h⟩
        cases h
        exact ⟨UInt64.ofNat x :: w, rfl, by simp [h4], by simp only [reprNat, h5, ofNat_toNat]; omega⟩

theorem reprNat_shaved (h64 : numBits p % 64 ≠ 0) {w : Words} (hw : w.length = nLimbs p) :
    (shaved p w).length = nLimbs p ∧ reprNat (shaved p w) = reprNat w % 2 ^ numBits p := by
  have hn := nLimbs_pos p
  have hne : w ≠ [] := by rintro rfl; simp at hw; omega
  obtain ⟨ws, l, rfl⟩ : ∃ ws l, w = ws ++ [l] := ⟨w.dropLast, w.getLast hne, (List.dropLast_append_getLast hne).symm⟩
  have hlen : ws.length + 1 = nLimbs p := by simpa using hw
  have hs : shaveBits p = 64 - numBits p % 64 := by
    unfold shaveBits nLimbs
    omega
  have hb : numBits p = 64 * ws.length + numBits p % 64 := by
    unfold nLimbs at hlen
    omega
  unfold shaved
  rw [List.dropLast_concat, List.getLastD_concat]
  refine ⟨by simpa using hlen, ?_⟩
  rw [reprNat_append_single, reprNat_append_single]
  have hm : (0xffffffffffffffff >>> UInt64.ofNat (shaveBits p) : UInt64).toNat = 2 ^ (numBits p % 64) - 1 := by
    rw [shiftRight_toNat _ _ (by rw [hs]; omega), hs]
    have hlt : numBits p % 64 < 64 := Nat.mod_lt _ (by norm_num)
    show (2 ^ 64 - 1) / 2 ^ (64 - numBits p % 64) = _
    generalize numBits p % 64 = k at *
    have e : 2 ^ 64 = 2 ^ k * 2 ^ (64 - k) := by rw [← pow_add]; congr 1; omega
    have hpos : 0 < 2 ^ (64 - k) := by positivity
    have hk : 0 < 2 ^ k := by positivity
    generalize 2 ^ (64 - k) = B at *
    generalize 2 ^ k = A at *
    rw [e]
    rw [Nat.div_eq_iff hpos]
    rw [Nat.sub_mul, Nat.one_mul]
    have : B ≤ A * B := Nat.le_mul_of_pos_left _ hk
    omega
  rw [UInt64.toNat_and, hm, Nat.and_two_pow_sub_one_eq_mod]
  conv_rhs => rw [hb, pow_add]
  rw [Nat.mod_mul]
  have hlt := reprNat_lt ws
  generalize reprNat ws = a at *
  generalize 2 ^ (64 * ws.length) = M at *
  have hM : 0 < M := by omega
  rw [Nat.add_mul_mod_self_left, Nat.mod_eq_of_lt hlt, Nat.add_mul_div_left _ _ hM, Nat.div_eq_of_lt hlt, Nat.zero_add]

/-- One round: what is accepted, and what it stands for. -/
theorem round_ok (h2 : p ≠ 2) (h64 : numBits p % 64 ≠ 0) {w : Words} (hw : w.length = nLimbs p) :
    (isValid p (shaved p w) = true ↔ reprNat w % 2 ^ numBits p < p) ∧
      (reprNat w % 2 ^ numBits p < p →
        WordsOf (shaved p w) (((reprNat w % 2 ^ numBits p : Nat) : ZMod p) / 2 ^ (64 * nLimbs p))) := by
  have hodd : p % 2 = 1 := (Fact.out : p.Prime).eq_two_or_odd.resolve_left h2
  obtain ⟨h1, h3⟩ := reprNat_shaved h64 hw
  have h4 := less_eq (shaved p w) (modulus p) (by rw [h1, modulus_length])
  rw [reprNat_modulus, h3] at h4
  refine ⟨h4, fun h => ⟨h1, by rw [h3]; exact h, ?_⟩⟩
  rw [h3, div_mul_cancel₀ _ (radix_ne hodd)]

/-- C115 (parameters): the elements drawn from a seedbox, on words and in the field, with the same number of draws. -/
theorem C115_seedbox (h2 : p ≠ 2) (h64 : numBits p % 64 ≠ 0) (checks : Bool) (tries : Nat) (s : SeedboxBlake2) :
    (∀ x s', Num.rand p checks tries s = .ok (x, s') →
      ∃ w, Limbs.rand (SeedboxBlake2.nextU64 checks) p tries s = .ok (w, s') ∧ WordsOf w x) ∧
    ∀ e, Num.rand p checks tries s = .error e → Limbs.rand (SeedboxBlake2.nextU64 checks) p tries s = .error e := by
  induction tries generalizing s with
  | zero => exact ⟨fun x s' h => (by cases h), fun e h => by cases h; rfl⟩
  | succ tries ih =>
    unfold Num.rand Limbs.rand
    obtain ⟨n1, n2⟩ := nextWords_seedbox checks (nLimbs p) s
    cases h : s.nextLimbs checks (nLimbs p) with
    | error e =>
      rw [n2 e h]
      exact ⟨fun x s' h => (by cases h), fun e h => by cases h; rfl⟩
    | ok q =>
      obtain ⟨v, s1⟩ := q
      obtain ⟨w, h3, h4, h5⟩ := n1 v s1 h
      obtain ⟨r1, r2⟩ := round_ok h2 h64 h4
      rw [h5] at r1 r2
      rw [h3]
      simp only
      by_cases hv : v % 2 ^ numBits p < p
      · rw [if_pos hv, if_pos (r1.2 hv)]
        refine ⟨fun x s' h => ?_, fun e h => by cases h⟩
        injection h with h
        injection h with h6 h7
        subst h6 h7
        exact ⟨_, rfl, r2 hv⟩
      · rw [if_neg hv, if_neg (fun h => hv (r1.1 h))]
        exact ih s1

theorem os_loop (h2 : p ≠ 2) (h64 : numBits p % 64 ≠ 0) (fuel : Nat) (b : Entropy) (hf : b.length < fuel) :
    (∀ x rest, OsRng.randLoop p fuel b = .ok (x, rest) → ∃ w, Limbs.rand OsRng.nextU64 p fuel b = .ok (w, rest) ∧ WordsOf w x) ∧
    ∀ e, OsRng.randLoop p fuel b = .error e → Limbs.rand OsRng.nextU64 p fuel b = .error (.panic e) := by
  induction fuel generalizing b with
  | zero => omega
  | succ fuel ih =>
    unfold OsRng.randLoop Limbs.rand
    obtain ⟨n1, n2⟩ := nextWords_os (nLimbs p) b
    cases h : OsRng.nextLimbs (nLimbs p) b with
    | error e =>
      rw [n2 e h]
      exact ⟨fun x s' h => (by cases h), fun e h => by cases h; rfl⟩
    | ok q =>
      obtain ⟨v, s1⟩ := q
      have hlen : b.length = 8 * nLimbs p + s1.length := by
        have e := (OsRng.nextLimbs_ok _ _ _ _ h).2
        rw [e, List.length_append, OsRng.limbs_length]
      have hpos := OsRng.nLimbs_pos p
      obtain ⟨w, h3, h4, h5⟩ := n1 v s1 h
      obtain ⟨r1, r2⟩ := round_ok h2 h64 h4
      rw [h5] at r1 r2
      rw [h3]
      simp only [bind, Except.bind]
      by_cases hv : v % 2 ^ numBits p < p
      · rw [if_pos hv, if_pos (r1.2 hv)]
        refine ⟨fun x s' h => ?_, fun e h => by cases h⟩
        injection h with h
        injection h with h6 h7
        subst h6 h7
        exact ⟨_, rfl, r2 hv⟩
      · rw [if_neg hv, if_neg (fun h => hv (r1.1 h))]
        exact ih s1 (by omega)

/-- C115 (randomness of the operating system): the elements that `generate_keys` and `prove` draw, on words and in the
field: the same bytes are used, the words are those of the element, and a draw fails in one only if it fails in the other. -/
theorem C115_osrng (h2 : p ≠ 2) (h64 : numBits p % 64 ≠ 0) (b : Entropy) :
    (∀ x rest, OsRng.rand p b = .ok (x, rest) →
      ∃ w, Limbs.rand OsRng.nextU64 p (b.length + 1) b = .ok (w, rest) ∧ WordsOf w x) ∧
    ∀ e, OsRng.rand p b = .error e → Limbs.rand OsRng.nextU64 p (b.length + 1) b = .error (.panic e) :=
  os_loop h2 h64 (b.length + 1) b (Nat.lt_succ_self _)

/-- The hypotheses hold of the fields of the repository: their widths leave bits to shave. -/
example : (bnR ≠ 2 ∧ numBits bnR % 64 ≠ 0) ∧ (bnL ≠ 2 ∧ numBits bnL % 64 ≠ 0) ∧ (blsR ≠ 2 ∧ numBits blsR % 64 ≠ 0) ∧
    (blsL ≠ 2 ∧ numBits blsL % 64 ≠ 0) := by decide +kernel

/-- A draw of BN256's scalar field whose top bits are cut and that is accepted, one that is rejected before it, and bytes that do
not suffice. -/
example : (match Limbs.rand OsRng.nextU64 bnR 34 (List.replicate 24 0 ++ [0x41, 0, 0, 0, 0, 0, 0, 0] ++ [7]) with
    | .ok (w, rest) => w == [0, 0, 0, 0x0100000000000000] && rest == [7] | .error _ => false) = true ∧
    (match Limbs.rand OsRng.nextU64 bnR 66 (List.replicate 32 255 ++ List.replicate 31 0 ++ [5]) with
    | .ok (w, rest) => w == [0, 0, 0, 5] && rest == [] | .error _ => false) = true ∧
    (match Limbs.rand OsRng.nextU64 bnR 32 (List.replicate 31 0) with | .error (.panic .unwrap) => true | _ => false) = true := by
  decide +kernel

end Fawkes.Props
