import Mathlib.Tactic.Ring
import Verif.Model.Seedbox

/-!
# The seedbox: C59
-/

namespace Fawkes.Props

/-- The `i`-th little-endian 32-bit word of a byte string. -/
def word32 (b : List UInt8) (i : Nat) : Nat :=
  (b.getD (4 * i) 0).toNat + 256 * (b.getD (4 * i + 1) 0).toNat + 65536 * (b.getD (4 * i + 2) 0).toNat +
    16777216 * (b.getD (4 * i + 3) 0).toNat

/-- The block of the stream for counter value `c`: Blake2s of the counter (8 bytes, little endian) and the salt hash. -/
def seedBlock (saltHash : List UInt8) (c : Nat) : List UInt8 :=
  Blake2s.hash 32 personalization ((List.range 8).map (fun i => UInt8.ofNat (c / 256 ^ i)) ++ saltHash)

theorem hash_length (nn : Nat) (h32 : nn ≤ 32) (p m : List UInt8) : (Blake2s.hash nn p m).length = nn := by
  unfold Blake2s.hash
  have hlen : ∀ (h : List Nat) (t fuel : Nat) (b : List UInt8), h.length = 8 → (Blake2s.blocks h t fuel b).length = 8 := by
    intro h t fuel
    induction fuel generalizing h t with
    | zero => intro b hh; exact hh
    | succ n ih =>
      intro b hh
      unfold Blake2s.blocks
      split
      · rfl
      · exact ih _ _ _ rfl
  simp only []
  rw [List.length_take, List.length_flatMap]
  have := hlen (List.zipWith (· ^^^ ·) Blake2s.iv
    (Blake2s.words 8 ([UInt8.ofNat nn, 0, 1, 1] ++ List.replicate 20 0 ++ p))) 0 (m.length / 64 + 1) m
    (by simp [Blake2s.iv, Blake2s.words])
  rw [show (fun w : Nat => [UInt8.ofNat w, UInt8.ofNat (w / 256), UInt8.ofNat (w / 65536),
    UInt8.ofNat (w / 16777216)].length) = fun _ => 4 from rfl]
  simp only [List.map_const', this, List.sum_replicate, smul_eq_mul]
  omega

/-- A seedbox that has produced `n` numbers. -/
def At (salt : Option (List UInt8)) (n : Nat) (s : SeedboxBlake2) : Prop :=
  s.salt = salt ∧ s.buff.length = 32 ∧ s.nIter.toNat = (n + 7) / 8 ∧
    ((n % 8 = 0 ∧ s.nLimb = 8) ∨ (n % 8 ≠ 0 ∧ s.nLimb = n % 8 ∧ s.buff = seedBlock (salt.getD []) (n / 8)))

theorem at_next {salt : Option (List UInt8)} {n : Nat} {s : SeedboxBlake2} (h : At salt n s) (checks : Bool)
    (hn : n + 8 < 8 * 2 ^ 64) :
    ∃ s', s.nextU32 checks = .ok (word32 (seedBlock (salt.getD []) (n / 8)) (n % 8), s') ∧ At salt (n + 1) s' := by
  obtain ⟨h1, h2, h3, h4⟩ := h
  unfold SeedboxBlake2.nextU32
  have hw : ∀ (b : List UInt8) (i : Nat), (b.getD (i * 4 + 0) 0).toNat + 256 * ((b.getD (i * 4 + 1) 0).toNat +
      256 * ((b.getD (i * 4 + 2) 0).toNat + 256 * (b.getD (i * 4 + 3) 0).toNat)) = word32 b i := by
    intro b i
    unfold word32
    rw [Nat.mul_comm i 4, Nat.add_zero]; ring
  rcases h4 with ⟨h4, h5⟩ | ⟨h4, h5, h6⟩
  · have hiter : s.nIter.toNat = n / 8 := by rw [h3]; omega
    have hc : (checks && s.nIter.toNat + 1 == 2 ^ 64) = false := by
      have : (s.nIter.toNat + 1 == 2 ^ 64) = false := by
        rw [beq_eq_false_iff_ne, hiter]; omega
      rw [this, Bool.and_false]
    rw [if_pos h5, hc]
    have hblock : Blake2s.hash 32 personalization (le64 s.nIter ++ SeedboxBlake2.saltBytes s.salt) =
        seedBlock (salt.getD []) (n / 8) := by
      unfold seedBlock le64
      rw [hiter, h1]
      cases salt <;> rfl
    have hlen : (seedBlock (salt.getD []) (n / 8)).length = 32 := hash_length 32 le_rfl _ _
    simp only [Bool.false_eq_true, if_false, pure, Except.pure, bind, Except.bind, hblock, hlen]
    rw [if_pos (by norm_num)]
    refine ⟨{ s with nLimb := 1, nIter := s.nIter + 1, buff := seedBlock (salt.getD []) (n / 8) }, ?_, h1, hlen, ?_, ?_⟩
    · rw [h4, ← hw]
    · simp only []
      rw [UInt64.toNat_add, hiter]
      have : (1 : UInt64).toNat = 1 := rfl
      rw [this, Nat.mod_eq_of_lt (by omega)]; omega
    · right
      refine ⟨by omega, by simp only []; omega, ?_⟩
      simp only []
      rw [show (n + 1) / 8 = n / 8 by omega]
  · rw [if_neg (by omega)]
    simp only [pure, Except.pure, bind, Except.bind]
    rw [if_pos (by rw [h2, h5]; omega)]
    refine ⟨{ s with nLimb := s.nLimb + 1 }, ?_, h1, h2, ?_, ?_⟩
    · rw [hw, h5, h6]
    · simp only []; rw [h3]; omega
    · by_cases h8 : (n + 1) % 8 = 0
      · left; exact ⟨h8, by simp only []; omega⟩
      · right
        refine ⟨h8, by simp only []; omega, ?_⟩
        simp only []
        rw [h6, show (n + 1) / 8 = n / 8 by omega]

theorem take_of_at {salt : Option (List UInt8)} (checks : Bool) (k : Nat) : ∀ (n : Nat) (s : SeedboxBlake2),
    At salt n s → n + k + 7 < 8 * 2 ^ 64 → ∃ s', s.take checks k =
      .ok ((List.range k).map (fun i => word32 (seedBlock (salt.getD []) ((n + i) / 8)) ((n + i) % 8)), s') ∧
      At salt (n + k) s' := by
  induction k with
  | zero => intro n s h _; exact ⟨s, rfl, h⟩
  | succ k ih =>
    intro n s h hn
    obtain ⟨s1, e1, a1⟩ := at_next h checks (by omega)
    obtain ⟨s2, e2, a2⟩ := ih (n + 1) s1 a1 (by omega)
    refine ⟨s2, ?_, by rw [show n + (k + 1) = n + 1 + k by omega]; exact a2⟩
    unfold SeedboxBlake2.take
    rw [e1]
    simp only [bind, Except.bind]
    rw [e2, List.range_succ_eq_map, List.map_cons, List.map_map]
    have hmap : List.map (fun i => word32 (seedBlock (salt.getD []) ((n + 1 + i) / 8)) ((n + 1 + i) % 8)) (List.range k) =
        List.map ((fun i => word32 (seedBlock (salt.getD []) ((n + i) / 8)) ((n + i) % 8)) ∘ Nat.succ) (List.range k) := by
      apply List.map_congr_left
      intro i _
      show word32 (seedBlock (salt.getD []) ((n + 1 + i) / 8)) ((n + 1 + i) % 8) =
        word32 (seedBlock (salt.getD []) ((n + (i + 1)) / 8)) ((n + (i + 1)) % 8)
      rw [show n + 1 + i = n + (i + 1) by omega]
    rw [hmap]
    rfl

/-- C59: the `n`-th number of an unsalted seedbox is word `n % 8` of the Blake2s hash of the counter `n / 8`, for every
`n` up to the overflow of the 64-bit counter. -/
theorem C59_stream (checks : Bool) (k : Nat) (hk : k + 7 < 8 * 2 ^ 64) :
    ∃ s', SeedboxBlake2.new.take checks k =
      .ok ((List.range k).map (fun n => word32 (seedBlock [] (n / 8)) (n % 8)), s') := by
  have h0 : At none 0 SeedboxBlake2.new := ⟨rfl, rfl, rfl, Or.inl ⟨rfl, rfl⟩⟩
  obtain ⟨s', h, _⟩ := take_of_at checks k 0 _ h0 (by omega)
  exact ⟨s', by simpa using h⟩

/-- C59: with a salt, the hash of the salt is appended to the counter. -/
theorem C59_stream_salted (checks : Bool) (salt : List UInt8) (k : Nat) (hk : k + 7 < 8 * 2 ^ 64) :
    ∃ s', (SeedboxBlake2.newWithSalt salt).take checks k =
      .ok ((List.range k).map (fun n => word32 (seedBlock (Blake2s.hash 32 [] salt) (n / 8)) (n % 8)), s') := by
  have h0 : At (some (Blake2s.hash 32 [] salt)) 0 (SeedboxBlake2.newWithSalt salt) := ⟨rfl, rfl, rfl, Or.inl ⟨rfl, rfl⟩⟩
  obtain ⟨s', h, _⟩ := take_of_at checks k 0 _ h0 (by omega)
  exact ⟨s', by simpa using h⟩

/-- C59: every number is a 32-bit number. -/
theorem C59_range (b : List UInt8) (i : Nat) : word32 b i < 2 ^ 32 := by
  unfold word32
  have := fun j => UInt8.toNat_lt (b.getD j 0)
  have h0 := this (4 * i)
  have h1 := this (4 * i + 1)
  have h2 := this (4 * i + 2)
  have h3 := this (4 * i + 3)
  omega

/-- The first three numbers of the unsalted seedbox (the second block starts at the ninth). -/
example : (SeedboxBlake2.new.take true 10).map (fun r => (r.1.length, r.1.take 1 ++ r.1.drop 9)) =
    .ok (10, [word32 (seedBlock [] 0) 0, word32 (seedBlock [] 1) 1]) := by decide +kernel

end Fawkes.Props
