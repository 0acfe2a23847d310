import Verif.Model.OsRng
import Verif.Lemmas.Num
import Mathlib.Logic.Equiv.Basic
import Mathlib.SetTheory.Cardinal.Finite

/-!
# Lemmas: bytes of the operating system, as slots for field elements
-/

namespace Fawkes

/-- A procedure that takes bytes and makes something of them. -/
abbrev Sampler (α : Type) : Type := Entropy → Except Panic (α × Entropy)

namespace OsRng

/-- Big-endian bytes of a 32-bit number. -/
def be4 (v : Nat) : List UInt8 :=
  [UInt8.ofNat (v / 2 ^ 24), UInt8.ofNat (v / 2 ^ 16), UInt8.ofNat (v / 2 ^ 8), UInt8.ofNat v]

theorem be4_bytes (a b c d : UInt8) :
    be4 (((a.toNat * 256 + b.toNat) * 256 + c.toNat) * 256 + d.toNat) = [a, b, c, d] := by
  have ha := a.toNat_lt; have hb := b.toNat_lt; have hc := c.toNat_lt; have hd := d.toNat_lt
  unfold be4
  congr 1
  · apply UInt8.toNat_inj.1
    rw [UInt8.toNat_ofNat']
    omega
  · congr 1
    · apply UInt8.toNat_inj.1
      rw [UInt8.toNat_ofNat']
      omega
    · congr 1
      · apply UInt8.toNat_inj.1
        rw [UInt8.toNat_ofNat']
        omega
      · congr 1
        apply UInt8.toNat_inj.1
        rw [UInt8.toNat_ofNat']
        omega

theorem nextU32_be4 {v : Nat} (hv : v < 2 ^ 32) (rest : Entropy) : nextU32 (be4 v ++ rest) = .ok (v, rest) := by
  show Except.ok (_, rest) = _
  congr 2
  simp only [UInt8.toNat_ofNat']
  omega

theorem nextU32_ok {b rest : Entropy} {v : Nat} (h : nextU32 b = .ok (v, rest)) : v < 2 ^ 32 ∧ b = be4 v ++ rest := by
  match b, h with
  | a :: b :: c :: d :: rest', h =>
    injection h with h
    injection h with h1 h2
    subst h1 h2
    refine ⟨?_, by rw [be4_bytes]; rfl⟩
    have ha := a.toNat_lt; have hb := b.toNat_lt; have hc := c.toNat_lt; have hd := d.toNat_lt
    omega

theorem nextU32_error {b : Entropy} {e : Panic} (h : nextU32 b = .error e) : e = .unwrap ∧ b.length < 4 := by
  match b, h with
  | [], h => cases h; exact ⟨rfl, by simp⟩
  | [_], h => cases h; exact ⟨rfl, by simp⟩
  | [_, _], h => cases h; exact ⟨rfl, by simp⟩
  | [_, _, _], h => cases h; exact ⟨rfl, by simp⟩
  | a :: b :: c :: d :: rest', h => cases h

/-- The bytes of a 64-bit number. -/
def be8 (v : Nat) : List UInt8 := be4 (v / 2 ^ 32) ++ be4 (v % 2 ^ 32)

theorem nextU64_be8 {v : Nat} (hv : v < 2 ^ 64) (rest : Entropy) : nextU64 (be8 v ++ rest) = .ok (v, rest) := by
  unfold nextU64 be8
  rw [List.append_assoc, nextU32_be4 (by omega)]
  show (do let (lo, s) ← nextU32 (be4 (v % 2 ^ 32) ++ rest); pure (v / 2 ^ 32 * 2 ^ 32 + lo, s) : Except Panic _) = _
  rw [nextU32_be4 (by omega)]
  show Except.ok (_, rest) = _
  congr 2
  omega

theorem nextU64_ok {b rest : Entropy} {v : Nat} (h : nextU64 b = .ok (v, rest)) : v < 2 ^ 64 ∧ b = be8 v ++ rest := by
  unfold nextU64 at h
  rcases e : nextU32 b with k | ⟨hi, b1⟩
  · rw [e] at h; cases h
  · rw [e] at h
    replace h : (do let (lo, s) ← nextU32 b1; pure (hi * 2 ^ 32 + lo, s) : Except Panic _) = .ok (v, rest) := h
    rcases f : nextU32 b1 with k | ⟨lo, b2⟩
    · rw [f] at h; cases h
    · rw [f] at h
      injection h with h; injection h with h1 h2
      subst h1 h2
      obtain ⟨l1, rfl⟩ := nextU32_ok e
      obtain ⟨l2, rfl⟩ := nextU32_ok f
      refine ⟨by omega, ?_⟩
      unfold be8
      rw [show (hi * 2 ^ 32 + lo) / 2 ^ 32 = hi by omega, show (hi * 2 ^ 32 + lo) % 2 ^ 32 = lo by omega, List.append_assoc]

theorem nextU64_error {b : Entropy} {e : Panic} (h : nextU64 b = .error e) : e = .unwrap ∧ b.length < 8 := by
  unfold nextU64 at h
  rcases e : nextU32 b with k | ⟨hi, b1⟩
  · rw [e] at h; cases h
    obtain ⟨h1, h2⟩ := nextU32_error e
    exact ⟨h1, by omega⟩
  · rw [e] at h
    replace h : (do let (lo, s) ← nextU32 b1; pure (hi * 2 ^ 32 + lo, s) : Except Panic _) = .error _ := h
    rcases f : nextU32 b1 with k | ⟨lo, b2⟩
    · rw [f] at h; cases h
      obtain ⟨h1, h2⟩ := nextU32_error f
      obtain ⟨-, rfl⟩ := nextU32_ok e
      exact ⟨h1, by simp [be4]; omega⟩
    · rw [f] at h; cases h

/-- The bytes of a number of `n` limbs. -/
def limbs : Nat → Nat → List UInt8
  | 0, _ => []
  | n + 1, v => be8 (v % 2 ^ 64) ++ limbs n (v / 2 ^ 64)

theorem limbs_length : ∀ n v, (limbs n v).length = 8 * n
  | 0, _ => rfl
  | n + 1, v => by simp [limbs, be8, be4, limbs_length n]; omega

theorem nextLimbs_limbs : ∀ (n v : Nat) (rest : Entropy), v < 2 ^ (64 * n) → nextLimbs n (limbs n v ++ rest) = .ok (v, rest)
  | 0, v, rest, h => by
    have : v = 0 := by simpa using h
    subst this; rfl
  | n + 1, v, rest, h => by
    unfold nextLimbs limbs
    rw [List.append_assoc, nextU64_be8 (Nat.mod_lt _ (by positivity))]
    show (do let (y, s) ← nextLimbs n (limbs n (v / 2 ^ 64) ++ rest); pure (v % 2 ^ 64 + 2 ^ 64 * y, s) : Except Panic _) = _
    rw [nextLimbs_limbs n _ rest (by
      rw [Nat.div_lt_iff_lt_mul (by positivity), ← pow_add]
      rwa [show 64 * n + 64 = 64 * (n + 1) by ring])]
    show Except.ok (_, rest) = _
    rw [Nat.mod_add_div]

theorem nextLimbs_ok : ∀ (n v : Nat) (b rest : Entropy), nextLimbs n b = .ok (v, rest) → v < 2 ^ (64 * n) ∧ b = limbs n v ++ rest
  | 0, v, b, rest, h => by
    injection h with h; injection h with h1 h2
    subst h1 h2
    exact ⟨by simp, rfl⟩
  | n + 1, v, b, rest, h => by
    unfold nextLimbs at h
    rcases e : nextU64 b with k | ⟨x, b1⟩
    · rw [e] at h; cases h
    · rw [e] at h
      replace h : (do let (y, s) ← nextLimbs n b1; pure (x + 2 ^ 64 * y, s) : Except Panic _) = .ok (v, rest) := h
      rcases f : nextLimbs n b1 with k | ⟨y, b2⟩
      · rw [f] at h; cases h
      · rw [f] at h
        injection h with h; injection h with h1 h2
        subst h1 h2
        obtain ⟨l1, rfl⟩ := nextU64_ok e
        obtain ⟨l2, rfl⟩ := nextLimbs_ok n y b1 _ f
        constructor
        · rw [show 64 * (n + 1) = 64 + 64 * n by ring, pow_add]
          calc x + 2 ^ 64 * y < 2 ^ 64 + 2 ^ 64 * y := by omega
            _ = 2 ^ 64 * (y + 1) := by ring
            _ ≤ 2 ^ 64 * 2 ^ (64 * n) := Nat.mul_le_mul_left _ l2
        · show _ = (be8 ((x + 2 ^ 64 * y) % 2 ^ 64) ++ limbs n ((x + 2 ^ 64 * y) / 2 ^ 64)) ++ b2
          rw [show (x + 2 ^ 64 * y) % 2 ^ 64 = x by omega, show (x + 2 ^ 64 * y) / 2 ^ 64 = y by omega, List.append_assoc]

theorem nextLimbs_error : ∀ (n : Nat) (b : Entropy) (e : Panic), nextLimbs n b = .error e → e = .unwrap ∧ b.length < 8 * n
  | 0, b, e, h => by cases h
  | n + 1, b, e, h => by
    unfold nextLimbs at h
    rcases f : nextU64 b with k | ⟨x, b1⟩
    · rw [f] at h; cases h
      obtain ⟨h1, h2⟩ := nextU64_error f
      exact ⟨h1, by omega⟩
    · rw [f] at h
      replace h : (do let (y, s) ← nextLimbs n b1; pure (x + 2 ^ 64 * y, s) : Except Panic _) = .error e := h
      rcases g : nextLimbs n b1 with k | ⟨y, b2⟩
      · rw [g] at h; cases h
        obtain ⟨h1, h2⟩ := nextLimbs_error n b1 _ g
        obtain ⟨-, rfl⟩ := nextU64_ok f
        exact ⟨h1, by simp [be8, be4]; omega⟩
      · rw [g] at h; cases h

variable {p : Nat} [Fact p.Prime]

theorem nLimbs_pos (p : Nat) : 0 < nLimbs p := Nat.succ_pos _

theorem randLoop_fuel : ∀ (n m : Nat) (b : Entropy), b.length < n → b.length < m → randLoop p n b = randLoop p m b
  | 0, _, b, h, _ => absurd h (Nat.not_lt_zero _)
  | _, 0, b, _, h => absurd h (Nat.not_lt_zero _)
  | n + 1, m + 1, b, h, h' => by
    unfold randLoop
    rcases e : nextLimbs (nLimbs p) b with k | ⟨v, s⟩
    · rfl
    · obtain ⟨-, rfl⟩ := nextLimbs_ok _ _ _ _ e
      have hl := limbs_length (nLimbs p) v
      have hp := nLimbs_pos p
      rw [List.length_append, hl] at h h'
      have ih := randLoop_fuel n m s (by omega) (by omega)
      show (if _ then _ else _) = (if _ then _ else _)
      rw [ih]

/-- One round of `rand`. -/
theorem rand_eq (b : Entropy) : rand p b = (match nextLimbs (nLimbs p) b with
    | .error e => .error e
    | .ok (v, s) =>
      if v % 2 ^ numBits p < p then .ok (((v % 2 ^ numBits p : Nat) : ZMod p) / 2 ^ (64 * nLimbs p), s) else rand p s) := by
  show randLoop p (b.length + 1) b = _
  conv_lhs => unfold randLoop
  rcases e : nextLimbs (nLimbs p) b with k | ⟨v, s⟩
  · rfl
  · obtain ⟨-, rfl⟩ := nextLimbs_ok _ _ _ _ e
    have hl := limbs_length (nLimbs p) v
    have hp := nLimbs_pos p
    have ih := randLoop_fuel (p := p) (limbs (nLimbs p) v ++ s).length (s.length + 1) s (by rw [List.length_append]; omega) (by omega)
    show (if _ then _ else _) = (if _ then _ else _)
    rw [ih]
    rfl

/-- The number below the modulus that `rand` turns into `x`. -/
def code (p : Nat) [Fact p.Prime] (x : ZMod p) : Nat := (x * 2 ^ (64 * nLimbs p)).val

theorem code_lt (x : ZMod p) : code p x < p := ZMod.val_lt _

theorem lt_two_pow_numBits (p : Nat) : p < 2 ^ numBits p := Nat.lt_size_self p

theorem numBits_lt (p : Nat) : numBits p < 64 * nLimbs p := by unfold nLimbs; omega

/-- The bytes `rand` would take, had the number it accepts been another one. -/
def slotLoop (p : Nat) [Fact p.Prime] : Nat → Entropy → ZMod p → Entropy
  | 0, _ => fun _ => []
  | fuel + 1, b =>
    match nextLimbs (nLimbs p) b with
    | .error _ => fun _ => []
    | .ok (v, s) =>
      if v % 2 ^ numBits p < p then fun y => limbs (nLimbs p) (v / 2 ^ numBits p * 2 ^ numBits p + code p y)
      else fun y => limbs (nLimbs p) v ++ slotLoop p fuel s y

def slot (p : Nat) [Fact p.Prime] (b : Entropy) : ZMod p → Entropy := slotLoop p (b.length + 1) b

theorem slotLoop_fuel : ∀ (n m : Nat) (b : Entropy), b.length < n → b.length < m → slotLoop p n b = slotLoop p m b
  | 0, _, b, h, _ => absurd h (Nat.not_lt_zero _)
  | _, 0, b, _, h => absurd h (Nat.not_lt_zero _)
  | n + 1, m + 1, b, h, h' => by
    unfold slotLoop
    rcases e : nextLimbs (nLimbs p) b with k | ⟨v, s⟩
    · rfl
    · obtain ⟨-, rfl⟩ := nextLimbs_ok _ _ _ _ e
      have hl := limbs_length (nLimbs p) v
      have hp := nLimbs_pos p
      rw [List.length_append, hl] at h h'
      have ih := slotLoop_fuel n m s (by omega) (by omega)
      show (if _ then _ else _) = (if _ then _ else _)
      rw [ih]

theorem slot_eq (b : Entropy) : slot p b = (match nextLimbs (nLimbs p) b with
    | .error _ => fun _ => []
    | .ok (v, s) =>
      if v % 2 ^ numBits p < p then fun y => limbs (nLimbs p) (v / 2 ^ numBits p * 2 ^ numBits p + code p y)
      else fun y => limbs (nLimbs p) v ++ slot p s y) := by
  show slotLoop p (b.length + 1) b = _
  conv_lhs => unfold slotLoop
  rcases e : nextLimbs (nLimbs p) b with k | ⟨v, s⟩
  · rfl
  · obtain ⟨-, rfl⟩ := nextLimbs_ok _ _ _ _ e
    have hl := limbs_length (nLimbs p) v
    have hp := nLimbs_pos p
    have ih := slotLoop_fuel (p := p) (limbs (nLimbs p) v ++ s).length (s.length + 1) s (by rw [List.length_append]; omega) (by omega)
    show (if _ then _ else _) = (if _ then _ else _)
    rw [ih]
    rfl

end OsRng

/-- The part of the result that `get` shows is free: `slot b y` are bytes with which the sampler would have returned `y` there, and all
else as with `b`. -/
structure Slots {α B : Type} (get : α → B) (set : α → B → α) (g : Sampler α) (slot : Entropy → B → Entropy) : Prop where
  cut : ∀ {b a rest}, g b = .ok (a, rest) → b = slot b (get a) ++ rest
  len : ∀ {b a rest}, g b = .ok (a, rest) → ∀ y z, (slot b y).length = (slot b z).length
  put : ∀ {b a rest}, g b = .ok (a, rest) → ∀ y rest', g (slot b y ++ rest') = .ok (set a y, rest')
  same : ∀ {b a rest}, g b = .ok (a, rest) → ∀ y rest', slot (slot b y ++ rest') = slot b

namespace OsRng

variable {p : Nat} [Fact p.Prime]

theorem rand_slots (h2 : (2 : ZMod p) ≠ 0) : Slots id (fun _ y => y) (rand p) (slot p) := by
  have hR : (2 : ZMod p) ^ (64 * nLimbs p) ≠ 0 := pow_ne_zero _ h2
  have key : ∀ (n : Nat) (b : Entropy), b.length ≤ n → ∀ x rest, rand p b = .ok (x, rest) →
      b = slot p b x ++ rest ∧ (∀ y z, (slot p b y).length = (slot p b z).length) ∧
      ∀ y rest', rand p (slot p b y ++ rest') = .ok (y, rest') ∧ slot p (slot p b y ++ rest') = slot p b := by
    intro n
    induction n with
    | zero =>
      intro b hb x rest h
      rw [rand_eq] at h
      rcases e : nextLimbs (nLimbs p) b with k | ⟨v, s⟩
      · rw [e] at h; cases h
      · obtain ⟨-, rfl⟩ := nextLimbs_ok _ _ _ _ e
        rw [List.length_append, limbs_length] at hb
        have := nLimbs_pos p
        omega
    | succ n ih =>
      intro b hb x rest h
      rw [rand_eq] at h
      rcases e : nextLimbs (nLimbs p) b with k | ⟨v, s⟩
      · rw [e] at h; cases h
      · obtain ⟨hv, hb'⟩ := nextLimbs_ok _ _ _ _ e
        have hs := slot_eq (p := p) b
        rw [e] at h hs
        dsimp only at h hs
        by_cases hacc : v % 2 ^ numBits p < p
        · rw [if_pos hacc] at h hs
          injection h with h; injection h with h1 h3
          subst h3
          have hc : code p x = v % 2 ^ numBits p := by
            rw [← h1, code, div_mul_cancel₀ _ hR, ZMod.val_natCast_of_lt hacc]
          have hlt : ∀ y : ZMod p, v / 2 ^ numBits p * 2 ^ numBits p + code p y < 2 ^ (64 * nLimbs p) := by
            intro y
            have hd : v / 2 ^ numBits p < 2 ^ (64 * nLimbs p - numBits p) := by
              rw [Nat.div_lt_iff_lt_mul (by positivity), ← pow_add]
              rwa [Nat.sub_add_cancel (numBits_lt p).le]
            calc v / 2 ^ numBits p * 2 ^ numBits p + code p y
                < v / 2 ^ numBits p * 2 ^ numBits p + 2 ^ numBits p := by
                  have := code_lt y; have := lt_two_pow_numBits p; omega
              _ = (v / 2 ^ numBits p + 1) * 2 ^ numBits p := by ring
              _ ≤ 2 ^ (64 * nLimbs p - numBits p) * 2 ^ numBits p := Nat.mul_le_mul_right _ hd
              _ = 2 ^ (64 * nLimbs p) := by rw [← pow_add, Nat.sub_add_cancel (numBits_lt p).le]
          have hmod : ∀ y : ZMod p, (v / 2 ^ numBits p * 2 ^ numBits p + code p y) % 2 ^ numBits p = code p y := by
            intro y
            rw [Nat.mul_comm, Nat.mul_add_mod]
            exact Nat.mod_eq_of_lt (lt_trans (code_lt y) (lt_two_pow_numBits p))
          have hdiv : ∀ y : ZMod p, (v / 2 ^ numBits p * 2 ^ numBits p + code p y) / 2 ^ numBits p = v / 2 ^ numBits p := by
            intro y
            rw [Nat.mul_comm, Nat.mul_add_div (by positivity), Nat.div_eq_of_lt (lt_trans (code_lt y) (lt_two_pow_numBits p)), add_zero]
          refine ⟨?_, ?_, ?_⟩
          · rw [hs]
            dsimp only
            rw [hc, Nat.div_add_mod']
            exact hb'
          · intro y z; rw [hs]; simp [limbs_length]
          · intro y rest'
            have e' : nextLimbs (nLimbs p) (slot p b y ++ rest') = .ok (v / 2 ^ numBits p * 2 ^ numBits p + code p y, rest') := by
              rw [hs]
              exact nextLimbs_limbs _ _ _ (hlt y)
            constructor
            · rw [rand_eq, e']
              dsimp only
              rw [hmod y, if_pos (code_lt y), code, ZMod.natCast_zmod_val, mul_div_cancel_right₀ _ hR]
            · rw [slot_eq, e']
              dsimp only
              rw [hmod y, if_pos (code_lt y), hdiv y, hs]
        · rw [if_neg hacc] at h hs
          have hl : s.length ≤ n := by
            rw [hb', List.length_append, limbs_length] at hb
            have := nLimbs_pos p
            omega
          obtain ⟨i1, i2, i3⟩ := ih s hl x rest h
          refine ⟨?_, ?_, ?_⟩
          · rw [hs]
            dsimp only
            rw [List.append_assoc, ← i1]
            exact hb'
          · intro y z; rw [hs]; simp [limbs_length, i2 y z]
          · intro y rest'
            have e' : nextLimbs (nLimbs p) (slot p b y ++ rest') = .ok (v, slot p s y ++ rest') := by
              rw [hs]
              dsimp only
              rw [List.append_assoc]
              exact nextLimbs_limbs _ _ _ hv
            constructor
            · rw [rand_eq, e']
              dsimp only
              rw [if_neg hacc]
              exact (i3 y rest').1
            · rw [slot_eq, e']
              dsimp only
              rw [if_neg hacc, (i3 y rest').2, hs]
  exact {
    cut := fun h => (key _ _ le_rfl _ _ h).1
    len := fun h => (key _ _ le_rfl _ _ h).2.1
    put := fun h y rest' => ((key _ _ le_rfl _ _ h).2.2 y rest').1
    same := fun h y rest' => ((key _ _ le_rfl _ _ h).2.2 y rest').2 }

end OsRng

/-! ### Samplers one after the other -/

/-- What is left after a sampler. -/
def restOf {α : Type} (g : Sampler α) (b : Entropy) : Entropy :=
  match g b with
  | .ok (_, rest) => rest
  | .error _ => []

/-- One sampler after another. -/
def Sampler.seq {α β : Type} (g : Sampler α) (h : Sampler β) : Sampler (α × β) := fun b =>
  match g b with
  | .error e => .error e
  | .ok (x, b) =>
    match h b with
    | .error e => .error e
    | .ok (y, b) => .ok ((x, y), b)

theorem Sampler.seq_ok {α β : Type} {g : Sampler α} {h : Sampler β} {b rest : Entropy} {x : α} {y : β}
    (e : g.seq h b = .ok ((x, y), rest)) : ∃ s, g b = .ok (x, s) ∧ h s = .ok (y, rest) := by
  unfold Sampler.seq at e
  rcases e1 : g b with k | ⟨x', s⟩
  · rw [e1] at e; cases e
  · rw [e1] at e
    dsimp only at e
    rcases e2 : h s with k | ⟨y', s'⟩
    · rw [e2] at e; cases e
    · rw [e2] at e; cases e
      exact ⟨s, rfl, e2⟩

theorem Sampler.seq_of {α β : Type} {g : Sampler α} {h : Sampler β} {b s rest : Entropy} {x : α} {y : β}
    (e1 : g b = .ok (x, s)) (e2 : h s = .ok (y, rest)) : g.seq h b = .ok ((x, y), rest) := by
  unfold Sampler.seq
  rw [e1]
  dsimp only
  rw [e2]

theorem Slots.seq {α β B C : Type} {g : Sampler α} {h : Sampler β} {get : α → B} {set : α → B → α} {get' : β → C} {set' : β → C → β}
    {slot : Entropy → B → Entropy} {slot' : Entropy → C → Entropy} (S : Slots get set g slot) (T : Slots get' set' h slot') :
    Slots (fun p : α × β => (get p.1, get' p.2)) (fun p q => (set p.1 q.1, set' p.2 q.2)) (g.seq h)
      (fun b q => slot b q.1 ++ slot' (restOf g b) q.2) where
  cut := by
    rintro b ⟨x, y⟩ rest e
    obtain ⟨s, e1, e2⟩ := Sampler.seq_ok e
    have hr : restOf g b = s := by unfold restOf; rw [e1]
    rw [hr, List.append_assoc]
    show b = slot b (get x) ++ (slot' s (get' y) ++ rest)
    rw [← T.cut e2]
    exact S.cut e1
  len := by
    rintro b ⟨x, y⟩ rest e ⟨u, v⟩ ⟨u', v'⟩
    obtain ⟨s, e1, e2⟩ := Sampler.seq_ok e
    have hr : restOf g b = s := by unfold restOf; rw [e1]
    rw [hr, List.length_append, List.length_append, S.len e1 u u', T.len e2 v v']
  put := by
    rintro b ⟨x, y⟩ rest e ⟨u, v⟩ rest'
    obtain ⟨s, e1, e2⟩ := Sampler.seq_ok e
    have hr : restOf g b = s := by unfold restOf; rw [e1]
    rw [hr, List.append_assoc]
    exact Sampler.seq_of (S.put e1 u _) (T.put e2 v rest')
  same := by
    rintro b ⟨x, y⟩ rest e ⟨u, v⟩ rest'
    obtain ⟨s, e1, e2⟩ := Sampler.seq_ok e
    have hr : restOf g b = s := by unfold restOf; rw [e1]
    funext ⟨u', v'⟩
    rw [hr, List.append_assoc]
    have e3 := S.put e1 u (slot' s v ++ rest')
    have hr' : restOf g (slot b u ++ (slot' s v ++ rest')) = slot' s v ++ rest' := by unfold restOf; rw [e3]
    rw [hr', S.same e1 u, T.same e2 v]

/-- A sampler whose result and whose rest depend only on the bytes it takes. -/
def Reads {α : Type} (g : Sampler α) : Prop :=
  ∀ b a rest, g b = .ok (a, rest) → ∃ pre, b = pre ++ rest ∧ ∀ rest', g (pre ++ rest') = .ok (a, rest')

theorem Reads.slots {α : Type} {g : Sampler α} (h : Reads g) :
    Slots (fun _ => ()) (fun a _ => a) g (fun b _ => b.take (b.length - (restOf g b).length)) := by
  have key : ∀ {b a rest}, g b = .ok (a, rest) → ∀ rest', (b.take (b.length - (restOf g b).length) = b.take (b.length - rest.length)) ∧
      g (b.take (b.length - rest.length) ++ rest') = .ok (a, rest') ∧ b = b.take (b.length - rest.length) ++ rest := by
    intro b a rest e rest'
    obtain ⟨pre, rfl, hp⟩ := h b a rest e
    have hr : restOf g (pre ++ rest) = rest := by unfold restOf; rw [e]
    have ht : (pre ++ rest).take ((pre ++ rest).length - rest.length) = pre := by
      rw [List.length_append, Nat.add_sub_cancel, List.take_left]
    rw [hr, ht]
    exact ⟨rfl, hp rest', rfl⟩
  refine ⟨?_, ?_, ?_, ?_⟩
  · intro b a rest e
    obtain ⟨h1, -, h3⟩ := key e []
    show b = b.take _ ++ rest
    rw [h1]; exact h3
  · intros; rfl
  · intro b a rest e y rest'
    obtain ⟨h1, h2, -⟩ := key e rest'
    show g (b.take _ ++ rest') = _
    rw [h1]; exact h2
  · intro b a rest e y rest'
    funext _
    obtain ⟨h1, h2, -⟩ := key e rest'
    show List.take _ _ = _
    rw [h1]
    have hr : restOf g (b.take (b.length - rest.length) ++ rest') = rest' := by unfold restOf; rw [h2]
    rw [hr, List.length_append, Nat.add_sub_cancel, List.take_left]

theorem Slots.map {α α' B : Type} {g : Sampler α} {get : α → B} {set : α → B → α} {slot : Entropy → B → Entropy}
    (S : Slots get set g slot) (e : α ≃ α') (g' : Sampler α') (hg : ∀ b, g' b = (g b).map fun q => (e q.1, q.2)) :
    Slots (fun a => get (e.symm a)) (fun a y => e (set (e.symm a) y)) g' slot := by
  have inv : ∀ {b a rest}, g' b = .ok (a, rest) → g b = .ok (e.symm a, rest) := by
    intro b a rest h
    rw [hg] at h
    rcases k : g b with err | ⟨x, s⟩
    · rw [k] at h; cases h
    · rw [k] at h; cases h; simp
  refine ⟨fun h => S.cut (inv h), fun h => S.len (inv h), fun h y rest' => ?_, fun h => S.same (inv h)⟩
  rw [hg, S.put (inv h)]
  rfl

/-- The bytes are changed so that the free part of the result is moved by `π`. -/
def Slots.move {α B : Type} {g : Sampler α} {get : α → B} {set : α → B → α} {slot : Entropy → B → Entropy}
    (_ : Slots get set g slot) (π : Equiv.Perm B) (b : Entropy) : Entropy :=
  match g b with
  | .ok (a, rest) => slot b (π (get a)) ++ rest
  | .error _ => b

theorem Slots.move_ok {α B : Type} {g : Sampler α} {get : α → B} {set : α → B → α} {slot : Entropy → B → Entropy}
    (S : Slots get set g slot) (π : Equiv.Perm B) {b rest : Entropy} {a : α} (h : g b = .ok (a, rest)) :
    S.move π b = slot b (π (get a)) ++ rest := by unfold Slots.move; rw [h]

theorem Slots.move_error {α B : Type} {g : Sampler α} {get : α → B} {set : α → B → α} {slot : Entropy → B → Entropy}
    (S : Slots get set g slot) (π : Equiv.Perm B) {b : Entropy} {e : Panic} (h : g b = .error e) : S.move π b = b := by
  unfold Slots.move; rw [h]

theorem Slots.move_move {α B : Type} {g : Sampler α} {get : α → B} {set : α → B → α} {slot : Entropy → B → Entropy}
    (S : Slots get set g slot) (hgs : ∀ a y, get (set a y) = y) (π ρ : Equiv.Perm B) (hρ : ∀ x, ρ (π x) = x) (b : Entropy) :
    S.move ρ (S.move π b) = b := by
  rcases e : g b with k | ⟨a, rest⟩
  · rw [S.move_error π e, S.move_error ρ e]
  · rw [S.move_ok π e, S.move_ok ρ (S.put e _ rest), S.same e, hgs, hρ]
    exact (S.cut e).symm

/-- A length-preserving bijection of the byte strings that moves the free part of the result. -/
theorem Slots.perm {α B : Type} {g : Sampler α} {get : α → B} {set : α → B → α} {slot : Entropy → B → Entropy}
    (S : Slots get set g slot) (hgs : ∀ a y, get (set a y) = y) (π : Equiv.Perm B) :
    ∃ σ : Equiv.Perm Entropy, (∀ b, (σ b).length = b.length) ∧
      ∀ b, g (σ b) = (g b).map fun q => (set q.1 (π (get q.1)), q.2) := by
  refine ⟨⟨S.move π, S.move π.symm, S.move_move hgs π π.symm (by simp), S.move_move hgs π.symm π (by simp)⟩, ?_, ?_⟩
  · intro b
    show (S.move π b).length = _
    rcases e : g b with k | ⟨a, rest⟩
    · rw [S.move_error π e]
    · rw [S.move_ok π e]
      conv_rhs => rw [S.cut e]
      rw [List.length_append, List.length_append, S.len e]
  · intro b
    show g (S.move π b) = _
    rcases e : g b with k | ⟨a, rest⟩
    · rw [S.move_error π e, e]; rfl
    · rw [S.move_ok π e, S.put e]; rfl

end Fawkes
