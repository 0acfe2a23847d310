import Verif.Model.Rand
import Verif.Props.Seedbox
import Verif.Props.Poseidon
import Verif.Lemmas.Shipped

/-!
# C65: Poseidon parameters are read off the seedbox stream

`drawNat h k` is the `k`-th block of the stream for the salt hash `h`, as a number: four 64-bit limbs, least
significant first, each made of two 32-bit words, high word first.
-/

namespace Fawkes.Props

/-- Limb `j` of a block. -/
def limb64 (b : List UInt8) (j : Nat) : Nat := word32 b (2 * j) * 2 ^ 32 + word32 b (2 * j + 1)

/-- Block `k` of the stream as a 256-bit number. -/
def drawNat (h : List UInt8) (k : Nat) : Nat :=
  let b := seedBlock h k
  limb64 b 0 + 2 ^ 64 * limb64 b 1 + 2 ^ 128 * limb64 b 2 + 2 ^ 192 * limb64 b 3

/-- The low `NUM_BITS` bits of block `k`. -/
def candidate (r : Nat) (h : List UInt8) (k : Nat) : Nat := drawNat h k % 2 ^ numBits r

/-- The hash of the salt text. -/
def saltHash (text : String) : List UInt8 := Blake2s.hash 32 [] (text.toList.map fun c => UInt8.ofNat c.toNat)

variable {r : Nat} [Fact r.Prime]

theorem at_u64 {salt : Option (List UInt8)} {n : Nat} {s : SeedboxBlake2} (h : At salt n s) (checks : Bool)
    (hn : n + 9 < 8 * 2 ^ 64) (he : n % 2 = 0) :
    ∃ s', s.nextU64 checks = .ok (limb64 (seedBlock (salt.getD []) (n / 8)) (n % 8 / 2), s') ∧ At salt (n + 2) s' := by
  obtain ⟨s1, e1, a1⟩ := at_next h checks (by omega)
  obtain ⟨s2, e2, a2⟩ := at_next a1 checks (by omega)
  refine ⟨s2, ?_, a2⟩
  obtain ⟨i, hi⟩ : ∃ i, n % 8 = 2 * i := ⟨n % 8 / 2, by omega⟩
  rw [show (n + 1) / 8 = n / 8 by omega, show (n + 1) % 8 = 2 * i + 1 by omega] at e2
  rw [hi] at e1
  rw [show n % 8 / 2 = i by omega]
  unfold SeedboxBlake2.nextU64 limb64
  rw [e1]
  generalize seedBlock (salt.getD []) (n / 8) = b at *
  simp only [bind, Except.bind]
  rw [e2]
  rfl

theorem at_block {salt : Option (List UInt8)} {k : Nat} {s : SeedboxBlake2} (h : At salt (8 * k) s) (checks : Bool)
    (hk : k + 2 < 2 ^ 64) :
    ∃ s', s.nextLimbs checks 4 = .ok (drawNat (salt.getD []) k, s') ∧ At salt (8 * (k + 1)) s' := by
  obtain ⟨s1, e1, a1⟩ := at_u64 h checks (by omega) (by omega)
  obtain ⟨s2, e2, a2⟩ := at_u64 a1 checks (by omega) (by omega)
  obtain ⟨s3, e3, a3⟩ := at_u64 a2 checks (by omega) (by omega)
  obtain ⟨s4, e4, a4⟩ := at_u64 a3 checks (by omega) (by omega)
  refine ⟨s4, ?_, by rw [show 8 * (k + 1) = 8 * k + 2 + 2 + 2 + 2 by omega]; exact a4⟩
  rw [show 8 * k / 8 = k by omega, show 8 * k % 8 / 2 = 0 by omega] at e1
  rw [show (8 * k + 2) / 8 = k by omega, show (8 * k + 2) % 8 / 2 = 1 by omega] at e2
  rw [show (8 * k + 2 + 2) / 8 = k by omega, show (8 * k + 2 + 2) % 8 / 2 = 2 by omega] at e3
  rw [show (8 * k + 2 + 2 + 2) / 8 = k by omega, show (8 * k + 2 + 2 + 2) % 8 / 2 = 3 by omega] at e4
  unfold drawNat
  generalize seedBlock (salt.getD []) k = b at *
  dsimp only
  generalize limb64 b 0 = l0 at *
  generalize limb64 b 1 = l1 at *
  generalize limb64 b 2 = l2 at *
  generalize limb64 b 3 = l3 at *
  simp only [SeedboxBlake2.nextLimbs, e1, e2, e3, e4, bind, Except.bind, pure, Except.pure]
  have : l0 + 2 ^ 64 * (l1 + 2 ^ 64 * (l2 + 2 ^ 64 * (l3 + 2 ^ 64 * 0))) =
      l0 + 2 ^ 64 * l1 + 2 ^ 128 * l2 + 2 ^ 192 * l3 := by ring
  rw [this]

/-- The elements accepted among blocks `a, …, b-1`. -/
def acceptedIn (r : Nat) [Fact r.Prime] (h : List UInt8) (a b : Nat) : List (ZMod r) :=
  ((List.range' a (b - a)).filter fun k => candidate r h k < r).map fun k =>
    ((candidate r h k : Nat) : ZMod r) / 2 ^ 256

theorem acceptedIn_append (h : List UInt8) {a b c : Nat} (hab : a ≤ b) (hbc : b ≤ c) :
    acceptedIn r h a b ++ acceptedIn r h b c = acceptedIn r h a c := by
  unfold acceptedIn
  rw [← List.map_append, ← List.filter_append, show c - a = (b - a) + (c - b) by omega, ← List.range'_append_1,
    show a + (b - a) = b by omega]

theorem rand_ok (h4 : nLimbs r = 4) {salt : Option (List UInt8)} (checks : Bool) (tries : Nat) : ∀ (k : Nat)
    (s : SeedboxBlake2), At salt (8 * k) s → k + tries + 2 < 2 ^ 64 → ∀ x s', Num.rand r checks tries s = .ok (x, s') →
    ∃ k', k < k' ∧ k' ≤ k + tries ∧ At salt (8 * k') s' ∧ acceptedIn r (salt.getD []) k k' = [x] := by
  induction tries with
  | zero => intro k s _ _ x s' h; cases h
  | succ n ih =>
    intro k s hs hk x s' h
    obtain ⟨s1, e1, a1⟩ := at_block hs checks (by omega)
    unfold Num.rand at h
    rw [h4, e1] at h
    simp only at h
    have hone : acceptedIn r (salt.getD []) k (k + 1) = if candidate r (salt.getD []) k < r then
        [((candidate r (salt.getD []) k : Nat) : ZMod r) / 2 ^ 256] else [] := by
      unfold acceptedIn
      rw [show k + 1 - k = 1 by omega]
      simp only [List.range'_one, List.filter_cons, List.filter_nil]
      split
      · next hc => rw [if_pos (by simpa using hc)]; rfl
      · next hc => rw [if_neg (by simpa using hc)]; rfl
    split at h
    · next hv =>
      change candidate r (salt.getD []) k < r at hv
      injection h with h; injection h with h h'; subst h h'
      refine ⟨k + 1, by omega, by omega, a1, ?_⟩
      rw [hone, if_pos hv]; rfl
    · next hv =>
      change ¬ candidate r (salt.getD []) k < r at hv
      obtain ⟨k', hk1, hk2, hk3, hk4⟩ := ih (k + 1) s1 a1 (by omega) x s' h
      refine ⟨k', by omega, by omega, hk3, ?_⟩
      rw [← acceptedIn_append _ (show k ≤ k + 1 by omega) (show k + 1 ≤ k' by omega), hone, if_neg hv, hk4]; rfl

theorem genVec_accepted (h4 : nLimbs r = 4) {salt : Option (List UInt8)} (checks : Bool) (tries n : Nat) : ∀ (k : Nat)
    (s : SeedboxBlake2), At salt (8 * k) s → k + n * tries + 2 < 2 ^ 64 → ∀ l s',
    Poseidon.genVec (Num.rand r checks tries) n s = .ok (l, s') →
    ∃ k', k ≤ k' ∧ k' ≤ k + n * tries ∧ At salt (8 * k') s' ∧ acceptedIn r (salt.getD []) k k' = l := by
  induction n with
  | zero =>
    intro k s hs _ l s' h; cases h
    exact ⟨k, le_rfl, by omega, hs, by simp [acceptedIn]⟩
  | succ n ih =>
    intro k s hs hk l s' h
    rw [Poseidon.genVec] at h
    rw [Nat.add_mul] at hk
    cases h1 : Num.rand r checks tries s with
    | error e => rw [h1] at h; cases h
    | ok x =>
      rw [h1] at h; simp only [bind, Except.bind] at h
      cases h2 : Poseidon.genVec (Num.rand r checks tries) n x.2 with
      | error e => rw [h2] at h; cases h
      | ok xs =>
        rw [h2] at h; cases h
        obtain ⟨k1, a1, b1, c1, d1⟩ := rand_ok h4 checks tries k s hs (by omega) x.1 x.2 h1
        obtain ⟨k2, a2, b2, c2, d2⟩ := ih k1 x.2 c1 (by omega) xs.1 xs.2 h2
        refine ⟨k2, by omega, by rw [Nat.add_mul]; omega, c2, ?_⟩
        rw [← acceptedIn_append _ a1.le a2, d1, d2]; rfl

theorem genRows_accepted (h4 : nLimbs r = 4) {salt : Option (List UInt8)} (checks : Bool) (tries t n : Nat) : ∀ (k : Nat)
    (s : SeedboxBlake2), At salt (8 * k) s → k + n * (t * tries) + 2 < 2 ^ 64 → ∀ l s',
    Poseidon.genRows (Num.rand r checks tries) t n s = .ok (l, s') →
    ∃ k', k ≤ k' ∧ k' ≤ k + n * (t * tries) ∧ At salt (8 * k') s' ∧ acceptedIn r (salt.getD []) k k' = l.flatten := by
  induction n with
  | zero =>
    intro k s hs _ l s' h; cases h
    exact ⟨k, le_rfl, by omega, hs, by simp [acceptedIn]⟩
  | succ n ih =>
    intro k s hs hk l s' h
    rw [Poseidon.genRows] at h
    rw [Nat.add_mul] at hk
    cases h1 : Poseidon.genVec (Num.rand r checks tries) t s with
    | error e => rw [h1] at h; cases h
    | ok x =>
      rw [h1] at h; simp only [bind, Except.bind] at h
      cases h2 : Poseidon.genRows (Num.rand r checks tries) t n x.2 with
      | error e => rw [h2] at h; cases h
      | ok xs =>
        rw [h2] at h; cases h
        obtain ⟨k1, a1, b1, c1, d1⟩ := genVec_accepted h4 checks tries t k s hs (by omega) x.1 x.2 h1
        obtain ⟨k2, a2, b2, c2, d2⟩ := ih k1 x.2 c1 (by omega) xs.1 xs.2 h2
        refine ⟨k2, by omega, by rw [Nat.add_mul]; omega, c2, ?_⟩
        rw [← acceptedIn_append _ a1 a2, d1, d2]; rfl

/-- The salt text. -/
theorem salt_text (t f p : Nat) : Poseidon.salt t f p = s!"fawkes_poseidon(t={t},f={f},p={p})".toList := by
  unfold Poseidon.salt
  simp only [String.toList_append, toString, Nat.repr, String.toList_ofList]

theorem at_newWithSalt (salt : List UInt8) :
    At (some (Blake2s.hash 32 [] salt)) (8 * 0) (SeedboxBlake2.newWithSalt salt) := by
  generalize h : Blake2s.hash 32 [] salt = b
  unfold SeedboxBlake2.newWithSalt
  rw [h]
  exact ⟨rfl, rfl, rfl, Or.inl ⟨rfl, rfl⟩⟩

/-- C65: the round constants followed by the rows of the matrix are the first elements of the seedbox stream for the salt
`fawkes_poseidon(t=…,f=…,p=…)` that are smaller than the modulus, each divided by `2^256`; for fields of four limbs and
any number of tries allowed to the sampling loop. -/
theorem C65_parameters (h4 : nLimbs r = 4) (checks : Bool) (tries t f p : Nat)
    (hsmall : (f + p + t * t) * tries + 2 < 2 ^ 64) (P : PoseidonParams (ZMod r))
    (h : PoseidonParams.new r checks tries t f p = .ok P) :
    P.c.length = f + p ∧ P.m.length = t ∧ (∀ row ∈ P.m, row.length = t) ∧
    ∃ n, P.c ++ P.m.flatten =
      (((List.range n).filter fun k => candidate r (saltHash s!"fawkes_poseidon(t={t},f={f},p={p})") k < r).map fun k =>
        ((candidate r (saltHash s!"fawkes_poseidon(t={t},f={f},p={p})") k : Nat) : ZMod r) / 2 ^ 256) := by
  obtain ⟨⟨hc, hm, hrow⟩, ht, hf, hp⟩ := C60_shape _ _ t f p P h
  rw [hf, hp] at hc
  rw [ht] at hm hrow
  refine ⟨hc, hm, hrow, ?_⟩
  obtain ⟨s, s', e1, e2, -⟩ := newParams_ok h
  rw [salt_text] at e1
  generalize s!"fawkes_poseidon(t={t},f={f},p={p})" = text at *
  have h0 := at_newWithSalt (text.toList.map fun c => UInt8.ofNat c.toNat)
  rw [Nat.add_mul] at hsmall
  obtain ⟨k1, a1, b1, c1, d1⟩ := genVec_accepted h4 checks tries (f + p) 0 _ h0 (by omega) _ _ e1
  obtain ⟨k2, a2, b2, c2, d2⟩ := genRows_accepted h4 checks tries t t k1 s c1
    (by rw [← Nat.mul_assoc]; omega) _ _ e2
  refine ⟨k2, ?_⟩
  rw [← d1, ← d2, acceptedIn_append _ a1 a2]
  unfold acceptedIn saltHash
  rw [List.range_eq_range', Nat.sub_zero, Option.getD_some]

theorem nextU32_deterministic {c c' : Bool} {s : SeedboxBlake2} {a b : Nat × SeedboxBlake2}
    (h : s.nextU32 c = .ok a) (h' : s.nextU32 c' = .ok b) : a = b := by
  have e : ∀ (c : Bool) (x : Nat × SeedboxBlake2), s.nextU32 c = .ok x → s.nextU32 false = .ok x := by
    intro c x h
    cases c with
    | false => exact h
    | true =>
      unfold SeedboxBlake2.nextU32 at h ⊢
      by_cases hl : s.nLimb = 8
      · rw [if_pos hl] at h ⊢
        split at h
        · cases h
        · exact h
      · rw [if_neg hl] at h ⊢; exact h
  have h1 := e _ _ h
  rw [e _ _ h'] at h1
  exact (Except.ok.inj h1).symm

theorem nextU64_deterministic {c c' : Bool} {s : SeedboxBlake2} {a b : Nat × SeedboxBlake2}
    (h : s.nextU64 c = .ok a) (h' : s.nextU64 c' = .ok b) : a = b := by
  unfold SeedboxBlake2.nextU64 at h h'
  cases h1 : s.nextU32 c with
  | error e => rw [h1] at h; cases h
  | ok x =>
    cases h1' : s.nextU32 c' with
    | error e => rw [h1'] at h'; cases h'
    | ok x' =>
      have := nextU32_deterministic h1 h1'; subst this
      rw [h1] at h; rw [h1'] at h'
      simp only [bind, Except.bind] at h h'
      cases h2 : x.2.nextU32 c with
      | error e => rw [h2] at h; cases h
      | ok y =>
        cases h2' : x.2.nextU32 c' with
        | error e => rw [h2'] at h'; cases h'
        | ok y' =>
          have := nextU32_deterministic h2 h2'; subst this
          rw [h2] at h; rw [h2'] at h'
          cases h; cases h'; rfl

theorem nextLimbs_deterministic {c c' : Bool} (n : Nat) : ∀ {s : SeedboxBlake2} {a b : Nat × SeedboxBlake2},
    s.nextLimbs c n = .ok a → s.nextLimbs c' n = .ok b → a = b := by
  induction n with
  | zero => intro s a b h h'; cases h; cases h'; rfl
  | succ n ih =>
    intro s a b h h'
    unfold SeedboxBlake2.nextLimbs at h h'
    cases h1 : s.nextU64 c with
    | error e => rw [h1] at h; cases h
    | ok x =>
      cases h1' : s.nextU64 c' with
      | error e => rw [h1'] at h'; cases h'
      | ok x' =>
        have := nextU64_deterministic h1 h1'; subst this
        rw [h1] at h; rw [h1'] at h'
        simp only [bind, Except.bind] at h h'
        cases h2 : x.2.nextLimbs c n with
        | error e => rw [h2] at h; cases h
        | ok y =>
          cases h2' : x.2.nextLimbs c' n with
          | error e => rw [h2'] at h'; cases h'
          | ok y' =>
            have := ih h2 h2'; subst this
            rw [h2] at h; rw [h2'] at h'
            cases h; cases h'; rfl

theorem rand_deterministic (checks checks' : Bool) (n : Nat) : ∀ (m : Nat) (s : SeedboxBlake2) (a b : ZMod r × SeedboxBlake2),
    Num.rand r checks n s = .ok a → Num.rand r checks' m s = .ok b → a = b := by
  induction n with
  | zero => intro m s a b h; cases h
  | succ n ih =>
    intro m s a b h h'
    cases m with
    | zero => cases h'
    | succ m =>
      unfold Num.rand at h h'
      cases e : s.nextLimbs checks (nLimbs r) with
      | error e' => rw [e] at h; cases h
      | ok v =>
        cases e' : s.nextLimbs checks' (nLimbs r) with
        | error e'' => rw [e'] at h'; cases h'
        | ok v' =>
          have := nextLimbs_deterministic _ e e'; subst this
          rw [e] at h; rw [e'] at h'
          obtain ⟨v, s1⟩ := v
          simp only at h h'
          split at h
          · next hv => rw [if_pos hv] at h'; rw [h] at h'; exact Except.ok.inj h'
          · next hv => rw [if_neg hv] at h'; exact ih _ _ _ _ h h'

theorem genVec_deterministic {F σ E : Type} [Field F] [DecidableEq F] {g g' : σ → Except E (F × σ)}
    (hg : ∀ s a b, g s = .ok a → g' s = .ok b → a = b) (n : Nat) : ∀ (s : σ) (a b : List F × σ),
    Poseidon.genVec g n s = .ok a → Poseidon.genVec g' n s = .ok b → a = b := by
  induction n with
  | zero => intro s a b h h'; cases h; cases h'; rfl
  | succ n ih =>
    intro s a b h h'
    rw [Poseidon.genVec] at h h'
    cases h1 : g s with
    | error e => rw [h1] at h; cases h
    | ok x =>
      cases h1' : g' s with
      | error e => rw [h1'] at h'; cases h'
      | ok x' =>
        have := hg _ _ _ h1 h1'; subst this
        rw [h1] at h; rw [h1'] at h'
        simp only [bind, Except.bind] at h h'
        cases h2 : Poseidon.genVec g n x.2 with
        | error e => rw [h2] at h; cases h
        | ok y =>
          cases h2' : Poseidon.genVec g' n x.2 with
          | error e => rw [h2'] at h'; cases h'
          | ok y' =>
            have := ih _ _ _ h2 h2'; subst this
            rw [h2] at h; rw [h2'] at h'
            cases h; cases h'; rfl

theorem genRows_deterministic {F σ E : Type} [Field F] [DecidableEq F] {g g' : σ → Except E (F × σ)}
    (hg : ∀ s a b, g s = .ok a → g' s = .ok b → a = b) (t n : Nat) : ∀ (s : σ) (a b : List (List F) × σ),
    Poseidon.genRows g t n s = .ok a → Poseidon.genRows g' t n s = .ok b → a = b := by
  induction n with
  | zero => intro s a b h h'; cases h; cases h'; rfl
  | succ n ih =>
    intro s a b h h'
    rw [Poseidon.genRows] at h h'
    cases h1 : Poseidon.genVec g t s with
    | error e => rw [h1] at h; cases h
    | ok x =>
      cases h1' : Poseidon.genVec g' t s with
      | error e => rw [h1'] at h'; cases h'
      | ok x' =>
        have := genVec_deterministic hg _ _ _ _ h1 h1'; subst this
        rw [h1] at h; rw [h1'] at h'
        simp only [bind, Except.bind] at h h'
        cases h2 : Poseidon.genRows g t n x.2 with
        | error e => rw [h2] at h; cases h
        | ok y =>
          cases h2' : Poseidon.genRows g' t n x.2 with
          | error e => rw [h2'] at h'; cases h'
          | ok y' =>
            have := ih _ _ _ h2 h2'; subst this
            rw [h2] at h; rw [h2'] at h'
            cases h; cases h'; rfl

/-- C65: the result depends neither on how many tries the sampling loop is given nor on whether overflow is checked. -/
theorem C65_deterministic (checks checks' : Bool) (n m t f p : Nat) (P Q : PoseidonParams (ZMod r))
    (h : PoseidonParams.new r checks n t f p = .ok P) (h' : PoseidonParams.new r checks' m t f p = .ok Q) : P = Q := by
  obtain ⟨s, s', e1, e2, e3, e4, e5⟩ := newParams_ok h
  obtain ⟨z, z', f1, f2, f3, f4, f5⟩ := newParams_ok h'
  have hg := fun s a b => rand_deterministic (r := r) checks checks' n m s a b
  have h1 := genVec_deterministic hg _ _ _ _ e1 f1
  injection h1 with h1 h2; subst h2
  have h3 := genRows_deterministic hg _ _ _ _ _ e2 f2
  injection h3 with h3 _
  cases P; cases Q; simp_all

/-- Both shipped fields have four limbs. -/
example : nLimbs bnR = 4 ∧ nLimbs blsR = 4 := by decide +kernel

/-- Concrete: parameters of width one over the field of BN256; the two values were computed independently with
Python's `hashlib.blake2s` (the first two blocks are rejected). -/
example : (PoseidonParams.new bnR true 20 1 0 1).map (fun P => (P.c, P.m, P.t, P.f, P.p)) = .ok
    ([7752385597447461389137553103588542358736568825257525125792686971100589306949],
     [[15038036590791278104460139840126096259510248475156685152782532241540987605554]], 1, 0, 1) := by decide +kernel

end Fawkes.Props
