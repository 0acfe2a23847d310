import Verif.Model.RandomPoint
import Verif.Lemmas.OsRng
import Mathlib.Logic.Equiv.Fintype

/-!
# Lemmas: drawing until something fits
-/

namespace Fawkes

/-- Every result is free. -/
def Free {α : Type} (g : Sampler α) : Prop := ∃ slot, Slots id (fun _ y => y) g slot

/-- Every successful run takes bytes. -/
def Consumes {α : Type} (g : Sampler α) : Prop := ∀ b a rest, g b = .ok (a, rest) → rest.length < b.length

/-- Draw until `f` accepts; the first argument bounds the number of rounds. -/
def retryLoop {B A : Type} (g : Sampler B) (f : B → Option A) : Nat → Sampler A
  | 0, _ => .error .unwrap
  | fuel + 1, s =>
    match g s with
    | .error e => .error e
    | .ok (x, s) =>
      match f x with
      | none => retryLoop g f fuel s
      | some a => .ok (a, s)

def retry {B A : Type} (g : Sampler B) (f : B → Option A) : Sampler A := fun s => retryLoop g f (s.length + 1) s

section

variable {B A : Type} {g : Sampler B} {f : B → Option A}

theorem retryLoop_fuel (hg : Consumes g) : ∀ (n m : Nat) (b : Entropy), b.length < n → b.length < m → retryLoop g f n b = retryLoop g f m b
  | 0, _, b, h, _ => absurd h (Nat.not_lt_zero _)
  | _, 0, b, _, h => absurd h (Nat.not_lt_zero _)
  | n + 1, m + 1, b, h, h' => by
    unfold retryLoop
    rcases e : g b with k | ⟨x, s⟩
    · rfl
    · dsimp only
      have := hg _ _ _ e
      cases f x with
      | none => exact retryLoop_fuel hg n m s (by omega) (by omega)
      | some a => rfl

/-- One round. -/
theorem retry_eq (hg : Consumes g) (b : Entropy) : retry g f b = (match g b with
    | .error e => .error e
    | .ok (x, s) =>
      match f x with
      | none => retry g f s
      | some a => .ok (a, s)) := by
  show retryLoop g f (b.length + 1) b = _
  conv_lhs => unfold retryLoop
  rcases e : g b with k | ⟨x, s⟩
  · rfl
  · dsimp only
    have := hg _ _ _ e
    cases f x with
    | none => exact retryLoop_fuel hg b.length (s.length + 1) s (by omega) (by omega)
    | some a => rfl

/-- The bytes a successful run took, had the accepted value been another one. -/
def retrySlotLoop (g : Sampler B) (f : B → Option A) (emb : A → B) (slot : Entropy → B → Entropy) : Nat → Entropy → A → Entropy
  | 0, _ => fun _ => []
  | fuel + 1, b =>
    match g b with
    | .error _ => fun _ => []
    | .ok (x, s) =>
      match f x with
      | none => fun y => slot b x ++ retrySlotLoop g f emb slot fuel s y
      | some _ => fun y => slot b (emb y)

def retrySlot (g : Sampler B) (f : B → Option A) (emb : A → B) (slot : Entropy → B → Entropy) (b : Entropy) : A → Entropy :=
  retrySlotLoop g f emb slot (b.length + 1) b

variable {emb : A → B} {slot : Entropy → B → Entropy}

theorem retrySlotLoop_fuel (hg : Consumes g) : ∀ (n m : Nat) (b : Entropy), b.length < n → b.length < m →
    retrySlotLoop g f emb slot n b = retrySlotLoop g f emb slot m b
  | 0, _, b, h, _ => absurd h (Nat.not_lt_zero _)
  | _, 0, b, _, h => absurd h (Nat.not_lt_zero _)
  | n + 1, m + 1, b, h, h' => by
    unfold retrySlotLoop
    rcases e : g b with k | ⟨x, s⟩
    · rfl
    · dsimp only
      have := hg _ _ _ e
      cases f x with
      | none => dsimp only; rw [retrySlotLoop_fuel hg n m s (by omega) (by omega)]
      | some a => rfl

theorem retrySlot_eq (hg : Consumes g) (b : Entropy) : retrySlot g f emb slot b = (match g b with
    | .error _ => fun _ => []
    | .ok (x, s) =>
      match f x with
      | none => fun y => slot b x ++ retrySlot g f emb slot s y
      | some _ => fun y => slot b (emb y)) := by
  show retrySlotLoop g f emb slot (b.length + 1) b = _
  conv_lhs => unfold retrySlotLoop
  rcases e : g b with k | ⟨x, s⟩
  · rfl
  · dsimp only
    have := hg _ _ _ e
    cases f x with
    | none => dsimp only; rw [retrySlotLoop_fuel hg b.length (s.length + 1) s (by omega) (by omega)]; rfl
    | some a => rfl

/-- If the values drawn are free, so are those that `f` accepts, when `f` tells them apart. -/
theorem retry_slots (hg : Consumes g) (S : Slots id (fun _ y => y) g slot) (h1 : ∀ a, f (emb a) = some a)
    (h2 : ∀ x a, f x = some a → x = emb a) : Slots id (fun _ y => y) (retry g f) (retrySlot g f emb slot) := by
  have key : ∀ (n : Nat) (b : Entropy), b.length ≤ n → ∀ a rest, retry g f b = .ok (a, rest) →
      b = retrySlot g f emb slot b a ++ rest ∧
      (∀ y z, (retrySlot g f emb slot b y).length = (retrySlot g f emb slot b z).length) ∧
      ∀ y rest', retry g f (retrySlot g f emb slot b y ++ rest') = .ok (y, rest') ∧
        retrySlot g f emb slot (retrySlot g f emb slot b y ++ rest') = retrySlot g f emb slot b := by
    intro n
    induction n with
    | zero =>
      intro b hb a rest h
      rw [retry_eq hg] at h
      rcases e : g b with k | ⟨x, s⟩
      · rw [e] at h; cases h
      · have := hg _ _ _ e
        omega
    | succ n ih =>
      intro b hb a rest h
      rw [retry_eq hg] at h
      rcases e : g b with k | ⟨x, s⟩
      · rw [e] at h; cases h
      · have hlt := hg _ _ _ e
        have hs := retrySlot_eq (f := f) (emb := emb) (slot := slot) hg b
        rw [e] at h hs
        dsimp only at h hs
        cases hf : f x with
        | some a' =>
          rw [hf] at h hs
          dsimp only at h hs
          cases h
          refine ⟨?_, ?_, ?_⟩
          · rw [hs]
            dsimp only
            rw [← h2 _ _ hf]
            exact S.cut e
          · intro y z; rw [hs]; exact S.len e _ _
          · intro y rest'
            have e' : g (retrySlot g f emb slot b y ++ rest') = .ok (emb y, rest') := by
              rw [hs]; exact S.put e _ _
            constructor
            · rw [retry_eq hg, e']
              dsimp only
              rw [h1]
            · rw [retrySlot_eq hg, e']
              dsimp only
              rw [h1]
              dsimp only
              rw [hs]
              funext z
              dsimp only
              rw [S.same e]
        | none =>
          rw [hf] at h hs
          dsimp only at h hs
          obtain ⟨i1, i2, i3⟩ := ih s (by omega) a rest h
          refine ⟨?_, ?_, ?_⟩
          · rw [hs]
            dsimp only
            rw [List.append_assoc, ← i1]
            exact S.cut e
          · intro y z; rw [hs]; simp [i2 y z]
          · intro y rest'
            have hb' : retrySlot g f emb slot b y ++ rest' = slot b x ++ (retrySlot g f emb slot s y ++ rest') := by
              rw [hs]; dsimp only; rw [List.append_assoc]
            have e' : g (retrySlot g f emb slot b y ++ rest') = .ok (x, retrySlot g f emb slot s y ++ rest') := by
              rw [hb']; exact S.put e _ _
            constructor
            · rw [retry_eq hg, e']
              dsimp only
              rw [hf]
              exact (i3 y rest').1
            · rw [retrySlot_eq hg, e']
              dsimp only
              rw [hf]
              dsimp only
              rw [(i3 y rest').2, hb', S.same e, hs]
  exact {
    cut := fun h => (key _ _ le_rfl _ _ h).1
    len := fun h => (key _ _ le_rfl _ _ h).2.1
    put := fun h y rest' => ((key _ _ le_rfl _ _ h).2.2 y rest').1
    same := fun h y rest' => ((key _ _ le_rfl _ _ h).2.2 y rest').2 }

theorem Free.retry (hg : Consumes g) (S : Free g) (h1 : ∀ a, f (emb a) = some a) (h2 : ∀ x a, f x = some a → x = emb a) :
    Free (retry g f) := by
  obtain ⟨slot, S⟩ := S
  exact ⟨_, retry_slots hg S h1 h2⟩

theorem retry_consumes (hg : Consumes g) : Consumes (retry g f) := by
  have key : ∀ (n : Nat) (b : Entropy), b.length ≤ n → ∀ a rest, retry g f b = .ok (a, rest) → rest.length < b.length := by
    intro n
    induction n with
    | zero =>
      intro b hb a rest h
      rw [retry_eq hg] at h
      rcases e : g b with k | ⟨x, s⟩
      · rw [e] at h; cases h
      · have := hg _ _ _ e
        omega
    | succ n ih =>
      intro b hb a rest h
      rw [retry_eq hg] at h
      rcases e : g b with k | ⟨x, s⟩
      · rw [e] at h; cases h
      · have := hg _ _ _ e
        rw [e] at h
        dsimp only at h
        cases hf : f x with
        | none => rw [hf] at h; have := ih s (by omega) a rest h; omega
        | some a' => rw [hf] at h; cases h; omega
  exact fun b a rest h => key _ b le_rfl a rest h

end

/-! ### Pieces -/

theorem Free.seq {α β : Type} {g : Sampler α} {h : Sampler β} (S : Free g) (T : Free h) : Free (g.seq h) := by
  obtain ⟨s, S⟩ := S
  obtain ⟨t, T⟩ := T
  exact ⟨_, S.seq T⟩

theorem Free.map {α β : Type} {g : Sampler α} (S : Free g) (e : α ≃ β) (g' : Sampler β) (hg : ∀ b, g' b = (g b).map fun q => (e q.1, q.2)) :
    Free g' := by
  obtain ⟨s, S⟩ := S
  obtain ⟨h1, h2, h3, h4⟩ := S.map e g' hg
  refine ⟨fun b y => s b (e.symm y), fun h => h1 h, fun h y z => h2 h _ _, fun h y rest' => ?_, fun h y rest' => ?_⟩
  · rw [h3 h]
    simp
  · funext z
    exact congrFun (h4 h _ _) _

theorem Free.perm {α : Type} {g : Sampler α} (S : Free g) (π : Equiv.Perm α) :
    ∃ σ : Equiv.Perm Entropy, (∀ b, (σ b).length = b.length) ∧ ∀ b, g (σ b) = (g b).map fun q => (π q.1, q.2) := by
  obtain ⟨s, S⟩ := S
  exact S.perm (fun _ _ => rfl) π

theorem Free.reads {α : Type} {g : Sampler α} (S : Free g) : Reads g := by
  obtain ⟨s, S⟩ := S
  intro b a rest h
  exact ⟨s b a, S.cut h, fun rest' => S.put h a rest'⟩

theorem Reads.map {α β : Type} {g : Sampler α} (h : Reads g) (f : α → β) (g' : Sampler β) (hg : ∀ b, g' b = (g b).map fun q => (f q.1, q.2)) :
    Reads g' := by
  intro b a rest e
  rw [hg] at e
  rcases k : g b with err | ⟨x, s⟩
  · rw [k] at e; cases e
  · rw [k] at e
    cases e
    obtain ⟨pre, h1, h2⟩ := h _ _ _ k
    exact ⟨pre, h1, fun rest' => by rw [hg, h2]; rfl⟩

theorem Consumes.seq {α β : Type} {g : Sampler α} {h : Sampler β} (hg : Consumes g) (hh : Consumes h) : Consumes (g.seq h) := by
  rintro b ⟨x, y⟩ rest e
  obtain ⟨s, e1, e2⟩ := Sampler.seq_ok e
  have := hg _ _ _ e1
  have := hh _ _ _ e2
  omega

namespace Groth16

open OsRng

theorem randBool_free : Free randBool := by
  refine ⟨fun b y => match nextU32 b with
    | .error _ => []
    | .ok (v, _) => be4 (v / 2 * 2 + y.toNat), ?_⟩
  have inv : ∀ {b a rest}, randBool b = .ok (a, rest) → ∃ v, nextU32 b = .ok (v, rest) ∧ a = (v % 2 == 1) := by
    intro b a rest h
    unfold randBool at h
    rcases e : nextU32 b with k | ⟨v, s⟩
    · rw [e] at h; cases h
    · rw [e] at h
      cases h
      exact ⟨v, rfl, by rw [Nat.mod_mod_of_dvd _ (by decide)]⟩
  have bit : ∀ y : Bool, y.toNat < 2 := fun y => by cases y <;> decide
  refine ⟨?_, ?_, ?_, ?_⟩
  · intro b a rest h
    obtain ⟨v, e, rfl⟩ := inv h
    rw [e]
    dsimp only
    have : v / 2 * 2 + (id (v % 2 == 1)).toNat = v := by
      rcases Nat.mod_two_eq_zero_or_one v with h | h <;> rw [h] <;> simp <;> omega
    rw [this]
    exact (nextU32_ok e).2
  · intro b a rest h y z
    obtain ⟨v, e, rfl⟩ := inv h
    rw [e]
    rfl
  · intro b a rest h y rest'
    obtain ⟨v, e, rfl⟩ := inv h
    have hv := (nextU32_ok e).1
    have := bit y
    unfold randBool
    rw [e]
    dsimp only
    rw [nextU32_be4 (by omega)]
    show Except.ok (_, rest') = _
    congr 2
    rw [Nat.mod_mod_of_dvd _ (by decide), show (v / 2 * 2 + y.toNat) % 2 = y.toNat by omega]
    cases y <;> rfl
  · intro b a rest h y rest'
    obtain ⟨v, e, rfl⟩ := inv h
    have hv := (nextU32_ok e).1
    have := bit y
    funext z
    rw [e]
    dsimp only
    rw [nextU32_be4 (by omega)]
    dsimp only
    rw [show (v / 2 * 2 + y.toNat) / 2 = v / 2 by omega]

theorem randBool_consumes : Consumes randBool := by
  intro b a rest h
  unfold randBool at h
  rcases e : nextU32 b with k | ⟨v, s⟩
  · rw [e] at h; cases h
  · rw [e] at h
    cases h
    rw [(nextU32_ok e).2]
    simp only [be4, List.length_append, List.length_cons, List.length_nil]
    omega

theorem rand_free {p : Nat} [Fact p.Prime] (h2 : (2 : ZMod p) ≠ 0) : Free (rand p) := ⟨_, rand_slots h2⟩

theorem rand_consumes {p : Nat} [Fact p.Prime] : Consumes (rand p) := by
  have key : ∀ (n : Nat) (b : Entropy), b.length ≤ n → ∀ a rest, rand p b = .ok (a, rest) → rest.length < b.length := by
    intro n
    induction n with
    | zero =>
      intro b hb x rest h
      rw [rand_eq] at h
      rcases e : nextLimbs (nLimbs p) b with k | ⟨v, s⟩
      · rw [e] at h; cases h
      · obtain ⟨-, rfl⟩ := nextLimbs_ok _ _ _ _ e
        rw [List.length_append, limbs_length] at hb
        have := nLimbs_pos p
        omega
    | succ n ih =>
      intro b hb x rest h
      rw [rand_eq] at h
      rcases e : nextLimbs (nLimbs p) b with k | ⟨v, s⟩
      · rw [e] at h; cases h
      · obtain ⟨-, hb'⟩ := nextLimbs_ok _ _ _ _ e
        have hl : b.length = 8 * nLimbs p + s.length := by rw [hb', List.length_append, limbs_length]
        have := nLimbs_pos p
        rw [e] at h
        dsimp only at h
        split at h
        · cases h; omega
        · have := ih s (by omega) x rest h; omega
  exact fun b a rest h => key _ b le_rfl a rest h

/-- Two elements of the base field as one of the extension. -/
def fq2Equiv (q : Nat) : (ZMod q × ZMod q) ≃ Fq2 (ZMod q) where
  toFun p := ⟨p.1, p.2⟩
  invFun x := (x.re, x.im)
  left_inv _ := rfl
  right_inv _ := rfl

theorem randFq2_eq {q : Nat} [Fact q.Prime] (b : Entropy) :
    randFq2 q b = (Sampler.seq (rand q) (rand q) b).map fun p => (fq2Equiv q p.1, p.2) := by
  unfold randFq2 Sampler.seq
  rcases rand q b with e | ⟨x, s⟩
  · rfl
  · show (rand q s >>= _) = _
    dsimp only
    rcases rand q s with e | ⟨y, s⟩ <;> rfl

theorem randFq2_free {q : Nat} [Fact q.Prime] (h2 : (2 : ZMod q) ≠ 0) : Free (randFq2 q) :=
  ((rand_free h2).seq (rand_free h2)).map (fq2Equiv q) _ randFq2_eq

theorem randFq2_consumes {q : Nat} [Fact q.Prime] : Consumes (randFq2 q) := by
  intro b a rest h
  rw [randFq2_eq] at h
  rcases e : Sampler.seq (rand q) (rand q) b with k | ⟨x, s⟩
  · rw [e] at h; cases h
  · rw [e] at h
    cases h
    exact (rand_consumes.seq rand_consumes) _ _ _ e

end Groth16

end Fawkes
