import Verif.Model.Blake2Stream
import Verif.Lemmas.Blake2s

/-!
# A context fed piece by piece
-/

namespace Fawkes.Blake2s

open Fawkes.Rfc7693 (Word)

attribute [local irreducible] Rfc7693.F compress

theorem getD_left (b x : List UInt8) (i : Nat) (h : i < b.length) : (b ++ x).getD i 0 = b.getD i 0 := by
  rw [List.getD_eq_getElem?_getD, List.getD_eq_getElem?_getD, List.getElem?_append_left h]

theorem getD_right (b x : List UInt8) (i : Nat) (h : b.length ≤ i) : (b ++ x).getD i 0 = x.getD (i - b.length) 0 := by
  rw [List.getD_eq_getElem?_getD, List.getD_eq_getElem?_getD, List.getElem?_append_right h]

theorem wordAt_append (b x : List UInt8) (k : Nat) (h : k + 4 ≤ b.length) :
    Rfc7693.wordAt (b ++ x) k = Rfc7693.wordAt b k := by
  unfold Rfc7693.wordAt
  rw [show List.range 4 = [0, 1, 2, 3] from rfl]
  simp only [List.map_cons, List.map_nil]
  rw [getD_left _ _ _ (by omega), getD_left _ _ _ (by omega), getD_left _ _ _ (by omega), getD_left _ _ _ (by omega)]

theorem block_append (b x : List UInt8) (i : Nat) (h : 64 * (i + 1) ≤ b.length) :
    Rfc7693.block (b ++ x) i = Rfc7693.block b i := by
  funext j
  have := j.isLt
  exact wordAt_append b x _ (by omega)

theorem state_append (nn : Nat) (personal b x : List UInt8) (k : Nat) (h : 64 * k ≤ b.length) :
    Rfc7693.state nn personal (b ++ x) k = Rfc7693.state nn personal b k := by
  induction k with
  | zero => simp only [Rfc7693.state, List.range_zero, List.foldl_nil]
  | succ k ih => rw [state_succ, state_succ, ih (by omega), block_append b x k (by omega)]

/-- What a context holds after the bytes `b`. -/
structure Fed (nn : Nat) (personal b : List UInt8) (c : Ctx) : Prop where
  nn_eq : c.nn = nn
  t_eq : c.t = b.length
  m_len : c.m.length = 64
  h_eq : c.h = ofH (Rfc7693.state nn personal b ((b.length - 1) / 64))
  m_eq : c.m.take (b.length - 64 * ((b.length - 1) / 64)) = b.drop (64 * ((b.length - 1) / 64))
  zero : b = [] → c.m = List.replicate 64 0

theorem state_zero (nn : Nat) (personal b : List UInt8) : Rfc7693.state nn personal b 0 = Rfc7693.init nn personal := by
  simp only [Rfc7693.state, List.range_zero, List.foldl_nil]

theorem fed_start {nn : Nat} {personal : List UInt8} (h1 : 1 ≤ nn) (h2 : nn ≤ 32) (h3 : personal.length ≤ 8) :
    ∃ c, Ctx.withParams nn personal = .ok c ∧ Fed nn personal [] c := by
  unfold Ctx.withParams
  rw [if_pos ⟨h1, h2, h3⟩, init_words nn h2]
  exact ⟨_, rfl, rfl, rfl, rfl, by simp only [List.length_nil, Nat.zero_sub, Nat.zero_div, state_zero], rfl, fun _ => rfl⟩

theorem fed_fill {nn : Nat} {personal b : List UInt8} {c : Ctx} (hc : Fed nn personal b c) (part : List UInt8)
    (ho : b.length % 64 ≠ 0 ∨ b.length = 0) (hp : part.length ≤ 64 - b.length % 64) (hl : b.length + part.length < 2 ^ 64) :
    ∃ c', c.fill (c.t % 64) part = .ok c' ∧ Fed nn personal (b ++ part) c' := by
  unfold Ctx.fill
  have ht := hc.t_eq
  rw [ht, if_pos hl]
  have hk : ((b ++ part).length - 1) / 64 = (b.length - 1) / 64 := by rw [List.length_append]; omega
  have hb : b.length - 64 * ((b.length - 1) / 64) = b.length % 64 := by omega
  have hm := hc.m_eq
  rw [hb] at hm
  have hlt : (c.m.take (b.length % 64)).length = b.length % 64 := by rw [List.length_take, hc.m_len]; omega
  refine ⟨_, rfl, hc.nn_eq, by rw [List.length_append], ?_, ?_, ?_, ?_⟩
  · have := hc.m_len
    simp only [List.length_append, List.length_take, List.length_drop]
    omega
  · rw [hk, state_append _ _ _ _ _ (by omega)]; exact hc.h_eq
  · rw [hk]
    show (c.m.take (b.length % 64) ++ part ++ _).take _ = _
    rw [List.drop_append_of_le_length (by omega), ← hm, List.take_left']
    rw [List.length_append, hlt, List.length_append]; omega
  · intro h
    rw [List.append_eq_nil_iff] at h
    rw [h.1, h.2]
    have := hc.zero h.1
    simp [this]

theorem fed_push {nn : Nat} {personal b : List UInt8} {c : Ctx} (hc : Fed nn personal b c) (part : List UInt8)
    (h0 : b.length % 64 = 0) (h1 : b.length ≠ 0) (hp : part.length ≤ 64) (hp0 : 0 < part.length)
    (hl : b.length + part.length < 2 ^ 64) :
    ∃ c', (c.squeeze false).fill 0 part = .ok c' ∧ Fed nn personal (b ++ part) c' := by
  unfold Ctx.fill Ctx.squeeze
  dsimp only
  have ht := hc.t_eq
  rw [ht, if_pos hl]
  have hk : ((b ++ part).length - 1) / 64 = (b.length - 1) / 64 + 1 := by rw [List.length_append]; omega
  have hb : b.length - 64 * ((b.length - 1) / 64) = 64 := by omega
  have hm := hc.m_eq
  rw [hb, List.take_of_length_le (by rw [hc.m_len])] at hm
  refine ⟨_, rfl, hc.nn_eq, by rw [List.length_append], ?_, ?_, ?_, ?_⟩
  · have := hc.m_len
    simp only [List.length_append, List.length_take, List.length_drop]
    omega
  · rw [hk, state_append _ _ _ _ _ (by omega), state_succ, hc.h_eq, hm, compress_block,
      show ((b.length - 1) / 64 + 1) * 64 = b.length by omega]
  · rw [hk]
    show (c.m.take 0 ++ part ++ _).take _ = _
    have e : b.drop (64 * ((b.length - 1) / 64 + 1)) = [] := List.drop_eq_nil_of_le (by omega)
    rw [List.take_zero, List.nil_append, List.drop_append_of_le_length (by omega), e, List.nil_append, List.take_left']
    rw [List.length_append]; omega
  · intro h
    rw [List.append_eq_nil_iff] at h
    rw [h.1] at h1
    exact absurd rfl h1

theorem fed_absorb {nn : Nat} {personal : List UInt8} (n : Nat) : ∀ (rest b : List UInt8) (c : Ctx), rest.length ≤ n →
    Fed nn personal b c → (rest = [] ∨ b.length % 64 = 0 ∧ b.length ≠ 0) → b.length + rest.length < 2 ^ 64 →
    ∃ c', c.absorb rest = .ok c' ∧ Fed nn personal (b ++ rest) c' := by
  induction n with
  | zero =>
    intro rest b c hn hc _ _
    have hr : rest = [] := List.eq_nil_of_length_eq_zero (by omega)
    subst hr
    refine ⟨c, ?_, by rwa [List.append_nil]⟩
    rw [Ctx.absorb, if_neg (by simp), if_neg (by simp)]
  | succ n ih =>
    intro rest b c hn hc hor hl
    rw [Ctx.absorb]
    split_ifs with h1 h2
    · rcases hor with rfl | ⟨ha, hb⟩
      · simp at h1
      · obtain ⟨c1, e1, f1⟩ := fed_push hc (rest.take 64) ha hb (by simp) (by simp; omega)
          (by rw [List.length_take]; omega)
        rw [e1]
        obtain ⟨c2, e2, f2⟩ := ih (rest.drop 64) (b ++ rest.take 64) c1 (by rw [List.length_drop]; omega) f1
          (Or.inr (by rw [List.length_append, List.length_take]; omega))
          (by rw [List.length_append, List.length_take, List.length_drop]; omega)
        refine ⟨c2, e2, ?_⟩
        rwa [List.append_assoc, List.take_append_drop] at f2
    · rcases hor with rfl | ⟨ha, hb⟩
      · simp at h2
      · exact fed_push hc rest ha hb (by omega) h2 hl
    · have hr : rest = [] := List.eq_nil_of_length_eq_zero (by omega)
      subst hr
      exact ⟨c, rfl, by rwa [List.append_nil]⟩

theorem fed_update {nn : Nat} {personal b : List UInt8} {c : Ctx} (hc : Fed nn personal b c) (data : List UInt8)
    (hl : b.length + data.length < 2 ^ 64) :
    ∃ c', c.update data = .ok c' ∧ Fed nn personal (b ++ data) c' := by
  unfold Ctx.update
  have ht := hc.t_eq
  split_ifs with h
  · dsimp only
    obtain ⟨c1, e1, f1⟩ := fed_fill hc (data.take (min (64 - c.t % 64) data.length)) (by rwa [ht] at h)
      (by rw [List.length_take, ht]; omega) (by rw [List.length_take]; omega)
    rw [e1]
    obtain ⟨c2, e2, f2⟩ := fed_absorb _ (data.drop (min (64 - c.t % 64) data.length)) _ c1 le_rfl f1
      (by
        rw [ht] at h ⊢
        by_cases hd : data.length ≤ 64 - b.length % 64
        · left
          exact List.drop_eq_nil_of_le (by omega)
        · right
          rw [List.length_append, List.length_take]
          omega)
      (by rw [List.length_append, List.length_take, List.length_drop]; omega)
    refine ⟨c2, e2, ?_⟩
    rwa [List.append_assoc, List.take_append_drop] at f2
  · rw [ht] at h
    exact fed_absorb _ data b c le_rfl hc (Or.inr (by omega)) hl

theorem wordAt_zeros (b : List UInt8) (n k : Nat) : Rfc7693.wordAt (b ++ List.replicate n 0) k = Rfc7693.wordAt b k := by
  unfold Rfc7693.wordAt
  congr 3
  funext j
  congr 1
  rcases lt_or_ge (k + j) b.length with h | h
  · rw [getD_left _ _ _ h]
  · rw [getD_right _ _ _ h, List.getD_eq_getElem?_getD, List.getD_eq_getElem?_getD, List.getElem?_eq_none h,
      List.getElem?_replicate]
    split_ifs <;> rfl

theorem words_zeros (b : List UInt8) (n k : Nat) : words k (b ++ List.replicate n 0) = words k b := by
  have : ∀ b, words k b = (List.range k).map fun i => (Rfc7693.wordAt b (4 * i)).toNat := by
    intro b
    simp only [words, wordAt_toNat]
  rw [this, this]
  simp only [wordAt_zeros]

theorem fed_finalize {nn : Nat} {personal b : List UInt8} {c : Ctx} (hnn : nn ≤ 32) (hc : Fed nn personal b c) :
    c.finalize = Rfc7693.digest nn personal b := by
  have hd : Rfc7693.dd b - 1 = (b.length - 1) / 64 := by unfold Rfc7693.dd; omega
  have hw : ∀ m', m' = (if c.t % 64 ≠ 0 then c.m.take (c.t % 64) ++ List.replicate (64 - c.t % 64) 0 else c.m) →
      words 16 m' = words 16 (b.drop (64 * ((b.length - 1) / 64))) := by
    intro m' hm'
    subst hm'
    have hm := hc.m_eq
    rw [hc.t_eq]
    by_cases h0 : b.length % 64 = 0
    · rw [if_neg (by omega)]
      by_cases h1 : b.length = 0
      · have hb : b = [] := List.eq_nil_of_length_eq_zero h1
        rw [hc.zero hb, hb]
        decide
      · rw [show b.length - 64 * ((b.length - 1) / 64) = 64 by omega, List.take_of_length_le (by rw [hc.m_len])] at hm
        rw [hm]
    · rw [if_pos h0, words_zeros, ← hm]
      congr 2
      omega
  unfold Ctx.finalize Ctx.squeeze
  dsimp only
  have e : ∀ c1 : Ctx, c1.t = c.t → c1.h = c.h → c1.nn = c.nn → c1.m = (if c.t % 64 ≠ 0 then c.m.take (c.t % 64) ++
      List.replicate (64 - c.t % 64) 0 else c.m) →
      ((compress c1.h (words 16 c1.m) c1.t true).flatMap fun w =>
        [UInt8.ofNat w, UInt8.ofNat (w / 256), UInt8.ofNat (w / 65536), UInt8.ofNat (w / 16777216)]).take c1.nn =
      Rfc7693.digest nn personal b := by
    intro c1 h1 h2 h3 h4
    rw [hw _ h4, h1, h2, h3, hc.h_eq, hc.t_eq, hc.nn_eq, compress_block, bytes_digest nn hnn]
    unfold Rfc7693.digest Rfc7693.final
    rw [hd]
  split_ifs with h
  · exact e _ rfl rfl rfl (by rw [if_pos h])
  · exact e _ rfl rfl rfl (by rw [if_neg h])

theorem fed_pieces {nn : Nat} {personal : List UInt8} (pieces : List (List UInt8)) : ∀ (b : List UInt8) (c : Ctx),
    Fed nn personal b c → b.length + pieces.flatten.length < 2 ^ 64 →
    ∃ c', pieces.foldlM Ctx.update c = .ok c' ∧ Fed nn personal (b ++ pieces.flatten) c' := by
  induction pieces with
  | nil => intro b c hc _; exact ⟨c, rfl, by simpa using hc⟩
  | cons x xs ih =>
    intro b c hc hl
    rw [List.flatten_cons, List.length_append] at hl
    obtain ⟨c1, e1, f1⟩ := fed_update hc x (by omega)
    obtain ⟨c2, e2, f2⟩ := ih (b ++ x) c1 f1 (by rw [List.length_append]; omega)
    refine ⟨c2, ?_, by rwa [List.flatten_cons, ← List.append_assoc]⟩
    rw [List.foldlM_cons, e1]
    exact e2

end Fawkes.Blake2s
