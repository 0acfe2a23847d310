import Verif.Model.Blake2
import Verif.Spec.Blake2s
import Mathlib.Tactic.Ring
import Mathlib.Tactic.IntervalCases

/-!
# The hash of the model and the hash of RFC 7693
-/

namespace Fawkes.Blake2s

open Fawkes.Rfc7693 (Word)

theorem add32_toNat (x y : Word) : add32 x.toNat y.toNat = (x + y).toNat := by
  rw [BitVec.toNat_add]; rfl

theorem rotr32_toNat (x : Word) (n : Nat) (hn : n < 32) : rotr32 x.toNat n = (x.rotateRight n).toNat := by
  rw [BitVec.toNat_rotateRight, Nat.mod_eq_of_lt hn, rotr32, show 4294967296 = 2 ^ 32 from rfl, Nat.or_mod_two_pow]
  congr 1
  exact Nat.mod_eq_of_lt (lt_of_le_of_lt (Nat.shiftRight_le _ _) x.isLt)

theorem xor_toNat (x y : Word) : x.toNat ^^^ y.toNat = (x ^^^ y).toNat := (BitVec.toNat_xor x y).symm

/-- One call of `G` computes the mixing function on its four words. -/
theorem mix_G (v : Fin 16 → Word) (a b c d : Fin 16) (x y : Word) (hab : a ≠ b) (hac : a ≠ c) (had : a ≠ d) (hbc : b ≠ c)
    (hbd : b ≠ d) (hcd : c ≠ d) :
    mix (v a).toNat (v b).toNat (v c).toNat (v d).toNat x.toNat y.toNat =
      ((Rfc7693.G v a b c d x y a).toNat, (Rfc7693.G v a b c d x y b).toNat, (Rfc7693.G v a b c d x y c).toNat,
        (Rfc7693.G v a b c d x y d).toNat) := by
  unfold mix Rfc7693.G
  simp only [add32_toNat, xor_toNat, rotr32_toNat _ 16 (by omega), rotr32_toNat _ 12 (by omega),
    rotr32_toNat _ 8 (by omega), rotr32_toNat _ 7 (by omega), Function.update_apply, if_true, if_false, hab, hac, had, hbc,
    hbd, hcd, hab.symm, hac.symm, had.symm, hbc.symm, hbd.symm, hcd.symm]

/-- A call of `G` leaves the other words alone. -/
theorem G_other (v : Fin 16 → Word) (a b c d i : Fin 16) (x y : Word) (ha : i ≠ a) (hb : i ≠ b) (hc : i ≠ c) (hd : i ≠ d) :
    Rfc7693.G v a b c d x y i = v i := by
  unfold Rfc7693.G
  simp only [Function.update_apply, if_false, ha, hb, hc, hd]

/-- The working vector of the model. -/
def ofV (v : Fin 16 → Word) : Words :=
  ⟨(v 0).toNat, (v 1).toNat, (v 2).toNat, (v 3).toNat, (v 4).toNat, (v 5).toNat, (v 6).toNat, (v 7).toNat, (v 8).toNat,
    (v 9).toNat, (v 10).toNat, (v 11).toNat, (v 12).toNat, (v 13).toNat, (v 14).toNat, (v 15).toNat⟩

theorem step (v : Fin 16 → Word) (a b c d : Fin 16) (x y : Word)
    (hd : a ≠ b ∧ a ≠ c ∧ a ≠ d ∧ b ≠ c ∧ b ≠ d ∧ c ≠ d) :
    ∃ v', v' = Rfc7693.G v a b c d x y ∧
      mix (v a).toNat (v b).toNat (v c).toNat (v d).toNat x.toNat y.toNat =
        ((v' a).toNat, (v' b).toNat, (v' c).toNat, (v' d).toNat) ∧
      ∀ i, (i ≠ a ∧ i ≠ b ∧ i ≠ c ∧ i ≠ d) → v' i = v i :=
  ⟨_, rfl, mix_G v a b c d x y hd.1 hd.2.1 hd.2.2.1 hd.2.2.2.1 hd.2.2.2.2.1 hd.2.2.2.2.2,
    fun i h => G_other v a b c d i x y h.1 h.2.1 h.2.2.1 h.2.2.2⟩

theorem round_mixRound (m : Fin 16 → Word) (s : Fin 16 → Fin 16) (v : Fin 16 → Word) (ml sl : List Nat)
    (hw : ∀ i : Fin 16, ml.getD (sl.getD i.val 0) 0 = (m (s i)).toNat) :
    round ml (ofV v) sl = ofV (Rfc7693.mixRound m s v) := by
  unfold Rfc7693.mixRound round
  have w0 : ml.getD (sl.getD 0 0) 0 = (m (s 0)).toNat := hw 0
  have w1 : ml.getD (sl.getD 1 0) 0 = (m (s 1)).toNat := hw 1
  have w2 : ml.getD (sl.getD 2 0) 0 = (m (s 2)).toNat := hw 2
  have w3 : ml.getD (sl.getD 3 0) 0 = (m (s 3)).toNat := hw 3
  have w4 : ml.getD (sl.getD 4 0) 0 = (m (s 4)).toNat := hw 4
  have w5 : ml.getD (sl.getD 5 0) 0 = (m (s 5)).toNat := hw 5
  have w6 : ml.getD (sl.getD 6 0) 0 = (m (s 6)).toNat := hw 6
  have w7 : ml.getD (sl.getD 7 0) 0 = (m (s 7)).toNat := hw 7
  have w8 : ml.getD (sl.getD 8 0) 0 = (m (s 8)).toNat := hw 8
  have w9 : ml.getD (sl.getD 9 0) 0 = (m (s 9)).toNat := hw 9
  have w10 : ml.getD (sl.getD 10 0) 0 = (m (s 10)).toNat := hw 10
  have w11 : ml.getD (sl.getD 11 0) 0 = (m (s 11)).toNat := hw 11
  have w12 : ml.getD (sl.getD 12 0) 0 = (m (s 12)).toNat := hw 12
  have w13 : ml.getD (sl.getD 13 0) 0 = (m (s 13)).toNat := hw 13
  have w14 : ml.getD (sl.getD 14 0) 0 = (m (s 14)).toNat := hw 14
  have w15 : ml.getD (sl.getD 15 0) 0 = (m (s 15)).toNat := hw 15
  simp only [w0, w1, w2, w3, w4, w5, w6, w7, w8, w9, w10, w11, w12, w13, w14, w15, ofV]
  generalize m (s 0) = x0, m (s 1) = x1, m (s 2) = x2, m (s 3) = x3, m (s 4) = x4, m (s 5) = x5, m (s 6) = x6,
    m (s 7) = x7, m (s 8) = x8, m (s 9) = x9, m (s 10) = x10, m (s 11) = x11, m (s 12) = x12, m (s 13) = x13,
    m (s 14) = x14, m (s 15) = x15
  obtain ⟨v1, h1, e1, o1⟩ := step v 0 4 8 12 x0 x1 (by decide)
  rw [← h1]
  rw [e1]
  dsimp only
  obtain ⟨v2, h2, e2, o2⟩ := step v1 1 5 9 13 x2 x3 (by decide)
  simp (disch := decide) only [o1] at e2
  rw [← h2]
  rw [e2]
  dsimp only
  obtain ⟨v3, h3, e3, o3⟩ := step v2 2 6 10 14 x4 x5 (by decide)
  simp (disch := decide) only [o2, o1] at e3
  rw [← h3]
  rw [e3]
  dsimp only
  obtain ⟨v4, h4, e4, o4⟩ := step v3 3 7 11 15 x6 x7 (by decide)
  simp (disch := decide) only [o3, o2, o1] at e4
  rw [← h4]
  rw [e4]
  dsimp only
  obtain ⟨v5, h5, e5, o5⟩ := step v4 0 5 10 15 x8 x9 (by decide)
  simp (disch := decide) only [o4, o3, o2, o1] at e5
  rw [← h5]
  rw [e5]
  dsimp only
  obtain ⟨v6, h6, e6, o6⟩ := step v5 1 6 11 12 x10 x11 (by decide)
  simp (disch := decide) only [o5, o4, o3, o2, o1] at e6
  rw [← h6]
  rw [e6]
  dsimp only
  obtain ⟨v7, h7, e7, o7⟩ := step v6 2 7 8 13 x12 x13 (by decide)
  simp (disch := decide) only [o6, o5, o4, o3, o2, o1] at e7
  rw [← h7]
  rw [e7]
  dsimp only
  obtain ⟨v8, h8, e8, o8⟩ := step v7 3 4 9 14 x14 x15 (by decide)
  simp (disch := decide) only [o7, o6, o5, o4, o3, o2, o1] at e8
  rw [← h8]
  rw [e8]
  dsimp only
  simp (disch := decide) only [o8, o7, o6, o5, o4, o3, o2, o1]

theorem iv_IV : ∀ i : Fin 8, iv.getD i.val 0 = (Rfc7693.IV i).toNat := by decide +kernel

theorem sigma_SIGMA : sigma = (List.finRange 10).map fun i => (List.finRange 16).map fun j => (Rfc7693.SIGMA i j).val := by
  decide +kernel

theorem getD_finRange {n : Nat} (f : Fin n → Nat) (i : Fin n) : ((List.finRange n).map f).getD i.val 0 = f i := by
  rw [List.getD_eq_getElem?_getD, List.getElem?_map]
  simp

theorem rounds_foldl (m : Fin 16 → Word) (ml : List Nat) (hm : ∀ i : Fin 16, ml.getD i.val 0 = (m i).toNat)
    (l : List (Fin 10)) (v : Fin 16 → Word) :
    (l.map fun i => (List.finRange 16).map fun j => (Rfc7693.SIGMA i j).val).foldl (round ml) (ofV v) =
      ofV (l.foldl (fun v i => Rfc7693.mixRound m (Rfc7693.SIGMA i) v) v) := by
  induction l generalizing v with
  | nil => rfl
  | cons i l ih =>
    rw [List.map_cons, List.foldl_cons, List.foldl_cons, round_mixRound m (Rfc7693.SIGMA i) v ml _ fun j => ?_, ih]
    rw [getD_finRange (fun j => (Rfc7693.SIGMA i j).val) j]
    exact hm _

theorem start_ofV (h : Fin 8 → Word) (hl : List Nat) (hh : ∀ i : Fin 8, hl.getD i.val 0 = (h i).toNat) (t : Nat)
    (f : Bool) :
    (⟨hl.getD 0 0, hl.getD 1 0, hl.getD 2 0, hl.getD 3 0, hl.getD 4 0, hl.getD 5 0, hl.getD 6 0, hl.getD 7 0,
      iv.getD 0 0, iv.getD 1 0, iv.getD 2 0, iv.getD 3 0, iv.getD 4 0 ^^^ (t % 4294967296),
      iv.getD 5 0 ^^^ (t / 4294967296 % 4294967296), if f then iv.getD 6 0 ^^^ 4294967295 else iv.getD 6 0,
      iv.getD 7 0⟩ : Words) = ofV (Rfc7693.start h t f) := by
  have a0 : hl.getD 0 0 = (h 0).toNat := hh 0
  have a1 : hl.getD 1 0 = (h 1).toNat := hh 1
  have a2 : hl.getD 2 0 = (h 2).toNat := hh 2
  have a3 : hl.getD 3 0 = (h 3).toNat := hh 3
  have a4 : hl.getD 4 0 = (h 4).toNat := hh 4
  have a5 : hl.getD 5 0 = (h 5).toNat := hh 5
  have a6 : hl.getD 6 0 = (h 6).toNat := hh 6
  have a7 : hl.getD 7 0 = (h 7).toNat := hh 7
  have b0 : iv.getD 0 0 = (Rfc7693.IV 0).toNat := iv_IV 0
  have b1 : iv.getD 1 0 = (Rfc7693.IV 1).toNat := iv_IV 1
  have b2 : iv.getD 2 0 = (Rfc7693.IV 2).toNat := iv_IV 2
  have b3 : iv.getD 3 0 = (Rfc7693.IV 3).toNat := iv_IV 3
  have b4 : iv.getD 4 0 = (Rfc7693.IV 4).toNat := iv_IV 4
  have b5 : iv.getD 5 0 = (Rfc7693.IV 5).toNat := iv_IV 5
  have b6 : iv.getD 6 0 = (Rfc7693.IV 6).toNat := iv_IV 6
  have b7 : iv.getD 7 0 = (Rfc7693.IV 7).toNat := iv_IV 7
  rw [a0, a1, a2, a3, a4, a5, a6, a7, b0, b1, b2, b3, b4, b5, b6, b7]
  have g : ∀ i : Fin 8, Fin.append h Rfc7693.IV (Fin.castAdd 8 i) = h i := fun i => Fin.append_left _ _ _
  have g' : ∀ i : Fin 8, Fin.append h Rfc7693.IV (Fin.natAdd 8 i) = Rfc7693.IV i := fun i => Fin.append_right _ _ _
  have c0 : (Fin.append h Rfc7693.IV : Fin 16 → Word) 0 = h 0 := g 0
  have c1 : (Fin.append h Rfc7693.IV : Fin 16 → Word) 1 = h 1 := g 1
  have c2 : (Fin.append h Rfc7693.IV : Fin 16 → Word) 2 = h 2 := g 2
  have c3 : (Fin.append h Rfc7693.IV : Fin 16 → Word) 3 = h 3 := g 3
  have c4 : (Fin.append h Rfc7693.IV : Fin 16 → Word) 4 = h 4 := g 4
  have c5 : (Fin.append h Rfc7693.IV : Fin 16 → Word) 5 = h 5 := g 5
  have c6 : (Fin.append h Rfc7693.IV : Fin 16 → Word) 6 = h 6 := g 6
  have c7 : (Fin.append h Rfc7693.IV : Fin 16 → Word) 7 = h 7 := g 7
  have d0 : (Fin.append h Rfc7693.IV : Fin 16 → Word) 8 = Rfc7693.IV 0 := g' 0
  have d1 : (Fin.append h Rfc7693.IV : Fin 16 → Word) 9 = Rfc7693.IV 1 := g' 1
  have d2 : (Fin.append h Rfc7693.IV : Fin 16 → Word) 10 = Rfc7693.IV 2 := g' 2
  have d3 : (Fin.append h Rfc7693.IV : Fin 16 → Word) 11 = Rfc7693.IV 3 := g' 3
  have d4 : (Fin.append h Rfc7693.IV : Fin 16 → Word) 12 = Rfc7693.IV 4 := g' 4
  have d5 : (Fin.append h Rfc7693.IV : Fin 16 → Word) 13 = Rfc7693.IV 5 := g' 5
  have d6 : (Fin.append h Rfc7693.IV : Fin 16 → Word) 14 = Rfc7693.IV 6 := g' 6
  have d7 : (Fin.append h Rfc7693.IV : Fin 16 → Word) 15 = Rfc7693.IV 7 := g' 7
  have t0 : t % 4294967296 = (BitVec.ofNat 32 (t % 2 ^ 32)).toNat := by
    rw [BitVec.toNat_ofNat, Nat.mod_mod]; norm_num
  have t1 : t / 4294967296 % 4294967296 = (BitVec.ofNat 32 (t / 2 ^ 32)).toNat := by
    rw [BitVec.toNat_ofNat]; norm_num
  rw [t0, t1]
  unfold ofV Rfc7693.start
  cases f
  · simp only [Bool.false_eq_true, if_false, Function.update_apply, Fin.reduceEq, if_true, c0, c1, c2, c3, c4, c5, c6, c7,
      d0, d1, d2, d3, d4, d5, d6, d7, BitVec.toNat_xor]
  · simp only [if_true, Function.update_apply, Fin.reduceEq, if_false, c0, c1, c2, c3, c4, c5, c6, c7,
      d0, d1, d2, d3, d4, d5, d6, d7, BitVec.toNat_xor]
    rfl

/-- The compression function is the RFC's. -/
theorem compress_F (h : Fin 8 → Word) (m : Fin 16 → Word) (hl ml : List Nat)
    (hh : ∀ i : Fin 8, hl.getD i.val 0 = (h i).toNat) (hm : ∀ i : Fin 16, ml.getD i.val 0 = (m i).toNat) (t : Nat)
    (f : Bool) : compress hl ml t f = (List.finRange 8).map fun i => (Rfc7693.F h m t f i).toNat := by
  unfold compress
  dsimp only
  rw [start_ofV h hl hh t f, sigma_SIGMA, rounds_foldl m ml hm]
  have a0 : hl.getD 0 0 = (h 0).toNat := hh 0
  have a1 : hl.getD 1 0 = (h 1).toNat := hh 1
  have a2 : hl.getD 2 0 = (h 2).toNat := hh 2
  have a3 : hl.getD 3 0 = (h 3).toNat := hh 3
  have a4 : hl.getD 4 0 = (h 4).toNat := hh 4
  have a5 : hl.getD 5 0 = (h 5).toNat := hh 5
  have a6 : hl.getD 6 0 = (h 6).toNat := hh 6
  have a7 : hl.getD 7 0 = (h 7).toNat := hh 7
  rw [a0, a1, a2, a3, a4, a5, a6, a7]
  unfold Rfc7693.F
  generalize (List.finRange 10).foldl (fun v i => Rfc7693.mixRound m (Rfc7693.SIGMA i) v) (Rfc7693.start h t f) = v
  simp only [xor_toNat, ofV]
  rfl

/-- A state of the RFC as the model's list. -/
def ofH (h : Fin 8 → Word) : List Nat := (List.finRange 8).map fun i => (h i).toNat

theorem ofH_getD (h : Fin 8 → Word) (i : Fin 8) : (ofH h).getD i.val 0 = (h i).toNat :=
  getD_finRange (fun i => (h i).toNat) i

theorem wordAt_toNat (b : List UInt8) (k : Nat) :
    (Rfc7693.wordAt b k).toNat = (b.getD (k + 0) 0).toNat + 256 * ((b.getD (k + 1) 0).toNat +
      256 * ((b.getD (k + 2) 0).toNat + 256 * (b.getD (k + 3) 0).toNat)) := by
  unfold Rfc7693.wordAt
  rw [BitVec.toNat_ofNat, Nat.mod_eq_of_lt]
  · rw [show List.range 4 = [0, 1, 2, 3] from rfl]
    simp only [List.map_cons, List.map_nil, Nat.ofDigits_cons, Nat.ofDigits_nil, Nat.cast_ofNat, mul_zero, add_zero]
  · rw [show List.range 4 = [0, 1, 2, 3] from rfl]
    simp only [List.map_cons, List.map_nil, Nat.ofDigits_cons, Nat.ofDigits_nil, mul_zero, add_zero]
    have l : ∀ x : UInt8, x.toNat < 256 := fun x => x.toNat_lt
    have l0 := l (b.getD k 0)
    have l1 := l (b.getD (k + 1) 0)
    have l2 := l (b.getD (k + 2) 0)
    have l3 := l (b.getD (k + 3) 0)
    generalize (b.getD k 0).toNat = x0 at *
    generalize (b.getD (k + 1) 0).toNat = x1 at *
    generalize (b.getD (k + 2) 0).toNat = x2 at *
    generalize (b.getD (k + 3) 0).toNat = x3 at *
    omega

theorem words_getD (n : Nat) (b : List UInt8) (i : Nat) (hi : i < n) :
    (words n b).getD i 0 = (Rfc7693.wordAt b (4 * i)).toNat := by
  unfold words
  rw [List.getD_eq_getElem?_getD, List.getElem?_map, List.getElem?_range hi, wordAt_toNat]
  rfl

theorem wordAt_drop (b : List UInt8) (d k : Nat) : Rfc7693.wordAt (b.drop d) k = Rfc7693.wordAt b (d + k) := by
  unfold Rfc7693.wordAt
  simp only [List.getD_eq_getElem?_getD, List.getElem?_drop, Nat.add_assoc]

theorem compress_block (h : Fin 8 → Word) (msg : List UInt8) (k t : Nat) (f : Bool) :
    compress (ofH h) (words 16 (msg.drop (64 * k))) t f = ofH (Rfc7693.F h (Rfc7693.block msg k) t f) := by
  refine compress_F h (Rfc7693.block msg k) _ _ (ofH_getD h) (fun i => ?_) t f
  rw [words_getD _ _ _ i.isLt, wordAt_drop]
  rfl

theorem state_succ (nn : Nat) (personal msg : List UInt8) (k : Nat) :
    Rfc7693.state nn personal msg (k + 1) =
      Rfc7693.F (Rfc7693.state nn personal msg k) (Rfc7693.block msg k) ((k + 1) * 64) false := by
  unfold Rfc7693.state
  rw [List.range_succ, List.foldl_append]
  rfl

theorem blocks_final (nn : Nat) (personal msg : List UInt8) (fuel : Nat) : ∀ k, k < Rfc7693.dd msg →
    Rfc7693.dd msg ≤ k + fuel →
    blocks (ofH (Rfc7693.state nn personal msg k)) (64 * k) fuel (msg.drop (64 * k)) = ofH (Rfc7693.final nn personal msg) := by
  induction fuel with
  | zero => intro k h1 h2; omega
  | succ fuel ih =>
    intro k h1 h2
    rw [blocks, compress_block, compress_block, List.drop_drop, List.length_drop]
    unfold Rfc7693.dd at h1 h2
    split_ifs with hl
    · have hk : Rfc7693.dd msg - 1 = k := by unfold Rfc7693.dd; omega
      have ht : 64 * k + (msg.length - 64 * k) = msg.length := by omega
      rw [ht]
      unfold Rfc7693.final
      rw [hk]
    · rw [show 64 * k + 64 = (k + 1) * 64 by ring, ← state_succ, show (k + 1) * 64 = 64 * (k + 1) by ring]
      exact ih (k + 1) (by unfold Rfc7693.dd; omega) (by unfold Rfc7693.dd; omega)

theorem init_words (nn : Nat) (hnn : nn ≤ 32) (personal : List UInt8) :
    List.zipWith (· ^^^ ·) iv (words 8 ([UInt8.ofNat nn, 0, 1, 1] ++ List.replicate 20 0 ++ personal)) =
      ofH (Rfc7693.init nn personal) := by
  have hP : ∀ k, Rfc7693.wordAt ([UInt8.ofNat nn, 0, 1, 1] ++ List.replicate 20 0 ++ personal) (24 + k) =
      Rfc7693.wordAt personal k := by
    intro k
    rw [← wordAt_drop]
    congr 1
  have h0 : Rfc7693.wordAt ([UInt8.ofNat nn, 0, 1, 1] ++ List.replicate 20 0 ++ personal) 0 =
      0x01010000 ^^^ BitVec.ofNat 32 nn := by
    show BitVec.ofNat 32 (Nat.ofDigits 256 [(UInt8.ofNat nn).toNat, 0, 1, 1]) = _
    interval_cases nn <;> decide
  have hz : ∀ k, 4 ≤ k → k < 21 → Rfc7693.wordAt ([UInt8.ofNat nn, 0, 1, 1] ++ List.replicate 20 0 ++ personal) k = 0 := by
    intro k h1 h2
    interval_cases k <;> rfl
  have hw : words 8 ([UInt8.ofNat nn, 0, 1, 1] ++ List.replicate 20 0 ++ personal) =
      (List.finRange 8).map fun i => (![0x01010000 ^^^ BitVec.ofNat 32 nn, 0, 0, 0, 0, 0, Rfc7693.wordAt personal 0,
        Rfc7693.wordAt personal 4] i : Word).toNat := by
    have : words 8 ([UInt8.ofNat nn, 0, 1, 1] ++ List.replicate 20 0 ++ personal) = (List.range 8).map fun i =>
        (Rfc7693.wordAt ([UInt8.ofNat nn, 0, 1, 1] ++ List.replicate 20 0 ++ personal) (4 * i)).toNat := by
      simp only [words, wordAt_toNat]
    rw [this, show List.range 8 = [0, 1, 2, 3, 4, 5, 6, 7] from rfl]
    simp only [List.map_cons, List.map_nil, Nat.reduceMul]
    rw [h0, hz 4 (by omega) (by omega), hz 8 (by omega) (by omega), hz 12 (by omega) (by omega),
      hz 16 (by omega) (by omega), hz 20 (by omega) (by omega), hP 0, hP 4]
    rfl
  have hi : iv = (List.finRange 8).map fun i => (Rfc7693.IV i).toNat := by decide +kernel
  rw [hw, hi]
  unfold ofH Rfc7693.init
  simp only [List.zipWith_map, List.zipWith_self, BitVec.toNat_xor]

theorem bytes_digest (nn : Nat) (hnn : nn ≤ 32) (h : Fin 8 → Word) :
    ((ofH h).flatMap fun w => [UInt8.ofNat w, UInt8.ofNat (w / 256), UInt8.ofNat (w / 65536),
      UInt8.ofNat (w / 16777216)]).take nn =
      (List.range nn).map fun i => UInt8.ofNat ((h (Fin.ofNat 8 (i / 4))).toNat / 256 ^ (i % 4)) := by
  have e : ((ofH h).flatMap fun w => [UInt8.ofNat w, UInt8.ofNat (w / 256), UInt8.ofNat (w / 65536),
      UInt8.ofNat (w / 16777216)]) =
      (List.range 32).map fun i => UInt8.ofNat ((h (Fin.ofNat 8 (i / 4))).toNat / 256 ^ (i % 4)) := by
    have z : ∀ n : Nat, n = n / 256 ^ 0 := fun n => (Nat.div_one n).symm
    show [_, _, _, _, _, _, _, _, _, _, _, _, _, _, _, _, _, _, _, _, _, _, _, _, _, _, _, _, _, _, _, _] = _
    rw [show List.range 32 = [0, 1, 2, 3, 4, 5, 6, 7, 8, 9, 10, 11, 12, 13, 14, 15, 16, 17, 18, 19, 20, 21, 22, 23, 24, 25,
      26, 27, 28, 29, 30, 31] from rfl]
    simp only [List.map_cons, List.map_nil, Nat.reduceDiv, Nat.reduceMod, Nat.reducePow, Nat.div_one]
    rfl
  rw [e, ← List.map_take, List.take_range, Nat.min_eq_left hnn]

/-- The hash of the model is the RFC's. -/
theorem hash_eq_digest (nn : Nat) (hnn : nn ≤ 32) (personal msg : List UInt8) :
    hash nn personal msg = Rfc7693.digest nn personal msg := by
  unfold hash Rfc7693.digest
  dsimp only
  rw [init_words nn hnn personal]
  have := blocks_final nn personal msg (msg.length / 64 + 1) 0 (by unfold Rfc7693.dd; omega) (by unfold Rfc7693.dd; omega)
  rw [Nat.mul_zero, List.drop_zero] at this
  rw [show ofH (Rfc7693.init nn personal) = ofH (Rfc7693.state nn personal msg 0) from rfl, this]
  exact bytes_digest nn hnn _

end Fawkes.Blake2s
