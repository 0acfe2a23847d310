import Verif.Spec.Poseidon
import Verif.Lemmas.Program
import Verif.Lemmas.Cost
import Mathlib.Tactic.Ring
import Mathlib.Tactic.LinearCombination

/-!
# Poseidon and Merkle trees
-/

set_option linter.unusedSectionVars false

namespace Fawkes

variable {F : Type} [Field F] [DecidableEq F]

theorem getIdx_ok {α : Type} {l : List α} {i : Nat} {x : α} : getIdx l i = .ok x ↔ l[i]? = some x := by
  unfold getIdx
  cases l[i]? <;> simp

theorem getIdx_map {α β : Type} (f : α → β) {l : List α} {i : Nat} {x : α} (h : getIdx l i = .ok x) :
    getIdx (l.map f) i = .ok (f x) := by
  rw [getIdx_ok] at *; simp [h]

/-! ## Native -/

namespace Poseidon

open PoseidonSpec

theorem sigma_eq (a : F) : sigma a = a ^ 5 := by unfold sigma; ring

theorem mixRow_ok (state row : List F) (acc : F) (h : state.length ≤ row.length) :
    mixRow state row acc = .ok (acc + (List.zipWith (· * ·) row state).sum) := by
  induction state generalizing row acc with
  | nil => simp [mixRow]
  | cons x state ih =>
    cases row with
    | nil => simp at h
    | cons r row =>
      rw [mixRow, ih _ _ (by simpa using h)]
      simp [add_assoc]

theorem mixRows_ok (state : List F) (rows : List (List F)) (h : ∀ row ∈ rows, row.length = state.length) :
    mixRows state rows rows.length = .ok (mulVec rows state) := by
  induction rows with
  | nil => rfl
  | cons row rows ih =>
    rw [List.length_cons, mixRows, mixRow_ok _ _ _ (h row (by simp)).ge, ih fun r hr => h r (by simp [hr])]
    simp [bind, Except.bind, pure, Except.pure, mulVec]

theorem layer_length {P : PoseidonParams F} {i : Nat} {st st' : List F} (h : layer P i st = .ok st') :
    st'.length = st.length := by
  unfold layer at h
  split at h
  · injection h with h; subst h; simp
  · cases st with
    | nil => cases h
    | cons x xs => injection h with h; subst h; simp

theorem mixRows_length (state : List F) (rows : List (List F)) (n : Nat) (r : List F)
    (h : mixRows state rows n = .ok r) : r.length = n := by
  induction n generalizing rows r with
  | zero => unfold mixRows at h; injection h with h; subst h; rfl
  | succ n ih =>
    cases rows with
    | nil => cases h
    | cons row rows =>
      rw [mixRows] at h
      cases h1 : mixRow state row 0 with
      | error e => rw [h1] at h; cases h
      | ok x =>
        cases h2 : mixRows state rows n with
        | error e => rw [h1, h2] at h; cases h
        | ok xs =>
          rw [h1, h2] at h
          simp only [bind, Except.bind, pure, Except.pure] at h
          injection h with h; subst h
          simp [ih _ _ h2]

/-- Which rounds are full. -/
def isFull (P : PoseidonParams F) (i : Nat) : Bool := decide (i < P.f / 2 ∨ P.f / 2 + P.p ≤ i)

theorem schedule_getElem? (P : PoseidonParams F) (i : Nat) (h : i < P.f + P.p) :
    (schedule P.f P.p)[i]? = some (isFull P i) := by
  unfold schedule isFull
  by_cases h1 : i < P.f / 2
  · rw [List.getElem?_append_left (by simp; omega), List.getElem?_append_left (by simpa using h1)]
    rw [List.getElem?_replicate, if_pos h1]; simp [h1]
  · by_cases h2 : i < P.f / 2 + P.p
    · rw [List.getElem?_append_left (by simpa using h2), List.getElem?_append_right (by simp; omega)]
      rw [List.getElem?_replicate, if_pos (by simp; omega)]; simp; omega
    · rw [List.getElem?_append_right (by simp; omega)]
      rw [List.getElem?_replicate, if_pos (by simp; omega)]; simp; omega

theorem schedule_length (f p : Nat) : (schedule f p).length = f + p := by
  unfold schedule; simp; omega

/-- The S-box layer as a total function. -/
def sbox (b : Bool) (st : List F) : List F :=
  if b = true then st.map (· ^ 5) else match st with
      | [] => []
      | x :: xs => x ^ 5 :: xs

theorem sbox_length (b : Bool) (st : List F) : (sbox b st).length = st.length := by
  unfold sbox; split
  · simp
  · split <;> simp

theorem layer_ok (P : PoseidonParams F) (i : Nat) (st : List F) (hst : 0 < st.length) :
    layer P i st = .ok (sbox (isFull P i) st) := by
  have hs : (sigma : F → F) = (· ^ 5) := funext sigma_eq
  unfold layer isFull sbox
  by_cases hi : i < P.f / 2 ∨ P.f / 2 + P.p ≤ i
  · rw [if_pos hi, if_pos (by simpa using hi), hs]
  · rw [if_neg hi, if_neg (by simpa using hi)]
    cases st with
    | nil => simp at hst
    | cons x xs => simp only [sigma_eq]

theorem round_length {P : PoseidonParams F} (hP : Shaped P) (b : Bool) (c : F) (v : List F) :
    (round P.m b c v).length = P.t := by
  unfold round mulVec; simp [hP.rows]

theorem rounds_ok {P : PoseidonParams F} (hP : Shaped P) (ht : 0 < P.t) (n i : Nat) (st : List F)
    (hst : st.length = P.t) (h : i + n = P.f + P.p) :
    rounds P n i st = .ok ((((schedule P.f P.p).zip P.c).drop i).foldl (fun v fc => round P.m fc.1 fc.2 v) st) := by
  induction n generalizing i st with
  | zero =>
    rw [rounds, List.drop_of_length_le]
    · rfl
    · rw [List.length_zip, schedule_length]; omega
  | succ n ih =>
    have hi : i < P.f + P.p := by omega
    have hc : i < P.c.length := by rw [hP.c]; exact hi
    have hz : ((schedule P.f P.p).zip P.c)[i]? = some (isFull P i, P.c[i]) := by
      rw [List.getElem?_zip_eq_some]
      exact ⟨schedule_getElem? P i hi, List.getElem?_eq_getElem hc⟩
    obtain ⟨hlt, hz'⟩ := List.getElem?_eq_some_iff.1 hz
    rw [List.drop_eq_getElem_cons hlt, hz', List.foldl_cons]
    have hlen : (ark st P.c[i]).length = P.t := by simp [ark, hst]
    rw [rounds, getIdx_ok.2 (List.getElem?_eq_getElem hc)]
    simp only [bind, Except.bind]
    rw [layer_ok _ _ _ (by omega)]
    simp only
    have hl2 := (sbox_length (isFull P i) (ark st P.c[i])).trans hlen
    have hmix : mix (sbox (isFull P i) (ark st P.c[i])) P = .ok (round P.m (isFull P i) P.c[i] st) := by
      unfold mix
      rw [hl2, ← hP.rows, mixRows_ok]
      · rfl
      · intro row hrow; rw [hl2]; exact hP.cols row hrow
    rw [hmix]
    simp only
    exact ih (i + 1) _ (round_length hP _ _ _) (by omega)

theorem permute_length {P : PoseidonParams F} (hP : Shaped P) (v : List F) (hv : v.length = P.t) :
    (permute P v).length = P.t := by
  unfold permute
  generalize (schedule P.f P.p).zip P.c = l
  induction l generalizing v with
  | nil => exact hv
  | cons fc l ih => exact ih _ (round_length hP _ _ _)

theorem poseidon_ok {P : PoseidonParams F} (hP : Shaped P) (inputs : List F) (h0 : 0 < inputs.length)
    (ht : inputs.length ≤ P.t) : poseidon inputs P = .ok (PoseidonSpec.hash P inputs) := by
  unfold poseidon PoseidonSpec.hash
  rw [if_neg (not_not.2 ht), if_neg (not_not.2 h0)]
  have hl : (inputs ++ List.replicate (P.t - inputs.length) (0 : F)).length = P.t := by simp; omega
  rw [rounds_ok hP (by omega) _ 0 _ hl (by omega), List.drop_zero]
  simp only [bind, Except.bind]
  have h1 := permute_length hP _ hl
  unfold permute at h1 ⊢
  rw [getIdx_ok]
  generalize hq : List.foldl _ _ _ = q at h1 ⊢
  cases q with
  | nil => simp at h1; omega
  | cons x xs => rfl

theorem poseidon_arity (inputs : List F) (P : PoseidonParams F) (h : inputs.length = 0 ∨ P.t < inputs.length) :
    poseidon inputs P = .error .assertion := by
  unfold poseidon
  by_cases h1 : inputs.length ≤ P.t
  · rw [if_neg (not_not.2 h1), if_pos (by omega)]
  · rw [if_pos h1]

/-! ### Merkle trees -/

theorem up_length (h : F → F → F) (l : List F) : (up h l).length = l.length / 2 := by
  induction l using up.induct with
  | case1 a b rest ih => simp [up, ih]; omega
  | case2 t ht =>
    match t, ht with
    | [], _ => simp [up]
    | [_], _ => simp [up]
    | a :: b :: rest, ht => exact absurd rfl (ht a b rest)

theorem up_getElem? (h : F → F → F) (l : List F) (k : Nat) (a b : F) (ha : l[2 * k]? = some a)
    (hb : l[2 * k + 1]? = some b) : (up h l)[k]? = some (h a b) := by
  induction l using up.induct generalizing k with
  | case1 x y rest ih =>
    cases k with
    | zero => simp at ha hb; subst ha hb; rfl
    | succ k =>
      rw [up, List.getElem?_cons_succ]
      apply ih
      · simpa [Nat.mul_succ] using ha
      · rw [show 2 * (k + 1) + 1 = 2 * k + 1 + 1 + 1 by ring] at hb; simpa using hb
  | case2 t ht =>
    match t, ht with
    | [], _ => simp at ha
    | [_], _ => simp at hb
    | a :: b :: rest, ht => exact absurd rfl (ht a b rest)

theorem level_length (h : F → F → F) (l : List F) (d j : Nat) (hl : l.length = 2 ^ d) (hj : j ≤ d) :
    (level h l j).length = 2 ^ (d - j) := by
  induction j with
  | zero => simpa [level] using hl
  | succ j ih =>
    rw [level, up_length, ih (by omega), show d - j = (d - (j + 1)) + 1 by omega, pow_succ]; omega

theorem treeInner_ok (P : PoseidonParams F) (h : F → F → F) (hh : ∀ a b, poseidon [a, b] P = .ok (h a b))
    (n i : Nat) (st : List F) (hl : 2 * (i + n) ≤ st.length) :
    ∃ st', treeInner P n i st = .ok st' ∧ st'.length = st.length ∧
      (∀ k a b, i ≤ k → k < i + n → st[2 * k]? = some a → st[2 * k + 1]? = some b → st'[k]? = some (h a b)) ∧
      (∀ k, k < i → st'[k]? = st[k]?) := by
  induction n generalizing i st with
  | zero => exact ⟨st, rfl, rfl, fun k a b h1 h2 => by omega, fun k _ => rfl⟩
  | succ n ih =>
    have h1 : 2 * i < st.length := by omega
    have h2 : 2 * i + 1 < st.length := by omega
    obtain ⟨st', e1, e2, e3, e4⟩ := ih (i + 1) (st.set i (h st[2 * i] st[2 * i + 1])) (by simp; omega)
    refine ⟨st', ?_, by simpa using e2, ?_, ?_⟩
    · rw [treeInner, getIdx_ok.2 (List.getElem?_eq_getElem h1), getIdx_ok.2 (List.getElem?_eq_getElem h2)]
      simp only [bind, Except.bind, hh]
      exact e1
    · intro k a b hk1 hk2 ha hb
      by_cases hki : k = i
      · subst hki
        rw [e4 k (by omega), List.getElem?_set_self (by omega)]
        rw [List.getElem?_eq_getElem h1] at ha
        rw [List.getElem?_eq_getElem h2] at hb
        injection ha with ha; injection hb with hb
        rw [ha, hb]
      · apply e3 k a b (by omega) (by omega)
        · rw [List.getElem?_set_ne (by omega)]; exact ha
        · rw [List.getElem?_set_ne (by omega)]; exact hb
    · intro k hk
      rw [e4 k (by omega), List.getElem?_set_ne (by omega)]

theorem treeLevels_ok (P : PoseidonParams F) (h : F → F → F) (hh : ∀ a b, poseidon [a, b] P = .ok (h a b))
    (l : List F) (d n j : Nat) (hl : l.length = 2 ^ d) (hj : j + n = d) (st : List F)
    (hst : ∀ k, k < 2 ^ (d - j) → st[k]? = (level h l j)[k]?) :
    ∃ st', treeLevels P (2 ^ d) n j st = .ok st' ∧ st'[0]? = (level h l d)[0]? := by
  induction n generalizing j st with
  | zero =>
    refine ⟨st, rfl, ?_⟩
    have : j = d := by omega
    subst this
    exact hst 0 (by simp)
  | succ n ih =>
    have hlev := level_length h l d j hl (by omega)
    have hpow : 2 ^ (d - j) = 2 * 2 ^ (d - (j + 1)) := by
      rw [show d - j = (d - (j + 1)) + 1 by omega, pow_succ]; ring
    have hdiv : 2 ^ d / 2 ^ (j + 1) = 2 ^ (d - (j + 1)) := Nat.pow_div (by omega) (by norm_num)
    have hlen : 2 ^ (d - j) ≤ st.length := by
      by_contra hcon
      have h1 := hst st.length (by omega)
      rw [List.getElem?_eq_none (le_refl _), eq_comm, List.getElem?_eq_none_iff, hlev] at h1
      omega
    obtain ⟨st', e1, e2, e3, -⟩ := treeInner_ok P h hh (2 ^ (d - (j + 1))) 0 st (by omega)
    suffices hnext : ∀ k, k < 2 ^ (d - (j + 1)) → st'[k]? = (level h l (j + 1))[k]? by
      obtain ⟨st'', e5, e6⟩ := ih (j + 1) (by omega) st' hnext
      refine ⟨st'', ?_, e6⟩
      rw [treeLevels, hdiv, e1]
      exact e5
    · intro k hk
      have h1 : 2 * k < (level h l j).length := by omega
      have h2 : 2 * k + 1 < (level h l j).length := by omega
      have g1 : (level h l j)[2 * k]? = some (level h l j)[2 * k] := List.getElem?_eq_getElem h1
      have g2 : (level h l j)[2 * k + 1]? = some (level h l j)[2 * k + 1] := List.getElem?_eq_getElem h2
      rw [e3 k _ _ (by omega) (by omega) ((hst _ (by omega)).trans g1) ((hst _ (by omega)).trans g2)]
      exact (up_getElem? h _ k _ _ g1 g2).symm

theorem padded_length (d : Nat) (l : List F) (h : l.length ≤ 2 ^ d) : (padded d l).length = 2 ^ d := by
  unfold padded; simp; omega

theorem length_le_size (n : Nat) (h : 0 < n) : n ≤ 2 ^ Nat.size (n - 1) := by
  have := Nat.lt_size_self (n - 1); omega

theorem merkleTreeRoot_ok (P : PoseidonParams F) (h : F → F → F) (hh : ∀ a b, poseidon [a, b] P = .ok (h a b))
    (leaves : List F) (h0 : 0 < leaves.length) :
    merkleTreeRoot leaves P = .ok (root h (Nat.size (leaves.length - 1)) leaves) := by
  set d := Nat.size (leaves.length - 1) with hd
  have hle : leaves.length ≤ 2 ^ d := length_le_size _ h0
  have hpl := padded_length d leaves hle
  obtain ⟨st', e1, e2⟩ := treeLevels_ok P h hh (padded d leaves) d d 0 hpl (by omega) (padded d leaves)
    (fun k _ => rfl)
  unfold merkleTreeRoot
  rw [if_neg (not_not.2 h0)]
  simp only [← hd]
  have : leaves ++ List.replicate (2 ^ d - leaves.length) (0 : F) = padded d leaves := rfl
  rw [this, e1]
  simp only [bind, Except.bind]
  rw [getIdx_ok, e2]
  unfold root
  have hlen := level_length h (padded d leaves) d d hpl le_rfl
  cases hlv : level h (padded d leaves) d with
  | nil => rw [hlv] at hlen; simp at hlen
  | cons x xs => rfl

theorem xor_one_even (q : Nat) : (2 * q) ^^^ 1 = 2 * q + 1 := by
  apply Nat.eq_of_testBit_eq
  intro i
  cases i with
  | zero => simp
  | succ i =>
    rw [Nat.testBit_xor, Nat.testBit_succ, Nat.testBit_succ, Nat.testBit_succ]
    rw [show (2 * q + 1) / 2 = q by omega, show 2 * q / 2 = q by omega]; simp

theorem xor_one_odd (q : Nat) : (2 * q + 1) ^^^ 1 = 2 * q := by
  rw [← xor_one_even q, Nat.xor_assoc, Nat.xor_self, Nat.xor_zero]

theorem proofLoop_ok (P : PoseidonParams F) (h : F → F → F) (hh : ∀ a b, poseidon [a, b] P = .ok (h a b))
    (l : List F) (d i : Nat) (hl : l.length = 2 ^ d) (hi : i < 2 ^ d) (n j : Nat) (hj : j + n = d) (r : F)
    (hr : (level h l j)[i / 2 ^ j]? = some r) :
    ∃ r', proofLoop P r (((List.range' j n).map fun j => i.testBit j).zip
        ((List.range' j n).map fun j => (level h l j).getD ((i / 2 ^ j) ^^^ 1) 0)) = .ok r' ∧
      (level h l d)[0]? = some r' := by
  induction n generalizing j r with
  | zero =>
    have : j = d := by omega
    subst this
    rw [Nat.div_eq_of_lt hi] at hr
    exact ⟨r, rfl, hr⟩
  | succ n ih =>
    rw [List.range'_succ, List.map_cons, List.map_cons, List.zip_cons_cons]
    have hlev := level_length h l d j hl (by omega)
    have hpow : 2 ^ (d - j) = 2 * 2 ^ (d - (j + 1)) := by
      rw [show d - j = (d - (j + 1)) + 1 by omega, pow_succ]; ring
    have hq : i / 2 ^ (j + 1) = i / 2 ^ j / 2 := by rw [pow_succ, Nat.div_div_eq_div_mul]
    have hlt : i / 2 ^ j < (level h l j).length := (List.getElem?_eq_some_iff.1 hr).1
    have htb : i.testBit j = decide (i / 2 ^ j % 2 = 1) := Nat.testBit_eq_decide_div_mod_eq
    rcases Nat.mod_two_eq_zero_or_one (i / 2 ^ j) with hb | hb
    · have he : i / 2 ^ j = 2 * (i / 2 ^ (j + 1)) := by omega
      have h2 : 2 * (i / 2 ^ (j + 1)) + 1 < (level h l j).length := by omega
      have hsib : (level h l j)[2 * (i / 2 ^ (j + 1)) + 1]? = some ((level h l j).getD ((i / 2 ^ j) ^^^ 1) 0) := by
        rw [he, xor_one_even, List.getD_eq_getElem?_getD, List.getElem?_eq_getElem h2]; rfl
      rw [he] at hr
      have hup := up_getElem? h _ _ _ _ hr hsib
      obtain ⟨r', e1, e2⟩ := ih (j + 1) (by omega) _ hup
      refine ⟨r', ?_, e2⟩
      rw [proofLoop, htb, hb]
      simp only [bind, Except.bind]
      rw [if_neg (by simp), hh]
      exact e1
    · have he : i / 2 ^ j = 2 * (i / 2 ^ (j + 1)) + 1 := by omega
      have h2 : 2 * (i / 2 ^ (j + 1)) < (level h l j).length := by omega
      have hsib : (level h l j)[2 * (i / 2 ^ (j + 1))]? = some ((level h l j).getD ((i / 2 ^ j) ^^^ 1) 0) := by
        rw [he, xor_one_odd, List.getD_eq_getElem?_getD, List.getElem?_eq_getElem h2]; rfl
      rw [he] at hr
      have hup := up_getElem? h _ _ _ _ hsib hr
      obtain ⟨r', e1, e2⟩ := ih (j + 1) (by omega) _ hup
      refine ⟨r', ?_, e2⟩
      rw [proofLoop, htb, hb]
      simp only [bind, Except.bind]
      rw [if_pos (by simp), hh]
      exact e1

theorem merkleProofRoot_ok (P : PoseidonParams F) (h : F → F → F) (hh : ∀ a b, poseidon [a, b] P = .ok (h a b))
    (leaves : List F) (d i : Nat) (hl : leaves.length ≤ 2 ^ d) (x : F) (hx : leaves[i]? = some x) :
    merkleProofRoot x (siblings h d leaves i) (directions d i) P = .ok (root h d leaves) := by
  have hpl := padded_length d leaves hl
  have hil : i < leaves.length := (List.getElem?_eq_some_iff.1 hx).1
  have hx' : (level h (padded d leaves) 0)[i / 2 ^ 0]? = some x := by
    rw [pow_zero, Nat.div_one, level, padded, List.getElem?_append_left hil]; exact hx
  obtain ⟨r', e1, e2⟩ := proofLoop_ok P h hh _ d i hpl (by omega) d 0 (by omega) x hx'
  unfold merkleProofRoot siblings directions
  rw [List.range_eq_range', e1]
  unfold root
  cases hlv : level h (padded d leaves) d with
  | nil => rw [hlv] at e2; cases e2
  | cons y ys => rw [hlv] at e2; simp at e2; rw [← e2]; rfl

end Poseidon

/-! ## Circuit -/

namespace CPoseidon

variable {w : Index → F} {s : CS F}

/-- Values of a list of signals. -/
abbrev evs (w : Index → F) (l : List (CNum F)) : List F := l.map fun x => x.eval w

theorem evs_ark (hw : IsAssignment w) (st : List (CNum F)) (c : F) : evs w (ark st c) = Poseidon.ark (evs w st) c := by
  unfold ark Poseidon.ark evs
  rw [List.map_map, List.map_map]
  apply List.map_congr_left
  intro x _
  exact CNum.eval_addConst hw x c

theorem spec_sigma (hw : IsAssignment w) (a : CNum F) (s : CS F) :
    Spec w s (sigma a) (fun r _ => r.eval w = Poseidon.sigma (a.eval w)) := by
  unfold sigma Poseidon.sigma
  refine Spec.bind (spec_mul hw a a) fun q s1 _ h1 => ?_
  refine Spec.bind (spec_mul hw q q) fun r s2 _ h2 => ?_
  exact (spec_mul hw r a).mono fun t _ _ h3 => by rw [h3, h2, h1]

theorem spec_sigmaAll (hw : IsAssignment w) (l : List (CNum F)) (s : CS F) :
    Spec w s (sigmaAll l) (fun r _ => evs w r = (evs w l).map Poseidon.sigma) := by
  induction l generalizing s with
  | nil => exact Spec.pure fun _ => rfl
  | cons x xs ih =>
    refine Spec.bind (spec_sigma hw x s) fun y s1 _ hy => ?_
    refine Spec.bind (ih s1) fun ys s2 _ hys => Spec.pure fun _ => ?_
    simp only [evs, List.map_cons] at hys ⊢
    rw [hy, hys]

theorem mixRow_ev (hw : IsAssignment w) (st : List (CNum F)) (row : List F) (acc r : CNum F)
    (h : mixRow st row acc = .ok r) : Poseidon.mixRow (evs w st) row (acc.eval w) = .ok (r.eval w) := by
  induction st generalizing row acc with
  | nil => rw [mixRow] at h; injection h with h; subst h; simp [Poseidon.mixRow]
  | cons x st ih =>
    cases row with
    | nil => cases h
    | cons c row =>
      rw [mixRow] at h
      have := ih row _ h
      rw [CNum.eval_addAssign, CNum.eval_mulConst hw] at this
      simp only [evs, List.map_cons, Poseidon.mixRow]
      rw [mul_comm c]; exact this

theorem mixRows_ev (hw : IsAssignment w) (st : List (CNum F)) (rows : List (List F)) (n : Nat) (r : List (CNum F))
    (h : mixRows st rows n = .ok r) : Poseidon.mixRows (evs w st) rows n = .ok (evs w r) := by
  induction n generalizing rows r with
  | zero => unfold mixRows at h; injection h with h; subst h; unfold Poseidon.mixRows; rfl
  | succ n ih =>
    cases rows with
    | nil => cases h
    | cons row rows =>
      rw [mixRows] at h
      cases h1 : mixRow st row CNum.zero with
      | error e => rw [h1] at h; cases h
      | ok x =>
        cases h2 : mixRows st rows n with
        | error e => rw [h1, h2] at h; cases h
        | ok xs =>
          rw [h1, h2] at h
          simp only [bind, Except.bind, pure, Except.pure] at h
          injection h with h; subst h
          have e1 := mixRow_ev hw _ _ _ _ h1
          rw [CNum.eval_zero hw] at e1
          rw [Poseidon.mixRows, e1, ih _ _ h2]
          rfl

theorem spec_layer (hw : IsAssignment w) (P : PoseidonParams F) (i : Nat) (st : List (CNum F)) (s : CS F) :
    Spec w s (layer P i st) (fun r _ => Poseidon.layer P i (evs w st) = .ok (evs w r)) := by
  unfold layer Poseidon.layer
  by_cases hi : i < P.f / 2 ∨ P.f / 2 + P.p ≤ i
  · rw [if_pos hi, if_pos hi]
    exact (spec_sigmaAll hw st s).mono fun r _ _ h => by rw [h]
  · rw [if_neg hi, if_neg hi]
    cases st with
    | nil => exact Spec.panic
    | cons x xs =>
      refine Spec.bind (spec_sigma hw x s) fun y s1 _ hy => Spec.pure fun _ => ?_
      simp [evs, hy]

theorem spec_rounds (hw : IsAssignment w) (P : PoseidonParams F) (n i : Nat) (st : List (CNum F)) (s : CS F) :
    Spec w s (rounds P n i st) (fun r _ => Poseidon.rounds P n i (evs w st) = .ok (evs w r)) := by
  induction n generalizing i st s with
  | zero => exact Spec.pure fun _ => rfl
  | succ n ih =>
    refine Spec.bind (Q := fun c _ => getIdx P.c i = .ok c) (Spec.lift fun c hc => hc) fun c s1 _ hc => ?_
    refine Spec.bind (spec_layer hw P i (ark st c) s1) fun st1 s2 _ h1 => ?_
    refine Spec.bind (Q := fun st2 _ => mix st1 P = .ok st2) (Spec.lift fun c hc => hc) fun st2 s3 _ h2 => ?_
    refine (ih (i + 1) st2 s3).mono fun r _ _ hr => ?_
    have hm : Poseidon.mix (evs w st1) P = .ok (evs w st2) := by
      have := mixRows_ev hw _ _ _ _ h2
      unfold Poseidon.mix
      rwa [show (evs w st1).length = st1.length by simp [evs]]
    rw [Poseidon.rounds, hc]
    simp only [bind, Except.bind]
    rw [← evs_ark hw, h1]
    simp only
    rw [hm]
    exact hr

theorem evs_pad (hw : IsAssignment w) (inputs : List (CNum F)) (n : Nat) :
    evs w (inputs ++ List.replicate n CNum.zero) = evs w inputs ++ List.replicate n 0 := by
  simp only [evs, List.map_append, List.map_replicate]
  rw [CNum.eval_zero hw]

theorem spec_poseidon (hw : IsAssignment w) (inputs : List (CNum F)) (P : PoseidonParams F) (s : CS F) :
    Spec w s (poseidon inputs P) (fun r _ => Poseidon.poseidon (evs w inputs) P = .ok (r.eval w)) := by
  unfold poseidon Poseidon.poseidon
  rw [show (evs w inputs).length = inputs.length by simp [evs]]
  by_cases h1 : inputs.length ≤ P.t
  · by_cases h2 : 0 < inputs.length
    · rw [if_neg (not_not.2 h1), if_neg (not_not.2 h2), if_neg (not_not.2 h1), if_neg (not_not.2 h2)]
      refine Spec.bind (spec_rounds hw P _ 0 _ s) fun st s1 _ hst => Spec.lift fun r hr => ?_
      rw [evs_pad hw] at hst
      rw [hst]
      exact getIdx_map _ hr
    · rw [if_neg (not_not.2 h1), if_pos h2]; exact Spec.panic
  · rw [if_pos h1]; exact Spec.panic

theorem spec_poseidonWithSalt (hw : IsAssignment w) (inputs : List (CNum F)) (seed : F) (P : PoseidonParams F)
    (s : CS F) : Spec w s (poseidonWithSalt inputs seed P)
      (fun r _ => Poseidon.poseidonWithSalt (evs w inputs) seed P = .ok (r.eval w)) := by
  unfold poseidonWithSalt Poseidon.poseidonWithSalt
  rw [show (evs w inputs).length = inputs.length by simp [evs]]
  by_cases h1 : 0 < inputs.length
  · by_cases h2 : inputs.length < P.t
    · rw [if_neg (not_not.2 h1), if_neg (not_not.2 h2), if_neg (not_not.2 h1), if_neg (not_not.2 h2)]
      refine (spec_poseidon hw _ P s).mono fun r _ _ hr => ?_
      simp only [evs, List.map_append, List.map_cons, List.map_nil] at hr
      rw [CNum.eval_fromConst hw] at hr
      exact hr
    · rw [if_neg (not_not.2 h1), if_pos h2]; exact Spec.panic
  · rw [if_pos h1]; exact Spec.panic

theorem spec_proofLoop (hw : IsAssignment w) (P : PoseidonParams F) (l : List (CBool F × CNum F))
    (bs : List Bool) (hb : List.Forall₂ (fun c b => c.1.num.eval w = if b = true then 1 else 0) l bs)
    (leaf : CNum F) (s : CS F) :
    Spec w s (proofLoop P leaf l) (fun r _ =>
      Poseidon.proofLoop P (leaf.eval w) (bs.zip (l.map fun x => x.2.eval w)) = .ok (r.eval w)) := by
  induction hb generalizing leaf s with
  | nil => exact Spec.pure fun _ => rfl
  | @cons c b l bs hc _ ih =>
    obtain ⟨c, x⟩ := c
    refine Spec.bind (spec_switch hw x leaf c) fun first s1 _ h1 => ?_
    refine Spec.bind (spec_poseidon hw _ P s1) fun root s2 _ h2 => ?_
    refine (ih root s2).mono fun r _ _ hr => ?_
    simp only [evs, List.map_cons, List.map_nil, CNum.eval_sub, CNum.eval_add] at h2
    rw [List.map_cons, List.zip_cons_cons, Poseidon.proofLoop]
    have hpair : (if b = true then [x.eval w, leaf.eval w] else [leaf.eval w, x.eval w]) =
        [first.eval w, leaf.eval w + x.eval w - first.eval w] := by
      have hc' : c.num.eval w = if b = true then 1 else 0 := hc
      rw [h1, hc']
      cases b <;> simp
    simp only [hpair, h2, bind, Except.bind]
    exact hr

theorem spec_treeInner (hw : IsAssignment w) (P : PoseidonParams F) (n i : Nat) (st : List (CNum F)) (s : CS F) :
    Spec w s (treeInner P n i st) (fun r _ => Poseidon.treeInner P n i (evs w st) = .ok (evs w r)) := by
  induction n generalizing i st s with
  | zero => exact Spec.pure fun _ => rfl
  | succ n ih =>
    refine Spec.bind (Q := fun c _ => getIdx st (2 * i) = .ok c) (Spec.lift fun c hc => hc) fun a s1 _ ha => ?_
    refine Spec.bind (Q := fun c _ => getIdx st (2 * i + 1) = .ok c) (Spec.lift fun c hc => hc) fun b s2 _ hb => ?_
    refine Spec.bind (spec_poseidon hw _ P s2) fun r s3 _ hr => ?_
    refine (ih (i + 1) _ s3).mono fun q _ _ hq => ?_
    simp only [evs, List.map_cons, List.map_nil] at hr
    rw [Poseidon.treeInner, getIdx_map _ ha, getIdx_map _ hb]
    simp only [bind, Except.bind, hr]
    rw [evs, List.map_set] at hq
    exact hq

theorem spec_treeLevels (hw : IsAssignment w) (P : PoseidonParams F) (total n j : Nat) (st : List (CNum F))
    (s : CS F) : Spec w s (treeLevels P total n j st)
      (fun r _ => Poseidon.treeLevels P total n j (evs w st) = .ok (evs w r)) := by
  induction n generalizing j st s with
  | zero => exact Spec.pure fun _ => rfl
  | succ n ih =>
    refine Spec.bind (spec_treeInner hw P _ 0 st s) fun st1 s1 _ h1 => ?_
    refine (ih (j + 1) st1 s1).mono fun r _ _ hr => ?_
    rw [Poseidon.treeLevels, h1]
    exact hr

theorem spec_merkleTreeRoot (hw : IsAssignment w) (leaf : List (CNum F)) (P : PoseidonParams F) (s : CS F) :
    Spec w s (merkleTreeRoot leaf P) (fun r _ => Poseidon.merkleTreeRoot (evs w leaf) P = .ok (r.eval w)) := by
  unfold merkleTreeRoot Poseidon.merkleTreeRoot
  rw [show (evs w leaf).length = leaf.length by simp [evs]]
  by_cases h1 : 0 < leaf.length
  · rw [if_neg (not_not.2 h1), if_neg (not_not.2 h1)]
    refine Spec.bind (spec_treeLevels hw P _ _ 0 _ s) fun st s1 _ hst => Spec.lift fun r hr => ?_
    rw [evs_pad hw] at hst
    simp only [hst, bind, Except.bind]
    exact getIdx_map _ hr
  · rw [if_pos h1]; exact Spec.panic

/-! ### Completeness -/

/-- The signals carry the values. -/
abbrev Carry (s : CS F) (l : List (CNum F)) (vs : List F) : Prop := List.Forall₂ (Has s) l vs

theorem Carry.mono {s s' : CS F} {l : List (CNum F)} {vs : List F} (h : Carry s l vs) (e : s.Ext s') :
    Carry s' l vs := List.Forall₂.imp (fun _ _ h => h.mono e) h

theorem carry_ark {st : List (CNum F)} {vs : List F} (h : Carry s st vs) (c : F) :
    Carry s (ark st c) (Poseidon.ark vs c) := by
  induction h with
  | nil => exact .nil
  | cons h _ ih => exact .cons (has_addConst h c) ih

theorem runs_sigma (hs : s.Honest) {a : CNum F} {x : F} (ha : Has s a x) :
    Runs s (sigma a) (fun r s' => Has s' r (Poseidon.sigma x)) := by
  unfold sigma Poseidon.sigma
  refine Runs.bind (runs_mul hs ha ha) fun q s1 e1 hs1 h1 => ?_
  refine Runs.bind (runs_mul hs1 h1 h1) fun r s2 e2 hs2 h2 => ?_
  exact runs_mul hs2 h2 (ha.mono (e1.trans e2))

theorem runs_sigmaAll {l : List (CNum F)} {vs : List F} (hs : s.Honest) (h : Carry s l vs) :
    Runs s (sigmaAll l) (fun r s' => Carry s' r (vs.map Poseidon.sigma)) := by
  induction l generalizing s vs with
  | nil => cases h; exact Runs.pure hs .nil
  | cons x xs ih =>
    cases h with
    | cons hx h =>
      refine Runs.bind (runs_sigma hs hx) fun y s1 e1 hs1 hy => ?_
      exact Runs.bind (ih hs1 (Carry.mono h e1)) fun ys s2 e2 hs2 hys => Runs.pure hs2 (.cons (hy.mono e2) hys)

theorem carry_mixRow {st : List (CNum F)} {vs : List F} (h : Carry s st vs) (row : List F) {acc : CNum F} {a r : F}
    (ha : Has s acc a) (hr : Poseidon.mixRow vs row a = .ok r) :
    ∃ x, mixRow st row acc = .ok x ∧ Has s x r := by
  induction h generalizing row acc a with
  | nil => unfold Poseidon.mixRow at hr; injection hr with hr; subst hr; exact ⟨acc, by unfold mixRow; rfl, ha⟩
  | @cons x v st vs hx _ ih =>
    cases row with
    | nil => cases hr
    | cons c row =>
      rw [Poseidon.mixRow] at hr
      have h1 := has_addAssign ha (has_mulConst hx c)
      rw [mul_comm] at h1
      exact ih row h1 hr

theorem carry_mixRows {st : List (CNum F)} {vs : List F} (h : Carry s st vs) (rows : List (List F)) (n : Nat)
    (r : List F) (hr : Poseidon.mixRows vs rows n = .ok r) : ∃ x, mixRows st rows n = .ok x ∧ Carry s x r := by
  induction n generalizing rows r with
  | zero =>
    unfold Poseidon.mixRows at hr; injection hr with hr; subst hr; exact ⟨[], by unfold mixRows; rfl, .nil⟩
  | succ n ih =>
    cases rows with
    | nil => cases hr
    | cons row rows =>
      rw [Poseidon.mixRows] at hr
      cases h1 : Poseidon.mixRow vs row 0 with
      | error e => rw [h1] at hr; cases hr
      | ok x =>
        cases h2 : Poseidon.mixRows vs rows n with
        | error e => rw [h1, h2] at hr; cases hr
        | ok xs =>
          rw [h1, h2] at hr
          simp only [bind, Except.bind, pure, Except.pure] at hr
          injection hr with hr; subst hr
          obtain ⟨y, e1, hy⟩ := carry_mixRow h row has_zero h1
          obtain ⟨ys, e2, hys⟩ := ih rows xs h2
          exact ⟨y :: ys, by rw [mixRows, e1, e2]; rfl, .cons hy hys⟩

theorem runs_layer (P : PoseidonParams F) (i : Nat) {st : List (CNum F)} {vs r : List F} (hs : s.Honest)
    (h : Carry s st vs) (hr : Poseidon.layer P i vs = .ok r) : Runs s (layer P i st) (fun q s' => Carry s' q r) := by
  unfold layer
  unfold Poseidon.layer at hr
  by_cases hi : i < P.f / 2 ∨ P.f / 2 + P.p ≤ i
  · rw [if_pos hi] at hr ⊢
    injection hr with hr; subst hr
    exact runs_sigmaAll hs h
  · rw [if_neg hi] at hr ⊢
    cases h with
    | nil => cases hr
    | cons hx h =>
      injection hr with hr; subst hr
      exact Runs.bind (runs_sigma hs hx) fun y s1 e1 hs1 hy => Runs.pure hs1 (.cons hy (Carry.mono h e1))

theorem getIdx_carry {l : List (CNum F)} {vs : List F} (h : Carry s l vs) {i : Nat} {v : F}
    (hv : getIdx vs i = .ok v) : ∃ x, getIdx l i = .ok x ∧ Has s x v := by
  induction h generalizing i with
  | nil => rw [getIdx_ok] at hv; simp at hv
  | cons hx _ ih =>
    cases i with
    | zero => rw [getIdx_ok] at hv; simp at hv; subst hv; exact ⟨_, rfl, hx⟩
    | succ i => exact ih hv

theorem runs_rounds (P : PoseidonParams F) (n i : Nat) {st : List (CNum F)} {vs r : List F} (hs : s.Honest)
    (h : Carry s st vs) (hr : Poseidon.rounds P n i vs = .ok r) :
    Runs s (rounds P n i st) (fun q s' => Carry s' q r) := by
  induction n generalizing i st vs s with
  | zero => unfold Poseidon.rounds at hr; injection hr with hr; subst hr; exact Runs.pure hs h
  | succ n ih =>
    rw [Poseidon.rounds] at hr
    cases h1 : getIdx P.c i with
    | error e => rw [h1] at hr; cases hr
    | ok c =>
      rw [h1] at hr
      simp only [bind, Except.bind] at hr
      cases h2 : Poseidon.layer P i (Poseidon.ark vs c) with
      | error e => rw [h2] at hr; cases hr
      | ok st1 =>
        rw [h2] at hr
        simp only at hr
        cases h3 : Poseidon.mix st1 P with
        | error e => rw [h3] at hr; cases hr
        | ok st2 =>
          rw [h3] at hr
          simp only at hr
          refine Runs.bind (Runs.lift (Q := fun c' s' => c' = c ∧ s' = s) hs h1 ⟨rfl, rfl⟩) ?_
          rintro c' s1 _ _ ⟨rfl, rfl⟩
          refine Runs.bind (runs_layer P i hs (carry_ark h _) h2) fun q s2 e2 hs2 hq => ?_
          obtain ⟨q2, e3, hq2⟩ := carry_mixRows hq P.m _ _ (by unfold Poseidon.mix at h3; exact h3)
          refine Runs.bind (Runs.lift (Q := fun c' s' => c' = q2 ∧ s' = s2) hs2
            (by unfold mix; rw [List.Forall₂.length_eq hq]; exact e3) ⟨rfl, rfl⟩) ?_
          rintro c' s3 _ _ ⟨rfl, rfl⟩
          exact ih (i + 1) hs2 hq2 hr

theorem carry_pad {l : List (CNum F)} {vs : List F} (h : Carry s l vs) (n : Nat) :
    Carry s (l ++ List.replicate n CNum.zero) (vs ++ List.replicate n 0) := by
  refine List.rel_append h ?_
  induction n with
  | zero => exact .nil
  | succ n ih => exact .cons has_zero ih

theorem runs_poseidon {inputs : List (CNum F)} {vs : List F} (P : PoseidonParams F) (hs : s.Honest)
    (h : Carry s inputs vs) {v : F} (hv : Poseidon.poseidon vs P = .ok v) :
    Runs s (poseidon inputs P) (fun r s' => Has s' r v) := by
  have hl : inputs.length = vs.length := List.Forall₂.length_eq h
  unfold poseidon
  unfold Poseidon.poseidon at hv
  rw [hl]
  by_cases h1 : vs.length ≤ P.t
  · by_cases h2 : 0 < vs.length
    · rw [if_neg (not_not.2 h1), if_neg (not_not.2 h2)] at hv ⊢
      cases h3 : Poseidon.rounds P (P.f + P.p) 0 (vs ++ List.replicate (P.t - vs.length) 0) with
      | error e => rw [h3] at hv; cases hv
      | ok st =>
        rw [h3] at hv
        simp only [bind, Except.bind] at hv
        refine Runs.bind (runs_rounds P _ 0 hs (carry_pad h _) h3) fun q s1 e1 hs1 hq => ?_
        obtain ⟨x, hx, hxv⟩ := getIdx_carry hq hv
        exact Runs.lift hs1 hx hxv
    · rw [if_neg (not_not.2 h1), if_pos h2] at hv; cases hv
  · rw [if_pos h1] at hv; cases hv

theorem runs_poseidonWithSalt {inputs : List (CNum F)} {vs : List F} (seed : F) (P : PoseidonParams F)
    (hs : s.Honest) (h : Carry s inputs vs) {v : F} (hv : Poseidon.poseidonWithSalt vs seed P = .ok v) :
    Runs s (poseidonWithSalt inputs seed P) (fun r s' => Has s' r v) := by
  have hl : inputs.length = vs.length := List.Forall₂.length_eq h
  unfold poseidonWithSalt
  unfold Poseidon.poseidonWithSalt at hv
  rw [hl]
  by_cases h1 : 0 < vs.length
  · by_cases h2 : vs.length < P.t
    · rw [if_neg (not_not.2 h1), if_neg (not_not.2 h2)] at hv ⊢
      exact runs_poseidon P hs (List.rel_append h (.cons (has_fromConst seed) .nil)) hv
    · rw [if_neg (not_not.2 h1), if_pos h2] at hv; cases hv
  · rw [if_pos h1] at hv; cases hv

theorem runs_proofLoop (P : PoseidonParams F) (l : List (CBool F × CNum F)) (bv : List (Bool × F))
    (hs : s.Honest) (h : List.Forall₂ (fun c v => Has s c.1.num (if v.1 = true then 1 else 0) ∧ Has s c.2 v.2) l bv)
    {leaf : CNum F} {x r : F} (hx : Has s leaf x) (hr : Poseidon.proofLoop P x bv = .ok r) :
    Runs s (proofLoop P leaf l) (fun q s' => Has s' q r) := by
  induction l generalizing bv s leaf x with
  | nil =>
    cases h
    unfold Poseidon.proofLoop at hr; injection hr with hr; subst hr; exact Runs.pure hs hx
  | cons cs l ih =>
    cases h with
    | @cons _ bvh _ bvt h1 h =>
      obtain ⟨b, v⟩ := bvh
      obtain ⟨c, sgn⟩ := cs
      simp only at h1
      refine Runs.bind (runs_switch hs h1.2 hx h1.1 (by cases b <;> simp)) fun first s1 e1 hs1 hf => ?_
      have h2 := has_sub (has_add (hx.mono e1) (h1.2.mono e1)) hf
      rw [Poseidon.proofLoop] at hr
      cases h3 : Poseidon.poseidon (if b = true then [v, x] else [x, v]) P with
      | error e => rw [h3] at hr; cases hr
      | ok root =>
        rw [h3] at hr
        have hpair : (if b = true then [v, x] else [x, v]) =
          [x + (if b = true then 1 else 0) * (v - x), x + v - (x + (if b = true then 1 else 0) * (v - x))] := by
          cases b <;> simp
        refine Runs.bind (runs_poseidon P hs1 (.cons hf (.cons h2 .nil)) (hpair ▸ h3)) fun q s2 e2 hs2 hq => ?_
        exact ih bvt hs2 (List.Forall₂.imp (fun _ _ h => ⟨h.1.mono (e1.trans e2), h.2.mono (e1.trans e2)⟩) h) hq hr

theorem carry_set {l : List (CNum F)} {vs : List F} (h : Carry s l vs) (i : Nat) {x : CNum F} {v : F}
    (hx : Has s x v) : Carry s (l.set i x) (vs.set i v) := by
  induction h generalizing i with
  | nil => exact .nil
  | cons ha h ih =>
    cases i with
    | zero => exact .cons hx h
    | succ i => exact .cons ha (ih i)

theorem runs_treeInner (P : PoseidonParams F) (n i : Nat) {st : List (CNum F)} {vs r : List F} (hs : s.Honest)
    (h : Carry s st vs) (hr : Poseidon.treeInner P n i vs = .ok r) :
    Runs s (treeInner P n i st) (fun q s' => Carry s' q r) := by
  induction n generalizing i st vs s with
  | zero => unfold Poseidon.treeInner at hr; injection hr with hr; subst hr; exact Runs.pure hs h
  | succ n ih =>
    rw [Poseidon.treeInner] at hr
    cases h1 : getIdx vs (2 * i) with
    | error e => rw [h1] at hr; cases hr
    | ok a =>
      cases h2 : getIdx vs (2 * i + 1) with
      | error e => rw [h1, h2] at hr; cases hr
      | ok b =>
        cases h3 : Poseidon.poseidon [a, b] P with
        | error e => rw [h1, h2] at hr; simp only [bind, Except.bind, h3] at hr; cases hr
        | ok c =>
          rw [h1, h2] at hr
          simp only [bind, Except.bind, h3] at hr
          obtain ⟨xa, ea, ha⟩ := getIdx_carry h h1
          obtain ⟨xb, eb, hb⟩ := getIdx_carry h h2
          refine Runs.bind (Runs.lift (Q := fun c' s' => c' = xa ∧ s' = s) hs ea ⟨rfl, rfl⟩) ?_
          rintro c' s1 _ _ ⟨rfl, rfl⟩
          refine Runs.bind (Runs.lift (Q := fun c' s' => c' = xb ∧ s' = s1) hs eb ⟨rfl, rfl⟩) ?_
          rintro c'' s2 _ _ ⟨rfl, rfl⟩
          refine Runs.bind (runs_poseidon P hs (.cons ha (.cons hb .nil)) h3) fun q s3 e3 hs3 hq => ?_
          exact ih (i + 1) hs3 (carry_set (h.mono e3) i hq) hr

theorem runs_treeLevels (P : PoseidonParams F) (total n j : Nat) {st : List (CNum F)} {vs r : List F}
    (hs : s.Honest) (h : Carry s st vs) (hr : Poseidon.treeLevels P total n j vs = .ok r) :
    Runs s (treeLevels P total n j st) (fun q s' => Carry s' q r) := by
  induction n generalizing j st vs s with
  | zero => unfold Poseidon.treeLevels at hr; injection hr with hr; subst hr; exact Runs.pure hs h
  | succ n ih =>
    rw [Poseidon.treeLevels] at hr
    cases h1 : Poseidon.treeInner P (total / 2 ^ (j + 1)) 0 vs with
    | error e => rw [h1] at hr; cases hr
    | ok a =>
      rw [h1] at hr
      exact Runs.bind (runs_treeInner P _ 0 hs h h1) fun q s1 e1 hs1 hq => ih (j + 1) hs1 hq hr

theorem runs_merkleTreeRoot {leaf : List (CNum F)} {vs : List F} (P : PoseidonParams F) (hs : s.Honest)
    (h : Carry s leaf vs) {v : F} (hv : Poseidon.merkleTreeRoot vs P = .ok v) :
    Runs s (merkleTreeRoot leaf P) (fun r s' => Has s' r v) := by
  have hl : leaf.length = vs.length := List.Forall₂.length_eq h
  unfold merkleTreeRoot
  unfold Poseidon.merkleTreeRoot at hv
  rw [hl]
  by_cases h1 : 0 < vs.length
  · rw [if_neg (not_not.2 h1)] at hv ⊢
    simp only at hv
    cases h3 : Poseidon.treeLevels P (2 ^ (vs.length - 1).size) (vs.length - 1).size 0
        (vs ++ List.replicate (2 ^ (vs.length - 1).size - vs.length) 0) with
    | error e => rw [h3] at hv; cases hv
    | ok st =>
      rw [h3] at hv
      simp only [bind, Except.bind] at hv
      refine Runs.bind (runs_treeLevels P _ _ 0 hs (carry_pad h _) h3) fun q s1 e1 hs1 hq => ?_
      obtain ⟨x, hx, hxv⟩ := getIdx_carry hq hv
      exact Runs.lift hs1 hx hxv
  · rw [if_pos h1] at hv; cases hv

/-! ### Panics -/

/-- On the wrong number of inputs the gadget panics like the native function. -/
theorem poseidon_arity (inputs : List (CNum F)) (P : PoseidonParams F)
    (h : inputs.length = 0 ∨ P.t < inputs.length) (s : CS F) :
    (poseidon inputs P).run s = .error .assertion := by
  unfold poseidon
  by_cases h1 : inputs.length ≤ P.t
  · rw [if_neg (not_not.2 h1), if_pos (by omega)]; rfl
  · rw [if_pos h1]; rfl

/-! ### Shape -/

/-- Equal coefficients, possibly different values. -/
abbrev SameNums (a b : List (CNum F)) : Prop := List.Forall₂ (fun x y => x.lc = y.lc) a b

theorem same_ark {a b : List (CNum F)} (h : SameNums a b) (c : F) : SameNums (ark a c) (ark b c) := by
  induction h with
  | nil => exact .nil
  | cons h _ ih => exact .cons (shape_addConst h c) ih

theorem rel_sigma {a b : CNum F} (h : a.lc = b.lc) : Rel (sigma a) (sigma b) (fun x y => x.lc = y.lc) := by
  unfold sigma
  refine Rel.bind (rel_mul h h) fun x y h1 => ?_
  exact Rel.bind (rel_mul h1 h1) fun x y h2 => rel_mul h2 h

theorem rel_sigmaAll {a b : List (CNum F)} (h : SameNums a b) : Rel (sigmaAll a) (sigmaAll b) SameNums := by
  induction h with
  | nil => exact Rel.pure .nil
  | cons h _ ih => exact Rel.bind (rel_sigma h) fun x y h1 => Rel.bind ih fun _ _ h2 => Rel.pure (.cons h1 h2)

theorem same_mixRow {a b : List (CNum F)} (h : SameNums a b) (row : List F) {u v x y : CNum F} (huv : u.lc = v.lc)
    (hx : mixRow a row u = .ok x) (hy : mixRow b row v = .ok y) : x.lc = y.lc := by
  induction h generalizing row u v with
  | nil =>
    unfold mixRow at hx hy
    injection hx with hx; injection hy with hy; subst hx hy; exact huv
  | cons h _ ih =>
    cases row with
    | nil => cases hx
    | cons r row => exact ih row (shape_addAssign huv (shape_mulConst h r)) hx hy

theorem same_mixRows {a b : List (CNum F)} (h : SameNums a b) (rows : List (List F)) (n : Nat) {x y : List (CNum F)}
    (hx : mixRows a rows n = .ok x) (hy : mixRows b rows n = .ok y) : SameNums x y := by
  induction n generalizing rows x y with
  | zero =>
    unfold mixRows at hx hy
    injection hx with hx; injection hy with hy; subst hx hy; exact .nil
  | succ n ih =>
    cases rows with
    | nil => cases hx
    | cons row rows =>
      rw [mixRows] at hx hy
      cases h1 : mixRow a row CNum.zero with
      | error e => rw [h1] at hx; cases hx
      | ok u =>
      cases h2 : mixRow b row CNum.zero with
      | error e => rw [h2] at hy; cases hy
      | ok v =>
      cases h3 : mixRows a rows n with
      | error e => rw [h1, h3] at hx; cases hx
      | ok us =>
      cases h4 : mixRows b rows n with
      | error e => rw [h2, h4] at hy; cases hy
      | ok vs =>
        rw [h1, h3] at hx
        rw [h2, h4] at hy
        injection hx with hx; injection hy with hy; subst hx hy
        exact .cons (same_mixRow h row rfl h1 h2) (ih rows h3 h4)

theorem same_length {a b : List (CNum F)} (h : SameNums a b) : a.length = b.length := List.Forall₂.length_eq h

theorem rel_layer (P : PoseidonParams F) (i : Nat) {a b : List (CNum F)} (h : SameNums a b) :
    Rel (layer P i a) (layer P i b) SameNums := by
  unfold layer
  by_cases hi : i < P.f / 2 ∨ P.f / 2 + P.p ≤ i
  · rw [if_pos hi, if_pos hi]; exact rel_sigmaAll h
  · rw [if_neg hi, if_neg hi]
    cases h with
    | nil => exact Rel.panic_left
    | cons h1 h => exact Rel.bind (rel_sigma h1) fun x y h2 => Rel.pure (.cons h2 h)

theorem rel_rounds (P : PoseidonParams F) (n i : Nat) {a b : List (CNum F)} (h : SameNums a b) :
    Rel (rounds P n i a) (rounds P n i b) SameNums := by
  induction n generalizing i a b with
  | zero => exact Rel.pure h
  | succ n ih =>
    refine Rel.bind (Q := fun x y => x = y) (Rel.lift fun x y h1 h2 => ?_) fun c _ hc => ?_
    · rw [h1] at h2; injection h2
    · subst hc
      refine Rel.bind (rel_layer P i (same_ark h c)) fun x y h1 => ?_
      refine Rel.bind (Q := SameNums) (Rel.lift fun u v h2 h3 => ?_) fun u v h2 => ih (i + 1) h2
      unfold mix at h2 h3
      rw [← same_length h1] at h3
      exact same_mixRows h1 _ _ h2 h3

theorem same_append {a b c d : List (CNum F)} (h : SameNums a b) (h' : SameNums c d) : SameNums (a ++ c) (b ++ d) :=
  List.rel_append h h'

theorem same_refl (a : List (CNum F)) : SameNums a a := List.forall₂_same.2 fun _ _ => rfl

theorem same_getIdx {a b : List (CNum F)} (h : SameNums a b) {i : Nat} {x y : CNum F} (hx : getIdx a i = .ok x)
    (hy : getIdx b i = .ok y) : x.lc = y.lc := by
  induction h generalizing i with
  | nil => rw [getIdx_ok] at hx; simp at hx
  | cons h _ ih =>
    cases i with
    | zero => rw [getIdx_ok] at hx hy; simp at hx hy; subst hx hy; exact h
    | succ i => exact ih hx hy

theorem rel_poseidon (P : PoseidonParams F) {a b : List (CNum F)} (h : SameNums a b) :
    Rel (poseidon a P) (poseidon b P) (fun x y => x.lc = y.lc) := by
  unfold poseidon
  rw [same_length h]
  split
  · exact Rel.panic_left
  · split
    · exact Rel.panic_left
    · exact Rel.bind (rel_rounds P _ 0 (same_append h (same_refl _))) fun x y h1 =>
        Rel.lift fun u v h2 h3 => same_getIdx h1 h2 h3

theorem rel_poseidonWithSalt (seed : F) (P : PoseidonParams F) {a b : List (CNum F)} (h : SameNums a b) :
    Rel (poseidonWithSalt a seed P) (poseidonWithSalt b seed P) (fun x y => x.lc = y.lc) := by
  unfold poseidonWithSalt
  rw [same_length h]
  split
  · exact Rel.panic_left
  · split
    · exact Rel.panic_left
    · exact rel_poseidon P (same_append h (same_refl _))

theorem rel_proofLoop (P : PoseidonParams F) {l l' : List (CBool F × CNum F)}
    (h : List.Forall₂ (fun x y => x.1.num.lc = y.1.num.lc ∧ x.2.lc = y.2.lc) l l') {leaf leaf' : CNum F}
    (hl : leaf.lc = leaf'.lc) :
    Rel (proofLoop P leaf l) (proofLoop P leaf' l') (fun x y => x.lc = y.lc) := by
  induction h generalizing leaf leaf' with
  | nil => exact Rel.pure hl
  | cons h _ ih =>
    refine Rel.bind (rel_switch h.2 hl h.1) fun x y h1 => ?_
    refine Rel.bind (rel_poseidon P (.cons h1 (.cons (shape_sub (shape_add hl h.2) h1) .nil))) fun u v h2 => ?_
    exact ih h2

theorem same_set {a b : List (CNum F)} (h : SameNums a b) (i : Nat) {x y : CNum F} (hx : x.lc = y.lc) :
    SameNums (a.set i x) (b.set i y) := by
  induction h generalizing i with
  | nil => exact .nil
  | cons h ht ih =>
    cases i with
    | zero => exact .cons hx ht
    | succ i => exact .cons h (ih i)

theorem rel_treeInner (P : PoseidonParams F) (n i : Nat) {a b : List (CNum F)} (h : SameNums a b) :
    Rel (treeInner P n i a) (treeInner P n i b) SameNums := by
  induction n generalizing i a b with
  | zero => exact Rel.pure h
  | succ n ih =>
    refine Rel.bind (Q := fun x y => x.lc = y.lc) (Rel.lift fun u v h2 h3 => same_getIdx h h2 h3) fun x y h1 => ?_
    refine Rel.bind (Q := fun x y => x.lc = y.lc) (Rel.lift fun u v h2 h3 => same_getIdx h h2 h3) fun x' y' h1' => ?_
    exact Rel.bind (rel_poseidon P (.cons h1 (.cons h1' .nil))) fun u v h2 => ih (i + 1) (same_set h i h2)

theorem rel_treeLevels (P : PoseidonParams F) (total n j : Nat) {a b : List (CNum F)} (h : SameNums a b) :
    Rel (treeLevels P total n j a) (treeLevels P total n j b) SameNums := by
  induction n generalizing j a b with
  | zero => exact Rel.pure h
  | succ n ih => exact Rel.bind (rel_treeInner P _ 0 h) fun u v h1 => ih (j + 1) h1

theorem rel_merkleTreeRoot (P : PoseidonParams F) {a b : List (CNum F)} (h : SameNums a b) :
    Rel (merkleTreeRoot a P) (merkleTreeRoot b P) (fun x y => x.lc = y.lc) := by
  unfold merkleTreeRoot
  rw [same_length h]
  split
  · exact Rel.panic_left
  · exact Rel.bind (rel_treeLevels P _ _ 0 (same_append h (same_refl _))) fun x y h1 =>
        Rel.lift fun u v h2 h3 => same_getIdx h1 h2 h3

/-! ### Number of constraints -/

theorem cost_sigma (a : CNum F) : Cost (sigma a) 3 :=
  Cost.bind (k := 1) (n := 2) (cost_mul _ _) fun _ => Cost.bind (k := 1) (n := 1) (cost_mul _ _) fun _ => cost_mul _ _

theorem cost_sigmaAll (l : List (CNum F)) : Cost (sigmaAll l) (3 * l.length) := by
  induction l with
  | nil => exact Cost.pure
  | cons x xs ih =>
    refine Cost.mono (Cost.bind (cost_sigma x) fun y => Cost.bind ih fun ys => Cost.pure (n := 0)) ?_
    simp; omega

theorem sigmaAll_length (l : List (CNum F)) (s s' : CS F) (r : List (CNum F))
    (h : (sigmaAll l).run s = .ok (r, s')) : r.length = l.length := by
  induction l generalizing s r s' with
  | nil => unfold sigmaAll at h; rw [M.run_pure] at h; injection h with h; injection h with h _; subst h; rfl
  | cons x xs ih =>
    unfold sigmaAll at h
    obtain ⟨y, s1, -, h⟩ := M.bind_ok h
    obtain ⟨ys, s2, h2, h⟩ := M.bind_ok h
    rw [M.run_pure] at h; injection h with h; injection h with h _; subst h
    simp [ih _ _ _ h2]

theorem layer_length (P : PoseidonParams F) (i : Nat) (l : List (CNum F)) (s s' : CS F) (r : List (CNum F))
    (h : (layer P i l).run s = .ok (r, s')) : r.length = l.length := by
  unfold layer at h
  split at h
  · exact sigmaAll_length _ _ _ _ h
  · cases l with
    | nil => rw [M.run_panic] at h; cases h
    | cons x xs =>
      obtain ⟨y, s1, -, h⟩ := M.bind_ok h
      rw [M.run_pure] at h; injection h with h; injection h with h _; subst h; rfl

theorem mixRows_length (state : List (CNum F)) (rows : List (List F)) (n : Nat) (r : List (CNum F))
    (h : mixRows state rows n = .ok r) : r.length = n := by
  induction n generalizing rows r with
  | zero => unfold mixRows at h; injection h with h; subst h; rfl
  | succ n ih =>
    cases rows with
    | nil => cases h
    | cons row rows =>
      rw [mixRows] at h
      cases h1 : mixRow state row CNum.zero with
      | error e => rw [h1] at h; cases h
      | ok x =>
        cases h2 : mixRows state rows n with
        | error e => rw [h1, h2] at h; cases h
        | ok xs =>
          rw [h1, h2] at h
          injection h with h; subst h
          simp [ih _ _ h2]

/-- Bound for round `i`. -/
def roundCost (P : PoseidonParams F) (i : Nat) : Nat := if Poseidon.isFull P i = true then 3 * P.t else 3

theorem cost_layer (P : PoseidonParams F) (i : Nat) (l : List (CNum F)) (hl : l.length = P.t) :
    Cost (layer P i l) (roundCost P i) := by
  unfold layer roundCost Poseidon.isFull
  by_cases hi : i < P.f / 2 ∨ P.f / 2 + P.p ≤ i
  · rw [if_pos hi, if_pos (by simpa using hi), ← hl]; exact cost_sigmaAll l
  · rw [if_neg hi, if_neg (by simpa using hi)]
    cases l with
    | nil => exact Cost.panic
    | cons x xs => exact Cost.bind (cost_sigma x) fun _ => Cost.pure (n := 0)

theorem cost_rounds (P : PoseidonParams F) (n i : Nat) (l : List (CNum F)) (hl : l.length = P.t) :
    Cost (rounds P n i l) (((List.range' i n).map (roundCost P)).sum) := by
  induction n generalizing i l with
  | zero => exact Cost.pure
  | succ n ih =>
    rw [List.range'_succ, List.map_cons, List.sum_cons]
    refine Cost.mono (Cost.bind (k := 0) Cost.lift fun c => ?_) (Nat.zero_add _).le
    have hlen : (ark l c).length = P.t := by simp [ark, hl]
    refine Cost.bind' (Q := fun r => r.length = P.t) (cost_layer P i _ hlen)
      (fun s a s' h => (layer_length P i _ s s' a h).trans hlen) fun r hr => ?_
    refine Cost.mono (Cost.bind' (k := 0) (Q := fun q => q.length = P.t) Cost.lift ?_ fun q hq => ih (i + 1) q hq)
      (Nat.zero_add _).le
    intro s a s' h
    cases hm : mix r P with
    | error e => rw [hm] at h; cases h
    | ok q =>
      rw [hm, M.run_lift] at h
      injection h with h; injection h with h _; subst h
      exact (mixRows_length _ _ _ _ hm).trans hr

theorem range_isFull (P : PoseidonParams F) :
    (List.range (P.f + P.p)).map (Poseidon.isFull P) = PoseidonSpec.schedule P.f P.p := by
  apply List.ext_getElem?
  intro i
  by_cases hi : i < P.f + P.p
  · rw [Poseidon.schedule_getElem? P i hi, List.getElem?_map, List.getElem?_range hi]; rfl
  · rw [List.getElem?_eq_none (by simp; omega), List.getElem?_eq_none (by rw [Poseidon.schedule_length]; omega)]

theorem total_cost (P : PoseidonParams F) :
    ((List.range' 0 (P.f + P.p)).map (roundCost P)).sum = 3 * (P.t * P.f + P.p) := by
  have h : (List.range' 0 (P.f + P.p)).map (roundCost P) =
      (PoseidonSpec.schedule P.f P.p).map fun b => if b = true then 3 * P.t else 3 := by
    rw [← range_isFull, List.map_map, List.range_eq_range']; rfl
  rw [h]
  unfold PoseidonSpec.schedule
  simp only [List.map_append, List.map_replicate, List.sum_append, List.sum_replicate, if_true, smul_eq_mul,
    Bool.false_eq_true, if_false]
  obtain ⟨g, hg⟩ : ∃ g, P.f = P.f / 2 + g := ⟨P.f - P.f / 2, by omega⟩
  have : P.f - P.f / 2 = g := by omega
  rw [this]
  generalize P.f / 2 = q at *
  rw [hg]; ring

theorem cost_poseidon (inputs : List (CNum F)) (P : PoseidonParams F) :
    Cost (poseidon inputs P) (3 * (P.t * P.f + P.p)) := by
  unfold poseidon
  split
  · exact Cost.panic
  · next h =>
    split
    · exact Cost.panic
    · refine Cost.mono (Cost.bind (cost_rounds P _ 0 _ ?_) fun _ => Cost.lift (n := 0)) (total_cost P).le
      simp; omega

theorem cost_proofLoop (P : PoseidonParams F) (l : List (CBool F × CNum F)) (leaf : CNum F) :
    Cost (proofLoop P leaf l) (l.length * (3 * (P.t * P.f + P.p) + 1)) := by
  induction l generalizing leaf with
  | nil => exact Cost.pure
  | cons x l ih =>
    obtain ⟨b, x⟩ := x
    refine Cost.mono (Cost.bind (cost_switch _ _ _) fun _ => Cost.bind (cost_poseidon _ _) fun _ => ih _) ?_
    rw [List.length_cons]; ring_nf; omega

end CPoseidon

end Fawkes
