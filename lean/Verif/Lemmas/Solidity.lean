import Verif.Model.Solidity
import Verif.Spec.Solidity
import Verif.Lemmas.NumConv

/-!
# Lemmas on text replacement and the contract template
-/

namespace Fawkes.Groth16

/-! ### Numerals -/

theorem decimal_eq (n : Nat) : Num.decimal n = numeral n := by
  unfold numeral
  induction n using Nat.strong_induction_on with
  | _ n ih =>
    rcases Nat.lt_or_ge n 10 with h | h
    · rw [Nat.toDigits_of_lt_base h]
      unfold Num.decimal
      by_cases h0 : n = 0
      · subst h0; rfl
      · rw [if_neg h0, Nat.digits_of_lt 10 n h0 h]; rfl
    · have hd : 0 < n / 10 := Nat.div_pos h (by norm_num)
      have h1 := ih (n / 10) (Nat.div_lt_self (by omega) (by norm_num))
      have h2 := Nat.toDigits_append_toDigits (b := 10) (n := n / 10) (d := n % 10) (by norm_num) hd
        (Nat.mod_lt _ (by norm_num))
      rw [show 10 * (n / 10) + n % 10 = n by omega, ← h1, Nat.toDigits_of_lt_base (Nat.mod_lt _ (by norm_num))] at h2
      rw [← h2]
      unfold Num.decimal
      rw [if_neg (by omega), if_neg (by omega), Nat.digits_def' (by norm_num) (by omega)]
      simp

theorem numeral_noLt (n : Nat) : '<' ∉ numeral n := by
  rw [← decimal_eq]
  unfold Num.decimal
  split
  · decide
  · simp only [List.mem_reverse, List.mem_map, not_exists, not_and]
    intro d hd
    have : d < 10 := Nat.digits_lt_base (by norm_num) hd
    interval_cases d <;> decide

/-! ### Replacement -/

/-- No `<%` starts inside the text, also not together with what follows. -/
def clean : List Char → Bool
  | [] => true
  | c :: t => match t with
    | [] => c != '<'
    | d :: _ => !(c == '<' && d == '%') && clean t

theorem clean_cons (c d : Char) (t : List Char) :
    clean (c :: d :: t) = (!(c == '<' && d == '%') && clean (d :: t)) := rfl

theorem clean_of_noLt {t : List Char} (h : '<' ∉ t) : clean t = true := by
  induction t with
  | nil => rfl
  | cons c t ih =>
    have hc : c ≠ '<' := fun e => h (by simp [e])
    have ht := ih fun e => h (by simp [e])
    cases t with
    | nil => simp [clean, hc]
    | cons d t => rw [clean_cons, ht]; simp [hc]

theorem replaceScan_clean {pat' rep : List Char} {a : List Char} (h : clean a = true) (b : List Char) :
    replaceScan ('<' :: '%' :: pat') rep 0 (a ++ b) = a ++ replaceScan ('<' :: '%' :: pat') rep 0 b := by
  induction a with
  | nil => rfl
  | cons c t ih =>
    have hp : List.isPrefixOf ('<' :: '%' :: pat') (c :: t ++ b) = false := by
      cases t with
      | nil =>
        have : c ≠ '<' := by simpa [clean] using h
        simp [List.isPrefixOf, this.symm]
      | cons d t =>
        simp only [clean, Bool.and_eq_true, Bool.not_eq_true', Bool.and_eq_false_iff, beq_eq_false_iff_ne] at h
        rcases h.1 with h1 | h1
        · simp [List.isPrefixOf, h1.symm]
        · simp [List.isPrefixOf, h1.symm]
    have ht : clean t = true := by
      cases t with
      | nil => rfl
      | cons d t => simp only [clean, Bool.and_eq_true] at h; exact h.2
    simp only [List.cons_append] at hp ⊢
    rw [replaceScan, hp, ih ht]
    rfl

theorem replaceScan_skip {pat rep : List Char} (a b : List Char) :
    replaceScan pat rep a.length (a ++ b) = replaceScan pat rep 0 b := by
  induction a with
  | nil => rfl
  | cons c a ih => simpa [replaceScan] using ih

theorem replaceScan_match {c : Char} {pat' rep b : List Char} :
    replaceScan (c :: pat') rep 0 (c :: pat' ++ b) = rep ++ replaceScan (c :: pat') rep 0 b := by
  rw [List.cons_append, replaceScan, if_pos (by simp [List.isPrefixOf])]
  simp only [List.length_cons, Nat.add_sub_cancel]
  rw [replaceScan_skip]

/-- The two texts differ at a position both have. -/
def mismatch : List Char → List Char → Bool
  | a :: as, b :: bs => a != b || mismatch as bs
  | _, _ => false

theorem mismatch_prefix {pat q : List Char} (h : mismatch pat q = true) (b : List Char) :
    pat.isPrefixOf (q ++ b) = false := by
  induction pat generalizing q with
  | nil => simp [mismatch] at h
  | cons c pat ih =>
    cases q with
    | nil => simp [mismatch] at h
    | cons d q =>
      simp only [mismatch, Bool.or_eq_true, bne_iff_ne] at h
      simp only [List.cons_append, List.isPrefixOf, Bool.and_eq_false_iff, beq_eq_false_iff_ne]
      rcases h with h | h
      · exact .inl h
      · exact .inr (ih h)

theorem replaceScan_other {pat' rep : List Char} {c : Char} {q' : List Char}
    (h : mismatch ('<' :: '%' :: pat') (c :: q') = true) (hq : clean q' = true) (b : List Char) :
    replaceScan ('<' :: '%' :: pat') rep 0 (c :: q' ++ b) = c :: q' ++ replaceScan ('<' :: '%' :: pat') rep 0 b := by
  have hp := mismatch_prefix h b
  rw [List.cons_append] at hp ⊢
  rw [replaceScan, hp, replaceScan_clean hq]
  rfl

/-! ### Templates -/

/-- The gaps of the template. -/
inductive Hole where
  | alfa1 | beta2 | gamma2 | delta2 | icLength | inputLength | icPts
deriving DecidableEq

/-- The marker of a gap, without its first two characters. -/
def Hole.tail : Hole → List Char
  | alfa1 => chars! "vk_alfa1%>"
  | beta2 => chars! "vk_beta2%>"
  | gamma2 => chars! "vk_gamma2%>"
  | delta2 => chars! "vk_delta2%>"
  | icLength => chars! "vk_ic_length%>"
  | inputLength => chars! "vk_input_length%>"
  | icPts => chars! "vk_ic_pts%>"

/-- The marker of a gap. -/
def Hole.mark (h : Hole) : List Char := '<' :: '%' :: h.tail

theorem Hole.clean_mark (h : Hole) : clean ('%' :: h.tail) = true := by cases h <;> decide

theorem Hole.mismatch {h h' : Hole} (hn : h ≠ h') : mismatch h.mark h'.mark = true := by
  cases h <;> cases h' <;> first | exact absurd rfl hn | decide

/-- Text with gaps. -/
abbrev Pieces : Type := List (List Char ⊕ Hole)

/-- The text with `σ h` in the gap `h`. -/
def render (σ : Hole → List Char) : Pieces → List Char
  | [] => []
  | .inl t :: ps => t ++ render σ ps
  | .inr h :: ps => σ h ++ render σ ps

/-- All texts are clean. -/
def cleanPieces : Pieces → Bool
  | [] => true
  | .inl t :: ps => clean t && cleanPieces ps
  | .inr _ :: ps => cleanPieces ps

/-- Replacing the marker of a gap fills that gap and no other, as long as the fillings contain no `<`. -/
theorem replace_render {σ : Hole → List Char} {h : Hole} (hh : σ h = h.mark)
    (hσ : ∀ h', σ h' = h'.mark ∨ '<' ∉ σ h') (rep : List Char) (ps : Pieces) (hps : cleanPieces ps = true) :
    replace (render σ ps) h.mark rep = render (Function.update σ h rep) ps := by
  unfold replace
  induction ps with
  | nil => rfl
  | cons p ps ih =>
    cases p with
    | inl t =>
      simp only [cleanPieces, Bool.and_eq_true] at hps
      simp only [render]
      unfold Hole.mark at ih ⊢
      rw [replaceScan_clean hps.1, ih hps.2]
    | inr h' =>
      have ih := ih (by simpa [cleanPieces] using hps)
      simp only [render]
      by_cases e : h' = h
      · subst e
        rw [Function.update_self, hh]
        unfold Hole.mark at ih ⊢
        rw [replaceScan_match, ih]
      · rw [Function.update_of_ne e]
        rcases hσ h' with hm | hm
        · have := Hole.mismatch (Ne.symm e)
          rw [hm]
          unfold Hole.mark at this ih ⊢
          rw [replaceScan_other this h'.clean_mark, ih]
        · unfold Hole.mark at ih ⊢
          rw [replaceScan_clean (clean_of_noLt hm), ih]

/-- The contract with its gaps. -/
def contractPieces : Pieces := [.inl part1, .inr .icLength, .inl part2, .inr .alfa1, .inl part3, .inr .beta2, .inl part4, .inr .gamma2, .inl part5, .inr .delta2, .inl part6, .inr .icPts, .inl part7, .inr .inputLength, .inl part8]

set_option maxRecDepth 20000 in
theorem clean_contract : cleanPieces contractPieces = true := by decide +kernel

set_option maxRecDepth 20000 in
theorem template_eq : template = render Hole.mark contractPieces := by decide +kernel

theorem contract_eq (σ : Hole → List Char) :
    render σ contractPieces = contract (σ .alfa1) (σ .beta2) (σ .gamma2) (σ .delta2) (σ .icLength) (σ .inputLength)
      (σ .icPts) := by
  simp [render, contractPieces, contract]

end Fawkes.Groth16
