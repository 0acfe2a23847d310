import Verif.Lemmas.Solidity
import Verif.Lemmas.PrimesQ

/-!
# Property C56: the generated Solidity verifier
-/

namespace Fawkes.Props

open Groth16

section

variable {q : Nat} [hp : Fact q.Prime]

theorem serdeSerialize_eq (ha : Aligned q) (x : ZMod q) : Num.serdeSerialize x = .ok (numeral x.val) := by
  unfold Num.serdeSerialize; rw [intoBigUint_ok ha, ← decimal_eq]; rfl

theorem stringifyG1_eq (ha : Aligned q) (p : G1PointData (ZMod q)) :
    stringifyG1 p = .ok (g1Text p.p0.val p.p1.val) := by
  unfold stringifyG1; rw [serdeSerialize_eq ha, serdeSerialize_eq ha]; rfl

theorem stringifyG2_eq (ha : Aligned q) (p : G2PointData (ZMod q)) :
    stringifyG2 p = .ok (g2Text (p.p0.1.val, p.p0.2.val) (p.p1.1.val, p.p1.2.val)) := by
  unfold stringifyG2
  rw [serdeSerialize_eq ha, serdeSerialize_eq ha, serdeSerialize_eq ha, serdeSerialize_eq ha]; rfl

theorem icLoop_eq (ha : Aligned q) (ps : List (G1PointData (ZMod q))) (i : Nat) (vi : List Char)
    (h : vi = [] ↔ i = 0) :
    icLoop i vi ps = .ok (vi ++ (ps.mapIdx fun j p => icLine (i + j) p.p0.val p.p1.val).flatten) := by
  induction ps generalizing i vi with
  | nil => simp [icLoop, Pure.pure, Except.pure]
  | cons p ps ih =>
    rw [icLoop, stringifyG1_eq ha]
    change icLoop _ _ _ = _
    rw [ih]
    · have hv : (if vi.isEmpty then [] else chars! "        ") = (if i = 0 then [] else chars! "        ") := by
        by_cases h0 : i = 0
        · rw [if_pos h0, if_pos (by rw [h.2 h0]; rfl)]
        · rw [if_neg h0, if_neg (by rw [List.isEmpty_iff]; exact fun e => h0 (h.1 e))]
      rw [hv, decimal_eq, List.mapIdx_cons, List.flatten_cons]
      simp only [icLine, Nat.add_zero, List.append_assoc]
      simp only [Nat.add_assoc, Nat.add_comm 1]
    · simp

theorem g1Text_noLt (x y : Nat) : '<' ∉ g1Text x y := by
  simp [g1Text, numeral_noLt]

theorem g2Text_noLt (x y : Nat × Nat) : '<' ∉ g2Text x y := by
  simp [g2Text, numeral_noLt]

/-- Replacing the seven markers one after the other fills the seven gaps. -/
theorem fill_template {a b c d e f : List Char} (g : List Char) (ha : '<' ∉ a) (hb : '<' ∉ b) (hc : '<' ∉ c) (hd : '<' ∉ d)
    (he : '<' ∉ e) (hf : '<' ∉ f) :
    replace (replace (replace (replace (replace (replace (replace template Hole.alfa1.mark a) Hole.beta2.mark b)
      Hole.gamma2.mark c) Hole.delta2.mark d) Hole.icLength.mark e) Hole.inputLength.mark f) Hole.icPts.mark g =
    contract a b c d e f g := by
  have step := fun (σ : Hole → List Char) (h : Hole) (hσ : ∀ h', σ h' = h'.mark ∨ '<' ∉ σ h') (hh : σ h = h.mark) rep =>
    replace_render hh hσ rep contractPieces clean_contract
  have good : ∀ (σ : Hole → List Char) (h : Hole) (rep : List Char), (∀ h', σ h' = h'.mark ∨ '<' ∉ σ h') → '<' ∉ rep →
      ∀ h', Function.update σ h rep h' = h'.mark ∨ '<' ∉ Function.update σ h rep h' := by
    intro σ h rep hσ hr h'
    by_cases e : h' = h
    · subst e; rw [Function.update_self]; exact .inr hr
    · rw [Function.update_of_ne e]; exact hσ h'
  have g0 : ∀ h' : Hole, h'.mark = h'.mark ∨ '<' ∉ h'.mark := fun _ => .inl rfl
  have g1 := good _ .alfa1 _ g0 ha
  have g2 := good _ .beta2 _ g1 hb
  have g3 := good _ .gamma2 _ g2 hc
  have g4 := good _ .delta2 _ g3 hd
  have g5 := good _ .icLength _ g4 he
  have g6 := good _ .inputLength _ g5 hf
  rw [template_eq, step _ .alfa1 g0 rfl, step _ .beta2 g1 rfl, step _ .gamma2 g2 rfl, step _ .delta2 g3 rfl, step _ .icLength g4 rfl, step _ .inputLength g5 rfl, step _ .icPts g6 rfl, contract_eq]
  simp [Function.update]

/-- C56: for a key with at least one IC point the output is the contract with every gap filled: the coordinates of the four
points as decimal numerals, the number of IC points, one less for the inputs, and one assignment per IC point, in order. -/
theorem C56_contract (ha : Aligned q) (checked : Bool) (vk : VKData (ZMod q)) (hic : vk.ic ≠ []) :
    generateSolData checked vk = .ok (contract
      (g1Text vk.alphaG1.p0.val vk.alphaG1.p1.val)
      (g2Text (vk.betaG2.p0.1.val, vk.betaG2.p0.2.val) (vk.betaG2.p1.1.val, vk.betaG2.p1.2.val))
      (g2Text (vk.gammaG2.p0.1.val, vk.gammaG2.p0.2.val) (vk.gammaG2.p1.1.val, vk.gammaG2.p1.2.val))
      (g2Text (vk.deltaG2.p0.1.val, vk.deltaG2.p0.2.val) (vk.deltaG2.p1.1.val, vk.deltaG2.p1.2.val))
      (numeral vk.ic.length) (numeral (vk.ic.length - 1))
      (icText (vk.ic.map fun p => (p.p0.val, p.p1.val)))) := by
  have hl : vk.ic.length ≠ 0 := by simpa using hic
  unfold generateSolData
  have hpred : predUsize checked vk.ic.length = .ok (vk.ic.length - 1) := by unfold predUsize; rw [if_neg hl]
  rw [stringifyG1_eq ha, stringifyG2_eq ha, stringifyG2_eq ha, stringifyG2_eq ha, icLoop_eq ha _ _ _ (by simp), hpred,
    decimal_eq]
  simp only [bind, Except.bind, pure, Except.pure, decimal_eq]
  have hi : icText (vk.ic.map fun p => (p.p0.val, p.p1.val)) =
      [] ++ (vk.ic.mapIdx fun j p => icLine (0 + j) p.p0.val p.p1.val).flatten := by
    unfold icText
    rw [List.nil_append]
    congr 1
    apply List.ext_getElem <;> simp
  rw [hi]
  exact congrArg Except.ok (fill_template _ (g1Text_noLt _ _) (g2Text_noLt _ _) (g2Text_noLt _ _) (g2Text_noLt _ _)
    (numeral_noLt _) (numeral_noLt _))

/-- C56: without IC points the generator panics in a build with overflow checks. -/
theorem C56_no_ic (ha : Aligned q) (vk : VKData (ZMod q)) (hic : vk.ic = []) :
    generateSolData true vk = .error .assertion := by
  unfold generateSolData
  rw [stringifyG1_eq ha, stringifyG2_eq ha, stringifyG2_eq ha, stringifyG2_eq ha, hic]
  rfl

/-- C56: in a build without overflow checks the subtraction wraps around: without IC points the output is a contract that asks for
`2 ^ 64 - 1` inputs. -/
theorem C56_no_ic_unchecked (ha : Aligned q) (vk : VKData (ZMod q)) (hic : vk.ic = []) :
    generateSolData false vk = .ok (contract
      (g1Text vk.alphaG1.p0.val vk.alphaG1.p1.val)
      (g2Text (vk.betaG2.p0.1.val, vk.betaG2.p0.2.val) (vk.betaG2.p1.1.val, vk.betaG2.p1.2.val))
      (g2Text (vk.gammaG2.p0.1.val, vk.gammaG2.p0.2.val) (vk.gammaG2.p1.1.val, vk.gammaG2.p1.2.val))
      (g2Text (vk.deltaG2.p0.1.val, vk.deltaG2.p0.2.val) (vk.deltaG2.p1.1.val, vk.deltaG2.p1.2.val))
      (numeral 0) (numeral (2 ^ 64 - 1)) []) := by
  unfold generateSolData
  have hpred : predUsize false vk.ic.length = .ok (2 ^ 64 - 1) := by unfold predUsize; rw [hic]; rfl
  rw [stringifyG1_eq ha, stringifyG2_eq ha, stringifyG2_eq ha, stringifyG2_eq ha, icLoop_eq ha _ _ _ (by simp), hpred, decimal_eq]
  simp only [bind, Except.bind, pure, Except.pure, decimal_eq, hic, List.mapIdx_nil, List.flatten_nil, List.append_nil, List.length_nil]
  exact congrArg Except.ok (fill_template _ (g1Text_noLt _ _) (g2Text_noLt _ _) (g2Text_noLt _ _) (g2Text_noLt _ _)
    (numeral_noLt _) (numeral_noLt _))

theorem clean_append {a b : List Char} (ha : clean a = true) (hb : clean b = true) : clean (a ++ b) = true := by
  induction a with
  | nil => exact hb
  | cons c a ih =>
    cases a with
    | nil =>
      have hc : c ≠ '<' := by simpa [clean] using ha
      cases b with
      | nil => exact ha
      | cons d b => rw [List.cons_append, List.nil_append, clean_cons, hb]; simp [hc]
    | cons d a =>
      rw [clean_cons, Bool.and_eq_true] at ha
      have := ih ha.2
      rw [List.cons_append, List.cons_append, clean_cons, ha.1, Bool.true_and]
      exact this

theorem clean_no_mark {l : List Char} (h : clean l = true) (pre post : List Char) : l ≠ pre ++ '<' :: '%' :: post := by
  rintro rfl
  induction pre with
  | nil => rw [List.nil_append, clean_cons] at h; simp at h
  | cons c pre ih =>
    cases pre with
    | nil => exact ih (by rw [List.cons_append, List.nil_append, clean_cons, Bool.and_eq_true] at h; exact h.2)
    | cons d pre => exact ih (by rw [List.cons_append, List.cons_append, clean_cons, Bool.and_eq_true] at h; exact h.2)

theorem render_clean {σ : Hole → List Char} (hσ : ∀ h, '<' ∉ σ h) (ps : Pieces) (hps : cleanPieces ps = true) :
    clean (render σ ps) = true := by
  induction ps with
  | nil => rfl
  | cons p ps ih =>
    cases p with
    | inl t =>
      simp only [cleanPieces, Bool.and_eq_true] at hps
      exact clean_append hps.1 (ih hps.2)
    | inr h => exact clean_append (clean_of_noLt (hσ h)) (ih hps)

theorem icText_noLt (l : List (Nat × Nat)) : '<' ∉ icText l := by
  unfold icText
  rw [List.mem_flatten]
  rintro ⟨t, ht, hm⟩
  rw [List.mem_mapIdx] at ht
  obtain ⟨i, hi, rfl⟩ := ht
  unfold icLine at hm
  have h1 := numeral_noLt i
  have h2 := g1Text_noLt l[i].1 l[i].2
  by_cases h0 : i = 0
  · simp [h0] at hm
    rcases hm with hm | hm
    · exact numeral_noLt _ hm
    · exact g1Text_noLt _ _ hm
  · simp [h0] at hm
    rcases hm with hm | hm
    · exact h1 hm
    · exact h2 hm

/-- C56: no marker of the template is left in the output. -/
theorem C56_no_marker (ha : Aligned q) (checked : Bool) (vk : VKData (ZMod q)) (hic : vk.ic ≠ []) (out : List Char)
    (h : generateSolData checked vk = .ok out) (pre post : List Char) : out ≠ pre ++ chars! "<%" ++ post := by
  rw [C56_contract ha checked vk hic] at h
  cases h
  rw [List.append_assoc]
  refine clean_no_mark ?_ pre post
  have := contract_eq fun h : Hole => match h with
    | .alfa1 => g1Text vk.alphaG1.p0.val vk.alphaG1.p1.val
    | .beta2 => g2Text (vk.betaG2.p0.1.val, vk.betaG2.p0.2.val) (vk.betaG2.p1.1.val, vk.betaG2.p1.2.val)
    | .gamma2 => g2Text (vk.gammaG2.p0.1.val, vk.gammaG2.p0.2.val) (vk.gammaG2.p1.1.val, vk.gammaG2.p1.2.val)
    | .delta2 => g2Text (vk.deltaG2.p0.1.val, vk.deltaG2.p0.2.val) (vk.deltaG2.p1.1.val, vk.deltaG2.p1.2.val)
    | .icLength => numeral vk.ic.length
    | .inputLength => numeral (vk.ic.length - 1)
    | .icPts => icText (vk.ic.map fun p => (p.p0.val, p.p1.val))
  rw [← this]
  refine render_clean (fun h => ?_) _ clean_contract
  cases h
  · exact g1Text_noLt _ _
  · exact g2Text_noLt _ _
  · exact g2Text_noLt _ _
  · exact g2Text_noLt _ _
  · exact numeral_noLt _
  · exact numeral_noLt _
  · exact icText_noLt _

end

theorem aligned_bnQ : Aligned bnQ := by decide +kernel

example : generateSolData true (⟨⟨1, 2⟩, ⟨(1, 2), (3, 4)⟩, ⟨(5, 6), (7, 8)⟩, ⟨(9, 10), (11, 12)⟩, [⟨1, 2⟩, ⟨3, 4⟩]⟩ : VKData (ZMod bnQ)) =
    .ok (contract (chars! "1, 2") (chars! "[1, 2], [3, 4]") (chars! "[5, 6], [7, 8]") (chars! "[9, 10], [11, 12]")
      (chars! "2") (chars! "1")
      (chars! "vk.IC[0] = Pairing.G1Point(1, 2);\n        vk.IC[1] = Pairing.G1Point(3, 4);\n")) := by
  rw [C56_contract aligned_bnQ true _ (by simp)]
  have e1 : ∀ n, n < 13 → ((n : Nat) : ZMod bnQ).val = n := fun n hn => ZMod.val_natCast_of_lt (hn.trans (by decide))
  have e := fun n hn => e1 n hn
  have h1 : (1 : ZMod bnQ).val = 1 := by simpa using e 1 (by decide)
  have hv : (2 : ZMod bnQ).val = 2 ∧ (3 : ZMod bnQ).val = 3 ∧ (4 : ZMod bnQ).val = 4 ∧ (5 : ZMod bnQ).val = 5 ∧
      (6 : ZMod bnQ).val = 6 ∧ (7 : ZMod bnQ).val = 7 ∧ (8 : ZMod bnQ).val = 8 ∧ (9 : ZMod bnQ).val = 9 ∧
      (10 : ZMod bnQ).val = 10 ∧ (11 : ZMod bnQ).val = 11 ∧ (12 : ZMod bnQ).val = 12 :=
    ⟨e 2 (by decide), e 3 (by decide), e 4 (by decide), e 5 (by decide), e 6 (by decide), e 7 (by decide),
      e 8 (by decide), e 9 (by decide), e 10 (by decide), e 11 (by decide), e 12 (by decide)⟩
  obtain ⟨h2, h3, h4, h5, h6, h7, h8, h9, h10, h11, h12⟩ := hv
  simp only [h1, h2, h3, h4, h5, h6, h7, h8, h9, h10, h11, h12, List.map_cons, List.map_nil, List.length_cons,
    List.length_nil]
  have t1 : g1Text 1 2 = chars! "1, 2" := by decide +kernel
  have t2 : g2Text (1, 2) (3, 4) = chars! "[1, 2], [3, 4]" := by decide +kernel
  have t3 : g2Text (5, 6) (7, 8) = chars! "[5, 6], [7, 8]" := by decide +kernel
  have t4 : g2Text (9, 10) (11, 12) = chars! "[9, 10], [11, 12]" := by decide +kernel
  have t5 : numeral (0 + 1 + 1) = chars! "2" := by decide +kernel
  have t6 : numeral (0 + 1 + 1 - 1) = chars! "1" := by decide +kernel
  have t7 : icText [(1, 2), (3, 4)] =
      chars! "vk.IC[0] = Pairing.G1Point(1, 2);\n        vk.IC[1] = Pairing.G1Point(3, 4);\n" := by decide +kernel
  rw [t1, t2, t3, t4, t5, t6, t7]

end Fawkes.Props
