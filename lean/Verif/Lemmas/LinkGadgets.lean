import Verif.Lemmas.Link
import Verif.Lemmas.GadgetsShape
import Verif.Spec.Gadgets

/-!
# Two runs of the same circuit code: all gadgets
-/

set_option linter.unusedSectionVars false

namespace Fawkes

section bits

open Bitify

variable {p : Nat} [Fact p.Prime] {X : Link (ZMod p)}

/-- Corresponding bits of the two runs. -/
def FitsBits (X : Link (ZMod p)) (a b : List (CBool (ZMod p))) : Prop := List.Forall₂ (fun x y => X.fit x.num y.num) a b

theorem sim_allocLoop (vb vb' : List (Option Bool)) (n i : Nat) (k : ZMod p) (rem rem' : CNum (ZMod p))
    (hv : ∀ j, j < i + n → ∀ b, vb[j]? = some b → ∃ b', vb'[j]? = some b' ∧ X.V b b') (h : X.fit rem rem') :
    Sim X false (allocLoop vb n i k rem) (allocLoop vb' n i k rem')
      (fun r r' => FitsBits X r.1 r'.1 ∧ X.fit r.2 r'.2) := by
  induction n generalizing i k rem rem' with
  | zero => exact Sim.pure ⟨.nil, h⟩
  | succ n ih =>
    unfold allocLoop
    split
    · exact Sim.panic_left
    · next b hb =>
      obtain ⟨b', hb', hf⟩ := hv i (by omega) b hb
      rw [hb']
      refine Sim.bind (sim_boolAlloc hf) fun c c' hc => ?_
      refine Sim.bind (sim_assertBit hc) fun _ _ _ => ?_
      refine Sim.bind (ih _ _ _ _ (fun j hj => hv j (by omega)) (fits_sub h (fits_mulConst hc _))) fun r r' hr => ?_
      exact Sim.pure ⟨.cons hc hr.1, hr.2⟩

theorem fitsBits_refl (l : List (CBool (ZMod p))) (hl : ∀ b ∈ l, ∃ v, b.num = CNum.fromConst v) : FitsBits X l l := by
  induction l with
  | nil => exact .nil
  | cons b l ih =>
    obtain ⟨v, hv⟩ := hl b (by simp)
    exact .cons (by rw [hv]; exact X.fit_const v) (ih fun c hc => hl c (by simp [hc]))

theorem fits_witnessBits {v v' : Option (ZMod p)} (h : X.V v v') (n : Nat) (hn : X.lax = true → n ≤ numBits p) (j : Nat)
    (hj : j < n) (b : Option Bool) (hb : (witnessBits v)[j]? = some b) : ∃ b', (witnessBits v')[j]? = some b' ∧ X.V b b' := by
  rcases h with ⟨hl, rfl⟩ | ⟨rfl, hk⟩
  · refine ⟨none, ?_, Or.inl ⟨hl, rfl⟩⟩
    unfold witnessBits
    rw [List.getElem?_replicate, if_pos (by have := hn hl; omega)]
  · refine ⟨b, hb, Or.inr ⟨rfl, fun k => ?_⟩⟩
    cases v' with
    | none => exact absurd rfl (hk k)
    | some x =>
      obtain ⟨c, -, hc⟩ := List.mem_map.1 (List.mem_of_getElem? hb)
      rw [← hc]; simp

theorem constLoop_const (vb : List Bool) (n i : Nat) (k rem : ZMod p) (a : List (CBool (ZMod p)) × ZMod p)
    (h : constLoop vb n i k rem = .ok a) : ∀ b ∈ a.1, ∃ v, b.num = CNum.fromConst v := by
  induction n generalizing i k rem a with
  | zero => injection h with h; subst h; simp
  | succ n ih =>
    unfold constLoop at h
    split at h
    · cases h
    · split at h
      · cases h
      · next bits rem' h' =>
        injection h with h; subst h
        intro b hb
        rcases List.mem_cons.1 hb with rfl | hb
        · exact ⟨_, rfl⟩
        · exact ih _ _ _ _ h' b hb

theorem sim_intoBits {x x' : CNum (ZMod p)} (h : X.fit x x') (n : Nat) (hn : X.lax = true → n ≤ numBits p) :
    Sim X false (intoBitsLE x n) (intoBitsLE x' n) (FitsBits X) := by
  unfold intoBitsLE
  rw [X.fit_asConst h]
  split
  · refine Sim.bind (Q := fun a b => a = b ∧ ∀ c ∈ a.1, ∃ v, c.num = CNum.fromConst v)
      (Sim.lift fun a ha => ⟨a, ha, rfl, constLoop_const _ _ _ _ _ _ ha⟩) ?_
    · rintro a _ ⟨rfl, hc⟩
      exact Sim.bind (Sim.assert id) fun _ _ _ => Sim.pure (fitsBits_refl _ hc)
  · rcases Nat.eq_zero_or_pos n with rfl | hpos
    · refine Sim.bind (sim_allocLoop _ _ _ _ _ _ _ (fun j hj => fits_witnessBits (X.fit_value h) 1 ?_ j (by omega)) h) fun r r' hr => ?_
      · intro _
        have : 0 < numBits p := Nat.size_pos.2 (Fact.out (p := p.Prime)).pos
        omega
      · exact Sim.bind (sim_assertBit hr.2) fun _ _ _ => Sim.panic_left
    · refine Sim.bind (sim_allocLoop _ _ _ _ _ _ _ (fun j hj => fits_witnessBits (X.fit_value h) n hn j (by omega)) h) fun r r' hr => ?_
      refine Sim.bind (sim_assertBit hr.2) fun _ _ _ => ?_
      split
      · exact Sim.panic_left
      · exact Sim.pure (.cons hr.2 hr.1)

theorem fitsBits_append {a b a' b' : List (CBool (ZMod p))} (h : FitsBits X a a') (h' : FitsBits X b b') :
    FitsBits X (a ++ b) (a' ++ b') := List.rel_append h h'

theorem fits_compTerm (cl cu : Bool) {l u lu l' u' lu' : CNum (ZMod p)} (hl : X.fit l l') (hu : X.fit u u')
    (hlu : X.fit lu lu') : X.fit (compTerm cl cu l u lu) (compTerm cl cu l' u' lu') := by
  cases cl <;> cases cu
  · exact fits_sub (fits_add hl hu) hlu
  · exact fits_subConst (fits_addAssign hlu hu) 1
  · exact fits_subConst (fits_sub (fits_addAssign (fits_mulConst hu 2) hl) hlu) 1
  · exact fits_subConst hlu 1

theorem sim_compLoop (n : Nat) (ct : List Bool) {sig sig' : List (CBool (ZMod p))} (h : FitsBits X sig sig') (k : ZMod p)
    {acc acc' : CNum (ZMod p)} (ha : X.fit acc acc') :
    Sim X false (compLoop n ct sig k acc) (compLoop n ct sig' k acc') (fun r r' => X.fit r.1 r'.1 ∧ r.2 = r'.2) := by
  induction n generalizing ct sig sig' k acc acc' with
  | zero => exact Sim.pure ⟨ha, rfl⟩
  | succ n ih =>
    match ct, sig, sig', h with
    | cl :: cu :: ct, l :: u :: sig, l' :: u' :: sig', .cons hl (.cons hu h) =>
      exact Sim.bind (sim_mul hl hu) fun lu lu' hlu =>
        ih ct h (2 * k) (fits_add ha (fits_mulConst (fits_compTerm cl cu hl hu hlu) k))
    | [], _, _, _ => exact Sim.panic_left
    | [_], _, _, _ => exact Sim.panic_left
    | _ :: _ :: _, [], _, .nil => exact Sim.panic_left
    | _ :: _ :: _, [_], _, .cons _ .nil => exact Sim.panic_left

theorem sim_compConstant {sig sig' : List (CBool (ZMod p))} (h : FitsBits X sig sig') (ct : ZMod p)
    (hn : X.lax = true → (sig.length + 1) / 2 + 1 ≤ numBits p) :
    Sim X false (compConstant sig ct) (compConstant sig' ct) (fun r r' => X.fit r.num r'.num) := by
  unfold compConstant
  have hl : sig.length = sig'.length := List.Forall₂.length_eq h
  rw [hl]
  refine Sim.bind (Sim.assert id) fun _ _ _ => ?_
  refine Sim.bind (sim_compLoop _ _ (fitsBits_append h (fitsBits_refl _ fun b hb => by split at hb <;> simp at hb; exact ⟨_, by rw [hb]; rfl⟩)) 1 (X.fit_const _)) fun r r' hr => ?_
  obtain ⟨acc, k⟩ := r
  obtain ⟨acc', k'⟩ := r'
  obtain ⟨h1, h2⟩ := hr
  simp only at h1 h2
  subst h2
  refine Sim.bind (sim_intoBits (fits_addConst h1 _) _ fun hl => by have := hn hl; omega) fun bits bits' hb => ?_
  split
  · exact Sim.panic_left
  · next b hbget =>
    obtain ⟨i1, rfl⟩ := List.getElem?_eq_some_iff.1 hbget
    have i2 : sig'.length / 2 + sig'.length % 2 < bits'.length := by rw [← List.Forall₂.length_eq hb]; exact i1
    rw [List.getElem?_eq_getElem i2]
    exact Sim.pure (by simpa using List.Forall₂.get hb i1 i2)

theorem two_le_numBits : 2 ≤ numBits p := by
  have h2 := (Fact.out (p := p.Prime)).two_le
  unfold numBits
  exact Nat.lt_size.2 (by simpa using h2)

theorem numBits_steps {n : Nat} (h : 2 ≤ n) : (n + 1) / 2 + 1 ≤ n := by omega

theorem constLoop_length (vb : List Bool) (n i : Nat) (k rem : ZMod p) (a : List (CBool (ZMod p)) × ZMod p)
    (h : constLoop vb n i k rem = .ok a) : a.1.length = n := by
  induction n generalizing i k rem a with
  | zero => injection h with h; subst h; rfl
  | succ n ih =>
    unfold constLoop at h
    split at h
    · cases h
    · split at h
      · cases h
      · next bits rem' h' => injection h with h; subst h; simpa using ih _ _ _ _ h'

theorem post_allocLoop_length (vb : List (Option Bool)) (n i : Nat) (k : ZMod p) (rem : CNum (ZMod p)) (s : CS (ZMod p)) :
    Post s (allocLoop vb n i k rem) (fun r _ => r.1.length = n) := by
  induction n generalizing i k rem s with
  | zero => exact Post.pure rfl
  | succ n ih =>
    unfold allocLoop
    split
    · exact Post.panic
    · refine Post.bind Post.true fun c s1 _ _ => Post.bind Post.true fun _ s2 _ _ => ?_
      exact Post.bind (ih _ _ _ _) fun r s3 _ hr => Post.pure (by simpa using hr)

theorem post_intoBits_length (x : CNum (ZMod p)) (n : Nat) (s : CS (ZMod p)) :
    Post s (intoBitsLE x n) (fun r _ => r.length = n) := by
  unfold intoBitsLE
  split
  · refine Post.bind (Post.lift (Q := fun a _ => a.1.length = n) fun a h => constLoop_length _ _ _ _ _ _ h)
      fun a s1 _ ha => ?_
    exact Post.bind Post.true fun _ s2 _ _ => Post.pure ha
  · refine Post.bind (post_allocLoop_length _ _ _ _ _ _) fun r s1 _ hr => Post.bind Post.true fun _ s2 _ _ => ?_
    split
    · exact Post.panic
    · next h => exact Post.pure (by simp [hr]; omega)

theorem sim_strict {x x' : CNum (ZMod p)} (h : X.fit x x') :
    Sim X false (intoBitsLEStrict x) (intoBitsLEStrict x') (FitsBits X) := by
  unfold intoBitsLEStrict
  refine Sim.bind ((sim_intoBits h _ fun _ => le_rfl).and_left fun s => post_intoBits_length x _ s) fun b b' hb => ?_
  refine Sim.bind (sim_compConstant hb.1 _ ?_) fun r r' hr => Sim.bind (sim_assertConst hr _) fun _ _ _ => Sim.pure hb.1
  intro _; rw [hb.2]; exact numBits_steps two_le_numBits

theorem fits_fromLoop {a b : List (CBool (ZMod p))} (h : FitsBits X a b) (k : ZMod p) {acc acc' : CNum (ZMod p)}
    (ha : X.fit acc acc') : X.fit (fromLoop a k acc) (fromLoop b k acc') := by
  induction h generalizing k acc acc' with
  | nil => exact ha
  | cons hb _ ih => exact ih (2 * k) (fits_addAssign ha (fits_mulConst hb _))

theorem sim_fromBits {a b : List (CBool (ZMod p))} (h : FitsBits X a b) :
    Sim X false (fromBitsLE a) (fromBitsLE b) (fun r r' => X.fit r r') := by
  cases h with
  | nil => exact Sim.panic_left
  | cons hb h => exact Sim.pure (fits_fromLoop h _ hb)

end bits

section mux

open Mux

variable {K : Type} [Field K] [DecidableEq K] {X : Link K}

theorem sim_column {s0 s1 s2 s0' s1' s2' : CBool K} {s10 s10' : CNum K} (h0 : X.fit s0.num s0'.num)
    (h1 : X.fit s1.num s1'.num) (h2 : X.fit s2.num s2'.num) (h10 : X.fit s10 s10')
    (c0 c1 c2 c3 c4 c5 c6 c7 : K) :
    Sim X false (column s0 s1 s2 s10 c0 c1 c2 c3 c4 c5 c6 c7) (column s0' s1' s2' s10' c0 c1 c2 c3 c4 c5 c6 c7)
      (fun r r' => X.fit r r') := by
  unfold column
  exact Sim.bind (sim_mul (fits_addConst (fits_add (fits_add (fits_mulConst h10 _) (fits_mulConst h1 _))
    (fits_mulConst h0 _)) _) h2) fun t t' ht => Sim.pure (fits_addConst (fits_add (fits_add (fits_add ht
      (fits_mulConst h10 _)) (fits_mulConst h1 _)) (fits_mulConst h0 _)) _)

theorem sim_columns {s0 s1 s2 s0' s1' s2' : CBool K} {s10 s10' : CNum K} (h0 : X.fit s0.num s0'.num)
    (h1 : X.fit s1.num s1'.num) (h2 : X.fit s2.num s2'.num) (h10 : X.fit s10 s10') (c : List (List K)) :
    Sim X false (columns s0 s1 s2 s10 c) (columns s0' s1' s2' s10' c)
      (List.Forall₂ fun r r' => X.fit r r') := by
  induction c with
  | nil => exact Sim.pure .nil
  | cons col c ih =>
    by_cases hcol : col.length = 8
    · match col, hcol with
      | [c0, c1, c2, c3, c4, c5, c6, c7], _ =>
        unfold columns
        exact Sim.bind (sim_column h0 h1 h2 h10 _ _ _ _ _ _ _ _) fun r r' hr =>
          Sim.bind ih fun rs rs' hrs => Sim.pure (.cons hr hrs)
    · unfold columns
      split
      · next h => cases h
      · next h => injection h with ha _; subst ha; simp at hcol
      · exact Sim.panic_left

theorem sim_mux3 {a b : List (CBool K)} (h : List.Forall₂ (fun x y => X.fit x.num y.num) a b)
    (c : List (List K)) : Sim X false (mux3 a c) (mux3 b c) (List.Forall₂ fun r r' => X.fit r r') := by
  unfold mux3
  refine Sim.bind (Sim.assert fun ha => by simpa [← h.length_eq] using ha) fun _ _ hl => ?_
  refine Sim.bind (Sim.assert id) fun _ _ _ => ?_
  have hl : a.length = 3 := by simpa using hl
  match a, b, h, hl with
  | [s0, s1, s2], [s0', s1', s2'], .cons h0 (.cons h1 (.cons h2 .nil)), _ =>
    exact Sim.bind (sim_mul h0 h1) fun s10 s10' h10 => sim_columns h0 h1 h2 h10 c

end mux


section poseidon

open Poseidon

namespace CPoseidon

variable {F : Type} [Field F] [DecidableEq F] {X : Link F}

/-- Corresponding signals, with possibly fewer values known in the second run. -/
abbrev FitsNums (X : Link F) (a b : List (CNum F)) : Prop := List.Forall₂ X.fit a b

theorem fits_ark {a b : List (CNum F)} (h : FitsNums X a b) (c : F) : FitsNums X (ark a c) (ark b c) := by
  induction h with
  | nil => exact .nil
  | cons h _ ih => exact .cons (fits_addConst h c) ih

theorem sim_sigma {a b : CNum F} (h : X.fit a b) : Sim X false (sigma a) (sigma b) X.fit := by
  unfold sigma
  refine Sim.bind (sim_mul h h) fun x y h1 => ?_
  exact Sim.bind (sim_mul h1 h1) fun x y h2 => sim_mul h2 h

theorem sim_sigmaAll {a b : List (CNum F)} (h : FitsNums X a b) : Sim X false (sigmaAll a) (sigmaAll b) (FitsNums X) := by
  induction h with
  | nil => exact Sim.pure .nil
  | cons h _ ih => exact Sim.bind (sim_sigma h) fun x y h1 => Sim.bind ih fun _ _ h2 => Sim.pure (.cons h1 h2)

theorem fits_mixRow {a b : List (CNum F)} (h : FitsNums X a b) (row : List F) {u v x : CNum F} (huv : X.fit u v)
    (hx : mixRow a row u = .ok x) : ∃ y, mixRow b row v = .ok y ∧ X.fit x y := by
  induction h generalizing row u v with
  | nil =>
    unfold mixRow at hx
    injection hx with hx; subst hx; exact ⟨v, rfl, huv⟩
  | cons h _ ih =>
    cases row with
    | nil => cases hx
    | cons r row => exact ih row (fits_addAssign huv (fits_mulConst h r)) hx

theorem fits_mixRows {a b : List (CNum F)} (h : FitsNums X a b) (rows : List (List F)) (n : Nat) {x : List (CNum F)}
    (hx : mixRows a rows n = .ok x) : ∃ y, mixRows b rows n = .ok y ∧ FitsNums X x y := by
  induction n generalizing rows x with
  | zero =>
    unfold mixRows at hx
    injection hx with hx; subst hx; exact ⟨[], by unfold mixRows; rfl, .nil⟩
  | succ n ih =>
    cases rows with
    | nil => cases hx
    | cons row rows =>
      rw [mixRows] at hx
      cases h1 : mixRow a row CNum.zero with
      | error e => rw [h1] at hx; cases hx
      | ok u =>
      cases h3 : mixRows a rows n with
      | error e => rw [h1, h3] at hx; cases hx
      | ok us =>
        rw [h1, h3] at hx
        injection hx with hx; subst hx
        obtain ⟨v, h2, h2'⟩ := fits_mixRow (u := CNum.zero) (v := CNum.zero) h row (X.fit_const _) h1
        obtain ⟨vs, h4, h4'⟩ := ih rows h3
        refine ⟨v :: vs, ?_, .cons h2' h4'⟩
        rw [mixRows, h2, h4]; rfl

theorem fits_length {a b : List (CNum F)} (h : FitsNums X a b) : a.length = b.length := List.Forall₂.length_eq h

theorem sim_layer (P : PoseidonParams F) (i : Nat) {a b : List (CNum F)} (h : FitsNums X a b) :
    Sim X false (layer P i a) (layer P i b) (FitsNums X) := by
  unfold layer
  by_cases hi : i < P.f / 2 ∨ P.f / 2 + P.p ≤ i
  · rw [if_pos hi, if_pos hi]; exact sim_sigmaAll h
  · rw [if_neg hi, if_neg hi]
    cases h with
    | nil => exact Sim.panic_left
    | cons h1 h => exact Sim.bind (sim_sigma h1) fun x y h2 => Sim.pure (.cons h2 h)

theorem sim_rounds (P : PoseidonParams F) (n i : Nat) {a b : List (CNum F)} (h : FitsNums X a b) :
    Sim X false (rounds P n i a) (rounds P n i b) (FitsNums X) := by
  induction n generalizing i a b with
  | zero => exact Sim.pure h
  | succ n ih =>
    refine Sim.bind Sim.lift_same fun c _ hc => ?_
    · subst hc
      refine Sim.bind (sim_layer P i (fits_ark h c)) fun x y h1 => ?_
      refine Sim.bind (Q := FitsNums X) (Sim.lift fun u h2 => ?_) fun u v h2 => ih (i + 1) h2
      unfold mix at h2 ⊢
      rw [← fits_length h1]
      exact fits_mixRows h1 _ _ h2

theorem fits_append {a b c d : List (CNum F)} (h : FitsNums X a b) (h' : FitsNums X c d) : FitsNums X (a ++ c) (b ++ d) :=
  List.rel_append h h'

theorem fits_refl (a : List (CNum F)) (ha : ∀ x ∈ a, ∃ v, x = CNum.fromConst v) : FitsNums X a a :=
  List.forall₂_same.2 fun x hx => by obtain ⟨v, rfl⟩ := ha x hx; exact X.fit_const v

theorem fits_getIdx {a b : List (CNum F)} (h : FitsNums X a b) {i : Nat} {x : CNum F} (hx : getIdx a i = .ok x) :
    ∃ y, getIdx b i = .ok y ∧ X.fit x y := by
  induction h generalizing i with
  | nil => rw [getIdx_ok] at hx; simp at hx
  | cons h _ ih =>
    cases i with
    | zero =>
      rw [getIdx_ok] at hx; simp at hx; subst hx
      exact ⟨_, rfl, h⟩
    | succ i => exact ih hx

theorem sim_poseidon (P : PoseidonParams F) {a b : List (CNum F)} (h : FitsNums X a b) :
    Sim X false (poseidon a P) (poseidon b P) X.fit := by
  unfold poseidon
  rw [fits_length h]
  split
  · exact Sim.panic_left
  · split
    · exact Sim.panic_left
    · exact Sim.bind (sim_rounds P _ 0 (fits_append h (fits_refl _ (by simp [CNum.zero])))) fun x y h1 =>
        Sim.lift fun u h2 => fits_getIdx h1 h2

theorem sim_poseidonWithSalt (seed : F) (P : PoseidonParams F) {a b : List (CNum F)} (h : FitsNums X a b) :
    Sim X false (poseidonWithSalt a seed P) (poseidonWithSalt b seed P) X.fit := by
  unfold poseidonWithSalt
  rw [fits_length h]
  split
  · exact Sim.panic_left
  · split
    · exact Sim.panic_left
    · exact sim_poseidon P (fits_append h (fits_refl _ (by simp [CNum.zero])))

theorem sim_proofLoop (P : PoseidonParams F) {l l' : List (CBool F × CNum F)}
    (h : List.Forall₂ (fun x y => X.fit x.1.num y.1.num ∧ X.fit x.2 y.2) l l') {leaf leaf' : CNum F}
    (hl : X.fit leaf leaf') :
    Sim X false (proofLoop P leaf l) (proofLoop P leaf' l') X.fit := by
  induction h generalizing leaf leaf' with
  | nil => exact Sim.pure hl
  | cons h _ ih =>
    refine Sim.bind (sim_switch h.2 hl h.1) fun x y h1 => ?_
    refine Sim.bind (sim_poseidon P (.cons h1 (.cons (fits_sub (fits_add hl h.2) h1) .nil))) fun u v h2 => ?_
    exact ih h2

theorem fits_set {a b : List (CNum F)} (h : FitsNums X a b) (i : Nat) {x y : CNum F} (hx : X.fit x y) :
    FitsNums X (a.set i x) (b.set i y) := by
  induction h generalizing i with
  | nil => exact .nil
  | cons h ht ih =>
    cases i with
    | zero => exact .cons hx ht
    | succ i => exact .cons h (ih i)

theorem sim_treeInner (P : PoseidonParams F) (n i : Nat) {a b : List (CNum F)} (h : FitsNums X a b) :
    Sim X false (treeInner P n i a) (treeInner P n i b) (FitsNums X) := by
  induction n generalizing i a b with
  | zero => exact Sim.pure h
  | succ n ih =>
    refine Sim.bind (Q := X.fit) (Sim.lift fun u h2 => fits_getIdx h h2) fun x y h1 => ?_
    refine Sim.bind (Q := X.fit) (Sim.lift fun u h2 => fits_getIdx h h2) fun x' y' h1' => ?_
    exact Sim.bind (sim_poseidon P (.cons h1 (.cons h1' .nil))) fun u v h2 => ih (i + 1) (fits_set h i h2)

theorem sim_treeLevels (P : PoseidonParams F) (total n j : Nat) {a b : List (CNum F)} (h : FitsNums X a b) :
    Sim X false (treeLevels P total n j a) (treeLevels P total n j b) (FitsNums X) := by
  induction n generalizing j a b with
  | zero => exact Sim.pure h
  | succ n ih => exact Sim.bind (sim_treeInner P _ 0 h) fun u v h1 => ih (j + 1) h1

theorem sim_merkleTreeRoot (P : PoseidonParams F) {a b : List (CNum F)} (h : FitsNums X a b) :
    Sim X false (merkleTreeRoot a P) (merkleTreeRoot b P) X.fit := by
  unfold merkleTreeRoot
  rw [fits_length h]
  split
  · exact Sim.panic_left
  · exact Sim.bind (sim_treeLevels P _ _ 0 (fits_append h (fits_refl _ (by simp [CNum.zero])))) fun x y h1 =>
        Sim.lift fun u h2 => fits_getIdx h1 h2

end CPoseidon

end poseidon

/-- Corresponding points, with possibly fewer values known in the second run. -/
def CEdwardsPoint.Fits {F : Type} [Field F] [DecidableEq F] (X : Link F) (p q : CEdwardsPoint F) : Prop := X.fit p.x q.x ∧ X.fit p.y q.y

/-- Corresponding points, with possibly fewer values known in the second run. -/
def CMontgomeryPoint.Fits {F : Type} [Field F] [DecidableEq F] (X : Link F) (p q : CMontgomeryPoint F) : Prop := X.fit p.x q.x ∧ X.fit p.y q.y

section

variable {F : Type} [Field F] [DecidableEq F] {X : Link F}

namespace CEdwardsPoint

theorem asConst_fits {p q : CEdwardsPoint F} (h : p.Fits X q) : p.asConst = q.asConst := by
  unfold asConst; rw [X.fit_asConst h.1, X.fit_asConst h.2]

theorem sim_switch {t f t' f' : CEdwardsPoint F} {b b' : CBool F} (ht : t.Fits X t') (hf : f.Fits X f')
    (hb : X.fit b.num b'.num) : Sim X false (switch t b f) (switch t' b' f') (Fits X) := by
  unfold switch
  exact Sim.bind (Fawkes.sim_switch ht.1 hf.1 hb) fun _ _ h1 =>
    Sim.bind (Fawkes.sim_switch ht.2 hf.2 hb) fun _ _ h2 => Sim.pure ⟨h1, h2⟩

theorem sim_alloc {u v : Option (EdwardsPoint F)} (h : X.V u v) : Sim X false (alloc u) (alloc v) (Fits X) := by
  unfold alloc
  exact Sim.bind (Fawkes.sim_alloc (h.map _)) fun _ _ h1 => Sim.bind (Fawkes.sim_alloc (h.map _)) fun _ _ h2 => Sim.pure ⟨h1, h2⟩

theorem fits_mapValue {A B : Type} {u v : Option A} (h : X.V u v) (f : A → Except Panic B) {x : Option B}
    (hx : mapValue f u = .ok x) : ∃ y, mapValue f v = .ok y ∧ X.V x y := by
  rcases h with ⟨hl, rfl⟩ | ⟨rfl, hk⟩
  · exact ⟨none, rfl, Or.inl ⟨hl, rfl⟩⟩
  · refine ⟨x, hx, Or.inr ⟨rfl, fun k => ?_⟩⟩
    cases v with
    | none => exact absurd rfl (hk k)
    | some a =>
      unfold mapValue at hx
      simp only at hx
      cases h : f a with
      | error e => rw [h] at hx; cases hx
      | ok b => rw [h] at hx; injection hx with hx; rw [← hx]; simp

theorem fits_getValue {p q : CEdwardsPoint F} (h : p.Fits X q) : X.V p.getValue q.getValue := by
  unfold getValue
  rcases X.fit_value h.1 with ⟨hl, h1⟩ | ⟨h1, k1⟩
  · left; rw [h1]; exact ⟨hl, rfl⟩
  · rcases X.fit_value h.2 with ⟨hl, h2⟩ | ⟨h2, k2⟩
    · left; rw [h2]; cases q.x.value <;> exact ⟨hl, rfl⟩
    · right; rw [h1, h2]
      refine ⟨rfl, fun k => ?_⟩
      have e1 := k1 k; have e2 := k2 k
      cases hx : p.x.value <;> cases hy : p.y.value <;> first | exact absurd hx e1 | exact absurd hy e2 | simp

theorem sim_double (J : JubJubParams F) {p q : CEdwardsPoint F} (h : p.Fits X q) :
    Sim X false (p.double J) (q.double J) (Fits X) := by
  unfold double
  refine Sim.bind (sim_mul h.1 h.2) fun v v' hv => ?_
  refine Sim.bind (sim_square hv) fun v2 v2' hv2 => ?_
  refine Sim.bind (sim_square (fits_add h.1 h.2)) fun u u' hu => ?_
  refine Sim.bind (sim_div (fits_mulConst hv _) (fits_addConst (fits_mulConst hv2 _) _)) fun x x' hx => ?_
  refine Sim.bind (sim_div (fits_sub hu (fits_mulConst hv _)) (fits_constSub (fits_mulConst hv2 _) _))
    fun y y' hy => ?_
  exact Sim.pure ⟨hx, hy⟩

theorem sim_mulByCofactor (J : JubJubParams F) {p q : CEdwardsPoint F} (h : p.Fits X q) :
    Sim X false (p.mulByCofactor J) (q.mulByCofactor J) (Fits X) := by
  unfold mulByCofactor
  exact Sim.bind (sim_double J h) fun _ _ h1 => Sim.bind (sim_double J h1) fun _ _ h2 => sim_double J h2

theorem sim_add (J : JubJubParams F) {p q p' q' : CEdwardsPoint F} (hp : p.Fits X p') (hq : q.Fits X q') :
    Sim X false (p.add q J) (p'.add q' J) (Fits X) := by
  unfold add
  refine Sim.bind (sim_mul hp.1 hq.2) fun v1 v1' h1 => ?_
  refine Sim.bind (sim_mul hq.1 hp.2) fun v2 v2' h2 => ?_
  refine Sim.bind (sim_mul h1 h2) fun v12 v12' h12 => ?_
  refine Sim.bind (sim_mul (fits_add hp.1 hp.2) (fits_add hq.1 hq.2)) fun u u' hu => ?_
  refine Sim.bind (sim_div (fits_add h1 h2) (fits_addConst (fits_mulConst h12 _) _)) fun x x' hx => ?_
  refine Sim.bind (sim_div (fits_sub (fits_sub hu h1) h2) (fits_constSub (fits_mulConst h12 _) _)) fun y y' hy => ?_
  exact Sim.pure ⟨hx, hy⟩

theorem sim_assertInCurve (J : JubJubParams F) {p q : CEdwardsPoint F} (h : p.Fits X q) :
    Sim X false (p.assertInCurve J) (q.assertInCurve J) (fun _ _ => True) := by
  unfold assertInCurve
  refine Sim.bind (sim_square h.1) fun x2 x2' hx => ?_
  refine Sim.bind (sim_square h.2) fun y2 y2' hy => ?_
  exact sim_enforce (fits_mulConst hx _) hy (fits_subConst (fits_sub hy hx) _)

theorem sim_assertInSubgroup (J : JubJubParams F) [Fact J.l.Prime] {p q : CEdwardsPoint F} (h : p.Fits X q) :
    Sim X false (p.assertInSubgroup J) (q.assertInSubgroup J) (fun _ _ => True) := by
  unfold assertInSubgroup
  refine Sim.bind (Sim.lift (Q := X.V) fun _ hm => fits_mapValue (fits_getValue h) _ hm) fun _ _ hv => ?_
  refine Sim.bind (sim_alloc hv) fun a a' ha => ?_
  refine Sim.bind (sim_assertInCurve J ha) fun _ _ _ => ?_
  refine Sim.bind (sim_mulByCofactor J ha) fun b b' hb => ?_
  refine Sim.bind (sim_assertZero (fits_sub h.1 hb.1)) fun _ _ _ => ?_
  exact sim_assertZero (fits_sub h.2 hb.2)

theorem sim_subgroupDecompress (sqrt : F → Option F) (J : JubJubParams F) [Fact J.l.Prime] {x y : CNum F}
    (h : X.fit x y) : Sim X false (subgroupDecompress sqrt x J) (subgroupDecompress sqrt y J) (Fits X) := by
  unfold subgroupDecompress
  refine Sim.bind (Sim.lift (Q := X.V) fun _ hm => fits_mapValue (X.fit_value h) _ hm) fun _ _ hv => ?_
  refine Sim.bind (sim_alloc hv) fun a a' ha => ?_
  refine Sim.bind (sim_assertInCurve J ha) fun _ _ _ => ?_
  refine Sim.bind (sim_mulByCofactor J ha) fun b b' hb => ?_
  refine Sim.bind (sim_assertZero (fits_sub h hb.1)) fun _ _ _ => ?_
  exact Sim.pure hb

theorem sim_intoMontgomery {p q : CEdwardsPoint F} (h : p.Fits X q) :
    Sim X false p.intoMontgomery q.intoMontgomery (CMontgomeryPoint.Fits X) := by
  unfold intoMontgomery
  refine Sim.bind (sim_div (fits_addConst h.2 _) (fits_constSub h.2 _)) fun x x' hx => ?_
  exact Sim.bind (sim_div hx h.1) fun y y' hy => Sim.pure ⟨hx, hy⟩

end CEdwardsPoint

namespace CMontgomeryPoint

theorem sim_switch {t f t' f' : CMontgomeryPoint F} {b b' : CBool F} (ht : t.Fits X t') (hf : f.Fits X f')
    (hb : X.fit b.num b'.num) : Sim X false (switch t b f) (switch t' b' f') (Fits X) := by
  unfold switch
  exact Sim.bind (Fawkes.sim_switch ht.1 hf.1 hb) fun _ _ h1 =>
    Sim.bind (Fawkes.sim_switch ht.2 hf.2 hb) fun _ _ h2 => Sim.pure ⟨h1, h2⟩

theorem sim_double (J : JubJubParams F) {p q : CMontgomeryPoint F} (h : p.Fits X q) :
    Sim X false (p.double J) (q.double J) (Fits X) := by
  unfold double
  refine Sim.bind (sim_square h.1) fun x2 x2' h2 => ?_
  refine Sim.bind (sim_div (fits_addConst (fits_add (fits_mulConst h2 _) (fits_mulConst h.1 _)) _)
    (fits_mulConst h.2 _)) fun l l' hl => ?_
  refine Sim.bind (sim_square hl) fun l2 l2' hl2 => ?_
  refine Sim.bind (sim_mul hl (fits_sub (fits_addConst (fits_mulConst h.1 _) _) (fits_mulConst hl2 _)))
    fun t t' ht => ?_
  exact Sim.pure ⟨fits_sub (fits_subConst (fits_mulConst hl2 _) _) (fits_mulConst h.1 _), fits_sub ht h.2⟩

theorem sim_add (J : JubJubParams F) {p q p' q' : CMontgomeryPoint F} (hp : p.Fits X p') (hq : q.Fits X q') :
    Sim X false (p.add q J) (p'.add q' J) (Fits X) := by
  unfold add
  refine Sim.bind (sim_div (fits_sub hq.2 hp.2) (fits_sub hq.1 hp.1)) fun l l' hl => ?_
  refine Sim.bind (sim_square hl) fun l2 l2' hl2 => ?_
  refine Sim.bind (sim_mul hl (fits_sub (fits_addConst (fits_addAssign (fits_mulConst hp.1 _) hq.1) _)
    (fits_mulConst hl2 _))) fun t t' ht => ?_
  exact Sim.pure ⟨fits_sub (fits_sub (fits_subConst (fits_mulConst hl2 _) _) hp.1) hq.1, fits_sub ht hp.2⟩

theorem sim_intoEdwards {p q : CMontgomeryPoint F} (h : p.Fits X q) :
    Sim X false p.intoEdwards q.intoEdwards (CEdwardsPoint.Fits X) := by
  unfold intoEdwards
  refine Sim.bind (sim_isZero h.2) fun z z' hz => ?_
  refine Sim.bind (sim_div h.1 (fits_addAssign hz h.2)) fun x x' hx => ?_
  refine Sim.bind (sim_div (fits_subConst h.1 _) (fits_addConst h.1 _)) fun y y' hy => ?_
  exact Sim.pure ⟨hx, hy⟩

end CMontgomeryPoint

namespace CEdwardsPoint

theorem sim_windowLoop (J : JubJubParams F) {a b : List (CBool F)}
    (h : List.Forall₂ (fun x y => X.fit x.num y.num) a b) :
    ∀ {acc acc' : CMontgomeryPoint F}, acc.Fits X acc' → ∀ base : EdwardsPointEx F,
      Sim X false (windowLoop J a acc base) (windowLoop J b acc' base) (CMontgomeryPoint.Fits X) := by
  suffices H : ∀ n, ∀ {a b : List (CBool F)}, a.length ≤ n →
      List.Forall₂ (fun x y => X.fit x.num y.num) a b →
      ∀ {acc acc' : CMontgomeryPoint F}, acc.Fits X acc' → ∀ base : EdwardsPointEx F,
      Sim X false (windowLoop J a acc base) (windowLoop J b acc' base) (CMontgomeryPoint.Fits X) from fun {acc acc'} hacc base => H a.length le_rfl h hacc base
  intro n
  induction n with
  | zero =>
    intro a b hl h acc acc' hacc base
    cases h with
    | nil => exact Sim.pure hacc
    | cons _ _ => simp at hl
  | succ n ih =>
    intro a b hl h acc acc' hacc base
    match a, b, h with
    | [], [], _ => exact Sim.pure hacc
    | [_], [_], _ => exact Sim.pure hacc
    | [_, _], [_, _], _ => exact Sim.pure hacc
    | b0 :: b1 :: b2 :: bits, c0 :: c1 :: c2 :: bits', .cons h0 (.cons h1 (.cons h2 h3)) =>
      unfold windowLoop
      refine Sim.bind Sim.lift_same ?_
      rintro table _ rfl
      refine Sim.bind (sim_mux3 (.cons h0 (.cons h1 (.cons h2 .nil))) table) fun res res' hr => ?_
      match res, res', hr with
      | [], [], _ => exact Sim.panic_left
      | [_], [_], _ => exact Sim.panic_left
      | [x, y], [x', y'], .cons hx (.cons hy .nil) =>
        refine Sim.bind (CMontgomeryPoint.sim_add J hacc (p := acc) (q := ⟨x, y⟩) (q' := ⟨x', y'⟩) ⟨hx, hy⟩)
          fun m m' hm => ?_
        exact ih (by simp at hl; omega) h3 hm _
      | _ :: _ :: _ :: _, _ :: _ :: _ :: _, _ => exact Sim.panic_left

theorem fits_padBits3 {a b : List (CBool F)} (h : List.Forall₂ (fun x y => X.fit x.num y.num) a b) :
    List.Forall₂ (fun x y => X.fit x.num y.num) (padBits3 a) (padBits3 b) := by
  unfold padBits3
  rw [h.length_eq]
  refine List.rel_append h ?_
  generalize (3 - b.length % 3) % 3 = n
  induction n with
  | zero => exact .nil
  | succ n ih => exact .cons (X.fit_const _) ih

theorem sim_finish {p q : CMontgomeryPoint F} (h : p.Fits X q) : Sim X false (finish p) (finish q) (Fits X) := by
  unfold finish
  exact Sim.bind (CMontgomeryPoint.sim_intoEdwards h) fun _ _ hr => Sim.pure ⟨fits_neg hr.1, fits_neg hr.2⟩

theorem sim_mulConstBase (J : JubJubParams F) (c : EdwardsPoint F) {a b : List (CBool F)}
    (h : List.Forall₂ (fun x y => X.fit x.num y.num) a b) :
    Sim X false (mulConstBase c a J) (mulConstBase c b J) (Fits X) := by
  unfold mulConstBase
  dsimp only
  split
  · exact Sim.pure ⟨X.fit_const _, X.fit_const _⟩
  · rw [(fits_padBits3 h).length_eq]
    refine Sim.bind Sim.lift_same ?_
    rintro m _ rfl
    exact Sim.bind (sim_windowLoop J (fits_padBits3 h) ⟨X.fit_const _, X.fit_const _⟩ _) fun _ _ hr => sim_finish hr

theorem sim_doublings (J : JubJubParams F) (n : Nat) {p q : CMontgomeryPoint F} (h : p.Fits X q) :
    Sim X false (doublings J n p) (doublings J n q) (List.Forall₂ (CMontgomeryPoint.Fits X)) := by
  induction n generalizing p q with
  | zero => exact Sim.pure .nil
  | succ n ih =>
    exact Sim.bind (CMontgomeryPoint.sim_double J h) fun _ _ h1 => Sim.bind (ih h1) fun _ _ h2 => Sim.pure (.cons h1 h2)

theorem sim_addLoop (J : JubJubParams F) {a b : List (CBool F)}
    (h : List.Forall₂ (fun x y => X.fit x.num y.num) a b) {e e' : List (CMontgomeryPoint F)}
    (he : List.Forall₂ (CMontgomeryPoint.Fits X) e e') {acc acc' : CMontgomeryPoint F} (ha : acc.Fits X acc') :
    Sim X false (addLoop J a e acc) (addLoop J b e' acc') (CMontgomeryPoint.Fits X) := by
  induction h generalizing e e' acc acc' with
  | nil => cases he <;> exact Sim.pure ha
  | cons hb _ ih =>
    cases he with
    | nil => exact Sim.panic_left
    | cons h1 h2 =>
      unfold addLoop
      refine Sim.bind (CMontgomeryPoint.sim_add J ha h1) fun i i' hi => ?_
      exact Sim.bind (CMontgomeryPoint.sim_switch hi ha hb) fun c c' hc => ih h2 hc

theorem sim_mulVarBase (J : JubJubParams F) {p q : CEdwardsPoint F} (hp : p.Fits X q) {a b : List (CBool F)}
    (h : List.Forall₂ (fun x y => X.fit x.num y.num) a b) :
    Sim X false (mulVarBase p a J) (mulVarBase q b J) (Fits X) := by
  unfold mulVarBase
  refine Sim.bind (sim_isZero hp.1) fun z z' hz => ?_
  refine Sim.bind (sim_switch ⟨X.fit_const _, X.fit_const _⟩ hp hz) fun c c' hc => ?_
  refine Sim.bind (sim_intoMontgomery hc) fun d d' hd => ?_
  rw [h.length_eq]
  refine Sim.bind (sim_doublings J _ hd) fun e e' he => ?_
  refine Sim.bind (sim_addLoop J h (.cons hd he) ⟨X.fit_const _, X.fit_const _⟩) fun f f' hf => ?_
  exact Sim.bind (CMontgomeryPoint.sim_switch ⟨X.fit_const _, X.fit_const _⟩ hf hz) fun _ _ hr => sim_finish hr

theorem sim_edMul (J : JubJubParams F) {p q : CEdwardsPoint F} (hp : p.Fits X q) {a b : List (CBool F)}
    (h : List.Forall₂ (fun x y => X.fit x.num y.num) a b) : Sim X false (p.mul a J) (q.mul b J) (Fits X) := by
  unfold mul
  rw [asConst_fits hp]
  split
  · exact sim_mulConstBase J _ h
  · exact sim_mulVarBase J hp h

end CEdwardsPoint

end

namespace CEdwardsPoint

variable {r : Nat} [Fact r.Prime] {X : Link (ZMod r)}

theorem sim_checkAndGetY (sqrt : ZMod r → Option (ZMod r)) (J : JubJubParams (ZMod r)) {x y : CNum (ZMod r)}
    (h : X.fit x y) : Sim X false (checkAndGetY sqrt x J) (checkAndGetY sqrt y J)
      (fun u v => X.fit u.1.num v.1.num ∧ X.fit u.2 v.2) := by
  unfold checkAndGetY
  refine Sim.bind (sim_square h) fun x2 x2' h2 => ?_
  refine Sim.bind (sim_mul h2 (fits_addConst h _)) fun x3 x3' h3 => ?_
  refine Sim.bind (sim_divConst (fits_addAssign h3 h) _) fun g g' hg => ?_
  refine Sim.bind (Sim.lift (Q := X.V) fun _ hm => fits_mapValue (X.fit_value hg) _ hm) fun _ _ hv => ?_
  refine Sim.bind (Fawkes.sim_alloc hv) fun p p' hp => ?_
  refine Sim.bind (sim_strict hp) fun bits bits' hb => ?_
  cases hb with
  | nil => exact Sim.panic_left
  | cons hb _ =>
    refine Sim.bind (sim_assertConst hb _) fun _ _ _ => ?_
    refine Sim.bind (sim_square hp) fun s s' hs => ?_
    refine Sim.bind (sim_isZero (fits_sub hg hs)) fun u u' hu => ?_
    refine Sim.bind (sim_isZero (fits_sub (fits_mulConst hg _) hs)) fun v v' hv => ?_
    refine Sim.bind (sim_assertZero (fits_subConst (fits_addAssign hv hu) _)) fun _ _ _ => ?_
    exact Sim.pure ⟨hu, hp⟩

theorem sim_fromScalar (sqrt : ZMod r → Option (ZMod r)) (J : JubJubParams (ZMod r)) {t u : CNum (ZMod r)}
    (h : X.fit t u) : Sim X false (fromScalar sqrt t J) (fromScalar sqrt u J) (Fits X) := by
  unfold fromScalar
  refine Sim.bind (sim_square (fits_addConst h _)) fun t2 t2' h2 => ?_
  refine Sim.bind Sim.lift_same ?_
  rintro i _ rfl
  have h3 := fits_mulConst (fits_addConst (fits_mulConst h2 J.u) 1) i
  refine Sim.bind (sim_div h3 (fits_mulConst h2 _)) fun x2 x2' hx2 => ?_
  refine Sim.bind (sim_checkAndGetY sqrt J hx2) ?_
  rintro ⟨v, y2⟩ ⟨v', y2'⟩ ⟨hv, hy2⟩
  refine Sim.bind (sim_checkAndGetY sqrt J h3) ?_
  rintro ⟨w, y3⟩ ⟨w', y3'⟩ ⟨hw, hy3⟩
  refine Sim.bind (Fawkes.sim_switch hx2 h3 hv) fun x x' hx => ?_
  refine Sim.bind (Fawkes.sim_switch hy2 hy3 hv) fun y y' hy => ?_
  refine Sim.bind (CMontgomeryPoint.sim_intoEdwards (p := ⟨x, y⟩) (q := ⟨x', y'⟩) ⟨hx, hy⟩) fun q q' hq => ?_
  exact sim_mulByCofactor J hq

end CEdwardsPoint

namespace Eddsa

variable {r : Nat} [Fact r.Prime] {X : Link (ZMod r)}

theorem sim_cVerify (sqrt : ZMod r → Option (ZMod r)) (J : JubJubParams (ZMod r)) [Fact J.l.Prime]
    (P : PoseidonParams (ZMod r)) {s rx a m s' rx' a' m' : CNum (ZMod r)} (hs : X.fit s s')
    (hrx : X.fit rx rx') (ha : X.fit a a') (hm : X.fit m m') :
    Sim X false (cVerify sqrt J s rx a m P) (cVerify sqrt J s' rx' a' m' P) (fun u v => X.fit u.num v.num) := by
  unfold cVerify
  refine Sim.bind (Sim.assert id) fun _ _ hlt => ?_
  refine Sim.bind (CEdwardsPoint.sim_subgroupDecompress sqrt J ha) fun pa pa' hpa => ?_
  refine Sim.bind (CEdwardsPoint.sim_subgroupDecompress sqrt J hrx) fun pr pr' hpr => ?_
  refine Sim.bind Sim.lift_same ?_
  rintro seed _ rfl
  refine Sim.bind (CPoseidon.sim_poseidonWithSalt seed P (.cons hrx (.cons ha (.cons hm .nil)))) fun h h' hh => ?_
  refine Sim.bind (sim_strict hh) fun hb hb' hhb => ?_
  refine Sim.bind (CEdwardsPoint.sim_edMul J hpa hhb) fun x x' hx => ?_
  refine Sim.bind (sim_intoBits hs _ fun _ => by have := of_decide_eq_true hlt; omega) fun sb sb' hsb => ?_
  refine Sim.bind (CEdwardsPoint.sim_edMul J ⟨X.fit_const _, X.fit_const _⟩ hsb) fun y y' hy => ?_
  refine Sim.bind (CEdwardsPoint.sim_add J hx hpr) fun z z' hz => ?_
  exact sim_isZero (fits_sub hz.1 hy.1)

end Eddsa

section gadgets

variable {r : Nat} [Fact r.Prime] {W : Type} {X : Link (ZMod r)}

local notation "F" => ZMod r

/-- Corresponding registers, with possibly fewer values known in the second run. -/
def FitsLcs (X : Link F) (a b : List (CNum F)) : Prop := List.Forall₂ X.fit a b

theorem FitsLcs.append {a b c d : List (CNum F)} (h : FitsLcs X a b) (h' : FitsLcs X c d) : FitsLcs X (a ++ c) (b ++ d) :=
  List.rel_append h h'

theorem FitsLcs.snoc {a b : List (CNum F)} {x x' : CNum F} (h : FitsLcs X a b) (hx : X.fit x x') :
    FitsLcs X (a ++ [x]) (b ++ [x']) := h.append (.cons hx .nil)

theorem FitsLcs.two {a b : List (CNum F)} (h : FitsLcs X a b) {x y x' y' : CNum F} (hx : X.fit x x') (hy : X.fit y y') :
    FitsLcs X (a ++ [x, y]) (b ++ [x', y']) := h.append (.cons hx (.cons hy .nil))

theorem sim_reg {q q' : List (CNum F)} (h : FitsLcs X q q') {p : Bool} (i : Nat) : Sim X p (reg q i) (reg q' i) X.fit := by
  unfold reg
  split
  · next x hx =>
    obtain ⟨i1, rfl⟩ := List.getElem?_eq_some_iff.1 hx
    have i2 : i < q'.length := by rw [← List.Forall₂.length_eq h]; exact i1
    rw [List.getElem?_eq_getElem i2]
    exact Sim.pure (by simpa using List.Forall₂.get h i1 i2)
  · exact Sim.panic_left

theorem sim_op {q q' : List (CNum F)} (h : FitsLcs X q q') (o : Op F) (ho : X.known = true → o.Known) :
    Sim X o.publishes (o.exec q) (o.exec q') (FitsLcs X) := by
  have hr : ∀ {p : Bool} (i : Nat), Sim X p (reg q i) (reg q' i) X.fit := fun i => sim_reg h i
  cases o with
  | alloc v =>
    exact Sim.bind (sim_alloc (Or.inr ⟨rfl, ho⟩)) fun a b hab => Sim.pure (h.snoc hab)
  | allocInput v =>
    exact Sim.bind (X.sim_allocInput' (Or.inr ⟨rfl, ho⟩)) fun a b hab => Sim.pure (h.snoc hab)
  | const v =>
    exact Sim.pure (h.snoc (X.fit_const _))
  | add i j =>
    exact Sim.bind (hr i) fun _ _ ha => Sim.bind (hr j) fun _ _ hb => Sim.pure (h.snoc (fits_add ha hb))
  | sub i j =>
    exact Sim.bind (hr i) fun _ _ ha => Sim.bind (hr j) fun _ _ hb => Sim.pure (h.snoc (fits_sub ha hb))
  | neg i =>
    exact Sim.bind (hr i) fun _ _ ha => Sim.pure (h.snoc (fits_neg ha))
  | mulConst i k =>
    exact Sim.bind (hr i) fun _ _ ha => Sim.pure (h.snoc (fits_mulConst ha _))
  | divConst i k =>
    exact Sim.bind (hr i) fun _ _ ha => Sim.bind (sim_divConst ha _) fun _ _ hq => Sim.pure (h.snoc hq)
  | mul i j =>
    exact Sim.bind (hr i) fun _ _ ha => Sim.bind (hr j) fun _ _ hb =>
      Sim.bind (sim_mul ha hb) fun _ _ hq => Sim.pure (h.snoc hq)
  | div i j =>
    exact Sim.bind (hr i) fun _ _ ha => Sim.bind (hr j) fun _ _ hb =>
      Sim.bind (sim_div ha hb) fun _ _ hq => Sim.pure (h.snoc hq)
  | enforce i j k =>
    exact Sim.bind (hr i) fun _ _ ha => Sim.bind (hr j) fun _ _ hb => Sim.bind (hr k) fun _ _ hc =>
      Sim.bind (sim_enforce ha hb hc) fun _ _ _ => Sim.pure h
  | assertConst i v =>
    exact Sim.bind (hr i) fun _ _ ha => Sim.bind (sim_assertConst ha _) fun _ _ _ => Sim.pure h
  | assertEq i j =>
    exact Sim.bind (hr i) fun _ _ ha => Sim.bind (hr j) fun _ _ hb =>
      Sim.bind (sim_assertEq ha hb) fun _ _ _ => Sim.pure h
  | assertNonzero i =>
    exact Sim.bind (hr i) fun _ _ ha => Sim.bind (sim_assertNonzero ha) fun _ _ _ => Sim.pure h
  | assertBit i =>
    exact Sim.bind (hr i) fun _ _ ha => Sim.bind (sim_assertBit ha) fun _ _ _ => Sim.pure h
  | inputize i =>
    exact Sim.bind (hr i) fun _ _ ha => Sim.bind (sim_inputize ha) fun _ _ _ => Sim.pure h
  | isZero i =>
    exact Sim.bind (hr i) fun _ _ ha => Sim.bind (sim_isZero ha) fun _ _ hq => Sim.pure (h.snoc hq)
  | isEq i j =>
    exact Sim.bind (hr i) fun _ _ ha => Sim.bind (hr j) fun _ _ hb =>
      Sim.bind (sim_isEq ha hb) fun _ _ hq => Sim.pure (h.snoc hq)
  | switch i b j =>
    exact Sim.bind (hr i) fun _ _ ha => Sim.bind (hr b) fun c c' hb => Sim.bind (hr j) fun _ _ hc =>
      Sim.bind (sim_switch (b := ⟨c⟩) (b' := ⟨c'⟩) ha hc hb) fun _ _ hq => Sim.pure (h.snoc hq)


theorem mapM_id_ne_none {A : Type} {l : List (Option A)} (h : ∀ x ∈ l, x ≠ none) : l.mapM id ≠ none := by
  induction l with
  | nil => simp
  | cons a l ih =>
    cases a with
    | none => exact absurd rfl (h none (by simp))
    | some a =>
      have := ih fun x hx => h x (by simp [hx])
      cases hl : l.mapM id with
      | none => exact absurd hl this
      | some v => rw [List.mapM_cons]; simp [hl]

theorem mapM_id_none {A : Type} {l : List (Option A)} (h : none ∈ l) : l.mapM id = none := by
  induction l with
  | nil => simp at h
  | cons a l ih =>
    cases a with
    | none => rfl
    | some a =>
      have := ih (by simpa using h)
      rw [List.mapM_cons]; simp [this]

theorem fits_values {q q' : List (CNum F)} (h : FitsLcs X q q') :
    (X.lax = true ∧ none ∈ q'.map CNum.value) ∨
      (q'.map CNum.value = q.map CNum.value ∧ (X.known = true → ∀ v ∈ q.map CNum.value, v ≠ none)) := by
  induction h with
  | nil => right; simp
  | cons h _ ih =>
    rcases X.fit_value h with ⟨hl, h1⟩ | ⟨h1, k1⟩
    · left; exact ⟨hl, by simp [h1]⟩
    · rcases ih with ⟨hl, h2⟩ | ⟨h2, k2⟩
      · left; exact ⟨hl, by rw [List.map_cons]; exact List.mem_cons_of_mem _ h2⟩
      · right
        refine ⟨by simp only [List.map_cons, h1, h2], fun k v hv => ?_⟩
        rw [List.map_cons, List.mem_cons] at hv
        rcases hv with rfl | hv
        · exact k1 k
        · exact k2 k v hv

theorem fits_hintValue (hint : W → List F → Except Panic F) {w w' : Option W} (hw : X.V w w') {q q' : List (CNum F)}
    (h : FitsLcs X q q') {x : Option F} (hx : hintValue hint w (q.map CNum.value) = .ok x) :
    ∃ y, hintValue hint w' (q'.map CNum.value) = .ok y ∧ X.V x y := by
  rcases hw with ⟨hl, rfl⟩ | ⟨hww, hk⟩
  · exact ⟨none, rfl, Or.inl ⟨hl, rfl⟩⟩
  · subst hww
    rcases fits_values h with ⟨hl, h1⟩ | ⟨h1, k1⟩
    · refine ⟨none, ?_, Or.inl ⟨hl, rfl⟩⟩
      unfold hintValue; rw [mapM_id_none h1]; cases w' <;> rfl
    · refine ⟨x, by rw [h1]; exact hx, Or.inr ⟨rfl, fun k => ?_⟩⟩
      have e1 := hk k
      have e2 := mapM_id_ne_none (k1 k)
      cases h3 : w' with
      | none => exact absurd h3 e1
      | some w =>
      cases h4 : (q.map CNum.value).mapM id with
      | none => exact absurd h4 e2
      | some vs =>
        unfold hintValue at hx
        rw [h3, h4] at hx
        simp only at hx
        cases he : hint w vs with
        | error e => rw [he] at hx; cases hx
        | ok v => rw [he] at hx; injection hx with hx; rw [← hx]; simp

theorem post_regs_length (q : List (CNum F)) (is : List Nat) (s : CS F) :
    Post s (regs q is) (fun l _ => l.length = is.length) := by
  induction is generalizing s with
  | nil => exact Post.pure rfl
  | cons i is ih => exact Post.bind Post.true fun _ _ _ _ => Post.bind (ih _) fun _ _ _ h => Post.pure (by simp [h])

theorem post_regBits_length (q : List (CNum F)) (is : List Nat) (s : CS F) :
    Post s (regBits q is) (fun l _ => l.length = is.length) :=
  Post.bind (post_regs_length q is s) fun _ _ _ h => Post.pure (by simp [h])

theorem sim_regs {q q' : List (CNum F)} (h : FitsLcs X q q') {p : Bool} (is : List Nat) :
    Sim X p (regs q is) (regs q' is) (List.Forall₂ fun x y => X.fit x y) := by
  induction is with
  | nil => exact Sim.pure .nil
  | cons i is ih => exact Sim.bind (sim_reg h i) fun _ _ h1 => Sim.bind ih fun _ _ h2 => Sim.pure (.cons h1 h2)

theorem sim_regBits {q q' : List (CNum F)} (h : FitsLcs X q q') (is : List Nat) :
    Sim X false (regBits q is) (regBits q' is) (List.Forall₂ fun x y => X.fit x.num y.num) := by
  refine Sim.bind (sim_regs h is) fun _ _ h1 => Sim.pure ?_
  rw [List.forall₂_map_left_iff, List.forall₂_map_right_iff]; exact h1

theorem sim_regPoint {q q' : List (CNum F)} (h : FitsLcs X q q') (x y : Nat) :
    Sim X false (regPoint q x y) (regPoint q' x y) (CEdwardsPoint.Fits X) :=
  Sim.bind (sim_reg h x) fun _ _ h1 => Sim.bind (sim_reg h y) fun _ _ h2 => Sim.pure ⟨h1, h2⟩

theorem sim_regMont {q q' : List (CNum F)} (h : FitsLcs X q q') (x y : Nat) :
    Sim X false (regMont q x y) (regMont q' x y) (CMontgomeryPoint.Fits X) :=
  Sim.bind (sim_reg h x) fun _ _ h1 => Sim.bind (sim_reg h y) fun _ _ h2 => Sim.pure ⟨h1, h2⟩

theorem sim_call {q q' : List (CNum F)} (h : FitsLcs X q q') {w w' : Option W} (hw : X.V w w') (c : Call r W)
    (hc : X.lax = true → c.WidthsFit) (hk : X.known = true → c.Known) :
    Sim X c.publishes (c.exec w q) (c.exec w' q') (FitsLcs X) := by
  cases c with
  | prim o => exact sim_op h o hk
  | alloc is hint =>
    refine Sim.bind (sim_regs h is) fun _ _ hr => ?_
    refine Sim.bind (Sim.lift (Q := X.V) fun _ hx => fits_hintValue hint hw hr hx) fun _ _ hv => ?_
    exact Sim.bind (sim_alloc hv) fun _ _ h1 => Sim.pure (h.snoc h1)
  | allocInput is hint =>
    refine Sim.bind (sim_regs h is) fun _ _ hr => ?_
    refine Sim.bind (Sim.lift (Q := X.V) fun _ hx => fits_hintValue hint hw hr hx) fun _ _ hv => ?_
    exact Sim.bind (X.sim_allocInput' hv) fun _ _ h1 => Sim.pure (h.snoc h1)
  | intoBits i limit =>
    refine Sim.bind (sim_reg h i) fun _ _ h1 => Sim.bind (sim_intoBits h1 limit hc) fun _ _ h2 => Sim.pure (h.append ?_)
    unfold FitsLcs; rw [List.forall₂_map_left_iff, List.forall₂_map_right_iff]; exact h2
  | intoBitsStrict i =>
    refine Sim.bind (sim_reg h i) fun _ _ h1 => Sim.bind (sim_strict h1) fun _ _ h2 => Sim.pure (h.append ?_)
    unfold FitsLcs; rw [List.forall₂_map_left_iff, List.forall₂_map_right_iff]; exact h2
  | compConstant is c =>
    exact Sim.bind ((sim_regBits h is).and_left fun s => post_regBits_length q is s) fun _ _ h1 =>
      Sim.bind (sim_compConstant h1.1 c (by rw [h1.2]; exact hc)) fun _ _ h2 => Sim.pure (h.snoc h2)
  | fromBits is =>
    exact Sim.bind (sim_regBits h is) fun _ _ h1 => Sim.bind (sim_fromBits h1) fun _ _ h2 => Sim.pure (h.snoc h2)
  | mux3 is table =>
    exact Sim.bind (sim_regBits h is) fun _ _ h1 => Sim.bind (sim_mux3 h1 table) fun _ _ h2 =>
      Sim.pure (h.append h2)
  | poseidon is P =>
    exact Sim.bind (sim_regs h is) fun _ _ h1 => Sim.bind (CPoseidon.sim_poseidon P h1) fun _ _ h2 => Sim.pure (h.snoc h2)
  | poseidonWithSalt is seed P =>
    exact Sim.bind (sim_regs h is) fun _ _ h1 => Sim.bind (CPoseidon.sim_poseidonWithSalt seed P h1) fun _ _ h2 =>
      Sim.pure (h.snoc h2)
  | merkleProofRoot leaf sibling path P =>
    refine Sim.bind (sim_reg h leaf) fun _ _ h1 => Sim.bind (sim_regs h sibling) fun _ _ h2 =>
      Sim.bind (sim_regBits h path) fun _ _ h3 => Sim.bind (CPoseidon.sim_proofLoop P ?_ h1) fun _ _ h4 => Sim.pure (h.snoc h4)
    exact forall₂_zip h3 h2
  | merkleTreeRoot leaf P =>
    exact Sim.bind (sim_regs h leaf) fun _ _ h1 => Sim.bind (CPoseidon.sim_merkleTreeRoot P h1) fun _ _ h2 =>
      Sim.pure (h.snoc h2)
  | edDouble x y J =>
    exact Sim.bind (sim_regPoint h x y) fun _ _ h1 => Sim.bind (CEdwardsPoint.sim_double J h1) fun _ _ h2 =>
      Sim.pure (h.two h2.1 h2.2)
  | edMulByCofactor x y J =>
    exact Sim.bind (sim_regPoint h x y) fun _ _ h1 => Sim.bind (CEdwardsPoint.sim_mulByCofactor J h1) fun _ _ h2 =>
      Sim.pure (h.two h2.1 h2.2)
  | edAdd x1 y1 x2 y2 J =>
    exact Sim.bind (sim_regPoint h x1 y1) fun _ _ h1 => Sim.bind (sim_regPoint h x2 y2) fun _ _ h2 =>
      Sim.bind (CEdwardsPoint.sim_add J h1 h2) fun _ _ h3 => Sim.pure (h.two h3.1 h3.2)
  | assertInCurve x y J =>
    exact Sim.bind (sim_regPoint h x y) fun _ _ h1 => Sim.bind (CEdwardsPoint.sim_assertInCurve J h1) fun _ _ _ =>
      Sim.pure h
  | assertInSubgroup x y J hl =>
    exact Sim.bind (sim_regPoint h x y) fun _ _ h1 => Sim.bind (CEdwardsPoint.sim_assertInSubgroup J h1) fun _ _ _ =>
      Sim.pure h
  | subgroupDecompress sqrt x J hl =>
    exact Sim.bind (sim_reg h x) fun _ _ h1 => Sim.bind (CEdwardsPoint.sim_subgroupDecompress sqrt J h1) fun _ _ h2 =>
      Sim.pure (h.two h2.1 h2.2)
  | intoMontgomery x y =>
    exact Sim.bind (sim_regPoint h x y) fun _ _ h1 => Sim.bind (CEdwardsPoint.sim_intoMontgomery h1) fun _ _ h2 =>
      Sim.pure (h.two h2.1 h2.2)
  | edMul x y bits J =>
    exact Sim.bind (sim_regPoint h x y) fun _ _ h1 => Sim.bind (sim_regBits h bits) fun _ _ h2 =>
      Sim.bind (CEdwardsPoint.sim_edMul J h1 h2) fun _ _ h3 => Sim.pure (h.two h3.1 h3.2)
  | fromScalar sqrt t J =>
    exact Sim.bind (sim_reg h t) fun _ _ h1 => Sim.bind (CEdwardsPoint.sim_fromScalar sqrt J h1) fun _ _ h2 =>
      Sim.pure (h.two h2.1 h2.2)
  | montDouble x y J =>
    exact Sim.bind (sim_regMont h x y) fun _ _ h1 => Sim.bind (CMontgomeryPoint.sim_double J h1) fun _ _ h2 =>
      Sim.pure (h.two h2.1 h2.2)
  | montAdd x1 y1 x2 y2 J =>
    exact Sim.bind (sim_regMont h x1 y1) fun _ _ h1 => Sim.bind (sim_regMont h x2 y2) fun _ _ h2 =>
      Sim.bind (CMontgomeryPoint.sim_add J h1 h2) fun _ _ h3 => Sim.pure (h.two h3.1 h3.2)
  | intoEdwards x y =>
    exact Sim.bind (sim_regMont h x y) fun _ _ h1 => Sim.bind (CMontgomeryPoint.sim_intoEdwards h1) fun _ _ h2 =>
      Sim.pure (h.two h2.1 h2.2)
  | eddsaVerify sqrt s rx a m P J hl =>
    exact Sim.bind (sim_reg h s) fun _ _ h1 => Sim.bind (sim_reg h rx) fun _ _ h2 => Sim.bind (sim_reg h a) fun _ _ h3 =>
      Sim.bind (sim_reg h m) fun _ _ h4 => Sim.bind (Eddsa.sim_cVerify sqrt J P h1 h2 h3 h4) fun _ _ h5 =>
        Sim.pure (h.snoc h5)

/-- The client chooses the same calls in both runs. -/
def Code.Sees (X : Link F) : Code r W → Prop
  | .done => True
  | .call _ next => (∀ q q' : List (CNum F), FitsLcs X q q' → next (q.map CNum.lc) = next (q'.map CNum.lc)) ∧
      ∀ l, (next l).Sees X

/-- What `ok` says about every call of the first run. -/
def Code.Ok (X : Link F) (w : Option W) : Code r W → List (CNum F) → CS F → Prop
  | .done, _, _ => True
  | .call c next, q, s => ∀ q1 s1, (c.exec w q).run s = .ok (q1, s1) →
      X.ok c.publishes s s1 ∧ (next (q1.map CNum.lc)).Ok X w q1 s1

theorem sim_code {w w' : Option W} (hw : X.V w w') (c : Code r W) (hc : X.lax = true → c.WidthsFit)
    (hk : X.known = true → c.Known) (hsee : c.Sees X) {q q' : List (CNum F)} (h : FitsLcs X q q') (s t : CS F)
    (hst : X.st s t) (p : List (CNum F)) (s' : CS F) (hr : (c.exec w q).run s = .ok (p, s')) (hok : c.Ok X w q s) :
    ∃ p' t', (c.exec w' q').run t = .ok (p', t') ∧ X.st s' t' ∧ FitsLcs X p p' := by
  induction c generalizing q q' s t with
  | done =>
    rw [Code.exec, M.run_pure] at hr
    injection hr with hr; injection hr with h1 h2
    subst h1 h2
    exact ⟨q', t, rfl, hst, h⟩
  | call c next ih =>
    rw [Code.exec] at hr
    obtain ⟨q1, s1, h1, h2⟩ := M.bind_ok hr
    obtain ⟨ok1, ok2⟩ := hok q1 s1 h1
    obtain ⟨q1', t1, h3, hst1, hq⟩ := sim_call h hw c (fun l => (hc l).1) (fun k => (hk k).1) s t hst _ _ h1 ok1
    obtain ⟨p', t', h4, h5⟩ := ih _ (fun l => (hc l).2 _) (fun k => (hk k).2 _) (hsee.2 _) hq s1 t1 hst1 h2 ok2
    refine ⟨p', t', ?_, h5⟩
    rw [Code.exec, M.run_bind, h3]
    simp only
    rw [← hsee.1 _ _ hq]
    exact h4

end gadgets

end Fawkes
