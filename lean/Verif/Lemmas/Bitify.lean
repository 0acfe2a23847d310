import Verif.Model.Bitify
import Verif.Lemmas.Bits
import Verif.Lemmas.Program

/-!
# Bit decomposition, comparison, recomposition, multiplexer
-/

set_option linter.unusedSectionVars false

namespace Fawkes

open Bitify

/-- The value 0/1 of a bit. -/
abbrev b2f {F : Type} [Field F] (b : Bool) : F := if b = true then 1 else 0

@[simp] theorem b2f_true {F : Type} [Field F] : (b2f true : F) = 1 := rfl
@[simp] theorem b2f_false {F : Type} [Field F] : (b2f false : F) = 0 := by simp [b2f]

theorem b2f_bit {F : Type} [Field F] (b : Bool) : (b2f b : F) = 0 ∨ (b2f b : F) = 1 := by
  cases b <;> simp [b2f]

section bits
variable {F : Type} [Field F] [DecidableEq F] {w : Index → F} {s : CS F}

theorem SpellsBits.length {bits : List (CBool F)} {bs : List Bool} (h : SpellsBits w bits bs) :
    bits.length = bs.length := List.Forall₂.length_eq h

theorem CarriesBits.length {bits : List (CBool F)} {bs : List Bool} (h : CarriesBits s bits bs) :
    bits.length = bs.length := List.Forall₂.length_eq h

theorem CarriesBits.mono {s' : CS F} {bits : List (CBool F)} {bs : List Bool} (h : CarriesBits s bits bs)
    (e : s.Ext s') : CarriesBits s' bits bs := List.Forall₂.imp (fun _ _ h => h.mono e) h

theorem CarriesBits.spells {bits : List (CBool F)} {bs : List Bool} (h : CarriesBits s bits bs) :
    SpellsBits s.assign bits bs := List.Forall₂.imp (fun _ _ h => h.eval) h

theorem spells_const (hw : IsAssignment w) (bs : List Bool) :
    SpellsBits w (bs.map CBool.fromConst) bs := by
  induction bs with
  | nil => exact .nil
  | cons b bs ih => exact .cons (CNum.eval_fromConst hw _) ih

theorem carries_const (bs : List Bool) : CarriesBits s (bs.map CBool.fromConst) bs := by
  induction bs with
  | nil => exact .nil
  | cons b bs ih => exact .cons (has_fromConst _) ih

theorem SpellsBits.append {a b : List (CBool F)} {as bs : List Bool} (ha : SpellsBits w a as)
    (hb : SpellsBits w b bs) : SpellsBits w (a ++ b) (as ++ bs) := List.rel_append ha hb

theorem CarriesBits.append {a b : List (CBool F)} {as bs : List Bool} (ha : CarriesBits s a as)
    (hb : CarriesBits s b bs) : CarriesBits s (a ++ b) (as ++ bs) := List.rel_append ha hb

theorem spells_of_bits (l : List (CBool F)) (h : ∀ c ∈ l, c.num.lc.eval w = 0 ∨ c.num.lc.eval w = 1) :
    ∃ bs, SpellsBits w l bs := by
  induction l with
  | nil => exact ⟨[], .nil⟩
  | cons c l ih =>
    obtain ⟨bs, hbs⟩ := ih fun c hc => h c (by simp [hc])
    rcases h c (by simp) with h0 | h1
    · exact ⟨false :: bs, .cons (by rw [h0]; simp) hbs⟩
    · exact ⟨true :: bs, .cons (by rw [h1]; simp) hbs⟩

end bits

variable {p : Nat} [hp : Fact p.Prime]


variable {w : Index → ZMod p} {s : CS (ZMod p)}

/-! ## `c_into_bits_le` -/

theorem constLoop_ok (vb : List Bool) (n i : Nat) (k rem : ZMod p) (h : i + n ≤ vb.length) :
    constLoop vb n i k rem = .ok (((vb.drop i).take n).map CBool.fromConst,
      rem - k * (bitsNat ((vb.drop i).take n) : ZMod p)) := by
  induction n generalizing i k rem with
  | zero => simp [constLoop, bitsNat]
  | succ n ih =>
    have hi : i < vb.length := by omega
    rw [constLoop, List.getElem?_eq_getElem hi]
    simp only
    rw [ih (i + 1) _ _ (by omega), List.drop_eq_getElem_cons hi, List.take_succ_cons]
    simp only [List.map_cons, bitsNat]
    cases vb[i] <;> simp <;> ring

theorem constLoop_err (vb : List Bool) (n i : Nat) (k rem : ZMod p) (h : vb.length < i + n) (hi : i ≤ vb.length) :
    constLoop vb n i k rem = .error .outOfBounds := by
  induction n generalizing i k rem with
  | zero => omega
  | succ n ih =>
    rw [constLoop]
    by_cases hlt : i < vb.length
    · rw [List.getElem?_eq_getElem hlt]
      simp only
      rw [ih (i + 1) _ _ (by omega) (by omega)]
    · rw [List.getElem?_eq_none (by omega)]

theorem spec_allocLoop (hw : IsAssignment w) (vb : List (Option Bool)) (n i : Nat) (k : ZMod p) (rem : CNum (ZMod p))
    (s : CS (ZMod p)) :
    Spec w s (allocLoop vb n i k rem) (fun r _ => ∃ bs : List Bool, bs.length = n ∧ SpellsBits w r.1 bs ∧
      r.2.eval w = rem.eval w - 2 * k * (bitsNat bs : ZMod p)) := by
  induction n generalizing i k rem s with
  | zero => exact Spec.pure fun _ => ⟨[], rfl, .nil, by simp [bitsNat]⟩
  | succ n ih =>
    unfold allocLoop
    split
    · exact Spec.panic
    · refine Spec.bind (Q := fun _ _ => True) (Spec.of_post Post.true) fun c s1 _ _ => ?_
      refine Spec.bind (spec_assertBit hw c.num) fun _ s2 _ hb => ?_
      refine Spec.bind (ih (i + 1) (2 * k) _ s2) fun r s3 _ ⟨bs, h1, h2, h3⟩ => ?_
      refine Spec.pure fun _ => ?_
      rw [CNum.eval_sub, CNum.eval_mulConst hw] at h3
      rcases hb with hb | hb
      · refine ⟨false :: bs, by simp [h1], .cons (by simpa using hb) h2, ?_⟩
        simp only at h3 ⊢
        rw [h3, hb]; simp [bitsNat]; ring
      · refine ⟨true :: bs, by simp [h1], .cons (by simpa using hb) h2, ?_⟩
        simp only at h3 ⊢
        rw [h3, hb]; simp [bitsNat]; ring

/-- Soundness of the decomposition. -/
theorem spec_intoBits (hw : IsAssignment w) (x : CNum (ZMod p)) (n : Nat) (s : CS (ZMod p)) :
    Spec w s (intoBitsLE x n) (fun bits _ => ∃ bs : List Bool, bs.length = n ∧ SpellsBits w bits bs ∧
      x.eval w = (bitsNat bs : ZMod p)) := by
  unfold intoBitsLE
  split
  · next v hv =>
    refine Spec.bind (Q := fun r _ => ∃ bs : List Bool, bs.length = n ∧ r.1 = bs.map CBool.fromConst ∧
      r.2 = v - (bitsNat bs : ZMod p)) (Spec.lift ?_) ?_
    · intro r hr
      by_cases h : n ≤ (Num.iterbitLE v).length
      · rw [constLoop_ok _ _ _ _ _ (by omega)] at hr
        injection hr with hr; subst hr
        refine ⟨_, ?_, rfl, by simp⟩
        rw [List.drop_zero, List.length_take]; omega
      · rw [constLoop_err _ _ _ _ _ (by omega) (by omega)] at hr; simp at hr
    · rintro r s1 _ ⟨bs, h1, h2, h3⟩
      refine Spec.bind (Spec.assert (Q := fun _ _ => r.2 = 0) fun h => by simpa using h) fun _ s2 _ h => ?_
      refine Spec.pure fun _ => ⟨bs, h1, ?_, ?_⟩
      · rw [h2]; exact spells_const hw bs
      · rw [CNum.eval_of_asConst hw hv]; rw [h3] at h; exact sub_eq_zero.1 h
  · refine Spec.bind (spec_allocLoop hw _ _ _ _ _ _) ?_
    rintro ⟨bits, rem⟩ s1 _ ⟨bs, h1, h2, h3⟩
    refine Spec.bind (spec_assertBit hw rem) fun _ s2 _ hb => ?_
    split
    · exact Spec.panic
    · next hn =>
      refine Spec.pure fun _ => ?_
      simp only [mul_one] at h2 h3
      rcases hb with hb | hb
      · refine ⟨false :: bs, by simp [h1]; omega, .cons (by simpa using hb) h2, ?_⟩
        rw [hb] at h3; simp [bitsNat]; linear_combination -h3
      · refine ⟨true :: bs, by simp [h1]; omega, .cons (by simpa using hb) h2, ?_⟩
        rw [hb] at h3; simp [bitsNat]; linear_combination -h3

theorem runs_allocLoop (vb : List Bool) (n i : Nat) (k v : ZMod p) (rem : CNum (ZMod p)) (hs : s.Honest)
    (hr : Has s rem v) (h : i + n ≤ vb.length) :
    Runs s (allocLoop (vb.map some) n i k rem) (fun r s' => CarriesBits s' r.1 ((vb.drop i).take n) ∧
      Has s' r.2 (v - 2 * k * (bitsNat ((vb.drop i).take n) : ZMod p))) := by
  induction n generalizing i k v rem s with
  | zero => exact Runs.pure hs ⟨by rw [List.take_zero]; exact List.Forall₂.nil, by simpa [bitsNat] using hr⟩
  | succ n ih =>
    have hi : i < vb.length := by omega
    unfold allocLoop
    rw [List.getElem?_map, List.getElem?_eq_getElem hi]
    simp only [Option.map_some]
    refine Runs.bind (Q := fun c s' => Has s' c.num (b2f vb[i])) ?_ fun c s1 e1 hs1 hc => ?_
    · unfold CBool.alloc
      refine Runs.bind (runs_alloc hs _) fun c s1 e1 hs1 hc => Runs.pure hs1 hc.1
    refine Runs.bind (runs_assertBit hs1 hc (b2f_bit _)) fun _ s2 e2 hs2 _ => ?_
    refine Runs.bind (ih (i + 1) (2 * k) _ _ hs2
      (has_sub (hr.mono (e1.trans e2)) (has_mulConst (hc.mono e2) (2 * k))) (by omega)) ?_
    rintro r s3 e3 hs3 ⟨h1, h2⟩
    refine Runs.pure hs3 ⟨?_, ?_⟩
    · rw [List.drop_eq_getElem_cons hi, List.take_succ_cons]
      exact .cons (hc.mono (e2.trans e3)) h1
    · rw [List.drop_eq_getElem_cons hi, List.take_succ_cons, bitsNat]
      convert h2 using 1
      cases vb[i] <;> simp <;> ring

theorem lowBits_drop_one (n x : Nat) (h : 1 ≤ n) (N : Nat) (hN : n ≤ N) :
    ((lowBits N x).drop 1).take (n - 1) = lowBits (n - 1) (x / 2) ∧
    lowBits n x = decide (x % 2 = 1) :: lowBits (n - 1) (x / 2) := by
  obtain ⟨m, rfl⟩ : ∃ m, n = m + 1 := ⟨n - 1, by omega⟩
  obtain ⟨M, rfl⟩ : ∃ M, N = M + 1 := ⟨N - 1, by omega⟩
  constructor
  · rw [lowBits_succ, List.drop_one, List.tail_cons, take_lowBits (by omega)]
  · rw [lowBits_succ]; rfl

/-- Completeness: on an honest state a signal below `2^n` decomposes into its low bits. -/
theorem runs_intoBits (hs : s.Honest) {x : CNum (ZMod p)} {v : ZMod p} (hx : Has s x v) (n : Nat) (hn : 1 ≤ n)
    (hlim : n ≤ 64 * nLimbs p) (hv : v.val < 2 ^ n) :
    Runs s (intoBitsLE x n) (fun bits s' => CarriesBits s' bits (lowBits n v.val)) := by
  unfold intoBitsLE
  split
  · next c hc =>
    obtain rfl := hx.const hc
    rw [iterbitLE_lowBits]
    refine Runs.bind (Runs.lift (Q := fun r s' => r = _ ∧ s' = s) hs
      (constLoop_ok _ n 0 1 c (by rw [lowBits_length]; omega)) ⟨rfl, rfl⟩) ?_
    rintro r s1 _ _ ⟨rfl, rfl⟩
    rw [List.drop_zero, take_lowBits hlim]
    refine Runs.bind (Runs.assert (Q := fun _ s' => s' = s1) hs ?_ rfl) ?_
    · rw [bitsNat_lowBits, Nat.mod_eq_of_lt hv]; simp
    · rintro _ _ _ _ rfl
      exact Runs.pure hs (carries_const _)
  · rw [hx.value, witnessBits]
    simp only
    rw [iterbitLE_lowBits]
    refine Runs.bind (runs_allocLoop _ _ _ _ _ _ hs hx (by rw [lowBits_length]; omega)) ?_
    rintro ⟨bits, rem⟩ s1 _ hs1 ⟨h1, h2⟩
    obtain ⟨e1, e2⟩ := lowBits_drop_one n v.val hn _ hlim
    simp only at h1 h2
    rw [e1] at h1 h2
    have hrem : v - 2 * 1 * (bitsNat (lowBits (n - 1) (v.val / 2)) : ZMod p) = b2f (decide (v.val % 2 = 1)) := by
      rw [bitsNat_lowBits, Nat.mod_eq_of_lt]
      · have : v = ((v.val % 2 + 2 * (v.val / 2) : ℕ) : ZMod p) := by
          rw [Nat.mod_add_div]; exact (ZMod.natCast_zmod_val v).symm
        rw [Nat.cast_add, Nat.cast_mul] at this
        rw [mul_one, sub_eq_iff_eq_add]
        refine this.trans ?_
        rcases Nat.mod_two_eq_zero_or_one v.val with h | h <;> simp [h, b2f]
      · obtain ⟨m, rfl⟩ : ∃ m, n = m + 1 := ⟨n - 1, by omega⟩
        rw [pow_succ] at hv
        simp only [Nat.add_sub_cancel]; omega
    rw [hrem] at h2
    refine Runs.bind (runs_assertBit hs1 h2 (b2f_bit _)) fun _ s2 e2' hs2 _ => ?_
    rw [if_neg (by omega)]
    refine Runs.pure hs2 ?_
    rw [e2]
    exact .cons (h2.mono e2') (h1.mono e2')

/-- Acceptance by the test back end. -/
theorem acc_intoBits {s : CS (ZMod p)} {x : CNum (ZMod p)} {v : ZMod p} (hx : Has s x v) (n : Nat) :
    Acc s (intoBitsLE x n) (fun _ _ => True) := by
  unfold intoBitsLE
  cases hc : x.asConst with
  | some c =>
    simp only
    refine Acc.of_post (Post.bind (Q := fun _ s' => s' = s) (Post.lift fun _ _ => rfl) ?_)
    rintro r s1 _ rfl
    refine Post.bind (Q := fun _ s' => s' = s1) (Post.assert fun _ => rfl) ?_
    rintro _ _ _ rfl
    exact Post.pure ⟨rfl, fun _ => trivial⟩
  | none =>
    simp only [hx.value, witnessBits]
    by_cases h : 1 + (n - 1) ≤ (Num.iterbitLE v).length
    · refine Acc.bind (Acc.of_runs fun hs => runs_allocLoop _ _ _ _ _ _ hs hx h) ?_
      rintro ⟨bits, rem⟩ s1 e1 ⟨_, h2⟩
      refine Acc.bind (acc_assertBit ⟨_, h2⟩) fun _ s2 e2 _ => ?_
      split
      · exact Acc.panic
      · exact Acc.pure fun _ => trivial
    · have key : ∀ (vb : List (Option Bool)) (n i : Nat) (k : ZMod p) (rem : CNum (ZMod p)) (s : CS (ZMod p)), i ≤ vb.length →
          vb.length < i + n → Post s (allocLoop vb n i k rem) (fun _ _ => False) := by
        intro vb n
        induction n with
        | zero => intro i k rem s h1 h2; omega
        | succ n ih =>
          intro i k rem s h1 h2
          unfold allocLoop
          split
          · exact Post.panic
          · next hsome =>
            have hlt : i < vb.length := (List.getElem?_eq_some_iff.1 hsome).1
            exact Post.bind Post.true fun _ _ _ _ => Post.bind Post.true fun _ _ _ _ =>
              Post.bind (ih (i + 1) _ _ _ (by omega) (by omega)) fun _ _ _ h => h.elim
      intro hb hs a s' hr
      exfalso
      obtain ⟨r, s1, h1, _⟩ := M.bind_ok hr
      refine key _ _ _ _ _ _ ?_ ?_ r s1 h1
      · rw [List.length_map, iterbitLE_length]; unfold nLimbs; omega
      · rw [List.length_map]; omega

theorem rel_boolAlloc {K : Type} [Field K] [DecidableEq K] (u v : Option Bool) :
    Rel (CBool.alloc u : M K _) (CBool.alloc v) (fun a b => a.num.lc = b.num.lc) := by
  unfold CBool.alloc
  exact Rel.bind (rel_alloc _ _) fun _ _ h => Rel.pure h

/-- Lists of bits with the same linear combinations. -/
def SameBits (a b : List (CBool (ZMod p))) : Prop := List.Forall₂ (fun x y => x.num.lc = y.num.lc) a b

theorem rel_allocLoop (vb vb' : List (Option Bool)) (n i : Nat) (k : ZMod p) (rem rem' : CNum (ZMod p))
    (h : rem.lc = rem'.lc) :
    Rel (allocLoop vb n i k rem) (allocLoop vb' n i k rem')
      (fun r r' => SameBits r.1 r'.1 ∧ r.2.lc = r'.2.lc) := by
  induction n generalizing i k rem rem' with
  | zero => exact Rel.pure ⟨.nil, h⟩
  | succ n ih =>
    unfold allocLoop
    split
    · exact Rel.panic_left
    · split
      · exact Rel.panic_right
      · refine Rel.bind (rel_boolAlloc _ _) fun c c' hc => ?_
        refine Rel.bind (rel_assertBit hc) fun _ _ _ => ?_
        refine Rel.bind (ih _ _ _ _ (shape_sub h (shape_mulConst hc _))) fun r r' hr => ?_
        exact Rel.pure ⟨.cons hc hr.1, hr.2⟩

theorem sameBits_refl (l : List (CBool (ZMod p))) : SameBits l l := by
  induction l with
  | nil => exact .nil
  | cons b l ih => exact .cons rfl ih

theorem rel_intoBits {x x' : CNum (ZMod p)} (h : x.lc = x'.lc) (n : Nat) :
    Rel (intoBitsLE x n) (intoBitsLE x' n) SameBits := by
  unfold intoBitsLE
  rw [CNum.asConst_congr h]
  split
  · refine Rel.bind (Q := fun a b => a = b) (Rel.lift fun a b h1 h2 => ?_) ?_
    · rw [h1] at h2; injection h2
    · rintro a _ rfl
      exact Rel.bind (Rel.assert (Q := fun _ _ => True) fun _ _ => trivial) fun _ _ _ => Rel.pure (sameBits_refl _)
  · refine Rel.bind (rel_allocLoop _ _ _ _ _ _ _ h) fun r r' hr => ?_
    refine Rel.bind (rel_assertBit hr.2) fun _ _ _ => ?_
    split
    · exact Rel.panic_left
    · exact Rel.pure (.cons hr.2 hr.1)

/-! ## `c_comp_constant` -/

/-- `-1`, `0`, `1` as the two-bit number of the signal is below, equal to or above that of the constant. -/
def cmp2 (ctl ctu l u : Bool) : ℤ :=
  if ctl.toNat + 2 * ctu.toNat < l.toNat + 2 * u.toNat then 1
  else if l.toNat + 2 * u.toNat < ctl.toNat + 2 * ctu.toNat then -1 else 0

/-- The accumulated comparison of `n` bit pairs. -/
def cmpInt : Nat → List Bool → List Bool → ℤ
  | n + 1, cl :: cu :: ct, l :: u :: sig => cmp2 cl cu l u + 2 * cmpInt n ct sig
  | _, _, _ => 0

theorem cmpInt_bound (n : Nat) (ct sig : List Bool) : |cmpInt n ct sig| ≤ 2 ^ n - 1 := by
  induction n generalizing ct sig with
  | zero => simp [cmpInt]
  | succ n ih =>
    unfold cmpInt
    split
    · next cl cu ct l u sig h1 =>
      injection h1 with h1; subst h1
      have := ih ct sig
      have h2 : |cmp2 cl cu l u| ≤ 1 := by revert cl cu l u; decide
      rw [abs_le] at *
      rw [pow_succ]
      constructor <;> omega
    · have : (1 : ℤ) ≤ 2 ^ (n + 1) := one_le_pow₀ (by norm_num)
      simpa using this

theorem cmpInt_sign (n : Nat) (ct sig : List Bool) (h1 : 2 * n ≤ ct.length) (h2 : 2 * n ≤ sig.length) :
    (0 < cmpInt n ct sig ↔ bitsNat (ct.take (2 * n)) < bitsNat (sig.take (2 * n))) ∧
    (cmpInt n ct sig < 0 ↔ bitsNat (sig.take (2 * n)) < bitsNat (ct.take (2 * n))) := by
  induction n generalizing ct sig with
  | zero => simp [cmpInt, bitsNat]
  | succ n ih =>
    match ct, sig, h1, h2 with
    | cl :: cu :: ct, l :: u :: sig, h1, h2 =>
      obtain ⟨i1, i2⟩ := ih ct sig (by simp at h1; omega) (by simp at h2; omega)
      rw [show 2 * (n + 1) = 2 * n + 1 + 1 by ring]
      simp only [List.take_succ_cons, bitsNat, cmpInt]
      generalize cmpInt n ct sig = z at *
      generalize bitsNat (ct.take (2 * n)) = C at *
      generalize bitsNat (sig.take (2 * n)) = S at *
      have hc : (cmp2 cl cu l u = 1 ∧ cl.toNat + 2 * cu.toNat < l.toNat + 2 * u.toNat) ∨
          (cmp2 cl cu l u = -1 ∧ l.toNat + 2 * u.toNat < cl.toNat + 2 * cu.toNat) ∨
          (cmp2 cl cu l u = 0 ∧ l.toNat + 2 * u.toNat = cl.toNat + 2 * cu.toNat) := by
        clear h1 h2; revert cl cu l u; decide
      have b1 := Bool.toNat_lt cl
      have b2 := Bool.toNat_lt cu
      have b3 := Bool.toNat_lt l
      have b4 := Bool.toNat_lt u
      omega
    | [], _, h1, _ => simp at h1
    | [_], _, h1, _ => simp at h1; omega
    | _ :: _ :: _, [], _, h2 => simp at h2
    | _ :: _ :: _, [_], _, h2 => simp at h2; omega

theorem eval_compTerm (hw : IsAssignment w) (cl cu : Bool) {l u lu : CNum (ZMod p)} {a b : Bool}
    (hl : l.eval w = b2f a) (hu : u.eval w = b2f b) (hlu : lu.eval w = l.eval w * u.eval w) :
    (compTerm cl cu l u lu).eval w = (cmp2 cl cu a b : ZMod p) := by
  rw [hl, hu] at hlu
  cases cl <;> cases cu <;> cases a <;> cases b <;>
    simp only [compTerm, CNum.eval_sub, CNum.eval_add, CNum.eval_addAssign, CNum.eval_subConst hw,
      CNum.eval_mulConst hw, hl, hu, hlu] <;> simp [cmp2] <;> norm_num

theorem has_compTerm (cl cu : Bool) {l u lu : CNum (ZMod p)} {a b : Bool}
    (hl : Has s l (b2f a)) (hu : Has s u (b2f b)) (hlu : Has s lu ((b2f a) * (b2f b))) :
    Has s (compTerm cl cu l u lu) (cmp2 cl cu a b : ZMod p) := by
  have key : ∀ {x : CNum (ZMod p)} {y z : ZMod p}, Has s x y → y = z → Has s x z := fun h e => e ▸ h
  cases cl <;> cases cu
  · exact key (has_sub (has_add hl hu) hlu) (by cases a <;> cases b <;> simp [cmp2])
  · exact key (has_subConst (has_addAssign hlu hu) 1) (by cases a <;> cases b <;> simp [cmp2])
  · exact key (has_subConst (has_sub (has_addAssign (has_mulConst hu 2) hl) hlu) 1)
      (by cases a <;> cases b <;> simp [cmp2] <;> norm_num)
  · exact key (has_subConst hlu 1) (by cases a <;> cases b <;> simp [cmp2])

theorem spec_compLoop (hw : IsAssignment w) (n : Nat) (ct : List Bool) (sig : List (CBool (ZMod p)))
    (bs : List Bool) (hb : SpellsBits w sig bs) (k : ZMod p) (acc : CNum (ZMod p)) (s : CS (ZMod p)) :
    Spec w s (compLoop n ct sig k acc) (fun r _ => r.1.eval w = acc.eval w + k * (cmpInt n ct bs : ZMod p) ∧
      r.2 = 2 ^ n * k ∧ 2 * n ≤ ct.length ∧ 2 * n ≤ sig.length) := by
  induction n generalizing ct sig bs k acc s with
  | zero => exact Spec.pure fun _ => by simp [cmpInt]
  | succ n ih =>
    match ct, sig, bs, hb with
    | cl :: cu :: ct, l :: u :: sig, a :: b :: bs, .cons hl (.cons hu hb) =>
        unfold compLoop
        refine Spec.bind (spec_mul hw l.num u.num) fun lu s1 _ hlu => ?_
        refine (ih ct sig bs hb (2 * k) _ s1).mono ?_
        rintro r s2 _ ⟨h1, h2, h3, h4⟩
        refine ⟨?_, ?_, by simp; omega, by simp; omega⟩
        · rw [h1, CNum.eval_add, CNum.eval_mulConst hw, eval_compTerm hw cl cu hl hu hlu, cmpInt]
          push_cast; ring
        · rw [h2, pow_succ]; ring
    | [], _, _, _ => exact Spec.panic
    | [_], _, _, _ => exact Spec.panic
    | _ :: _ :: _, [], _, .nil => exact Spec.panic
    | _ :: _ :: _, [_], _, .cons _ .nil => exact Spec.panic

theorem runs_compLoop (n : Nat) (ct : List Bool) (sig : List (CBool (ZMod p))) (bs : List Bool)
    (hs : s.Honest) (hb : CarriesBits s sig bs) (h1 : 2 * n ≤ ct.length) (h2 : 2 * n ≤ sig.length) (k v : ZMod p)
    (acc : CNum (ZMod p)) (ha : Has s acc v) :
    Runs s (compLoop n ct sig k acc) (fun r s' => Has s' r.1 (v + k * (cmpInt n ct bs : ZMod p)) ∧
      r.2 = 2 ^ n * k) := by
  induction n generalizing ct sig bs k v acc s with
  | zero => exact Runs.pure hs ⟨by simpa [cmpInt] using ha, by simp⟩
  | succ n ih =>
    match ct, sig, bs, hb, h1, h2 with
    | cl :: cu :: ct, l :: u :: sig, a :: b :: bs, .cons hl (.cons hu hb), h1, h2 =>
      unfold compLoop
      refine Runs.bind (runs_mul hs hl hu) fun lu s1 e1 hs1 hlu => ?_
      refine (ih ct sig bs hs1 (CarriesBits.mono hb e1) (by simp at h1; omega) (by simp at h2; omega) (2 * k) _ _
        (has_add (ha.mono e1) (has_mulConst (has_compTerm cl cu (hl.mono e1) (hu.mono e1) hlu) k))).mono ?_
      rintro r s2 _ _ ⟨h3, h4⟩
      refine ⟨?_, ?_⟩
      · convert h3 using 1
        rw [cmpInt]; push_cast; ring
      · rw [h4, pow_succ]; ring
    | [], _, _, _, h1, _ => simp at h1
    | [_], _, _, _, h1, _ => simp at h1; omega
    | _ :: _ :: _, [], _, _, _, h2 => simp at h2
    | _ :: _ :: _, [_], _, _, _, h2 => simp at h2; omega

theorem sameBits_append {a b a' b' : List (CBool (ZMod p))} (h : SameBits a a') (h' : SameBits b b') :
    SameBits (a ++ b) (a' ++ b') := List.rel_append h h'

theorem shape_compTerm (cl cu : Bool) {l u lu l' u' lu' : CNum (ZMod p)} (hl : l.lc = l'.lc) (hu : u.lc = u'.lc)
    (hlu : lu.lc = lu'.lc) : (compTerm cl cu l u lu).lc = (compTerm cl cu l' u' lu').lc := by
  cases cl <;> cases cu
  · exact shape_sub (shape_add hl hu) hlu
  · exact shape_subConst (shape_addAssign hlu hu) 1
  · exact shape_subConst (shape_sub (shape_addAssign (shape_mulConst hu 2) hl) hlu) 1
  · exact shape_subConst hlu 1

theorem rel_compLoop (n : Nat) (ct : List Bool) {sig sig' : List (CBool (ZMod p))} (h : SameBits sig sig') (k : ZMod p)
    {acc acc' : CNum (ZMod p)} (ha : acc.lc = acc'.lc) :
    Rel (compLoop n ct sig k acc) (compLoop n ct sig' k acc') (fun r r' => r.1.lc = r'.1.lc ∧ r.2 = r'.2) := by
  induction n generalizing ct sig sig' k acc acc' with
  | zero => exact Rel.pure ⟨ha, rfl⟩
  | succ n ih =>
    match ct, sig, sig', h with
    | cl :: cu :: ct, l :: u :: sig, l' :: u' :: sig', .cons hl (.cons hu h) =>
      exact Rel.bind (rel_mul hl hu) fun lu lu' hlu =>
        ih ct h (2 * k) (shape_add ha (shape_mulConst (shape_compTerm cl cu hl hu hlu) k))
    | [], _, _, _ => exact Rel.panic_left
    | [_], _, _, _ => exact Rel.panic_left
    | _ :: _ :: _, [], _, .nil => exact Rel.panic_left
    | _ :: _ :: _, [_], _, .cons _ .nil => exact Rel.panic_left

/-- The number of bit pairs. -/
theorem nsteps_eq (n : Nat) : n / 2 + n % 2 = (n + 1) / 2 := by omega

/-- The last bit of a number below `2^(n+1)`. -/
theorem getElem?_lowBits (n x i : Nat) (h : i < n) : (lowBits n x)[i]? = some (x.testBit i) := by
  unfold lowBits
  rw [List.getElem?_map, List.getElem?_range h]; rfl

theorem testBit_top {n x : Nat} (h : x < 2 ^ (n + 1)) : x.testBit n = decide (2 ^ n ≤ x) := by
  rw [Nat.testBit_eq_decide_div_mod_eq]
  congr 1
  rw [pow_succ] at h
  have hpos : 0 < 2 ^ n := by positivity
  by_cases hx : 2 ^ n ≤ x
  · have : x / 2 ^ n = 1 := by
      apply Nat.div_eq_of_lt_le <;> omega
    simp [this, hx]
  · rw [Nat.div_eq_of_lt (by omega)]; simp [hx]

/-- The comparison result: bit `n` of `cmpInt + 2^n - 1`. -/
theorem cmp_final (n : Nat) (ct sig : List Bool) (h1 : 2 * n ≤ ct.length) (h2 : 2 * n ≤ sig.length) :
    ∃ m : ℕ, m < 2 ^ (n + 1) ∧ (m : ℤ) = cmpInt n ct sig + (2 ^ n - 1) ∧
      (m.testBit n = true ↔ bitsNat (ct.take (2 * n)) < bitsNat (sig.take (2 * n))) := by
  have hb := cmpInt_bound n ct sig
  rw [abs_le] at hb
  obtain ⟨m, hm⟩ : ∃ m : ℕ, (m : ℤ) = cmpInt n ct sig + (2 ^ n - 1) :=
    ⟨(cmpInt n ct sig + (2 ^ n - 1)).toNat, Int.toNat_of_nonneg (by linarith)⟩
  have hlt : m < 2 ^ (n + 1) := by
    have : (m : ℤ) < 2 ^ (n + 1) := by rw [pow_succ]; linarith
    exact_mod_cast this
  refine ⟨m, hlt, hm, ?_⟩
  rw [testBit_top hlt, decide_eq_true_iff, ← (cmpInt_sign n ct sig h1 h2).1]
  constructor
  · intro h
    have : (2 ^ n : ℤ) ≤ m := by exact_mod_cast h
    linarith
  · intro h
    have : (2 ^ n : ℤ) ≤ m := by linarith
    exact_mod_cast this

/-- The bits padded to an even number. -/
def padBits (bs : List Bool) : List Bool := bs ++ if bs.length % 2 = 1 then [false] else []

theorem padBits_length (bs : List Bool) : (padBits bs).length = 2 * (bs.length / 2 + bs.length % 2) := by
  unfold padBits
  split
  · simp; omega
  · simp; omega

theorem bitsNat_padBits (bs : List Bool) : bitsNat (padBits bs) = bitsNat bs := by
  unfold padBits
  split
  · rw [bitsNat_append]; simp [bitsNat]
  · simp

theorem natCast_inj_of_lt {a b : ℕ} (ha : a < p) (hb : b < p) (h : (a : ZMod p) = b) : a = b := by
  have := congrArg ZMod.val h
  rwa [ZMod.val_natCast_of_lt ha, ZMod.val_natCast_of_lt hb] at this

/-- Soundness of the comparison: compares with the low `2⌈n/2⌉` bits of the constant. -/
theorem spec_compConstant (hw : IsAssignment w) (sig : List (CBool (ZMod p))) (bs : List Bool)
    (hb : SpellsBits w sig bs) (ct : ZMod p) (hp2 : 2 ^ ((sig.length + 1) / 2 + 1) ≤ p) (s : CS (ZMod p)) :
    Spec w s (compConstant sig ct) (fun r _ => r.num.eval w =
      if ct.val % 2 ^ (2 * ((sig.length + 1) / 2)) < bitsNat bs then 1 else 0) := by
  unfold compConstant
  rw [nsteps_eq]
  set n := (sig.length + 1) / 2 with hn
  refine Spec.bind (Q := fun _ _ => True) (Spec.of_post Post.true) fun _ s1 _ _ => ?_
  have hpad : SpellsBits w (sig ++ if sig.length % 2 = 1 then [CBool.fromConst false] else []) (padBits bs) := by
    unfold padBits
    rw [hb.length]
    refine SpellsBits.append hb ?_
    split
    · exact spells_const hw [false]
    · exact .nil
  refine Spec.bind (spec_compLoop hw n (Num.iterbitLE ct) _ _ hpad 1 CNum.zero s1) ?_
  rintro ⟨acc, k⟩ s2 _ ⟨h1, h2, h3, h4⟩
  simp only [mul_one] at h1 h2 h3 h4
  refine Spec.bind (spec_intoBits hw _ (n + 1) s2) ?_
  rintro bits s3 _ ⟨bs', h5, h6, h7⟩
  have hpl : (padBits bs).length = 2 * n := by
    rw [padBits_length, ← hb.length, nsteps_eq]
  obtain ⟨m, hm1, hm2, hm3⟩ := cmp_final n (Num.iterbitLE ct) (padBits bs) h3 hpl.ge
  have hval : bitsNat bs' = m := by
    have hlt := bitsNat_lt bs'
    rw [h5] at hlt
    apply natCast_inj_of_lt (p := p) (by omega) (by omega)
    rw [← h7, CNum.eval_addConst hw, h1, h2, CNum.eval_zero hw]
    have := congrArg (Int.cast (R := ZMod p)) hm2
    push_cast at this
    rw [this]; ring
  have hbs : bs' = lowBits (n + 1) m := by
    rw [← hval, ← h5, lowBits_bitsNat]
  have hget : n < bits.length := by rw [h6.length, h5]; omega
  rw [List.getElem?_eq_getElem hget]
  refine Spec.pure fun _ => ?_
  have hlen' : n < bs'.length := by omega
  have := List.Forall₂.get h6 hget hlen'
  simp only [List.get_eq_getElem] at this
  rw [CNum.eval, this]
  have hbn : bs'[n] = m.testBit n := by
    have e := getElem?_lowBits (n + 1) m n (by omega)
    rw [← hbs, List.getElem?_eq_getElem hlen'] at e
    exact Option.some.inj e
  refine if_congr ?_ rfl rfl
  rw [hbn, hm3, iterbitLE_lowBits, take_lowBits (by rw [iterbitLE_length] at h3; exact h3), bitsNat_lowBits,
    List.take_of_length_le hpl.le, bitsNat_padBits]

theorem runs_compConstant (hs : s.Honest) (sig : List (CBool (ZMod p))) (bs : List Bool) (hb : CarriesBits s sig bs)
    (hne : 0 < sig.length) (hlim : sig.length ≤ 64 * nLimbs p) (ct : ZMod p)
    (hp2 : 2 ^ ((sig.length + 1) / 2 + 1) ≤ p) :
    Runs s (compConstant sig ct) (fun r s' => Has s' r.num
      (if ct.val % 2 ^ (2 * ((sig.length + 1) / 2)) < bitsNat bs then 1 else 0)) := by
  have hsp : Runs s (compConstant sig ct) (fun r s' => ∃ b : Bool, Has s' r.num (b2f b)) := by
    unfold compConstant
    rw [nsteps_eq]
    set n := (sig.length + 1) / 2 with hn
    refine Runs.bind (Runs.assert (Q := fun _ s' => s' = s) hs (by simpa using hne) rfl) ?_
    rintro _ _ _ _ rfl
    rename_i s0 _ _
    have hpad : CarriesBits s0 (sig ++ if sig.length % 2 = 1 then [CBool.fromConst false] else [])
        (padBits bs) := by
      unfold padBits
      rw [hb.length]
      refine CarriesBits.append hb ?_
      split
      · exact carries_const [false]
      · exact .nil
    have hpl : (padBits bs).length = 2 * n := by
      rw [padBits_length, ← hb.length, nsteps_eq]
    have hct : 2 * n ≤ (Num.iterbitLE ct).length := by rw [iterbitLE_length]; omega
    refine Runs.bind (runs_compLoop n (Num.iterbitLE ct) _ _ hs hpad hct (by rw [hpad.length, hpl]) 1 0
      CNum.zero has_zero) ?_
    rintro ⟨acc, k⟩ s2 _ hs2 ⟨h1, h2⟩
    simp only [mul_one, one_mul, zero_add] at h1 h2
    obtain ⟨m, hm1, hm2, hm3⟩ := cmp_final n (Num.iterbitLE ct) (padBits bs) hct hpl.ge
    have hval : (cmpInt n (Num.iterbitLE ct) (padBits bs) : ZMod p) + (k - 1) = (m : ZMod p) := by
      have := congrArg (Int.cast (R := ZMod p)) hm2
      push_cast at this
      rw [this, h2]
    have hacc := has_addConst h1 (k - 1)
    rw [hval] at hacc
    have hmv : ((m : ℕ) : ZMod p).val = m := ZMod.val_natCast_of_lt (hm1.trans_le hp2)
    have hn1 : n + 1 ≤ 64 * nLimbs p := by
      have h1 : n ≤ 32 * nLimbs p := by omega
      have h2 : 1 ≤ nLimbs p := by unfold nLimbs; omega
      omega
    refine Runs.bind (runs_intoBits hs2 hacc (n + 1) (by omega) hn1 (by rw [hmv]; exact hm1)) ?_
    intro bits s3 _ hs3 hbits
    have hget : n < bits.length := by rw [hbits.length, lowBits_length]; omega
    rw [List.getElem?_eq_getElem hget]
    refine Runs.pure hs3 ⟨(lowBits (n + 1) (((m : ℕ) : ZMod p).val))[n]'(by rw [lowBits_length]; omega), ?_⟩
    · have := List.Forall₂.get hbits hget (by rw [lowBits_length]; omega)
      simpa only [List.get_eq_getElem] using this
  have hb' : ∀ {s'} (_ : s.Ext s'), SpellsBits s'.assign sig bs := fun e => (hb.mono e).spells
  obtain ⟨r, s', hr, e, hh, b, hq⟩ := hsp
  refine ⟨r, s', hr, e, hh, ?_⟩
  have := spec_compConstant (CS.assign_isAssignment s') sig bs (hb' e) ct hp2 s r s' hr hh.sat
  have hq' : r.num.eval s'.assign = b2f b := hq.eval
  have h3 := hq'.symm.trans this
  change Has s' r.num _
  rw [← h3]; exact hq

theorem rel_compConstant {sig sig' : List (CBool (ZMod p))} (h : SameBits sig sig') (ct : ZMod p) :
    Rel (compConstant sig ct) (compConstant sig' ct) (fun r r' => r.num.lc = r'.num.lc) := by
  unfold compConstant
  have hl : sig.length = sig'.length := List.Forall₂.length_eq h
  rw [hl]
  refine Rel.bind (Rel.assert (Q := fun _ _ => True) fun _ _ => trivial) fun _ _ _ => ?_
  refine Rel.bind (rel_compLoop _ _ (sameBits_append h (sameBits_refl _)) 1 rfl) fun r r' hr => ?_
  obtain ⟨acc, k⟩ := r
  obtain ⟨acc', k'⟩ := r'
  obtain ⟨h1, h2⟩ := hr
  simp only at h1 h2
  subst h2
  refine Rel.bind (rel_intoBits (shape_addConst h1 _) _) fun bits bits' hb => ?_
  split
  · exact Rel.panic_left
  · next b hbget =>
    split
    · exact Rel.panic_right
    · next b' hbget' =>
      obtain ⟨i1, rfl⟩ := List.getElem?_eq_some_iff.1 hbget
      obtain ⟨i2, rfl⟩ := List.getElem?_eq_some_iff.1 hbget'
      exact Rel.pure (by simpa using List.Forall₂.get hb i1 i2)

/-! ## Strict decomposition -/

theorem numBits_pos : 2 ^ (numBits p - 1) ≤ p := by
  have : 0 < numBits p := Nat.size_pos.2 hp.out.pos
  exact Nat.lt_size.1 (by unfold numBits at *; omega)

theorem strict_bound (h8 : 8 ≤ p) : 2 ^ ((numBits p + 1) / 2 + 1) ≤ p := by
  have h4 : 4 ≤ numBits p := Nat.lt_size.2 (by omega)
  exact (Nat.pow_le_pow_right (by norm_num) (by omega)).trans numBits_pos

theorem val_neg_one_prime : (-1 : ZMod p).val = p - 1 := by
  obtain ⟨k, hk⟩ : ∃ k, p = k + 1 := ⟨p - 1, by have := hp.out.pos; omega⟩
  subst hk
  simp [ZMod.val_neg_one]

theorem spec_strict (hw : IsAssignment w) (h8 : 8 ≤ p) (x : CNum (ZMod p)) (s : CS (ZMod p)) :
    Spec w s (intoBitsLEStrict x) (fun bits _ => SpellsBits w bits (lowBits (numBits p) (x.eval w).val)) := by
  unfold intoBitsLEStrict
  refine Spec.bind (spec_intoBits hw x _ s) ?_
  rintro bits s1 _ ⟨bs, h1, h2, h3⟩
  have hlen : bits.length = numBits p := by rw [h2.length, h1]
  refine Spec.bind (spec_compConstant hw bits bs h2 (-1) (by rw [hlen]; exact strict_bound h8) s1) ?_
  intro r s2 _ hr
  refine Spec.bind (spec_assertConst hw r.num (boolToF false)) fun _ s3 _ hf => ?_
  refine Spec.pure fun _ => ?_
  rw [hf, hlen] at hr
  have hlt : bitsNat bs ≤ p - 1 := by
    by_contra hcon
    rw [if_pos] at hr
    · simp [boolToF] at hr
    · rw [val_neg_one_prime, Nat.mod_eq_of_lt]
      · omega
      · calc p - 1 < p := by have := hp.out.pos; omega
          _ < 2 ^ numBits p := lt_two_pow_numBits p
          _ ≤ _ := Nat.pow_le_pow_right (by norm_num) (by omega)
  have hv : (x.eval w).val = bitsNat bs := by
    rw [h3, ZMod.val_natCast_of_lt (by have := hp.out.pos; omega)]
  rw [hv, ← h1, lowBits_bitsNat]
  exact h2

theorem runs_strict (hs : s.Honest) (h8 : 8 ≤ p) {x : CNum (ZMod p)} {v : ZMod p} (hx : Has s x v) :
    Runs s (intoBitsLEStrict x) (fun bits s' => CarriesBits s' bits (lowBits (numBits p) v.val)) := by
  unfold intoBitsLEStrict
  have h4 : 4 ≤ numBits p := Nat.lt_size.2 (by omega)
  have hlim := numBits_lt p
  have hvlt : v.val < 2 ^ numBits p := (ZMod.val_lt v).trans (lt_two_pow_numBits p)
  refine Runs.bind (runs_intoBits hs hx (numBits p) (by omega) hlim.le hvlt) ?_
  intro bits s1 _ hs1 hb
  have hlen : bits.length = numBits p := by rw [hb.length, lowBits_length]
  refine Runs.bind (runs_compConstant hs1 bits _ hb (by omega) (by omega) (-1)
    (by rw [hlen]; exact strict_bound h8)) ?_
  intro r s2 e2 hs2 hr
  rw [if_neg] at hr
  · refine Runs.bind (runs_assertConst hs2 (a := r.num) (x := boolToF false) (by simpa [boolToF] using hr)) ?_
    intro _ s3 e3 hs3 _
    exact Runs.pure hs3 (hb.mono (e2.trans e3))
  · rw [hlen, val_neg_one_prime, bitsNat_lowBits, Nat.mod_eq_of_lt hvlt, Nat.mod_eq_of_lt]
    · have := ZMod.val_lt v; omega
    · calc p - 1 < p := by have := hp.out.pos; omega
          _ < 2 ^ numBits p := lt_two_pow_numBits p
          _ ≤ _ := Nat.pow_le_pow_right (by norm_num) (by omega)

theorem rel_strict {x x' : CNum (ZMod p)} (h : x.lc = x'.lc) :
    Rel (intoBitsLEStrict x) (intoBitsLEStrict x') SameBits := by
  unfold intoBitsLEStrict
  exact Rel.bind (rel_intoBits h _) fun b b' hb => Rel.bind (rel_compConstant hb _) fun r r' hr =>
    Rel.bind (rel_assertConst hr _) fun _ _ _ => Rel.pure hb

/-! ## `c_from_bits_le` -/

theorem eval_fromLoop (hw : IsAssignment w) (bs : List (CBool (ZMod p))) (k : ZMod p) (acc : CNum (ZMod p)) :
    (fromLoop bs k acc).eval w = acc.eval w + 2 * k * weighted (bs.map fun b => b.num.eval w) := by
  induction bs generalizing k acc with
  | nil => simp [fromLoop, weighted]
  | cons b bs ih =>
    rw [fromLoop, ih, CNum.eval_addAssign, CNum.eval_mulConst hw, List.map_cons, weighted]; ring

theorem spec_fromBits (hw : IsAssignment w) (bits : List (CBool (ZMod p))) (s : CS (ZMod p)) :
    Spec w s (fromBitsLE bits) (fun r s' => s' = s ∧ r.eval w = weighted (bits.map fun b => b.num.eval w)) := by
  unfold fromBitsLE
  split
  · exact Spec.panic
  · refine Spec.pure fun _ => ⟨rfl, ?_⟩
    rw [eval_fromLoop hw, List.map_cons, weighted]; ring

theorem has_fromLoop (bits : List (CBool (ZMod p))) (vs : List (ZMod p)) (h : List.Forall₂ (fun c v => Has s c.num v) bits vs)
    (k v : ZMod p) (acc : CNum (ZMod p)) (ha : Has s acc v) : Has s (fromLoop bits k acc) (v + 2 * k * weighted vs) := by
  induction h generalizing k v acc with
  | nil => simpa [fromLoop, weighted] using ha
  | cons hb _ ih =>
    rw [fromLoop]
    convert ih (2 * k) _ _ (has_addAssign ha (has_mulConst hb (2 * k))) using 1
    rw [weighted]; ring

theorem runs_fromBits (hs : s.Honest) {bits : List (CBool (ZMod p))} {vs : List (ZMod p)} (hne : bits ≠ [])
    (h : List.Forall₂ (fun c v => Has s c.num v) bits vs) :
    Runs s (fromBitsLE bits) (fun r s' => Has s' r (weighted vs)) := by
  cases h with
  | nil => exact absurd rfl hne
  | cons hb h =>
    refine Runs.pure hs ?_
    convert has_fromLoop _ _ h 1 _ _ hb using 1
    rw [weighted]; ring

theorem SpellsBits.weighted_eq {bits : List (CBool (ZMod p))} {bs : List Bool} (h : SpellsBits w bits bs) :
    weighted (bits.map fun b => b.num.eval w) = (bitsNat bs : ZMod p) := by
  rw [← weighted_bits]
  congr 1
  induction h with
  | nil => rfl
  | cons h _ ih => simp only [List.map_cons, ih]; rw [CNum.eval, h]

theorem CarriesBits.values {bits : List (CBool (ZMod p))} {bs : List Bool} (h : CarriesBits s bits bs) :
    List.Forall₂ (fun c v => Has s c.num v) bits (bs.map fun b => if b = true then (1 : ZMod p) else 0) := by
  induction h with
  | nil => exact .nil
  | cons h _ ih => exact .cons h ih

theorem shape_fromLoop {a b : List (CBool (ZMod p))} (h : SameBits a b) (k : ZMod p) {acc acc' : CNum (ZMod p)}
    (ha : acc.lc = acc'.lc) : (fromLoop a k acc).lc = (fromLoop b k acc').lc := by
  induction h generalizing k acc acc' with
  | nil => exact ha
  | cons hb _ ih => exact ih (2 * k) (shape_addAssign ha (shape_mulConst hb _))

theorem rel_fromBits {a b : List (CBool (ZMod p))} (h : SameBits a b) :
    Rel (fromBitsLE a) (fromBitsLE b) (fun r r' => r.lc = r'.lc) := by
  cases h with
  | nil => exact Rel.panic_left
  | cons hb h => exact Rel.pure (shape_fromLoop h _ hb)


/-! ## Number of constraints of a decomposition -/

theorem post_assertBit_count {K : Type} [Field K] [DecidableEq K] {s : CS K} {a : CNum K} (h : a.asConst = none) :
    Post s (CNum.assertBit a) (fun _ s' => s'.cons.length = s.cons.length + 1) := by
  unfold CNum.assertBit
  rw [h]
  exact (post_enforce s _ _ _).mono fun _ s' _ h => by rw [h.1]; simp

theorem post_assert_eq {K : Type} [Field K] {s : CS K} (b : Bool) (e : Panic) :
    Post s (M.assert b e : M K Unit) (fun _ s' => s' = s) := Post.assert fun _ => rfl

/-- Each step of the loop adds one constraint, and the remaining signal depends on a variable. -/
theorem post_allocLoop_count (vb : List (Option Bool)) (n i : Nat) (k : ZMod p) (rem : CNum (ZMod p)) (h2 : p ≠ 2)
    (hk : k ≠ 0) (s : CS (ZMod p)) (hs : s.WF) (hra : rem.lc.Alloc s) (hr : rem.asConst = none) :
    Post s (allocLoop vb n i k rem) (fun r s' => s'.cons.length = s.cons.length + n ∧ r.1.length = n ∧
      r.2.asConst = none) := by
  induction n generalizing i k rem s with
  | zero => exact Post.pure ⟨rfl, rfl, hr⟩
  | succ n ih =>
    unfold allocLoop
    have h20 : (2 : ZMod p) ≠ 0 := by
      intro h
      have : ((2 : ℕ) : ZMod p) = 0 := by exact_mod_cast h
      rw [ZMod.natCast_eq_zero_iff] at this
      exact h2 ((Nat.prime_dvd_prime_iff_eq hp.out Nat.prime_two).1 this)
    split
    · exact Post.panic
    · next v _ =>
      refine Post.bind (Q := fun c s' => FreshVar s c.num ∧ c.num.lc.Alloc s' ∧ s'.cons = s.cons) ?_
        fun c s1 e1 ⟨hf, hca, hcc⟩ => ?_
      · unfold CBool.alloc
        refine Post.bind ((post_alloc_fresh hs _).and (post_alloc s _)) fun c s1 e1 h => Post.pure ?_
        refine ⟨h.1.1, h.1.2.1, ?_⟩
        rw [h.2.2.2, pushVar_cons]
      refine Post.bind (post_assertBit_count hf.asConst) fun _ s2 e2 hc2 => ?_
      obtain ⟨j, hj, hj0, hjf⟩ := hf
      have hnk : 2 * k ≠ 0 := mul_ne_zero h20 hk
      have hmem : j ∈ (CNum.mulConst c.num (2 * k)).lc.keys := by
        unfold CNum.mulConst
        rw [if_neg hnk]
        simp [hj, LC.keys]
      have hnotin : j ∉ rem.lc.keys := by
        intro hin
        rcases hra j hin with h | h
        · exact hj0 h
        · exact hjf h
      have hsub : j ∈ (CNum.sub rem (CNum.mulConst c.num (2 * k))).lc.keys := by
        have hcan : (CNum.mulConst c.num (2 * k)).lc = [(j, 2 * k)] := by
          unfold CNum.mulConst
          rw [if_neg hnk, hj]; simp
        exact LC.mem_keys_sub_new hnotin hmem (by rw [hcan]; simp)
      refine Post.bind (ih (i + 1) (2 * k) _ hnk s2 ((e1.trans e2).wf hs)
        (alloc_sub (hra.mono (e1.trans e2)) (alloc_mulConst (hca.mono e2) _)) (CNum.asConst_eq_none hsub hj0)) ?_
      rintro r s3 _ ⟨h3, h4, h5⟩
      exact Post.pure ⟨by rw [h3, hc2, hcc]; omega, by simp [h4], h5⟩

theorem post_intoBits_count {x : CNum (ZMod p)} {n : Nat} (h2 : p ≠ 2) {s : CS (ZMod p)} (hs : s.WF)
    (hxa : x.lc.Alloc s) (hx : x.asConst = none) :
    Post s (intoBitsLE x n) (fun bits s' => s'.cons.length = s.cons.length + n ∧ bits.length = n) := by
  unfold intoBitsLE
  rw [hx]
  refine Post.bind (post_allocLoop_count _ _ _ _ _ h2 one_ne_zero s hs hxa hx) ?_
  rintro ⟨bits, rem⟩ s1 e1 ⟨h3, h4, h5⟩
  refine Post.bind (post_assertBit_count h5) fun _ s2 e2 h6 => ?_
  split
  · exact Post.panic
  · exact Post.pure ⟨by rw [h6, h3]; omega, by simp at h4 ⊢; omega⟩

/-! ## `c_mux3` -/

section mux
variable {K : Type} [Field K] [DecidableEq K] {w : Index → K} {s : CS K}
open Mux

/-- The selected index. -/
def sel3 (b0 b1 b2 : Bool) : Nat := b0.toNat + 2 * b1.toNat + 4 * b2.toNat

theorem spec_column (hw : IsAssignment w) {s0 s1 s2 : CBool K} {s10 : CNum K} {b0 b1 b2 : Bool}
    (h0 : s0.num.eval w = b2f b0) (h1 : s1.num.eval w = b2f b1) (h2 : s2.num.eval w = b2f b2)
    (h10 : s10.eval w = b2f b0 * b2f b1) (c0 c1 c2 c3 c4 c5 c6 c7 : K) (s : CS K) :
    Spec w s (column s0 s1 s2 s10 c0 c1 c2 c3 c4 c5 c6 c7)
      (fun r _ => some (r.eval w) = [c0, c1, c2, c3, c4, c5, c6, c7][sel3 b0 b1 b2]?) := by
  unfold column
  refine Spec.bind (spec_mul hw _ _) fun t s1 _ ht => Spec.pure fun _ => ?_
  simp only [CNum.eval_addConst hw, CNum.eval_add, CNum.eval_mulConst hw, h0, h1, h2, h10] at ht ⊢
  rw [ht]
  cases b0 <;> cases b1 <;> cases b2 <;> simp [sel3] <;> ring

theorem spec_columns (hw : IsAssignment w) {s0 s1 s2 : CBool K} {s10 : CNum K} {b0 b1 b2 : Bool}
    (h0 : s0.num.eval w = b2f b0) (h1 : s1.num.eval w = b2f b1) (h2 : s2.num.eval w = b2f b2)
    (h10 : s10.eval w = b2f b0 * b2f b1) (c : List (List K)) (s : CS K) :
    Spec w s (columns s0 s1 s2 s10 c)
      (fun r _ => List.Forall₂ (fun x col => some (x.eval w) = col[sel3 b0 b1 b2]?) r c) := by
  induction c generalizing s with
  | nil => exact Spec.pure fun _ => .nil
  | cons col c ih =>
    unfold columns
    split
    · next h => cases h
    · next c0 c1 c2 c3 c4 c5 c6 c7 cs h =>
      injection h with ha hb; subst ha hb
      refine Spec.bind (spec_column hw h0 h1 h2 h10 _ _ _ _ _ _ _ _ s) fun r s1 _ hr => ?_
      exact Spec.bind (ih s1) fun rs s2 _ hrs => Spec.pure fun _ => .cons hr hrs
    · exact Spec.panic

theorem spec_mux3 (hw : IsAssignment w) {sb : List (CBool K)} {b0 b1 b2 : Bool}
    (hs : SpellsBits w sb [b0, b1, b2]) (c : List (List K)) (s : CS K) :
    Spec w s (mux3 sb c)
      (fun r _ => List.Forall₂ (fun x col => some (x.eval w) = col[sel3 b0 b1 b2]?) r c) := by
  match sb, hs with
  | [s0, s1, s2], .cons h0 (.cons h1 (.cons h2 .nil)) =>
    unfold mux3
    refine Spec.bind (Q := fun _ _ => True) (Spec.of_post Post.true) fun _ _ _ _ => ?_
    refine Spec.bind (Q := fun _ _ => True) (Spec.of_post Post.true) fun _ _ _ _ => ?_
    refine Spec.bind (spec_mul hw _ _) fun s10 s' _ h10 => ?_
    have h0' : s0.num.eval w = b2f b0 := h0
    have h1' : s1.num.eval w = b2f b1 := h1
    rw [h0', h1'] at h10
    exact spec_columns hw h0 h1 h2 h10 c s'

theorem runs_column (hs : s.Honest) {s0 s1 s2 : CBool K} {s10 : CNum K} {b0 b1 b2 : Bool}
    (h0 : Has s s0.num (b2f b0)) (h1 : Has s s1.num (b2f b1)) (h2 : Has s s2.num (b2f b2))
    (h10 : Has s s10 (b2f b0 * b2f b1)) (c0 c1 c2 c3 c4 c5 c6 c7 : K) :
    Runs s (column s0 s1 s2 s10 c0 c1 c2 c3 c4 c5 c6 c7)
      (fun r s' => ∃ v, Has s' r v ∧ some v = [c0, c1, c2, c3, c4, c5, c6, c7][sel3 b0 b1 b2]?) := by
  unfold column
  refine Runs.bind (runs_mul hs (has_addConst (has_add (has_add (has_mulConst h10 _) (has_mulConst h1 _))
    (has_mulConst h0 _)) _) h2) fun t s' e hs' ht => Runs.pure hs' ⟨_, has_addConst (has_add (has_add (has_add ht
      (has_mulConst (h10.mono e) _)) (has_mulConst (h1.mono e) _)) (has_mulConst (h0.mono e) _)) _, ?_⟩
  cases b0 <;> cases b1 <;> cases b2 <;> simp [sel3] <;> ring

theorem runs_columns {s0 s1 s2 : CBool K} {s10 : CNum K} {b0 b1 b2 : Bool} (c : List (List K))
    (hc : ∀ col ∈ c, col.length = 8) (hs : s.Honest)
    (h0 : Has s s0.num (b2f b0)) (h1 : Has s s1.num (b2f b1)) (h2 : Has s s2.num (b2f b2))
    (h10 : Has s s10 (b2f b0 * b2f b1)) :
    Runs s (columns s0 s1 s2 s10 c) (fun r s' => List.Forall₂
      (fun x col => ∃ v, Has s' x v ∧ some v = col[sel3 b0 b1 b2]?) r c) := by
  induction c generalizing s with
  | nil => exact Runs.pure hs .nil
  | cons col c ih =>
    have hcol := hc col (by simp)
    match col, hcol with
    | [c0, c1, c2, c3, c4, c5, c6, c7], _ =>
      unfold columns
      refine Runs.bind (runs_column hs h0 h1 h2 h10 _ _ _ _ _ _ _ _) fun r s1 e1 hs1 hr => ?_
      refine Runs.bind (ih (fun col h => hc col (by simp [h])) hs1 (h0.mono e1) (h1.mono e1) (h2.mono e1)
        (h10.mono e1)) fun rs s2 e2 hs2 hrs => Runs.pure hs2 (.cons ?_ hrs)
      obtain ⟨v, hv, h⟩ := hr
      exact ⟨v, hv.mono e2, h⟩

theorem runs_mux3 (hs : s.Honest) {sb : List (CBool K)} {b0 b1 b2 : Bool}
    (h : CarriesBits s sb [b0, b1, b2]) (c : List (List K)) (hc : ∀ col ∈ c, col.length = 8) :
    Runs s (mux3 sb c) (fun r s' => List.Forall₂
      (fun x col => ∃ v, Has s' x v ∧ some v = col[sel3 b0 b1 b2]?) r c) := by
  match sb, h with
  | [s0, s1, s2], .cons h0 (.cons h1 (.cons h2 .nil)) =>
    unfold mux3
    refine Runs.bind (Runs.assert (Q := fun _ s' => s' = s) hs (by simp) rfl) ?_
    rintro _ s' _ _ rfl
    refine Runs.bind (Runs.assert (Q := fun _ s'' => s'' = s') hs ?_ rfl) ?_
    · simpa using hc
    rintro _ s'' _ _ rfl
    refine Runs.bind (runs_mul hs h0 h1) fun s10 s1' e1 hs1 h10 => ?_
    exact runs_columns c hc hs1 (h0.mono e1) (h1.mono e1) (h2.mono e1) h10

theorem rel_column {s0 s1 s2 s0' s1' s2' : CBool K} {s10 s10' : CNum K} (h0 : s0.num.lc = s0'.num.lc)
    (h1 : s1.num.lc = s1'.num.lc) (h2 : s2.num.lc = s2'.num.lc) (h10 : s10.lc = s10'.lc)
    (c0 c1 c2 c3 c4 c5 c6 c7 : K) :
    Rel (column s0 s1 s2 s10 c0 c1 c2 c3 c4 c5 c6 c7) (column s0' s1' s2' s10' c0 c1 c2 c3 c4 c5 c6 c7)
      (fun r r' => r.lc = r'.lc) := by
  unfold column
  exact Rel.bind (rel_mul (shape_addConst (shape_add (shape_add (shape_mulConst h10 _) (shape_mulConst h1 _))
    (shape_mulConst h0 _)) _) h2) fun t t' ht => Rel.pure (shape_addConst (shape_add (shape_add (shape_add ht
      (shape_mulConst h10 _)) (shape_mulConst h1 _)) (shape_mulConst h0 _)) _)

theorem rel_columns {s0 s1 s2 s0' s1' s2' : CBool K} {s10 s10' : CNum K} (h0 : s0.num.lc = s0'.num.lc)
    (h1 : s1.num.lc = s1'.num.lc) (h2 : s2.num.lc = s2'.num.lc) (h10 : s10.lc = s10'.lc) (c : List (List K)) :
    Rel (columns s0 s1 s2 s10 c) (columns s0' s1' s2' s10' c)
      (List.Forall₂ fun r r' => r.lc = r'.lc) := by
  induction c with
  | nil => exact Rel.pure .nil
  | cons col c ih =>
    by_cases hcol : col.length = 8
    · match col, hcol with
      | [c0, c1, c2, c3, c4, c5, c6, c7], _ =>
        unfold columns
        exact Rel.bind (rel_column h0 h1 h2 h10 _ _ _ _ _ _ _ _) fun r r' hr =>
          Rel.bind ih fun rs rs' hrs => Rel.pure (.cons hr hrs)
    · unfold columns
      split
      · next h => cases h
      · next h => injection h with ha _; subst ha; simp at hcol
      · exact Rel.panic_left

theorem rel_mux3 {a b : List (CBool K)} (h : List.Forall₂ (fun x y => x.num.lc = y.num.lc) a b)
    (c : List (List K)) : Rel (mux3 a c) (mux3 b c) (List.Forall₂ fun r r' => r.lc = r'.lc) := by
  unfold mux3
  refine Rel.bind (Rel.assert (Q := fun _ _ => a.length = 3) fun h _ => by simpa using h) fun _ _ hl => ?_
  refine Rel.bind (Rel.assert (Q := fun _ _ => True) fun _ _ => trivial) fun _ _ _ => ?_
  match a, b, h, hl with
  | [s0, s1, s2], [s0', s1', s2'], .cons h0 (.cons h1 (.cons h2 .nil)), _ =>
    exact Rel.bind (rel_mul h0 h1) fun s10 s10' h10 => rel_columns h0 h1 h2 h10 c

end mux

end Fawkes
