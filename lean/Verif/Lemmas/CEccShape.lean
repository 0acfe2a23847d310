import Verif.Model.Eddsa
import Verif.Lemmas.Bitify
import Verif.Lemmas.Poseidon

/-!
# The emitted constraints of the curve gadgets do not depend on witness values
-/

set_option linter.unusedSectionVars false

namespace Fawkes

/-- Equal linear combinations in both coordinates. -/
def CEdwardsPoint.Same {F : Type} (p q : CEdwardsPoint F) : Prop := p.x.lc = q.x.lc ∧ p.y.lc = q.y.lc

/-- Equal linear combinations in both coordinates. -/
def CMontgomeryPoint.Same {F : Type} (p q : CMontgomeryPoint F) : Prop := p.x.lc = q.x.lc ∧ p.y.lc = q.y.lc

section

variable {F : Type} [Field F] [DecidableEq F]

namespace CEdwardsPoint

theorem asConst_same {p q : CEdwardsPoint F} (h : p.Same q) : p.asConst = q.asConst := by
  unfold asConst; rw [CNum.asConst_congr h.1, CNum.asConst_congr h.2]

theorem rel_switch {t f t' f' : CEdwardsPoint F} {b b' : CBool F} (ht : t.Same t') (hf : f.Same f')
    (hb : b.num.lc = b'.num.lc) : Rel (switch t b f) (switch t' b' f') Same := by
  unfold switch
  exact Rel.bind (Fawkes.rel_switch ht.1 hf.1 hb) fun _ _ h1 =>
    Rel.bind (Fawkes.rel_switch ht.2 hf.2 hb) fun _ _ h2 => Rel.pure ⟨h1, h2⟩

theorem rel_alloc (u v : Option (EdwardsPoint F)) : Rel (alloc u) (alloc v) Same := by
  unfold alloc
  exact Rel.bind (Fawkes.rel_alloc _ _) fun _ _ h1 => Rel.bind (Fawkes.rel_alloc _ _) fun _ _ h2 => Rel.pure ⟨h1, h2⟩

theorem rel_double (J : JubJubParams F) {p q : CEdwardsPoint F} (h : p.Same q) :
    Rel (p.double J) (q.double J) Same := by
  unfold double
  refine Rel.bind (rel_mul h.1 h.2) fun v v' hv => ?_
  refine Rel.bind (rel_square hv) fun v2 v2' hv2 => ?_
  refine Rel.bind (rel_square (shape_add h.1 h.2)) fun u u' hu => ?_
  refine Rel.bind (rel_div (shape_mulConst hv _) (shape_addConst (shape_mulConst hv2 _) _)) fun x x' hx => ?_
  refine Rel.bind (rel_div (shape_sub hu (shape_mulConst hv _)) (shape_constSub (shape_mulConst hv2 _) _))
    fun y y' hy => ?_
  exact Rel.pure ⟨hx, hy⟩

theorem rel_mulByCofactor (J : JubJubParams F) {p q : CEdwardsPoint F} (h : p.Same q) :
    Rel (p.mulByCofactor J) (q.mulByCofactor J) Same := by
  unfold mulByCofactor
  exact Rel.bind (rel_double J h) fun _ _ h1 => Rel.bind (rel_double J h1) fun _ _ h2 => rel_double J h2

theorem rel_add (J : JubJubParams F) {p q p' q' : CEdwardsPoint F} (hp : p.Same p') (hq : q.Same q') :
    Rel (p.add q J) (p'.add q' J) Same := by
  unfold add
  refine Rel.bind (rel_mul hp.1 hq.2) fun v1 v1' h1 => ?_
  refine Rel.bind (rel_mul hq.1 hp.2) fun v2 v2' h2 => ?_
  refine Rel.bind (rel_mul h1 h2) fun v12 v12' h12 => ?_
  refine Rel.bind (rel_mul (shape_add hp.1 hp.2) (shape_add hq.1 hq.2)) fun u u' hu => ?_
  refine Rel.bind (rel_div (shape_add h1 h2) (shape_addConst (shape_mulConst h12 _) _)) fun x x' hx => ?_
  refine Rel.bind (rel_div (shape_sub (shape_sub hu h1) h2) (shape_constSub (shape_mulConst h12 _) _)) fun y y' hy => ?_
  exact Rel.pure ⟨hx, hy⟩

theorem rel_assertInCurve (J : JubJubParams F) {p q : CEdwardsPoint F} (h : p.Same q) :
    Rel (p.assertInCurve J) (q.assertInCurve J) (fun _ _ => True) := by
  unfold assertInCurve
  refine Rel.bind (rel_square h.1) fun x2 x2' hx => ?_
  refine Rel.bind (rel_square h.2) fun y2 y2' hy => ?_
  exact rel_enforce (shape_mulConst hx _) hy (shape_subConst (shape_sub hy hx) _)

theorem rel_assertInSubgroup (J : JubJubParams F) [Fact J.l.Prime] {p q : CEdwardsPoint F} (h : p.Same q) :
    Rel (p.assertInSubgroup J) (q.assertInSubgroup J) (fun _ _ => True) := by
  unfold assertInSubgroup
  refine Rel.bind (Rel.lift (Q := fun _ _ => True) fun _ _ _ _ => trivial) fun _ _ _ => ?_
  refine Rel.bind (rel_alloc _ _) fun a a' ha => ?_
  refine Rel.bind (rel_assertInCurve J ha) fun _ _ _ => ?_
  refine Rel.bind (rel_mulByCofactor J ha) fun b b' hb => ?_
  refine Rel.bind (rel_assertZero (shape_sub h.1 hb.1)) fun _ _ _ => ?_
  exact rel_assertZero (shape_sub h.2 hb.2)

theorem rel_subgroupDecompress (sqrt : F → Option F) (J : JubJubParams F) [Fact J.l.Prime] {x y : CNum F}
    (h : x.lc = y.lc) : Rel (subgroupDecompress sqrt x J) (subgroupDecompress sqrt y J) Same := by
  unfold subgroupDecompress
  refine Rel.bind (Rel.lift (Q := fun _ _ => True) fun _ _ _ _ => trivial) fun _ _ _ => ?_
  refine Rel.bind (rel_alloc _ _) fun a a' ha => ?_
  refine Rel.bind (rel_assertInCurve J ha) fun _ _ _ => ?_
  refine Rel.bind (rel_mulByCofactor J ha) fun b b' hb => ?_
  refine Rel.bind (rel_assertZero (shape_sub h hb.1)) fun _ _ _ => ?_
  exact Rel.pure hb

theorem rel_intoMontgomery {p q : CEdwardsPoint F} (h : p.Same q) :
    Rel p.intoMontgomery q.intoMontgomery CMontgomeryPoint.Same := by
  unfold intoMontgomery
  refine Rel.bind (rel_div (shape_addConst h.2 _) (shape_constSub h.2 _)) fun x x' hx => ?_
  exact Rel.bind (rel_div hx h.1) fun y y' hy => Rel.pure ⟨hx, hy⟩

end CEdwardsPoint

namespace CMontgomeryPoint

theorem rel_switch {t f t' f' : CMontgomeryPoint F} {b b' : CBool F} (ht : t.Same t') (hf : f.Same f')
    (hb : b.num.lc = b'.num.lc) : Rel (switch t b f) (switch t' b' f') Same := by
  unfold switch
  exact Rel.bind (Fawkes.rel_switch ht.1 hf.1 hb) fun _ _ h1 =>
    Rel.bind (Fawkes.rel_switch ht.2 hf.2 hb) fun _ _ h2 => Rel.pure ⟨h1, h2⟩

theorem rel_double (J : JubJubParams F) {p q : CMontgomeryPoint F} (h : p.Same q) :
    Rel (p.double J) (q.double J) Same := by
  unfold double
  refine Rel.bind (rel_square h.1) fun x2 x2' h2 => ?_
  refine Rel.bind (rel_div (shape_addConst (shape_add (shape_mulConst h2 _) (shape_mulConst h.1 _)) _)
    (shape_mulConst h.2 _)) fun l l' hl => ?_
  refine Rel.bind (rel_square hl) fun l2 l2' hl2 => ?_
  refine Rel.bind (rel_mul hl (shape_sub (shape_addConst (shape_mulConst h.1 _) _) (shape_mulConst hl2 _)))
    fun t t' ht => ?_
  exact Rel.pure ⟨shape_sub (shape_subConst (shape_mulConst hl2 _) _) (shape_mulConst h.1 _), shape_sub ht h.2⟩

theorem rel_add (J : JubJubParams F) {p q p' q' : CMontgomeryPoint F} (hp : p.Same p') (hq : q.Same q') :
    Rel (p.add q J) (p'.add q' J) Same := by
  unfold add
  refine Rel.bind (rel_div (shape_sub hq.2 hp.2) (shape_sub hq.1 hp.1)) fun l l' hl => ?_
  refine Rel.bind (rel_square hl) fun l2 l2' hl2 => ?_
  refine Rel.bind (rel_mul hl (shape_sub (shape_addConst (shape_addAssign (shape_mulConst hp.1 _) hq.1) _)
    (shape_mulConst hl2 _))) fun t t' ht => ?_
  exact Rel.pure ⟨shape_sub (shape_sub (shape_subConst (shape_mulConst hl2 _) _) hp.1) hq.1, shape_sub ht hp.2⟩

theorem rel_intoEdwards {p q : CMontgomeryPoint F} (h : p.Same q) :
    Rel p.intoEdwards q.intoEdwards CEdwardsPoint.Same := by
  unfold intoEdwards
  refine Rel.bind (rel_isZero h.2) fun z z' hz => ?_
  refine Rel.bind (rel_div h.1 (shape_addAssign hz h.2)) fun x x' hx => ?_
  refine Rel.bind (rel_div (shape_subConst h.1 _) (shape_addConst h.1 _)) fun y y' hy => ?_
  exact Rel.pure ⟨hx, hy⟩

end CMontgomeryPoint

namespace CEdwardsPoint

theorem rel_windowLoop (J : JubJubParams F) {a b : List (CBool F)}
    (h : List.Forall₂ (fun x y => x.num.lc = y.num.lc) a b) :
    ∀ {acc acc' : CMontgomeryPoint F}, acc.Same acc' → ∀ base : EdwardsPointEx F,
      Rel (windowLoop J a acc base) (windowLoop J b acc' base) CMontgomeryPoint.Same := by
  suffices H : ∀ n, ∀ {a b : List (CBool F)}, a.length ≤ n →
      List.Forall₂ (fun x y => x.num.lc = y.num.lc) a b →
      ∀ {acc acc' : CMontgomeryPoint F}, acc.Same acc' → ∀ base : EdwardsPointEx F,
      Rel (windowLoop J a acc base) (windowLoop J b acc' base) CMontgomeryPoint.Same from fun {acc acc'} hacc base => H a.length le_rfl h hacc base
  intro n
  induction n with
  | zero =>
    intro a b hl h acc acc' hacc base
    cases h with
    | nil => exact Rel.pure hacc
    | cons _ _ => simp at hl
  | succ n ih =>
    intro a b hl h acc acc' hacc base
    match a, b, h with
    | [], [], _ => exact Rel.pure hacc
    | [_], [_], _ => exact Rel.pure hacc
    | [_, _], [_, _], _ => exact Rel.pure hacc
    | b0 :: b1 :: b2 :: bits, c0 :: c1 :: c2 :: bits', .cons h0 (.cons h1 (.cons h2 h3)) =>
      unfold windowLoop
      refine Rel.bind (Rel.lift (Q := fun x y => x = y) ?_) ?_
      · intro x y hx hy; rw [hx] at hy; injection hy
      rintro table _ rfl
      refine Rel.bind (rel_mux3 (.cons h0 (.cons h1 (.cons h2 .nil))) table) fun res res' hr => ?_
      match res, res', hr with
      | [], [], _ => exact Rel.panic_left
      | [_], [_], _ => exact Rel.panic_left
      | [x, y], [x', y'], .cons hx (.cons hy .nil) =>
        refine Rel.bind (CMontgomeryPoint.rel_add J hacc (p := acc) (q := ⟨x, y⟩) (q' := ⟨x', y'⟩) ⟨hx, hy⟩)
          fun m m' hm => ?_
        exact ih (by simp at hl; omega) h3 hm _
      | _ :: _ :: _ :: _, _ :: _ :: _ :: _, _ => exact Rel.panic_left

theorem same_padBits3 {a b : List (CBool F)} (h : List.Forall₂ (fun x y => x.num.lc = y.num.lc) a b) :
    List.Forall₂ (fun x y => x.num.lc = y.num.lc) (padBits3 a) (padBits3 b) := by
  unfold padBits3
  rw [h.length_eq]
  refine List.rel_append h ?_
  generalize (3 - b.length % 3) % 3 = n
  induction n with
  | zero => exact .nil
  | succ n ih => exact .cons rfl ih

theorem rel_finish {p q : CMontgomeryPoint F} (h : p.Same q) : Rel (finish p) (finish q) Same := by
  unfold finish
  exact Rel.bind (CMontgomeryPoint.rel_intoEdwards h) fun _ _ hr => Rel.pure ⟨shape_neg hr.1, shape_neg hr.2⟩

theorem rel_mulConstBase (J : JubJubParams F) (c : EdwardsPoint F) {a b : List (CBool F)}
    (h : List.Forall₂ (fun x y => x.num.lc = y.num.lc) a b) :
    Rel (mulConstBase c a J) (mulConstBase c b J) Same := by
  unfold mulConstBase
  dsimp only
  split
  · exact Rel.pure ⟨rfl, rfl⟩
  · rw [(same_padBits3 h).length_eq]
    refine Rel.bind (Rel.lift (Q := fun x y => x = y) ?_) ?_
    · intro x y hx hy; rw [hx] at hy; injection hy
    rintro m _ rfl
    exact Rel.bind (rel_windowLoop J (same_padBits3 h) ⟨rfl, rfl⟩ _) fun _ _ hr => rel_finish hr

theorem rel_doublings (J : JubJubParams F) (n : Nat) {p q : CMontgomeryPoint F} (h : p.Same q) :
    Rel (doublings J n p) (doublings J n q) (List.Forall₂ CMontgomeryPoint.Same) := by
  induction n generalizing p q with
  | zero => exact Rel.pure .nil
  | succ n ih =>
    exact Rel.bind (CMontgomeryPoint.rel_double J h) fun _ _ h1 => Rel.bind (ih h1) fun _ _ h2 => Rel.pure (.cons h1 h2)

theorem rel_addLoop (J : JubJubParams F) {a b : List (CBool F)}
    (h : List.Forall₂ (fun x y => x.num.lc = y.num.lc) a b) {e e' : List (CMontgomeryPoint F)}
    (he : List.Forall₂ CMontgomeryPoint.Same e e') {acc acc' : CMontgomeryPoint F} (ha : acc.Same acc') :
    Rel (addLoop J a e acc) (addLoop J b e' acc') CMontgomeryPoint.Same := by
  induction h generalizing e e' acc acc' with
  | nil => cases he <;> exact Rel.pure ha
  | cons hb _ ih =>
    cases he with
    | nil => exact Rel.panic_left
    | cons h1 h2 =>
      unfold addLoop
      refine Rel.bind (CMontgomeryPoint.rel_add J ha h1) fun i i' hi => ?_
      exact Rel.bind (CMontgomeryPoint.rel_switch hi ha hb) fun c c' hc => ih h2 hc

theorem rel_mulVarBase (J : JubJubParams F) {p q : CEdwardsPoint F} (hp : p.Same q) {a b : List (CBool F)}
    (h : List.Forall₂ (fun x y => x.num.lc = y.num.lc) a b) :
    Rel (mulVarBase p a J) (mulVarBase q b J) Same := by
  unfold mulVarBase
  refine Rel.bind (rel_isZero hp.1) fun z z' hz => ?_
  refine Rel.bind (rel_switch ⟨rfl, rfl⟩ hp hz) fun c c' hc => ?_
  refine Rel.bind (rel_intoMontgomery hc) fun d d' hd => ?_
  rw [h.length_eq]
  refine Rel.bind (rel_doublings J _ hd) fun e e' he => ?_
  refine Rel.bind (rel_addLoop J h (.cons hd he) ⟨rfl, rfl⟩) fun f f' hf => ?_
  exact Rel.bind (CMontgomeryPoint.rel_switch ⟨rfl, rfl⟩ hf hz) fun _ _ hr => rel_finish hr

theorem rel_edMul (J : JubJubParams F) {p q : CEdwardsPoint F} (hp : p.Same q) {a b : List (CBool F)}
    (h : List.Forall₂ (fun x y => x.num.lc = y.num.lc) a b) : Rel (p.mul a J) (q.mul b J) Same := by
  unfold mul
  rw [asConst_same hp]
  split
  · exact rel_mulConstBase J _ h
  · exact rel_mulVarBase J hp h

end CEdwardsPoint

end

namespace CEdwardsPoint

variable {r : Nat} [Fact r.Prime]

theorem rel_checkAndGetY (sqrt : ZMod r → Option (ZMod r)) (J : JubJubParams (ZMod r)) {x y : CNum (ZMod r)}
    (h : x.lc = y.lc) : Rel (checkAndGetY sqrt x J) (checkAndGetY sqrt y J)
      (fun u v => u.1.num.lc = v.1.num.lc ∧ u.2.lc = v.2.lc) := by
  unfold checkAndGetY
  refine Rel.bind (rel_square h) fun x2 x2' h2 => ?_
  refine Rel.bind (rel_mul h2 (shape_addConst h _)) fun x3 x3' h3 => ?_
  refine Rel.bind (rel_divConst (shape_addAssign h3 h) _) fun g g' hg => ?_
  refine Rel.bind (Rel.lift (Q := fun _ _ => True) fun _ _ _ _ => trivial) fun _ _ _ => ?_
  refine Rel.bind (Fawkes.rel_alloc _ _) fun p p' hp => ?_
  refine Rel.bind (rel_strict hp) fun bits bits' hb => ?_
  cases hb with
  | nil => exact Rel.panic_left
  | cons hb _ =>
    refine Rel.bind (rel_assertConst hb _) fun _ _ _ => ?_
    refine Rel.bind (rel_square hp) fun s s' hs => ?_
    refine Rel.bind (rel_isZero (shape_sub hg hs)) fun u u' hu => ?_
    refine Rel.bind (rel_isZero (shape_sub (shape_mulConst hg _) hs)) fun v v' hv => ?_
    refine Rel.bind (rel_assertZero (shape_subConst (shape_addAssign hv hu) _)) fun _ _ _ => ?_
    exact Rel.pure ⟨hu, hp⟩

theorem rel_fromScalar (sqrt : ZMod r → Option (ZMod r)) (J : JubJubParams (ZMod r)) {t u : CNum (ZMod r)}
    (h : t.lc = u.lc) : Rel (fromScalar sqrt t J) (fromScalar sqrt u J) Same := by
  unfold fromScalar
  refine Rel.bind (rel_square (shape_addConst h _)) fun t2 t2' h2 => ?_
  refine Rel.bind (Rel.lift (Q := fun x y => x = y) ?_) ?_
  · intro x y hx hy; rw [hx] at hy; injection hy
  rintro i _ rfl
  have h3 := shape_mulConst (shape_addConst (shape_mulConst h2 J.u) 1) i
  refine Rel.bind (rel_div h3 (shape_mulConst h2 _)) fun x2 x2' hx2 => ?_
  refine Rel.bind (rel_checkAndGetY sqrt J hx2) ?_
  rintro ⟨v, y2⟩ ⟨v', y2'⟩ ⟨hv, hy2⟩
  refine Rel.bind (rel_checkAndGetY sqrt J h3) ?_
  rintro ⟨w, y3⟩ ⟨w', y3'⟩ ⟨hw, hy3⟩
  refine Rel.bind (Fawkes.rel_switch hx2 h3 hv) fun x x' hx => ?_
  refine Rel.bind (Fawkes.rel_switch hy2 hy3 hv) fun y y' hy => ?_
  refine Rel.bind (CMontgomeryPoint.rel_intoEdwards (p := ⟨x, y⟩) (q := ⟨x', y'⟩) ⟨hx, hy⟩) fun q q' hq => ?_
  exact rel_mulByCofactor J hq

end CEdwardsPoint

namespace Eddsa

variable {r : Nat} [Fact r.Prime]

theorem rel_cVerify (sqrt : ZMod r → Option (ZMod r)) (J : JubJubParams (ZMod r)) [Fact J.l.Prime]
    (P : PoseidonParams (ZMod r)) {s rx a m s' rx' a' m' : CNum (ZMod r)} (hs : s.lc = s'.lc)
    (hrx : rx.lc = rx'.lc) (ha : a.lc = a'.lc) (hm : m.lc = m'.lc) :
    Rel (cVerify sqrt J s rx a m P) (cVerify sqrt J s' rx' a' m' P) (fun u v => u.num.lc = v.num.lc) := by
  unfold cVerify
  refine Rel.bind (Rel.assert (Q := fun _ _ => True) fun _ _ => trivial) fun _ _ _ => ?_
  refine Rel.bind (CEdwardsPoint.rel_subgroupDecompress sqrt J ha) fun pa pa' hpa => ?_
  refine Rel.bind (CEdwardsPoint.rel_subgroupDecompress sqrt J hrx) fun pr pr' hpr => ?_
  refine Rel.bind (Rel.lift (Q := fun x y => x = y) ?_) ?_
  · intro x y hx hy; rw [hx] at hy; injection hy
  rintro seed _ rfl
  refine Rel.bind (CPoseidon.rel_poseidonWithSalt seed P (.cons hrx (.cons ha (.cons hm .nil)))) fun h h' hh => ?_
  refine Rel.bind (rel_strict hh) fun hb hb' hhb => ?_
  refine Rel.bind (CEdwardsPoint.rel_edMul J hpa hhb) fun x x' hx => ?_
  refine Rel.bind (rel_intoBits hs _) fun sb sb' hsb => ?_
  refine Rel.bind (CEdwardsPoint.rel_edMul J ⟨rfl, rfl⟩ hsb) fun y y' hy => ?_
  refine Rel.bind (CEdwardsPoint.rel_add J hx hpr) fun z z' hz => ?_
  exact rel_isZero (shape_sub hz.1 hy.1)

end Eddsa

end Fawkes
