import Verif.Lemmas.CEcc
import Verif.Spec.Native

/-!
# The Montgomery gadgets follow the chord and tangent formulas
-/

set_option linter.unusedSectionVars false

namespace Fawkes.Mode

variable {r : Nat} [Fact r.Prime] (md : Mode (ZMod r)) {s : CS (ZMod r)} {J : JubJubParams (ZMod r)}

theorem chord (hs : md.St s) {p q : CMontgomeryPoint (ZMod r)} {x1 y1 x2 y2 : ZMod r} (h1 : md.H s p.x x1) (h2 : md.H s p.y y1)
    (h3 : md.H s q.x x2) (h4 : md.H s q.y y2) (hne : x1 ≠ x2) (vy : Varies (CNum.sub q.y p.y)) :
    md.T s (p.add q J) (fun o s' => ∃ x y, Fawkes.chord J x1 y1 x2 y2 = [x, y] ∧ md.H s' o.x x ∧ md.H s' o.y y) := by
  unfold CMontgomeryPoint.add
  refine md.bind (md.div hs (md.sub h4 h2) (md.sub h3 h1) vy.asConst (sub_ne_zero.2 (Ne.symm hne))) fun l s1 e1 hs1 hl => ?_
  refine md.bind (md.mul hs1 hl hl) fun l2 s2 e2 hs2 hl2 => ?_
  have e12 := e1.trans e2
  refine md.bind (md.mul hs2 (md.mono e2 hl) (md.sub (md.addConst (md.addAssign (md.mulConst 2 (md.mono e12 h1)) (md.mono e12 h3)) J.a)
    (md.mulConst J.b hl2))) fun t s3 e3 hs3 ht => ?_
  have e13 := e12.trans e3
  refine md.pure hs3 ⟨_, _, rfl, ?_, ?_⟩
  · have := md.sub (md.sub (md.subConst (md.mono e3 (md.mulConst J.b hl2)) J.a) (md.mono e13 h1)) (md.mono e13 h3)
    convert this using 1; ring
  · have := md.sub ht (md.mono e13 h2)
    convert this using 1; ring

theorem tangent (hs : md.St s) {p : CMontgomeryPoint (ZMod r)} {x y : ZMod r} (h1 : md.H s p.x x) (h2 : md.H s p.y y)
    (hy : y ≠ 0) (two : (2 : ZMod r) ≠ 0) (ha : J.a ≠ 0) (hb : J.b ≠ 0) (vx : Varies p.x) :
    md.T s (p.double J) (fun o s' => ∃ x' y', Fawkes.tangent J x y = [x', y'] ∧ md.H s' o.x x' ∧ md.H s' o.y y') := by
  unfold CMontgomeryPoint.double
  refine md.bind (md.mul' hs h1 h1 vx vx) fun x2 s1 e1 hs1 h => ?_
  obtain ⟨hx2, fx2⟩ := h
  have vnum : Varies (CNum.addConst (CNum.add (CNum.mulConst x2 3) (CNum.mulConst p.x (2 * J.a))) 1) := by
    refine Varies.addConst ?_ 1
    by_cases h3 : (3 : ZMod r) = 0
    · obtain ⟨w, w', hw, hw', hv⟩ := varies_iff.1 vx
      refine varies_iff.2 ⟨w, w', hw, hw', fun e => hv ?_⟩
      rw [CNum.eval_add, CNum.eval_add, CNum.eval_mulConst hw, CNum.eval_mulConst hw', CNum.eval_mulConst hw,
        CNum.eval_mulConst hw', h3, mul_zero, mul_zero, zero_add, zero_add] at e
      exact mul_right_cancel₀ (mul_ne_zero two ha) e
    · exact ((fx2.newIn.mulConst h3).add (alloc_mulConst (md.alloc h1) _)).varies
  refine md.bind (md.div hs1 (md.addConst (md.add (md.mulConst 3 hx2) (md.mulConst (2 * J.a) (md.mono e1 h1))) 1)
    (md.mulConst (2 * J.b) (md.mono e1 h2)) vnum.asConst (mul_ne_zero hy (mul_ne_zero two hb))) fun l s2 e2 hs2 hl => ?_
  refine md.bind (md.mul hs2 hl hl) fun l2 s3 e3 hs3 hl2 => ?_
  have e13 := (e1.trans e2).trans e3
  refine md.bind (md.mul hs3 (md.mono e3 hl) (md.sub (md.addConst (md.mulConst 3 (md.mono e13 h1)) J.a) (md.mulConst J.b hl2)))
    fun t s4 e4 hs4 ht => ?_
  have e14 := e13.trans e4
  have el : (3 * x ^ 2 + 2 * J.a * x + 1) / (2 * J.b * y) = (x * x * 3 + x * (2 * J.a) + 1) / (y * (2 * J.b)) := by
    congr 1 <;> ring
  refine md.pure hs4 ⟨_, _, rfl, ?_, ?_⟩
  · have := md.sub (md.subConst (md.mono e4 (md.mulConst J.b hl2)) J.a) (md.mulConst 2 (md.mono e14 h1))
    convert this using 1; rw [el]; ring
  · have := md.sub ht (md.mono e14 h2)
    convert this using 1; rw [el]; ring

theorem toEdwards (hs : md.St s) {p : CMontgomeryPoint (ZMod r)} {x y : ZMod r} (h1 : md.H s p.x x) (h2 : md.H s p.y y)
    (hx : x ≠ -1) (hy : y ≠ 0 ∨ x = 0) (hz : md.Z y) (vx : Varies p.x) :
    md.T s p.intoEdwards (fun o s' => ∃ z, MontgomeryPoint.intoAffine ⟨x, y⟩ = .ok z ∧ md.H s' o.x z.x ∧ md.H s' o.y z.y) := by
  unfold CMontgomeryPoint.intoEdwards
  refine md.bind (md.isZero hs h2 hz) fun z s1 e1 hs1 hz => ?_
  have hden : (if y = 0 then 1 else 0) + y ≠ 0 := by
    split
    · next h => rw [h, add_zero]; exact one_ne_zero
    · next h => rw [zero_add]; exact h
  refine md.bind (md.div hs1 (md.mono e1 h1) (md.addAssign hz (md.mono e1 h2)) vx.asConst hden) fun ex s2 e2 hs2 hex => ?_
  have hx1 : x + 1 ≠ 0 := fun h => hx (eq_neg_of_add_eq_zero_left h)
  refine md.bind (md.div hs2 (md.subConst (md.mono (e1.trans e2) h1) 1) (md.addConst (md.mono (e1.trans e2) h1) 1) (vx.subConst 1).asConst hx1)
    fun ey s3 e3 hs3 hey => ?_
  refine md.pure hs3 ?_
  unfold MontgomeryPoint.intoAffine
  by_cases h0 : x = 0
  · subst h0
    refine ⟨⟨0, -1⟩, by rw [if_pos rfl], ?_, ?_⟩
    · have := md.mono e3 hex; rwa [zero_div] at this
    · rwa [zero_sub, zero_add, div_one] at hey
  · have hy : y ≠ 0 := hy.resolve_right h0
    refine ⟨⟨x / y, (x - 1) / (x + 1)⟩, ?_, ?_, hey⟩
    · rw [if_neg h0]
      simp only [Num.div, Num.inverse, if_neg hy, if_neg hx1]
      rw [div_eq_mul_inv, div_eq_mul_inv]; rfl
    · have := md.mono e3 hex
      rwa [if_neg hy, zero_add] at this

theorem toMontgomery (hs : md.St s) {p : CEdwardsPoint (ZMod r)} {x y : ZMod r} (h1 : md.H s p.x x) (h2 : md.H s p.y y)
    (hx : x ≠ 0) (hy : y ≠ 1) (vy : Varies p.y) :
    md.T s p.intoMontgomery (fun o s' => ∃ z, EdwardsPoint.intoMontgomery ⟨x, y⟩ = .ok (some z) ∧ md.H s' o.x z.x ∧ md.H s' o.y z.y) := by
  unfold CEdwardsPoint.intoMontgomery
  have hy1 : 1 - y ≠ 0 := sub_ne_zero.2 (Ne.symm hy)
  refine md.bind (md.div' hs (md.addConst h2 1) (md.constSub h2 1) (vy.addConst 1) (vy.constSub 1) hy1) fun mx s1 e1 hs1 h => ?_
  refine md.bind (md.div hs1 h.1 (md.mono e1 h1) h.2.varies.asConst hx) fun my s2 e2 hs2 hmy => ?_
  refine md.pure hs2 ⟨⟨(y + 1) / (1 - y), (y + 1) / (1 - y) / x⟩, ?_, md.mono e2 h.1, hmy⟩
  unfold EdwardsPoint.intoMontgomery
  rw [if_neg hx]
  simp only [Num.div, Num.inverse, if_neg hx, if_neg hy1]
  rw [div_eq_mul_inv, div_eq_mul_inv, add_comm y 1]; rfl

end Fawkes.Mode
