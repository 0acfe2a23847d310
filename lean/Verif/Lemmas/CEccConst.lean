import Verif.Lemmas.CEcc

/-!
# Adding constant points
-/

set_option linter.unusedSectionVars false

namespace Fawkes

variable {F : Type} [Field F] [DecidableEq F]

namespace CNum

theorem asConst_iff {a : CNum F} {x : F} : a.asConst = some x ↔ (a.lc = [] ∧ x = 0) ∨ a.lc = [(.input 0, x)] := by
  unfold asConst
  rcases a with ⟨v, l⟩
  match l with
  | [] => simp [eq_comm]
  | [(k, c)] =>
    by_cases hk : k = .input 0
    · simp [hk]
    · simp [hk]
  | p :: q :: l => simp

/-- A constant that knows its value. -/
def IsConst (a : CNum F) (x : F) : Prop := a.asConst = some x ∧ a.value = some x

theorem isConst_fromConst (x : F) : IsConst (fromConst x) x := ⟨by simp [asConst, fromConst], rfl⟩

theorem asConst_addAssign {a b : CNum F} {x y : F} (ha : a.asConst = some x) (hb : b.asConst = some y) :
    (addAssign a b).asConst = some (x + y) := by
  rw [asConst_iff] at ha hb ⊢
  unfold addAssign
  rcases ha with ⟨h, rfl⟩ | h <;> rcases hb with ⟨h', rfl⟩ | h' <;> rw [h, h']
  · simp [LC.add, LC.mergeLoop]
  · simp [LC.add, LC.mergeLoop, LC.mergeStep, LC.lookup]
  · simp [LC.add, LC.mergeLoop]
  · by_cases h0 : x + y = 0
    · simp [LC.add, LC.mergeLoop, LC.mergeStep, LC.lookup, h0]
    · simp [LC.add, LC.mergeLoop, LC.mergeStep, LC.lookup, h0]

theorem asConst_map {a : CNum F} {x : F} (ha : a.asConst = some x) (f : F → F) (hf : f 0 = 0) (v : Option F) :
    (⟨v, a.lc.map fun kv => (kv.1, f kv.2)⟩ : CNum F).asConst = some (f x) := by
  rw [asConst_iff] at ha ⊢
  rcases ha with ⟨h, rfl⟩ | h <;> rw [h]
  · simp [hf]
  · simp

theorem IsConst.addAssign {a b : CNum F} {x y : F} (ha : IsConst a x) (hb : IsConst b y) : IsConst (addAssign a b) (x + y) :=
  ⟨asConst_addAssign ha.1 hb.1, by simp [CNum.addAssign, value₂, ha.2, hb.2]⟩

theorem IsConst.add {a b : CNum F} {x y : F} (ha : IsConst a x) (hb : IsConst b y) : IsConst (add a b) (x + y) := by
  unfold CNum.add
  split
  · exact ha.addAssign hb
  · rw [add_comm]; exact hb.addAssign ha

theorem IsConst.sub {a b : CNum F} {x y : F} (ha : IsConst a x) (hb : IsConst b y) : IsConst (sub a b) (x - y) := by
  refine ⟨?_, by simp [CNum.sub, value₂, ha.2, hb.2]⟩
  have h := asConst_addAssign ha.1 (asConst_map hb.1 (- ·) (by simp) none)
  rw [← sub_eq_add_neg] at h
  exact h

theorem IsConst.mulConst {a : CNum F} {x : F} (ha : IsConst a x) (k : F) : IsConst (mulConst a k) (x * k) := by
  unfold CNum.mulConst
  split
  · next h => rw [h, mul_zero]; exact isConst_fromConst 0
  · exact ⟨asConst_map ha.1 (· * k) (by simp) _, by simp [ha.2]⟩

theorem IsConst.addConst {a : CNum F} {x : F} (ha : IsConst a x) (k : F) : IsConst (addConst a k) (x + k) :=
  ha.addAssign (isConst_fromConst k)

theorem IsConst.constSub {a : CNum F} {x : F} (ha : IsConst a x) (k : F) : IsConst (constSub k a) (k - x) :=
  (isConst_fromConst k).sub ha

theorem IsConst.mul {a b : CNum F} {x y : F} (ha : IsConst a x) (hb : IsConst b y) :
    ∃ c, CNum.mul a b = pure c ∧ IsConst c (x * y) := by
  refine ⟨_, by unfold CNum.mul; rw [ha.1], ?_⟩
  rw [mul_comm]; exact hb.mulConst x

/-- Division of constants: the quotient is upside down, and `0 / y` panics. -/
theorem IsConst.div {a b : CNum F} {x y : F} (ha : IsConst a x) (hb : IsConst b y) :
    (x = 0 → CNum.div a b = M.panic .divByZero) ∧ (x ≠ 0 → ∃ c, CNum.div a b = pure c ∧ IsConst c (y / x)) := by
  unfold CNum.div
  rw [ha.1]
  constructor
  · rintro rfl
    simp [divConst, hb.2]
  · intro h
    refine ⟨⟨b.value.map (· / x), b.lc.map fun kv => (kv.1, kv.2 / x)⟩, by simp only [divConst, h, false_and, if_false],
      asConst_map hb.1 (· / x) (by simp) _, by simp [hb.2]⟩

/-- A signal times a constant. -/
theorem mul_const_left {a b : CNum F} {x : F} (ha : a.asConst = some x) : CNum.mul a b = pure (CNum.mulConst b x) := by
  unfold CNum.mul; rw [ha]

theorem mul_const_right {a b : CNum F} {y : F} (ha : a.asConst = none) (hb : b.asConst = some y) :
    CNum.mul a b = pure (CNum.mulConst a y) := by
  unfold CNum.mul; rw [ha, hb]

theorem asConst_add {a b : CNum F} {x y : F} (ha : a.asConst = some x) (hb : b.asConst = some y) :
    (add a b).asConst = some (x + y) := by
  unfold CNum.add
  split
  · exact asConst_addAssign ha hb
  · rw [add_comm]; exact asConst_addAssign hb ha

end CNum


theorem Independent.of_fresh {s : CS F} {a b : CNum F} (ha : a.lc.Alloc s) (va : Varies a) (hb : FreshVar s b) : Independent [a, b] := by
  obtain ⟨k, -, -, h1, h0⟩ := hb.key
  intro ks hk hc
  match ks, hk with
  | [k0, k1], _ =>
    simp only [combine, List.zipWith_cons_cons, List.zipWith_nil_right, List.sum_cons, List.sum_nil, add_zero] at hc
    have e1 : k1 = 0 := by
      have h := hc _ _ (bump_isAssignment k) (bump_isAssignment (.input 0))
      have ha := h0 a ha
      unfold coef CNum.eval at ha h1
      linear_combination h - k0 * ha - k1 * h1
    subst e1
    have e0 : k0 = 0 := by
      obtain ⟨w, w', hw, hw', hne⟩ := va
      have h := hc w w' hw hw'
      rw [zero_mul, add_zero, zero_mul, add_zero] at h
      by_contra hk
      exact hne (mul_left_cancel₀ hk h)
    subst e0
    simp

/-- A quotient of a signal that varies by anything varies. -/
theorem post_div_varies {s : CS F} (hs : s.WF) {a b : CNum F} (va : Varies a) :
    Post s (CNum.div a b) (fun c _ => Varies c) := by
  unfold CNum.div
  rw [va.asConst]
  split
  · next h => cases h
  · next y _ h =>
    refine (post_divConst a y).mono ?_
    rintro q s' _ ⟨-, hl, -, hn⟩
    obtain ⟨w, w', hw, hw', hne⟩ := va
    have hy : y ≠ 0 := by
      rintro rfl
      refine hn ⟨rfl, Or.inr fun e => hne ?_⟩
      rw [e]; rfl
    refine ⟨w, w', hw, hw', ?_⟩
    rw [hl]
    rw [LC.eval_map_div, LC.eval_map_div]
    exact fun e => hne ((div_left_inj' hy).1 e)
  · refine Post.bind Post.true fun v s1 e1 _ => ?_
    refine Post.bind (post_alloc_fresh (e1.wf hs) _) ?_
    rintro c s2 e2 ⟨hf, -⟩
    exact Post.bind Post.true fun _ s3 _ _ => Post.pure hf.varies

/-- A quotient by a constant. -/
theorem post_div_const {s : CS F} {a b : CNum F} {y : F} (va : Varies a) (hb : b.asConst = some y) :
    Post s (CNum.div a b) (fun c s' => y ≠ 0 ∧ ∀ w, c.lc.eval w = a.lc.eval w / y) := by
  unfold CNum.div
  rw [va.asConst, hb]
  refine (post_divConst a y).mono ?_
  rintro q s' _ ⟨-, hl, -, hn⟩
  refine ⟨?_, fun w => by rw [hl, LC.eval_map_div]⟩
  rintro rfl
  obtain ⟨w, w', hw, hw', hne⟩ := va
  refine hn ⟨rfl, Or.inr fun e => hne ?_⟩
  rw [e]; rfl

theorem Independent.intro {a b : CNum F} (h : ∀ k0 k1 : F, (∀ w w', IsAssignment w → IsAssignment w' →
    k0 * a.lc.eval w + k1 * b.lc.eval w = k0 * a.lc.eval w' + k1 * b.lc.eval w') → k0 = 0 ∧ k1 = 0) : Independent [a, b] := by
  intro ks hk hc
  match ks, hk with
  | [k0, k1], _ =>
    simp only [combine, List.zipWith_cons_cons, List.zipWith_nil_right, List.sum_cons, List.sum_nil, add_zero] at hc
    obtain ⟨rfl, rfl⟩ := h k0 k1 hc
    simp

theorem Independent.elim {a b : CNum F} (h : Independent [a, b]) {k0 k1 : F} (hc : ∀ w w', IsAssignment w → IsAssignment w' →
    k0 * a.lc.eval w + k1 * b.lc.eval w = k0 * a.lc.eval w' + k1 * b.lc.eval w') : k0 = 0 ∧ k1 = 0 := by
  have := h [k0, k1] rfl (by
    simpa only [combine, List.zipWith_cons_cons, List.zipWith_nil_right, List.sum_cons, List.sum_nil, add_zero] using hc)
  exact ⟨this k0 (by simp), this k1 (by simp)⟩

/-- Two combinations of independent signals with an invertible matrix. -/
theorem Independent.matrix {a b n m : CNum F} (h : Independent [a, b]) {x y : F} (hdet : y * y - x * x ≠ 0)
    (hn : ∀ w, IsAssignment w → n.lc.eval w = y * a.lc.eval w + x * b.lc.eval w)
    (hm : ∀ w, IsAssignment w → m.lc.eval w = x * a.lc.eval w + y * b.lc.eval w) : Independent [n, m] := by
  refine Independent.intro fun k0 k1 hc => ?_
  obtain ⟨e0, e1⟩ := h.elim (k0 := k0 * y + k1 * x) (k1 := k0 * x + k1 * y) fun w w' hw hw' => by
    have := hc w w' hw hw'
    rw [hn w hw, hn w' hw', hm w hw, hm w' hw'] at this
    linear_combination this
  constructor
  · exact mul_right_cancel₀ hdet (by linear_combination y * e0 - x * e1)
  · exact mul_right_cancel₀ hdet (by linear_combination y * e1 - x * e0)

/-- Two quotients of independent signals by signals that vary. -/
theorem post_quotients {s : CS F} (hs : s.WF) {n m c d : CNum F} (h : Independent [n, m]) (an : n.lc.Alloc s) (am : m.lc.Alloc s)
    (ac : c.lc.Alloc s) (ad : d.lc.Alloc s) (hcd : (Varies c ∧ Varies d) ∨ (∃ y z, c.asConst = some y ∧ d.asConst = some z)) :
    Post s (do let x ← CNum.div n c
               let y ← CNum.div m d
               pure (⟨x, y⟩ : CEdwardsPoint F)) (fun o _ => Independent [o.x, o.y]) := by
  obtain ⟨vn, vm⟩ := h.varies
  rcases hcd with ⟨vc, vd⟩ | ⟨y, z, hc, hd⟩
  · refine Post.bind (post_div_fresh hs an ac vn vc) fun x s1 e1 h1 => ?_
    refine Post.bind (post_div_fresh (e1.wf hs) (am.mono e1) (ad.mono e1) vm vd) fun y s2 e2 h2 => ?_
    exact Post.pure (Independent.of_fresh h1.2 h1.1.varies h2.1)
  · refine Post.bind (post_div_const vn hc) fun u s1 e1 h1 => ?_
    refine Post.bind (post_div_const vm hd) fun v s2 e2 h2 => ?_
    refine Post.pure (Independent.intro fun k0 k1 hk => ?_)
    obtain ⟨e0, e1⟩ := h.elim (k0 := k0 / y) (k1 := k1 / z) fun w w' hw hw' => by
      have := hk w w' hw hw'
      dsimp only at this
      rw [h1.2, h1.2, h2.2, h2.2] at this
      linear_combination this
    exact ⟨(div_eq_zero_iff.1 e0).resolve_right h1.1, (div_eq_zero_iff.1 e1).resolve_right h2.1⟩

/-- The circuit of `add` after the products with the constants. -/
def CEdwardsPoint.addTail (v1 v2 u : CNum F) (J : JubJubParams F) : M F (CEdwardsPoint F) := do
  let v12 ← CNum.mul v1 v2
  let x ← CNum.div (CNum.add v1 v2) (CNum.addConst (CNum.mulConst v12 J.d) 1)
  let y ← CNum.div (CNum.sub (CNum.sub u v1) v2) (CNum.constSub 1 (CNum.mulConst v12 J.d))
  pure ⟨x, y⟩

theorem CNum.asConst_mulConst {a : CNum F} {x : F} (ha : a.asConst = some x) (k : F) : (CNum.mulConst a k).asConst = some (x * k) := by
  unfold CNum.mulConst
  split
  · next h => rw [h, mul_zero]; exact CNum.asConst_fromConst 0
  · exact asConst_map ha (· * k) (by simp) _

theorem CNum.asConst_mulConst_zero (a : CNum F) : (CNum.mulConst a 0).asConst = some 0 := by
  rw [CNum.mulConst, if_pos rfl]; exact CNum.asConst_fromConst 0

section tail

variable {C : EdCurve F} {J : JubJubParams F} {s : CS F}

/-- The denominators: both vary, or both are constants. -/
theorem post_mul_denoms (hs : s.WF) (hJ : J.d ≠ 0) {v1 v2 : CNum F} (a1 : v1.lc.Alloc s) (a2 : v2.lc.Alloc s)
    (h : (Varies v1 ∧ Varies v2) ∨ v1.asConst = some 0 ∨ v2.asConst = some 0) :
    Post s (CNum.mul v1 v2) (fun v12 s' => v12.lc.Alloc s' ∧
      ((Varies (CNum.addConst (CNum.mulConst v12 J.d) 1) ∧ Varies (CNum.constSub 1 (CNum.mulConst v12 J.d))) ∨
        ∃ y z, (CNum.addConst (CNum.mulConst v12 J.d) 1).asConst = some y ∧ (CNum.constSub 1 (CNum.mulConst v12 J.d)).asConst = some z)) := by
  refine ((post_mul hs v1 v2).mono (fun c s' _ h => h.1 a1 a2)).and ?_
  have hconst : ∀ v12 : CNum F, v12.asConst = some 0 →
      ∃ y z, (CNum.addConst (CNum.mulConst v12 J.d) 1).asConst = some y ∧ (CNum.constSub 1 (CNum.mulConst v12 J.d)).asConst = some z := by
    intro v12 h0
    have hm := CNum.asConst_mulConst h0 J.d
    have h2 := CNum.asConst_addAssign (CNum.isConst_fromConst (1 : F)).1 (CNum.asConst_map hm (- ·) (by simp) none)
    exact ⟨_, _, CNum.asConst_addAssign hm (CNum.isConst_fromConst 1).1, h2⟩
  rcases h with ⟨h1, h2⟩ | h | h
  · refine (post_mul hs v1 v2).mono fun c s' _ h => Or.inl ?_
    have hv := (h.2 h1.asConst h2.asConst).varies.mulConst hJ
    exact ⟨hv.addConst 1, hv.constSub 1⟩
  · unfold CNum.mul
    rw [h]
    exact Post.pure (Or.inr (hconst _ (CNum.asConst_mulConst_zero _)))
  · unfold CNum.mul
    split
    · next x h1 => 
      refine Post.pure (Or.inr (hconst _ ?_))
      rw [CNum.asConst_mulConst h, zero_mul]
    · next hy _ =>
      rw [h] at hy; cases hy
      exact Post.pure (Or.inr (hconst _ (CNum.asConst_mulConst_zero _)))
    · next _ hy => rw [h] at hy; cases hy

theorem Mode.addTail (md : Mode F) (hd : J.d = C.d) (hs : md.St s) {P Q : EdPoint C} {v1 v2 u : CNum F}
    (h1 : md.H s v1 (P.x * Q.y)) (h2 : md.H s v2 (Q.x * P.y)) (hu : md.H s u ((P.x + P.y) * (Q.x + Q.y)))
    (hv : (Varies v1 ∧ Varies v2) ∨ v1.asConst = some 0 ∨ v2.asConst = some 0)
    (hi : Independent [CNum.add v1 v2, CNum.sub (CNum.sub u v1) v2]) :
    md.T s (CEdwardsPoint.addTail v1 v2 u J) (fun r s' => md.Ed s' r (P + Q) ∧ Independent [r.x, r.y]) := by
  have hd1 := EdPoint.denom_add_ne C P.on Q.on
  have hd2 := EdPoint.denom_sub_ne C P.on Q.on
  have hdz : J.d ≠ 0 := by rw [hd]; exact C.d_ne_zero
  obtain ⟨n1, n2⟩ := hi.varies
  unfold CEdwardsPoint.addTail
  refine md.bind (md.post (md.mul hs h1 h2) (post_mul_denoms (md.wf hs) hdz (md.alloc h1) (md.alloc h2) hv)) fun v12 s1 e1 hs1 h12 => ?_
  obtain ⟨hv12, -, hcd⟩ := h12
  have hn1 := md.add (md.mono e1 h1) (md.mono e1 h2)
  have hn2 := md.sub (md.sub (md.mono e1 hu) (md.mono e1 h1)) (md.mono e1 h2)
  have hc := md.addConst (md.mulConst J.d hv12) 1
  have hdd := md.constSub (md.mulConst J.d hv12) 1
  refine md.post ?_ (post_quotients (md.wf hs1) hi (md.alloc hn1) (md.alloc hn2) (md.alloc hc) (md.alloc hdd) hcd)
  refine md.bind (md.div hs1 hn1 hc n1.asConst (fun e => hd1 (by rw [hd] at e; linear_combination e))) fun x s2 e2 hs2 hx => ?_
  refine md.bind (md.div hs2 (md.mono e2 hn2) (md.mono e2 hdd) n2.asConst (fun e => hd2 (by rw [hd] at e; linear_combination e)))
    fun y s3 e3 hs3 hy => ?_
  refine md.pure hs3 ⟨?_, ?_⟩
  · have : (P + Q).x = (P.x * Q.y + Q.x * P.y) / (P.x * Q.y * (Q.x * P.y) * J.d + 1) := by
      rw [EdPoint.add_x, hd]; congr 1 <;> ring
    rw [this]
    exact md.mono e3 hx
  · have : (P + Q).y = ((P.x + P.y) * (Q.x + Q.y) - P.x * Q.y - Q.x * P.y) / (1 - P.x * Q.y * (Q.x * P.y) * J.d) := by
      rw [EdPoint.add_y, hd]; congr 1 <;> ring
    rw [this]
    exact hy

theorem EdPoint.det_ne (P : EdPoint C) : P.y * P.y - P.x * P.x ≠ 0 := by
  have h1 := EdPoint.denom_add_ne C P.on P.on
  intro h
  apply h1
  have := P.on
  unfold OnCurve at this
  linear_combination h - this

/-- A constant point plus a point with independent coordinates. -/
theorem Mode.edAdd_const_left (md : Mode F) (hd : J.d = C.d) (hs : md.St s) {p q : CEdwardsPoint F} {P Q : EdPoint C}
    (hp : md.Ed s p P) (hq : md.Ed s q Q) (cx : p.x.asConst = some P.x) (cy : p.y.asConst = some P.y)
    (hi : Independent [q.x, q.y]) :
    md.T s (p.add q J) (fun r s' => md.Ed s' r (P + Q) ∧ Independent [r.x, r.y]) := by
  obtain ⟨vx, vy⟩ := hi.varies
  have e : p.add q J = CEdwardsPoint.addTail (CNum.mulConst q.y P.x) (CNum.mulConst q.x P.y) (CNum.mulConst (CNum.add q.x q.y) (P.x + P.y)) J := by
    unfold CEdwardsPoint.add CEdwardsPoint.addTail
    rw [CNum.mul_const_left cx, CNum.mul_const_right vx.asConst cy, CNum.mul_const_left (CNum.asConst_add cx cy)]
    simp only [pure_bind]
  rw [e]
  refine md.addTail hd hs ?_ (md.mulConst _ hq.1) ?_ ?_ ?_
  · rw [mul_comm]; exact md.mulConst _ hq.2
  · rw [mul_comm]; exact md.mulConst _ (md.add hq.1 hq.2)
  · by_cases hx : P.x = 0
    · right; left; rw [hx]; exact CNum.asConst_mulConst_zero _
    · by_cases hy : P.y = 0
      · right; right; rw [hy]; exact CNum.asConst_mulConst_zero _
      · exact Or.inl ⟨vy.mulConst hx, vx.mulConst hy⟩
  · refine hi.matrix P.det_ne (fun w hw => ?_) (fun w hw => ?_)
    · change CNum.eval w _ = P.y * CNum.eval w _ + P.x * CNum.eval w _
      rw [CNum.eval_add, CNum.eval_mulConst hw, CNum.eval_mulConst hw]; ring
    · change CNum.eval w _ = P.x * CNum.eval w _ + P.y * CNum.eval w _
      rw [CNum.eval_sub, CNum.eval_sub, CNum.eval_mulConst hw, CNum.eval_mulConst hw, CNum.eval_mulConst hw, CNum.eval_add]; ring

/-- A point with independent coordinates plus a constant point. -/
theorem Mode.edAdd_const_right (md : Mode F) (hd : J.d = C.d) (hs : md.St s) {p q : CEdwardsPoint F} {P Q : EdPoint C}
    (hp : md.Ed s p P) (hq : md.Ed s q Q) (cx : q.x.asConst = some Q.x) (cy : q.y.asConst = some Q.y)
    (hi : Independent [p.x, p.y]) :
    md.T s (p.add q J) (fun r s' => md.Ed s' r (P + Q) ∧ Independent [r.x, r.y]) := by
  obtain ⟨vx, vy⟩ := hi.varies
  have vxy : Varies (CNum.add p.x p.y) := by
    by_contra hn
    obtain ⟨m, hm⟩ := not_varies hn
    exact one_ne_zero (hi.two (k0 := 1) (k1 := 1) (m := m) fun w hw => by rw [← hm w hw, CNum.eval_add]; ring).1
  have e : p.add q J = CEdwardsPoint.addTail (CNum.mulConst p.x Q.y) (CNum.mulConst p.y Q.x) (CNum.mulConst (CNum.add p.x p.y) (Q.x + Q.y)) J := by
    unfold CEdwardsPoint.add CEdwardsPoint.addTail
    rw [CNum.mul_const_left cx, CNum.mul_const_right vx.asConst cy, CNum.mul_const_right vxy.asConst (CNum.asConst_add cx cy)]
    simp only [pure_bind]
  rw [e]
  refine md.addTail hd hs (md.mulConst _ hp.1) ?_ (md.mulConst _ (md.add hp.1 hp.2)) ?_ ?_
  · rw [mul_comm]; exact md.mulConst _ hp.2
  · by_cases hy : Q.y = 0
    · right; left; rw [hy]; exact CNum.asConst_mulConst_zero _
    · by_cases hx : Q.x = 0
      · right; right; rw [hx]; exact CNum.asConst_mulConst_zero _
      · exact Or.inl ⟨vx.mulConst hy, vy.mulConst hx⟩
  · refine hi.matrix Q.det_ne (fun w hw => ?_) (fun w hw => ?_)
    · change CNum.eval w _ = Q.y * CNum.eval w _ + Q.x * CNum.eval w _
      rw [CNum.eval_add, CNum.eval_mulConst hw, CNum.eval_mulConst hw]; ring
    · change CNum.eval w _ = Q.x * CNum.eval w _ + Q.y * CNum.eval w _
      rw [CNum.eval_sub, CNum.eval_sub, CNum.eval_mulConst hw, CNum.eval_mulConst hw, CNum.eval_mulConst hw, CNum.eval_add]; ring

/-- Adding two constant points: the coordinates of the sum are inverted, and a sum with a zero coordinate panics. -/
theorem edAdd_constants (hd : J.d = C.d) {p q : CEdwardsPoint F} {P Q : EdPoint C} (px : p.x.IsConst P.x) (py : p.y.IsConst P.y)
    (qx : q.x.IsConst Q.x) (qy : q.y.IsConst Q.y) :
    ((P + Q).x = 0 ∨ (P + Q).y = 0 → p.add q J = M.panic .divByZero) ∧
    ((P + Q).x ≠ 0 → (P + Q).y ≠ 0 → ∃ o, p.add q J = pure o ∧ o.x.IsConst (P + Q).x⁻¹ ∧ o.y.IsConst (P + Q).y⁻¹) := by
  have hd1 := EdPoint.denom_add_ne C P.on Q.on
  have hd2 := EdPoint.denom_sub_ne C P.on Q.on
  obtain ⟨v1, e1, h1⟩ := px.mul qy
  obtain ⟨v2, e2, h2⟩ := qx.mul py
  obtain ⟨v12, e12, h12⟩ := h1.mul h2
  obtain ⟨u, eu, hu⟩ := (px.add py).mul (qx.add qy)
  have hX := (h1.add h2).div ((h12.mulConst J.d).addConst 1)
  have hY := ((hu.sub h1).sub h2).div ((h12.mulConst J.d).constSub 1)
  have ex : (P + Q).x = (P.x * Q.y + Q.x * P.y) / (P.x * Q.y * (Q.x * P.y) * J.d + 1) := by
    rw [EdPoint.add_x, hd]; congr 1 <;> ring
  have ey : (P + Q).y = ((P.x + P.y) * (Q.x + Q.y) - P.x * Q.y - Q.x * P.y) / (1 - P.x * Q.y * (Q.x * P.y) * J.d) := by
    rw [EdPoint.add_y, hd]; congr 1 <;> ring
  have d1 : P.x * Q.y * (Q.x * P.y) * J.d + 1 ≠ 0 := fun e => hd1 (by rw [hd] at e; linear_combination e)
  have d2 : 1 - P.x * Q.y * (Q.x * P.y) * J.d ≠ 0 := fun e => hd2 (by rw [hd] at e; linear_combination e)
  have step : p.add q J = (do
      let x ← CNum.div (CNum.add v1 v2) (CNum.addConst (CNum.mulConst v12 J.d) 1)
      let y ← CNum.div (CNum.sub (CNum.sub u v1) v2) (CNum.constSub 1 (CNum.mulConst v12 J.d))
      pure ⟨x, y⟩) := by
    unfold CEdwardsPoint.add
    simp only [e1, e2, e12, eu, pure_bind]
  have px0 : (P + Q).x = 0 ↔ P.x * Q.y + Q.x * P.y = 0 := by rw [ex, div_eq_zero_iff, or_iff_left d1]
  have py0 : (P + Q).y = 0 ↔ (P.x + P.y) * (Q.x + Q.y) - P.x * Q.y - Q.x * P.y = 0 := by rw [ey, div_eq_zero_iff, or_iff_left d2]
  rw [step]
  constructor
  · intro h
    by_cases hx : (P + Q).x = 0
    · rw [hX.1 (px0.1 hx)]; rfl
    · obtain ⟨x, hx', -⟩ := hX.2 (fun e => hx (px0.2 e))
      rw [hx', pure_bind, hY.1 (py0.1 (h.resolve_left hx))]; rfl
  · intro hx hy
    obtain ⟨x, hx', cx⟩ := hX.2 (fun e => hx (px0.2 e))
    obtain ⟨y, hy', cy⟩ := hY.2 (fun e => hy (py0.2 e))
    refine ⟨⟨x, y⟩, by rw [hx', pure_bind, hy', pure_bind], ?_, ?_⟩
    · rw [ex, inv_div]; exact cx
    · rw [ey, inv_div]; exact cy

/-- Doubling a constant point. -/
theorem edDouble_constant (hd : J.d = C.d) {p : CEdwardsPoint F} {P : EdPoint C} (px : p.x.IsConst P.x) (py : p.y.IsConst P.y) :
    ((2 • P).x = 0 ∨ (2 • P).y = 0 → p.double J = M.panic .divByZero) ∧
    ((2 • P).x ≠ 0 → (2 • P).y ≠ 0 → ∃ o, p.double J = pure o ∧ o.x.IsConst (2 • P).x⁻¹ ∧ o.y.IsConst (2 • P).y⁻¹) := by
  have hd1 := EdPoint.denom_add_ne C P.on P.on
  have hd2 := EdPoint.denom_sub_ne C P.on P.on
  obtain ⟨v, e1, h1⟩ := px.mul py
  obtain ⟨v2, e12, h12⟩ := h1.mul h1
  obtain ⟨u, eu, hu⟩ := (px.add py).mul (px.add py)
  have hX := (h1.mulConst 2).div ((h12.mulConst J.d).addConst 1)
  have hY := (hu.sub (h1.mulConst 2)).div ((h12.mulConst J.d).constSub 1)
  have ex : (2 • P).x = P.x * P.y * 2 / (P.x * P.y * (P.x * P.y) * J.d + 1) := by
    rw [two_nsmul, EdPoint.add_x, hd]; congr 1 <;> ring
  have ey : (2 • P).y = ((P.x + P.y) * (P.x + P.y) - P.x * P.y * 2) / (1 - P.x * P.y * (P.x * P.y) * J.d) := by
    rw [two_nsmul, EdPoint.add_y, hd]; congr 1 <;> ring
  have d1 : P.x * P.y * (P.x * P.y) * J.d + 1 ≠ 0 := fun e => hd1 (by rw [hd] at e; linear_combination e)
  have d2 : 1 - P.x * P.y * (P.x * P.y) * J.d ≠ 0 := fun e => hd2 (by rw [hd] at e; linear_combination e)
  have step : p.double J = (do
      let x ← CNum.div (CNum.mulConst v 2) (CNum.addConst (CNum.mulConst v2 J.d) 1)
      let y ← CNum.div (CNum.sub u (CNum.mulConst v 2)) (CNum.constSub 1 (CNum.mulConst v2 J.d))
      pure ⟨x, y⟩) := by
    unfold CEdwardsPoint.double CNum.square
    simp only [e1, e12, eu, pure_bind]
  have px0 : (2 • P).x = 0 ↔ P.x * P.y * 2 = 0 := by rw [ex, div_eq_zero_iff, or_iff_left d1]
  have py0 : (2 • P).y = 0 ↔ (P.x + P.y) * (P.x + P.y) - P.x * P.y * 2 = 0 := by rw [ey, div_eq_zero_iff, or_iff_left d2]
  rw [step]
  constructor
  · intro h
    by_cases hx : (2 • P).x = 0
    · rw [hX.1 (px0.1 hx)]; rfl
    · obtain ⟨x, hx', -⟩ := hX.2 (fun e => hx (px0.2 e))
      rw [hx', pure_bind, hY.1 (py0.1 (h.resolve_left hx))]; rfl
  · intro hx hy
    obtain ⟨x, hx', cx⟩ := hX.2 (fun e => hx (px0.2 e))
    obtain ⟨y, hy', cy⟩ := hY.2 (fun e => hy (py0.2 e))
    refine ⟨⟨x, y⟩, by rw [hx', pure_bind, hy', pure_bind], ?_, ?_⟩
    · rw [ex, inv_div]; exact cx
    · rw [ey, inv_div]; exact cy

end tail

section independent

variable {J : JubJubParams F} {s : CS F}

/-- The coordinates of the sum of two signals are independent. -/
theorem post_add_independent (hJ : J.d ≠ 0) (hs : s.WF) {p q : CEdwardsPoint F} (apx : p.x.lc.Alloc s) (apy : p.y.lc.Alloc s)
    (aqx : q.x.lc.Alloc s) (aqy : q.y.lc.Alloc s) (vpx : Varies p.x) (vpy : Varies p.y) (vqx : Varies q.x) (vqy : Varies q.y) :
    Post s (p.add q J) (fun o _ => Independent [o.x, o.y]) := by
  unfold CEdwardsPoint.add
  refine Post.bind (post_mul_fresh hs apx aqy vpx vqy) fun v1 s1 e1 h1 => ?_
  refine Post.bind (post_mul_fresh (e1.wf hs) (aqx.mono e1) (apy.mono e1) vqx vpy) fun v2 s2 e2 h2 => ?_
  have hs2 := (e1.trans e2).wf hs
  refine Post.bind (post_mul_fresh hs2 (h1.2.mono e2) h2.2 h1.1.varies h2.1.varies) fun v12 s3 e3 h3 => ?_
  have hs3 := e3.wf hs2
  have e13 := (e1.trans e2).trans e3
  refine Post.bind ((post_mul_cases (s0 := s) hs3 (alloc_add apx apy) (alloc_add aqx aqy)).and
    ((post_mul hs3 _ _).mono fun c s' _ h => h.1 ((alloc_add apx apy).mono e13) ((alloc_add aqx aqy).mono e13))) fun u s4 e4 h4 => ?_
  obtain ⟨fu, au⟩ := h4
  have hs4 := e4.wf hs3
  have a1 := h1.2.mono ((e2.trans e3).trans e4)
  have a2 := h2.2.mono (e3.trans e4)
  have a12 := alloc_mulConst (h3.2.mono e4) J.d
  have vn2 : Varies (CNum.sub (CNum.sub u v1) v2) := by
    rcases fu with fu | fu
    · exact ((fu.newIn.sub (h1.2.mono (e2.trans e3))).sub (h2.2.mono e3)).varies
    · exact (h2.1.newIn.sub_left (alloc_sub (fu.mono e1) h1.2)).varies
  have hv := h3.1.varies.mulConst hJ
  refine Post.bind (post_div_fresh hs4 (alloc_add a1 a2) (alloc_addConst a12 1) (h2.1.newIn.add_left h1.2).varies (hv.addConst 1))
    fun x s5 e5 h5 => ?_
  refine Post.bind (post_div_fresh (e5.wf hs4) ((alloc_sub (alloc_sub au a1) a2).mono e5) ((alloc_constSub a12 1).mono e5) vn2 (hv.constSub 1))
    fun y s6 e6 h6 => ?_
  exact Post.pure (Independent.of_fresh h5.2 h5.1.varies h6.1)

/-- The coordinates of the double of a signal are independent. -/
theorem post_double_independent (hJ : J.d ≠ 0) (h2 : (2 : F) ≠ 0) (hs : s.WF) {p : CEdwardsPoint F} (apx : p.x.lc.Alloc s)
    (apy : p.y.lc.Alloc s) (vpx : Varies p.x) (vpy : Varies p.y) :
    Post s (p.double J) (fun o s' => Independent [o.x, o.y] ∧ o.x.lc.Alloc s' ∧ o.y.lc.Alloc s') := by
  unfold CEdwardsPoint.double CNum.square
  refine Post.bind (post_mul_fresh hs apx apy vpx vpy) fun v s1 e1 h1 => ?_
  refine Post.bind (post_mul_fresh (e1.wf hs) h1.2 h1.2 h1.1.varies h1.1.varies) fun v2 s2 e2 h3 => ?_
  have hs2 := (e1.trans e2).wf hs
  have axy := alloc_add apx apy
  refine Post.bind ((post_mul_cases (s0 := s) hs2 axy axy).and
    ((post_mul hs2 _ _).mono fun c s' _ h => h.1 (axy.mono (e1.trans e2)) (axy.mono (e1.trans e2)))) fun u s4 e4 h4 => ?_
  obtain ⟨fu, au⟩ := h4
  have hs4 := e4.wf hs2
  have a1 := alloc_mulConst (h1.2.mono (e2.trans e4)) 2
  have a12 := alloc_mulConst (h3.2.mono e4) J.d
  have vn2 : Varies (CNum.sub u (CNum.mulConst v 2)) := by
    rcases fu with fu | fu
    · exact (fu.newIn.sub (alloc_mulConst (h1.2.mono e2) _)).varies
    · exact ((h1.1.newIn.mulConst h2).sub_left fu).varies
  have hv := h3.1.varies.mulConst hJ
  refine Post.bind (post_div_fresh hs4 a1 (alloc_addConst a12 1) (h1.1.varies.mulConst h2) (hv.addConst 1)) fun x s5 e5 h5 => ?_
  refine Post.bind (post_div_fresh (e5.wf hs4) ((alloc_sub au a1).mono e5) ((alloc_constSub a12 1).mono e5) vn2 (hv.constSub 1))
    fun y s6 e6 h6 => ?_
  exact Post.pure ⟨Independent.of_fresh h5.2 h5.1.varies h6.1, h5.2.mono e6, h6.2⟩

theorem post_cofactor_independent (hJ : J.d ≠ 0) (h2 : (2 : F) ≠ 0) (hs : s.WF) {p : CEdwardsPoint F} (apx : p.x.lc.Alloc s)
    (apy : p.y.lc.Alloc s) (vpx : Varies p.x) (vpy : Varies p.y) :
    Post s (p.mulByCofactor J) (fun o _ => Independent [o.x, o.y]) := by
  unfold CEdwardsPoint.mulByCofactor
  refine Post.bind (post_double_independent hJ h2 hs apx apy vpx vpy) fun p2 s1 e1 h1 => ?_
  refine Post.bind (post_double_independent hJ h2 (e1.wf hs) h1.2.1 h1.2.2 h1.1.varies.1 h1.1.varies.2) fun p4 s2 e2 h3 => ?_
  exact (post_double_independent hJ h2 ((e1.trans e2).wf hs) h3.2.1 h3.2.2 h3.1.varies.1 h3.1.varies.2).mono fun _ _ _ h => h.1

end independent

end Fawkes
