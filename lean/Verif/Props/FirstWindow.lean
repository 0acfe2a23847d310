import Verif.Lemmas.FirstWindow
import Verif.Props.CEcc

/-!
# C39 for bits that are partly constant or dependent

`CEdwardsPoint::mul` of a constant point reads the bits in windows of three (padded with constant zeros).  The theorems of
`Verif.Props.CEcc` ask for independent signals in the first window.  Here the condition is weaker: among the multiples
`1·B … 8·B` that the first window can really select, two must differ in the first Montgomery coordinate and two in the
second.  Four selectable multiples are always enough; a single signal bit is enough unless `B` and `2·B` share their second
coordinate; and with no bits at all the call panics.
-/

set_option linter.unusedSectionVars false

namespace Fawkes.Props

variable {F : Type} [Field F] [DecidableEq F] {C : EdCurve F} {J : JubJubParams F} {s s' : CS F} {w : Index → F}

/-- C39 (sound, by what the first window can select). -/
theorem C39_window_sound_partial (hv : J.Valid C) [Fact J.l.Prime] (hs : s.WF) {o : CEdwardsPoint F} {B : EdPoint C}
    (hB : InSubgroup J.l B) {bits : List (CBool F)} {bs : List Bool} (hba : ∀ b ∈ bits, b.num.lc.Alloc s)
    (hfw : FirstWindow B bits) (hw : IsAssignment w)
    (h : ((CEdwardsPoint.fromConst B.affine).mul bits J).run s = .ok (o, s')) (hsat : s'.Sat w)
    (hbs : SpellsBits w bits bs) :
    o.Is w (bitsNat bs • B).affine ∧ B.affine.mul (bitsNat bs : ZMod J.l) J = .ok (bitsNat bs • B).affine ∧
      (B ≠ 0 → o.IsSignal s') := by
  rw [mul_fromConst] at h
  obtain ⟨h1, h3⟩ := (specMode w hw).mulConstBase_reach hv.d_eq hv.a_eq hv.b_eq hv.l_prime hv.l_large hB hs
    (spec_bits hw hba hbs) (fun _ => hfw) (fun _ => trivial) hs o s' h hsat
  exact ⟨ed_is h1, by rw [C28_mul hv.d_eq, val_cast_nsmul hB], fun h0 => ed_signal h1 (h3 h0).1 (h3 h0).2⟩

/-- C39 (complete, by what the first window can select). -/
theorem C39_window_complete_partial (hv : J.Valid C) (hs : s.Honest) {B : EdPoint C} (hB : InSubgroup J.l B)
    {bits : List (CBool F)} {bs : List Bool} (hfw : FirstWindow B bits) (hbs : CarriesBits s bits bs) :
    ∃ o s', ((CEdwardsPoint.fromConst B.affine).mul bits J).run s = .ok (o, s') ∧ s'.Honest ∧
      o.Carries s' (bitsNat bs • B).affine ∧ (B ≠ 0 → o.IsSignal s') := by
  obtain ⟨o, s', hr, -, hh, h1, h3⟩ := (runsMode F).mulConstBase_reach hv.d_eq hv.a_eq hv.b_eq hv.l_prime hv.l_large hB hs
    hbs (fun _ => hfw)
  exact ⟨o, s', by rw [mul_fromConst]; exact hr, hh, h1, fun h0 => ed_signal h1 (h3 h0).1 (h3 h0).2⟩

/-- Different numbers up to eight give different multiples. -/
theorem multiples_ne {l : Nat} (hl : l.Prime) (hl8 : 7 < l) {B : EdPoint C} (hB : l • B = 0) (hB0 : B ≠ 0) {i j : Nat}
    (hij : i < j) (hj : j ≤ 8) : i • B ≠ j • B := by
  intro h
  have : j • B = i • B + (j - i) • B := by rw [← add_nsmul]; congr 1; omega
  rw [this] at h
  have h0 := left_eq_add.1 h
  by_cases h8 : j - i < l
  · exact nsmul_ne_zero_of_lt hl hB hB0 (by omega) h8 h0
  · rw [show j - i = 8 by omega] at h0
    exact eight_nsmul_ne_zero hl hl8 hB hB0 h0

theorem multiple_ne_zero {l : Nat} (hl : l.Prime) (hl8 : 7 < l) {B : EdPoint C} (hB : l • B = 0) (hB0 : B ≠ 0) {i : Nat}
    (hi : 0 < i) (h8 : i ≤ 8) : i • B ≠ 0 := by
  have := multiples_ne hl hl8 hB hB0 hi h8
  rw [zero_nsmul] at this
  exact this.symm

theorem mont_injective {P Q : EdPoint C} (hP : P ≠ 0) (hQ : Q ≠ 0) (hx : P.montX = Q.montX) (hy : P.montY = Q.montY) : P = Q := by
  apply EdPoint.ext
  · rw [EdPoint.x_of_mont hP, EdPoint.x_of_mont hQ, hx, hy]
  · rw [EdPoint.y_of_montX hP, EdPoint.y_of_montX hQ, hx]

/-- Four points on a horizontal line do not exist. -/
theorem four_montY {P1 P2 P3 P4 : EdPoint C} (h1 : P1 ≠ 0) (h2 : P2 ≠ 0) (h3 : P3 ≠ 0) (h4 : P4 ≠ 0)
    (n12 : P1.montX ≠ P2.montX) (n13 : P1.montX ≠ P3.montX) (n14 : P1.montX ≠ P4.montX)
    (n23 : P2.montX ≠ P3.montX) (n24 : P2.montX ≠ P4.montX) (n34 : P3.montX ≠ P4.montX)
    (e2 : P2.montY = P1.montY) (e3 : P3.montY = P1.montY) (e4 : P4.montY = P1.montY) : False := by
  have o1 := EdPoint.mont_on h1
  have o2 := EdPoint.mont_on h2
  have o3 := EdPoint.mont_on h3
  have o4 := EdPoint.mont_on h4
  unfold OnMont at o1 o2 o3 o4
  rw [e2] at o2; rw [e3] at o3; rw [e4] at o4
  generalize P1.montX = u1 at *
  generalize P2.montX = u2 at *
  generalize P3.montX = u3 at *
  generalize P4.montX = u4 at *
  have q12 : u1 ^ 2 + u1 * u2 + u2 ^ 2 + C.a * (u1 + u2) + 1 = 0 :=
    mul_left_cancel₀ (sub_ne_zero.2 n12) (by linear_combination o2 - o1)
  have q13 : u1 ^ 2 + u1 * u3 + u3 ^ 2 + C.a * (u1 + u3) + 1 = 0 :=
    mul_left_cancel₀ (sub_ne_zero.2 n13) (by linear_combination o3 - o1)
  have q14 : u1 ^ 2 + u1 * u4 + u4 ^ 2 + C.a * (u1 + u4) + 1 = 0 :=
    mul_left_cancel₀ (sub_ne_zero.2 n14) (by linear_combination o4 - o1)
  have r23 : u1 + u2 + u3 + C.a = 0 :=
    mul_left_cancel₀ (sub_ne_zero.2 n23) (by linear_combination q12 - q13)
  have r24 : u1 + u2 + u4 + C.a = 0 :=
    mul_left_cancel₀ (sub_ne_zero.2 n24) (by linear_combination q12 - q14)
  exact n34 (by linear_combination r23 - r24)

/-- Four different selectable multiples are always enough. -/
theorem firstWindow_four (hv : J.Valid C) {B : EdPoint C} (hB : InSubgroup J.l B) (hB0 : B ≠ 0) {bits rest : List (CBool F)}
    {b0 b1 b2 : CBool F} (hpad : CEdwardsPoint.padBits3 bits = b0 :: b1 :: b2 :: rest) {i1 i2 i3 i4 : Nat}
    (h12 : i1 < i2) (h23 : i2 < i3) (h34 : i3 < i4) (r1 : Reachable b0 b1 b2 i1) (r2 : Reachable b0 b1 b2 i2)
    (r3 : Reachable b0 b1 b2 i3) (r4 : Reachable b0 b1 b2 i4) : FirstWindow B bits := by
  have hl := hv.l_prime
  have hl8 := hv.l_large
  have ne : ∀ {i j}, i < j → j < 8 → (1 + i) • B ≠ (1 + j) • B := fun h h8 => multiples_ne hl hl8 hB hB0 (by omega) (by omega)
  have nz : ∀ {i}, i < 8 → (1 + i) • B ≠ 0 := fun h => multiple_ne_zero hl hl8 hB hB0 (by omega) (by omega)
  have l1 := r1.lt
  have l2 := r2.lt
  have l3 := r3.lt
  have l4 := r4.lt
  refine ⟨b0, b1, b2, rest, hpad, ?_, ?_⟩
  · by_contra hno
    push Not at hno
    have x12 := (EdPoint.montX_eq_iff (nz l1) (nz l2)).1 (hno _ _ r1 r2)
    have x13 := (EdPoint.montX_eq_iff (nz l1) (nz l3)).1 (hno _ _ r1 r3)
    rcases x12 with x | x
    · exact ne h12 l2 x
    rcases x13 with y | y
    · exact ne (h12.trans h23) l3 y
    · exact ne h23 l3 (neg_injective (x.symm.trans y))
  · by_contra hno
    push Not at hno
    have hx : ∀ {i j}, i < j → Reachable b0 b1 b2 i → Reachable b0 b1 b2 j → ((1 + i) • B).montX ≠ ((1 + j) • B).montX := by
      intro i j hij hi hj he
      exact ne hij hj.lt (mont_injective (nz hi.lt) (nz hj.lt) he (hno _ _ hi hj))
    exact four_montY (nz l1) (nz l2) (nz l3) (nz l4) (hx h12 r1 r2) (hx (h12.trans h23) r1 r3) (hx ((h12.trans h23).trans h34) r1 r4)
      (hx h23 r2 r3) (hx (h23.trans h34) r2 r4) (hx h34 r3 r4) (hno _ _ r2 r1) (hno _ _ r3 r1) (hno _ _ r4 r1)

/-- C39 (four selectable multiples, sound): if the first three bits (padded with constant zeros) can take four different
values, the result is the native multiple — for instance when two of them are allocated bits and the third is a constant. -/
theorem C39_four_sound_partial (hv : J.Valid C) [Fact J.l.Prime] (hs : s.WF) {o : CEdwardsPoint F} {B : EdPoint C}
    (hB : InSubgroup J.l B) {bits rest : List (CBool F)} {bs : List Bool} (hba : ∀ b ∈ bits, b.num.lc.Alloc s)
    {b0 b1 b2 : CBool F} (hpad : CEdwardsPoint.padBits3 bits = b0 :: b1 :: b2 :: rest) {i1 i2 i3 i4 : Nat}
    (h12 : i1 < i2) (h23 : i2 < i3) (h34 : i3 < i4) (r1 : Reachable b0 b1 b2 i1) (r2 : Reachable b0 b1 b2 i2)
    (r3 : Reachable b0 b1 b2 i3) (r4 : Reachable b0 b1 b2 i4) (hw : IsAssignment w)
    (h : ((CEdwardsPoint.fromConst B.affine).mul bits J).run s = .ok (o, s')) (hsat : s'.Sat w)
    (hbs : SpellsBits w bits bs) : o.Is w (bitsNat bs • B).affine ∧ (B ≠ 0 → o.IsSignal s') := by
  rw [mul_fromConst] at h
  obtain ⟨h1, h3⟩ := (specMode w hw).mulConstBase_reach hv.d_eq hv.a_eq hv.b_eq hv.l_prime hv.l_large hB hs
    (spec_bits hw hba hbs) (fun h0 => firstWindow_four hv hB h0 hpad h12 h23 h34 r1 r2 r3 r4) (fun _ => trivial) hs o s' h hsat
  exact ⟨ed_is h1, fun h0 => ed_signal h1 (h3 h0).1 (h3 h0).2⟩

/-- C39 (four selectable multiples, complete). -/
theorem C39_four_complete_partial (hv : J.Valid C) (hs : s.Honest) {B : EdPoint C} (hB : InSubgroup J.l B)
    {bits rest : List (CBool F)} {bs : List Bool} {b0 b1 b2 : CBool F}
    (hpad : CEdwardsPoint.padBits3 bits = b0 :: b1 :: b2 :: rest) {i1 i2 i3 i4 : Nat}
    (h12 : i1 < i2) (h23 : i2 < i3) (h34 : i3 < i4) (r1 : Reachable b0 b1 b2 i1) (r2 : Reachable b0 b1 b2 i2)
    (r3 : Reachable b0 b1 b2 i3) (r4 : Reachable b0 b1 b2 i4) (hbs : CarriesBits s bits bs) :
    ∃ o s', ((CEdwardsPoint.fromConst B.affine).mul bits J).run s = .ok (o, s') ∧ s'.Honest ∧
      o.Carries s' (bitsNat bs • B).affine ∧ (B ≠ 0 → o.IsSignal s') := by
  obtain ⟨o, s', hr, -, hh, h1, h3⟩ := (runsMode F).mulConstBase_reach hv.d_eq hv.a_eq hv.b_eq hv.l_prime hv.l_large hB hs
    hbs (fun h0 => firstWindow_four hv hB h0 hpad h12 h23 h34 r1 r2 r3 r4)
  exact ⟨o, s', by rw [mul_fromConst]; exact hr, hh, h1, fun h0 => ed_signal h1 (h3 h0).1 (h3 h0).2⟩

/-- A bit that is one variable of its own takes both values. -/
theorem firstWindow_one (hv : J.Valid C) {B : EdPoint C} (hB : InSubgroup J.l B) (hB0 : B ≠ 0) {b : CBool F} {k : Index}
    (hk : k ≠ .input 0) (hb : b.num.lc = [(k, 1)]) (hy : B.montY ≠ (2 • B).montY) : FirstWindow B [b] := by
  have reach : ∀ c : Bool, Reachable b (CBool.fromConst false) (CBool.fromConst false) c.toNat := by
    intro c
    refine ⟨Function.update (fun _ => 1) k (if c = true then 1 else 0), c, false, false, ?_, ?_, by cases c <;> rfl⟩
    · unfold IsAssignment; rw [Function.update_of_ne (Ne.symm hk)]
    · have hz : ((CBool.fromConst false : CBool F)).num.lc.eval (Function.update (fun _ => 1) k (if c = true then 1 else 0)) =
          if false = true then 1 else 0 := by
        simp [CBool.fromConst, CNum.fromConst, LC.eval, boolToF]
      refine .cons ?_ (.cons hz (.cons hz .nil))
      rw [hb]; simp [LC.eval]
  have h0 := reach false
  have h1 := reach true
  refine ⟨b, CBool.fromConst false, CBool.fromConst false, [], rfl, ⟨0, 1, h0, h1, ?_⟩, 0, 1, h0, h1, ?_⟩
  · exact montX_table_ne hv.l_prime hv.l_large hB hB0
  · rw [show (1 + 0 : Nat) = 1 from rfl, one_nsmul]; exact hy

/-- C39 (one bit, sound): multiplication by a single allocated bit chooses between zero and the point, if the point and its
double differ in their second Montgomery coordinate. -/
theorem C39_one_bit_sound_partial (hv : J.Valid C) [Fact J.l.Prime] (hs : s.WF) {o : CEdwardsPoint F} {B : EdPoint C}
    (hB : InSubgroup J.l B) {b : CBool F} {c : Bool} {k : Index} (hba : b.num.lc.Alloc s) (hk : k ≠ .input 0)
    (hb : b.num.lc = [(k, 1)]) (hy : B ≠ 0 → B.montY ≠ (2 • B).montY) (hw : IsAssignment w)
    (h : ((CEdwardsPoint.fromConst B.affine).mul [b] J).run s = .ok (o, s')) (hsat : s'.Sat w)
    (hbs : b.num.lc.eval w = if c = true then 1 else 0) :
    o.Is w (if c = true then B.affine else EdwardsPoint.zero) := by
  rw [mul_fromConst] at h
  obtain ⟨h1, h3⟩ := (specMode w hw).mulConstBase_reach hv.d_eq hv.a_eq hv.b_eq hv.l_prime hv.l_large hB hs
    (spec_bits hw (by simpa using hba) (.cons hbs .nil)) (fun h0 => firstWindow_one hv hB h0 hk hb (hy h0)) (fun _ => trivial) hs o s' h hsat
  have := ed_is h1
  cases c
  · simp only [bitsNat, Bool.toNat_false, mul_zero, add_zero, zero_nsmul] at this
    exact this
  · simpa [bitsNat] using this

/-- C39 (one bit, complete). -/
theorem C39_one_bit_complete_partial (hv : J.Valid C) (hs : s.Honest) {B : EdPoint C} (hB : InSubgroup J.l B) {b : CBool F} {c : Bool}
    {k : Index} (hk : k ≠ .input 0) (hb : b.num.lc = [(k, 1)]) (hy : B ≠ 0 → B.montY ≠ (2 • B).montY) (hbs : CarriesBits s [b] [c]) :
    ∃ o s', ((CEdwardsPoint.fromConst B.affine).mul [b] J).run s = .ok (o, s') ∧ s'.Honest ∧
      o.Carries s' (if c = true then B.affine else EdwardsPoint.zero) := by
  obtain ⟨o, s', hr, -, hh, h1, h3⟩ := (runsMode F).mulConstBase_reach hv.d_eq hv.a_eq hv.b_eq hv.l_prime hv.l_large hB hs
    hbs (fun h0 => firstWindow_one hv hB h0 hk hb (hy h0))
  refine ⟨o, s', by rw [mul_fromConst]; exact hr, hh, ?_⟩
  have : CEdwardsPoint.Carries s' o (bitsNat [c] • B).affine := h1
  cases c
  · simp only [bitsNat, Bool.toNat_false, mul_zero, add_zero, zero_nsmul] at this
    exact this
  · simpa [bitsNat] using this

/-- C39 (no bits): with an empty bit string the multiplication of a constant point other than zero panics, in every state;
the native multiple would be zero. -/
theorem C39_no_bits (hv : J.Valid C) {B : EdPoint C} (hB : InSubgroup J.l B) (hB0 : B ≠ 0) (s : CS F) :
    ((CEdwardsPoint.fromConst B.affine).mul [] J).run s = .error .divByZero := by
  have hl2 : J.l % 2 = 1 := by
    rcases hv.l_prime.eq_two_or_odd with h | h
    · have := hv.l_large; omega
    · exact h
  have hP : Represents B.affine.intoExtended B := Represents.of_affine B
  rw [mul_fromConst]
  unfold CEdwardsPoint.mulConstBase
  dsimp only
  rw [if_neg (fun h => hB0 (hP.isZero_iff.1 h))]
  have hp : CEdwardsPoint.padBits3 ([] : List (CBool F)) = [] := by simp [CEdwardsPoint.padBits3]
  have hst : CEdwardsPoint.startPoint 0 B.affine.intoExtended J = .ok ⟨0, 0⟩ := by
    rw [startPoint_ok hv.d_eq hl2 hB hP 0]
    have ht : (EdPoint.torsion2 : EdPoint C) ≠ 0 := EdPoint.torsion2_ne_zero
    have : (EdPoint.torsion2 + -(ones 0 • B) : EdPoint C) = EdPoint.torsion2 := by simp [ones]
    rw [this]
    unfold EdPoint.mont
    rw [(EdPoint.montX_eq_zero_iff ht).2 rfl, (EdPoint.montY_eq_zero_iff ht).2 rfl]
  rw [hp, List.length_nil, Nat.zero_div, hst]
  rw [M.run_bind, M.run_lift]
  simp only [CEdwardsPoint.windowLoop, pure_bind]
  have hz : CNum.isZero (CNum.fromConst (0 : F)) = pure ⟨CNum.fromConst 1⟩ := by
    unfold CNum.isZero; rw [CNum.asConst_fromConst]; simp [boolToF]
  have hdiv : ∀ b : CNum F, CNum.div (CNum.fromConst (0 : F)) b = CNum.divConst b 0 := by
    intro b; unfold CNum.div; rw [CNum.asConst_fromConst]
  have hp0 : CNum.divConst (CNum.addAssign (CNum.fromConst 1) (CNum.fromConst (0 : F))) 0 = M.panic .divByZero := by
    unfold CNum.divConst
    rw [if_pos ⟨rfl, .inl (by simp [CNum.addAssign, CNum.fromConst, CNum.value₂])⟩]
  unfold CEdwardsPoint.finish CMontgomeryPoint.intoEdwards CMontgomeryPoint.fromConst
  simp only [hz, pure_bind, hdiv, hp0, M.run_bind, M.run_panic]

/-! ### Concrete: the bits `[true, x, y]`, with `x` and `y` two variables, and the bit `x` alone, on the small curve -/

theorem reachable_const_two {x y : CBool F} {k1 k2 : Index} (h1 : k1 ≠ .input 0) (h2 : k2 ≠ .input 0) (h12 : k1 ≠ k2)
    (hx : x.num.lc = [(k1, 1)]) (hy : y.num.lc = [(k2, 1)]) (a b c : Bool) :
    Reachable (CBool.fromConst c) x y (sel3 c a b) := by
  refine ⟨Function.update (Function.update (fun _ => 1) k1 (if a = true then 1 else 0)) k2 (if b = true then 1 else 0),
    c, a, b, ?_, ?_, rfl⟩
  · unfold IsAssignment; rw [Function.update_of_ne (Ne.symm h2), Function.update_of_ne (Ne.symm h1)]
  · refine .cons ?_ (.cons ?_ (.cons ?_ .nil))
    · cases c <;> simp [CBool.fromConst, CNum.fromConst, LC.eval, boolToF, Function.update_of_ne (Ne.symm h2),
        Function.update_of_ne (Ne.symm h1)]
    · rw [hx]; simp [LC.eval, Function.update_of_ne h12]
    · rw [hy]; simp [LC.eval]

/-- The hypotheses of `C39_four_complete_partial`, and with it `13 · B` for the bits `[true, 0, 1, true]` of which two are
constants: the first window can select the multiples `2`, `4`, `6` and `8`. -/
example : ∃ (x y : CBool (ZMod 73)) (s : CS (ZMod 73)), s.Honest ∧
    CarriesBits s [CBool.fromConst true, x, y, CBool.fromConst true] [true, false, true, true] ∧
    ∃ o s', ((CEdwardsPoint.fromConst toyG.affine).mul [CBool.fromConst true, x, y, CBool.fromConst true] toyParams).run s = .ok (o, s') ∧
      s'.Honest ∧ o.Carries s' (13 • toyG).affine ∧ o.IsSignal s' := by
  obtain ⟨x, s1, _, _, hs1, hx, hfx⟩ := runs_alloc (CS.honest_new (F := ZMod 73) .test) 0
  obtain ⟨y, s2, _, e2, hs2, hy, hfy⟩ := runs_alloc hs1 1
  obtain ⟨k1, hl1, hk1, hn1⟩ := hfx
  obtain ⟨k2, hl2, hk2, hn2⟩ := hfy
  have h12 : k1 ≠ k2 := by
    rintro rfl
    rcases hx.alloc k1 (by simp [hl1]) with h | h
    · exact hk1 h
    · exact hn2 h
  have hb : CarriesBits s2 [CBool.fromConst true, ⟨x⟩, ⟨y⟩, CBool.fromConst true] [true, false, true, true] :=
    .cons (has_fromConst 1) (.cons (hx.mono e2) (.cons hy (.cons (has_fromConst 1) .nil)))
  refine ⟨⟨x⟩, ⟨y⟩, s2, hs2, hb, ?_⟩
  have r := fun a b => reachable_const_two (F := ZMod 73) (x := ⟨x⟩) (y := ⟨y⟩) hk1 hk2 h12 hl1 hl2 a b true
  obtain ⟨o, s', h1, h2, h3, h4⟩ := C39_four_complete_partial toyParams_valid hs2 toyG_order
    (b0 := CBool.fromConst true) (b1 := ⟨x⟩) (b2 := ⟨y⟩) rfl
    (i1 := 1) (i2 := 3) (i3 := 5) (i4 := 7) (by omega) (by omega) (by omega) (r false false) (r true false) (r false true) (r true true) hb
  exact ⟨o, s', h1, h2, h3, h4 toyG_ne_zero⟩

/-- The hypothesis of the theorem for one bit, on the small curve. -/
example : toyG.montY ≠ (2 • toyG).montY := by
  rw [two_nsmul]
  decide +kernel

end Fawkes.Props
