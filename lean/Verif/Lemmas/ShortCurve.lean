import Verif.Lemmas.Pratt
import Verif.Spec.Groth16
import Mathlib.Data.ZMod.Basic

/-!
# Multiples of points of `y² = x³ + b`, computed on natural numbers

Affine double-and-add in which every division is checked, so that a result holds in every field the numbers map to.
-/

namespace Fawkes.Groth16

/-- Arithmetic on numbers of some kind. -/
structure Ops (N : Type) where
  mul : N → N → N
  add : N → N → N
  sub : N → N → N
  inv : N → N
  one : N
  eq : N → N → Bool

/-- The numbers stand for elements of a ring. -/
structure Ops.Into {N L : Type} [CommRing L] (A : Ops N) (val : N → L) : Prop where
  mul : ∀ a b, val (A.mul a b) = val a * val b
  add : ∀ a b, val (A.add a b) = val a + val b
  sub : ∀ a b, val (A.sub a b) = val a - val b
  one : val A.one = 1
  eq : ∀ a b, A.eq a b = true → val a = val b

namespace Ops

variable {N : Type} (A : Ops N)

/-- The third point on the line of slope `s` through two points, reflected. -/
def chord (s x1 y1 x2 : N) : N × N :=
  let x := A.sub (A.sub (A.mul s s) x1) x2
  (x, A.sub (A.mul s (A.sub x1 x)) y1)

/-- Twice a point. -/
def double (p : N × N) : Option (N × N) :=
  let d := A.add p.2 p.2
  let i := A.inv d
  if A.eq (A.mul d i) A.one then
    let xx := A.mul p.1 p.1
    some (A.chord (A.mul (A.add (A.add xx xx) xx) i) p.1 p.2 p.1)
  else none

/-- The sum of two points. -/
def plus (p q : N × N) : Option (N × N) :=
  let d := A.sub p.1 q.1
  let i := A.inv d
  if A.eq (A.mul d i) A.one then some (A.chord (A.mul (A.sub p.2 q.2) i) p.1 p.2 q.1) else none

/-- The multiple of a point by `k ≥ 1`; `fuel` bounds the number of bits of `k`. -/
def multiple (p : N × N) : (fuel k : Nat) → Option (N × N)
  | 0, _ => none
  | fuel + 1, k =>
    if k = 1 then some p
    else if k = 0 then none
    else match multiple p fuel (k / 2) with
      | none => none
      | some h => match A.double h with
        | none => none
        | some d => if k % 2 = 1 then A.plus d p else some d

/-- Whether `k • p = p'`. -/
def isMultiple (p : N × N) (fuel k : Nat) (p' : N × N) : Bool :=
  match A.multiple p fuel k with
  | none => false
  | some r => A.eq r.1 p'.1 && A.eq r.2 p'.2

variable {A} {L : Type} [Field L] [DecidableEq L] {b : L} {val : N → L} (I : A.Into val)

/-- The group element has these coordinates. -/
def At (val : N → L) (p : N × N) (P : (curve b).Point) : Prop := ∃ h, P = .some (val p.1) (val p.2) h

omit [DecidableEq L] in
theorem some_eq {x y x' y' : L} (hx : x = x') (hy : y = y') (h : (curve b).Nonsingular x y) :
    ∃ h', (WeierstrassCurve.Affine.Point.some x y h : (curve b).Point) = .some x' y' h' := by
  subst hx; subst hy; exact ⟨h, rfl⟩

omit [DecidableEq L] in
theorem negY_curve (x y : L) : (curve b).negY x y = -y := by simp [WeierstrassCurve.Affine.negY, curve]

omit [DecidableEq L] in
theorem addX_curve (x1 x2 s : L) : (curve b).addX x1 x2 s = s ^ 2 - x1 - x2 := by
  simp [WeierstrassCurve.Affine.addX, curve]

omit [DecidableEq L] in
theorem addY_curve (x1 x2 y1 s : L) : (curve b).addY x1 x2 y1 s = s * (x1 - (s ^ 2 - x1 - x2)) - y1 := by
  rw [WeierstrassCurve.Affine.addY, negY_curve, WeierstrassCurve.Affine.negAddY, addX_curve]
  ring

include I in
theorem at_double {p r : N × N} {P : (curve b).Point} (h : At val p P) (hr : A.double p = some r) : At val r (P + P) := by
  obtain ⟨hP, rfl⟩ := h
  unfold double at hr
  dsimp only at hr
  split at hr
  · next he =>
    cases hr
    have hu := I.eq _ _ he
    rw [I.mul, I.add, I.one] at hu
    have h2 : val p.2 + val p.2 ≠ 0 := left_ne_zero_of_mul_eq_one hu
    have hne : val p.2 ≠ (curve b).negY (val p.1) (val p.2) := by
      rw [negY_curve]
      intro h0
      exact h2 (by linear_combination h0)
    have hi : val (A.inv (A.add p.2 p.2)) = (val p.2 + val p.2)⁻¹ := eq_inv_of_mul_eq_one_right hu
    have hs := WeierstrassCurve.Affine.slope_of_Y_ne (W := curve b) (x₁ := val p.1) rfl hne
    rw [WeierstrassCurve.Affine.Point.add_self_of_Y_ne hne]
    have e1 : (curve b).slope (val p.1) (val p.1) (val p.2) (val p.2) =
        val (A.mul (A.add (A.add (A.mul p.1 p.1) (A.mul p.1 p.1)) (A.mul p.1 p.1)) (A.inv (A.add p.2 p.2))) := by
      rw [hs, negY_curve]
      simp only [I.mul, I.add, hi, curve, mul_zero, zero_mul, add_zero, sub_zero, sub_neg_eq_add]
      rw [div_eq_mul_inv]; ring
    have ex : (curve b).addX (val p.1) (val p.1) ((curve b).slope (val p.1) (val p.1) (val p.2) (val p.2)) =
        val (A.chord (A.mul (A.add (A.add (A.mul p.1 p.1) (A.mul p.1 p.1)) (A.mul p.1 p.1)) (A.inv (A.add p.2 p.2))) p.1 p.2 p.1).1 := by
      rw [e1, addX_curve]; simp only [chord, I.sub, I.mul]; ring
    have ey : (curve b).addY (val p.1) (val p.1) (val p.2) ((curve b).slope (val p.1) (val p.1) (val p.2) (val p.2)) =
        val (A.chord (A.mul (A.add (A.add (A.mul p.1 p.1) (A.mul p.1 p.1)) (A.mul p.1 p.1)) (A.inv (A.add p.2 p.2))) p.1 p.2 p.1).2 := by
      rw [e1, addY_curve]; simp only [chord, I.sub, I.mul]; ring
    exact some_eq ex ey _
  · cases hr

include I in
theorem at_plus {p q r : N × N} {P Q : (curve b).Point} (h : At val p P) (h' : At val q Q) (hr : A.plus p q = some r) :
    At val r (P + Q) := by
  obtain ⟨hP, rfl⟩ := h
  obtain ⟨hQ, rfl⟩ := h'
  unfold plus at hr
  dsimp only at hr
  split at hr
  · next he =>
    cases hr
    have hu := I.eq _ _ he
    rw [I.mul, I.sub, I.one] at hu
    have hne : val p.1 ≠ val q.1 := sub_ne_zero.1 (left_ne_zero_of_mul_eq_one hu)
    have hi : val (A.inv (A.sub p.1 q.1)) = (val p.1 - val q.1)⁻¹ := eq_inv_of_mul_eq_one_right hu
    have hs := WeierstrassCurve.Affine.slope_of_X_ne (W := curve b) (y₁ := val p.2) (y₂ := val q.2) hne
    rw [WeierstrassCurve.Affine.Point.add_of_X_ne hne]
    have e1 : (curve b).slope (val p.1) (val q.1) (val p.2) (val q.2) =
        val (A.mul (A.sub p.2 q.2) (A.inv (A.sub p.1 q.1))) := by
      rw [hs]
      simp only [I.mul, I.sub, hi]
      rw [div_eq_mul_inv]
    have ex : (curve b).addX (val p.1) (val q.1) ((curve b).slope (val p.1) (val q.1) (val p.2) (val q.2)) =
        val (A.chord (A.mul (A.sub p.2 q.2) (A.inv (A.sub p.1 q.1))) p.1 p.2 q.1).1 := by
      rw [e1, addX_curve]; simp only [chord, I.sub, I.mul]; ring
    have ey : (curve b).addY (val p.1) (val q.1) (val p.2) ((curve b).slope (val p.1) (val q.1) (val p.2) (val q.2)) =
        val (A.chord (A.mul (A.sub p.2 q.2) (A.inv (A.sub p.1 q.1))) p.1 p.2 q.1).2 := by
      rw [e1, addY_curve]; simp only [chord, I.sub, I.mul]; ring
    exact some_eq ex ey _
  · cases hr

include I in
theorem at_multiple {p r : N × N} {P : (curve b).Point} (h : At val p P) (fuel k : Nat) (hr : A.multiple p fuel k = some r) :
    At val r (k • P) := by
  induction fuel generalizing k r with
  | zero => cases hr
  | succ fuel ih =>
    unfold multiple at hr
    split at hr
    · next hk => cases hr; subst hk; rwa [one_smul]
    · split at hr
      · cases hr
      · split at hr
        · cases hr
        · next hh =>
          split at hr
          · cases hr
          · next d hd =>
            have h1 := at_double I (ih _ hh) hd
            rw [← two_nsmul, ← mul_nsmul] at h1
            split at hr
            · next hm =>
              have h2 := at_plus I h1 h hr
              rw [← succ_nsmul] at h2
              rwa [show k / 2 * 2 + 1 = k by omega] at h2
            · next hm =>
              cases hr
              rwa [show k / 2 * 2 = k by omega] at h1

include I in
theorem at_isMultiple {p p' : N × N} {P : (curve b).Point} (h : At val p P) (fuel k : Nat)
    (hr : A.isMultiple p fuel k p' = true) : At val p' (k • P) := by
  unfold isMultiple at hr
  split at hr
  · cases hr
  · next r hm =>
    rw [Bool.and_eq_true] at hr
    have e1 := I.eq _ _ hr.1
    have e2 := I.eq _ _ hr.2
    obtain ⟨h1, h2⟩   := at_multiple I h fuel k hm
    rw [h2]
    exact some_eq e1 e2 h1

include I in
/-- A point of which the multiple by `k` is the opposite is killed by `k + 1`. -/
theorem killed {p : N × N} {y' : N} {P : (curve b).Point} (h : At val p P) (fuel k : Nat)
    (hr : A.isMultiple p fuel k (p.1, y') = true) (hy : val y' = -val p.2) : (k + 1) • P = 0 := by
  obtain ⟨h1, h2⟩ := at_isMultiple I h fuel k hr
  have : k • P = -P := by
    obtain ⟨h3, rfl⟩ := h
    rw [h2, WeierstrassCurve.Affine.Point.neg_some, WeierstrassCurve.Affine.Point.some.injEq]
    exact ⟨rfl, by rw [negY_curve]; exact hy⟩
  rw [succ_nsmul, this, neg_add_cancel]

end Ops

/-- Residues modulo `q`; `f` bounds the number of bits of `q`. -/
def natOps (q f : Nat) : Ops Nat where
  mul a b := a * b % q
  add a b := (a + b) % q
  sub a b := (a + (q - b % q)) % q
  inv a := powMod q f a (q - 2)
  one := 1
  eq a b := Nat.beq a b

/-- Residues modulo `q` stand for elements of a ring in which `q` is zero. -/
theorem natOps_into (q f : Nat) (hq : 0 < q) {L : Type} [CommRing L] (h : (q : L) = 0) :
    (natOps q f).Into (fun a => (a : L)) := by
  have hm : ∀ a : Nat, ((a % q : Nat) : L) = a := by
    intro a
    conv_rhs => rw [← Nat.mod_add_div a q]
    rw [Nat.cast_add, Nat.cast_mul, h, zero_mul, add_zero]
  constructor
  · intro a b
    change ((a * b % q : Nat) : L) = _
    rw [hm, Nat.cast_mul]
  · intro a b
    change (((a + b) % q : Nat) : L) = _
    rw [hm, Nat.cast_add]
  · intro a b
    change (((a + (q - b % q)) % q : Nat) : L) = _
    rw [hm, Nat.cast_add, Nat.cast_sub (Nat.mod_lt _ hq).le, hm, h]
    ring
  · exact Nat.cast_one
  · intro a b h
    rw [Nat.eq_of_beq_eq_true h]

/-- Pairs of residues: `a + b·u` with `u² = -1`. -/
def natOps2 (q f : Nat) : Ops (Nat × Nat) where
  mul a b := ((a.1 * b.1 + (q - a.2 * b.2 % q)) % q, (a.1 * b.2 + a.2 * b.1) % q)
  add a b := ((a.1 + b.1) % q, (a.2 + b.2) % q)
  sub a b := ((a.1 + (q - b.1 % q)) % q, (a.2 + (q - b.2 % q)) % q)
  inv a :=
    let i := powMod q f ((a.1 * a.1 + a.2 * a.2) % q) (q - 2)
    (a.1 * i % q, (q - a.2 % q) * i % q)
  one := (1, 0)
  eq a b := Nat.beq a.1 b.1 && Nat.beq a.2 b.2

/-- Pairs of residues stand for elements of `Fq2`. -/
theorem natOps2_into (q f : Nat) (hq : 0 < q) :
    (natOps2 q f).Into (fun a => (⟨a.1, a.2⟩ : QuadraticAlgebra (ZMod q) (-1) 0)) := by
  constructor
  · intro a b
    change (⟨((( a.1 * b.1 + (q - a.2 * b.2 % q)) % q : Nat) : ZMod q), (((a.1 * b.2 + a.2 * b.1) % q : Nat) : ZMod q)⟩ :
      QuadraticAlgebra (ZMod q) (-1) 0) = _
    ext
    · rw [QuadraticAlgebra.re_mul]
      simp only
      rw [ZMod.natCast_mod, Nat.cast_add, Nat.cast_sub (Nat.mod_lt _ hq).le, ZMod.natCast_mod, ZMod.natCast_self]
      push_cast
      ring
    · rw [QuadraticAlgebra.im_mul]
      simp only
      rw [ZMod.natCast_mod]
      push_cast
      ring
  · intro a b
    change (⟨(((a.1 + b.1) % q : Nat) : ZMod q), (((a.2 + b.2) % q : Nat) : ZMod q)⟩ : QuadraticAlgebra (ZMod q) (-1) 0) = _
    ext <;> simp
  · intro a b
    change (⟨(((a.1 + (q - b.1 % q)) % q : Nat) : ZMod q), (((a.2 + (q - b.2 % q)) % q : Nat) : ZMod q)⟩ :
      QuadraticAlgebra (ZMod q) (-1) 0) = _
    ext
    · simp only [QuadraticAlgebra.re_sub]
      rw [ZMod.natCast_mod, Nat.cast_add, Nat.cast_sub (Nat.mod_lt _ hq).le, ZMod.natCast_mod, ZMod.natCast_self]
      ring
    · simp only [QuadraticAlgebra.im_sub]
      rw [ZMod.natCast_mod, Nat.cast_add, Nat.cast_sub (Nat.mod_lt _ hq).le, ZMod.natCast_mod, ZMod.natCast_self]
      ring
  · change (⟨((1 : Nat) : ZMod q), ((0 : Nat) : ZMod q)⟩ : QuadraticAlgebra (ZMod q) (-1) 0) = 1
    ext
    · exact Nat.cast_one
    · exact Nat.cast_zero
  · intro a b h
    change (Nat.beq a.1 b.1 && Nat.beq a.2 b.2) = true at h
    rw [Bool.and_eq_true] at h
    rw [Nat.eq_of_beq_eq_true h.1, Nat.eq_of_beq_eq_true h.2]

end Fawkes.Groth16
