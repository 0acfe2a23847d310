import Verif.Model.Trace
import Verif.Props.SignatureForm

/-!
# C104: what the sequence of point operations tells about the scalar
-/

namespace Fawkes.Props

variable {r : Nat} [Fact r.Prime] {C : EdCurve (ZMod r)} {J : JubJubParams (ZMod r)} [Fact J.l.Prime]

/-- The number of ones in the binary representation. -/
def ones (n : Nat) : Nat := (Nat.bits n).count true

/-- What a run does with the bits of the scalar, the first being the most significant: a doubling for every bit, and an addition for every one. -/
def doubleAndAdd (bits : List Bool) : List PointOp := bits.flatMap fun b => if b then [.double, .add] else [.double]

section

variable {F : Type} [Field F] [DecidableEq F]

theorem mulBitsTrace_eq (J : JubJubParams F) (p : EdwardsPointEx F) (bits : List Bool) (res : EdwardsPointEx F) (tr : List PointOp) :
    EdwardsPointEx.mulBitsTrace J p bits res tr = (EdwardsPointEx.mulBits J p bits res, tr ++ doubleAndAdd bits) := by
  induction bits generalizing res tr with
  | nil => simp [EdwardsPointEx.mulBitsTrace, EdwardsPointEx.mulBits, doubleAndAdd]
  | cons b bits ih =>
    cases b <;> simp [EdwardsPointEx.mulBitsTrace, EdwardsPointEx.mulBits, ih, doubleAndAdd]

/-- The recorded run is a run of the code. -/
theorem mulTrace_eq (p : EdwardsPointEx F) {l : Nat} [Fact l.Prime] (k : ZMod l) (J : JubJubParams F) :
    p.mulTrace k J = (p.mul k J, doubleAndAdd (Num.iterbitBE k)) := by
  rw [EdwardsPointEx.mulTrace, mulBitsTrace_eq, List.nil_append]
  rfl

end

theorem doubleAndAdd_inj : ∀ {a b : List Bool}, doubleAndAdd a = doubleAndAdd b → a = b := by
  intro a
  induction a with
  | nil =>
    intro b h
    cases b with
    | nil => rfl
    | cons b bs => cases b <;> simp [doubleAndAdd] at h
  | cons x xs ih =>
    intro b h
    cases b with
    | nil => cases x <;> simp [doubleAndAdd] at h
    | cons y ys =>
      have e : ∀ z zs, doubleAndAdd (z :: zs) = PointOp.double :: ((if z then [PointOp.add] else []) ++ doubleAndAdd zs) := by
        intro z zs
        cases z <;> simp [doubleAndAdd]
      have hd : ∀ zs : List Bool, (doubleAndAdd zs).head? ≠ some .add := by
        intro zs
        cases zs with
        | nil => simp [doubleAndAdd]
        | cons z zs => rw [e]; simp
      rw [e, e] at h
      injection h with _ h
      cases x <;> cases y
      · rw [ih (by simpa using h)]
      · exact absurd (congrArg List.head? h) (by simpa using hd xs)
      · exact absurd (congrArg List.head? h).symm (by simpa using hd ys)
      · rw [ih (by simpa using h)]

theorem count_double (bits : List Bool) : (doubleAndAdd bits).count .double = bits.length := by
  induction bits with
  | nil => rfl
  | cons b bits ih =>
    have : doubleAndAdd (b :: bits) = (if b then [.double, .add] else [.double]) ++ doubleAndAdd bits := rfl
    rw [this, List.count_append, ih]
    cases b <;> simp [Nat.add_comm]

theorem count_add (bits : List Bool) : (doubleAndAdd bits).count .add = bits.count true := by
  induction bits with
  | nil => rfl
  | cons b bits ih =>
    have : doubleAndAdd (b :: bits) = (if b then [.double, .add] else [.double]) ++ doubleAndAdd bits := rfl
    rw [this, List.count_append, ih]
    cases b <;> simp [Nat.add_comm]

theorem ones_bits (l : List Bool) : ones (bitsNat l) = l.count true := by
  induction l with
  | nil => simp [ones, bitsNat]
  | cons b l ih =>
    have hb : bitsNat (b :: l) = Nat.bit b (bitsNat l) := by
      rw [bitsNat, Nat.bit_val, Nat.add_comm]
    unfold ones at ih ⊢
    rw [hb]
    by_cases h : bitsNat l = 0 → b = true
    · rw [Nat.bits_append_bit _ _ h, List.count_cons, ih, List.count_cons]
    · push Not at h
      obtain ⟨h0, h1⟩ := h
      have h1 : b = false := by simpa using h1
      subst h1
      rw [h0] at ih ⊢
      have : Nat.bit false 0 = 0 := rfl
      rw [this, ih]
      simp

/-- C104 (the record is faithful): the recorded multiplication and signature are those of the code. -/
theorem C104_erasure (p : EdwardsPoint (ZMod r)) (k sk : ZMod J.l) (m : ZMod r) (P : PoseidonParams (ZMod r)) :
    p.mul k J = (p.mulTrace k J).map Prod.fst ∧ Eddsa.sign J sk m P = (Eddsa.signTrace J sk m P).map Prod.fst := by
  have h : ∀ (p : EdwardsPoint (ZMod r)) (k : ZMod J.l), p.mul k J = (p.mulTrace k J).map Prod.fst := by
    intro p k
    rw [EdwardsPoint.mulTrace, EdwardsPoint.mul, mulTrace_eq]
    cases (p.intoExtended.mul k J).intoAffine <;> rfl
  refine ⟨h p k, ?_⟩
  unfold Eddsa.sign Eddsa.signTrace
  simp only [h]
  cases Eddsa.hashR sk m with
  | error e => rfl
  | ok rho =>
    show (J.g.mulTrace rho J).map Prod.fst >>= _ = Except.map _ (J.g.mulTrace rho J >>= _)
    cases J.g.mulTrace rho J with
    | error e => rfl
    | ok rp =>
      show (J.g.mulTrace sk J).map Prod.fst >>= _ = Except.map _ (J.g.mulTrace sk J >>= _)
      cases J.g.mulTrace sk J with
      | error e => rfl
      | ok ap =>
        show Eddsa.hashRam rp.1.x ap.1.x m P >>= _ = Except.map _ (Eddsa.hashRam rp.1.x ap.1.x m P >>= _)
        cases Eddsa.hashRam rp.1.x ap.1.x m P with
        | error e => rfl
        | ok h =>
          show Num.intoOther J.l h >>= _ = Except.map _ (Num.intoOther J.l h >>= _)
          cases Num.intoOther J.l h <;> rfl

/-- C104 as one would like to have it: the sequence of point operations is the same for all scalars. -/
def C104_full : Prop :=
  ∀ (p : EdwardsPoint (ZMod bnR)) (k k' : ZMod bnParams.l) (a a' : EdwardsPoint (ZMod bnR)) (t t' : List PointOp),
    p.mulTrace k bnParams = .ok (a, t) → p.mulTrace k' bnParams = .ok (a', t') → t = t'

/-- The result of a multiplication that does not panic, and its operations. -/
theorem mulTrace_ok {p a : EdwardsPoint (ZMod r)} {k : ZMod J.l} {t : List PointOp} (h : p.mulTrace k J = .ok (a, t)) :
    p.mul k J = .ok a ∧ t = doubleAndAdd (Num.iterbitBE k) := by
  rw [EdwardsPoint.mulTrace, mulTrace_eq] at h
  rw [EdwardsPoint.mul]
  cases hq : (p.intoExtended.mul k J).intoAffine with
  | error e => rw [hq] at h; cases h
  | ok q =>
    rw [hq] at h
    have h := Except.ok.inj h
    exact ⟨congrArg Except.ok (Prod.mk.inj h).1, (Prod.mk.inj h).2.symm⟩

/-- For points of the curve the multiplication does not panic. -/
theorem mulTrace_total (hd : J.d = C.d) (Q : EdPoint C) (k : ZMod J.l) :
    Q.affine.mulTrace k J = .ok ((k.val • Q).affine, doubleAndAdd (Num.iterbitBE k)) := by
  have h := C28_mul hd Q k
  rw [EdwardsPoint.mul] at h
  rw [EdwardsPoint.mulTrace, mulTrace_eq]
  show (_ >>= _) = _
  rw [h]
  rfl

/-- C104 (the scalar shows): the sequence of operations determines the scalar; two multiplications do the same operations only if their
scalars are equal. -/
theorem C104_reveals {p p' a a' : EdwardsPoint (ZMod r)} {k k' : ZMod J.l} {t : List PointOp}
    (h : p.mulTrace k J = .ok (a, t)) (h' : p'.mulTrace k' J = .ok (a', t)) : k = k' := by
  have h1 := doubleAndAdd_inj ((mulTrace_ok h).2.symm.trans (mulTrace_ok h').2)
  rw [(C48_iterbit k).2.2.2, (C48_iterbit k').2.2.2] at h1
  have h2 := congrArg bitsNat (List.reverse_injective h1)
  rw [(C48_iterbit k).2.2.1, (C48_iterbit k').2.2.1] at h2
  exact ZMod.val_injective _ h2

/-- C104 is false: the operations for the scalars zero and one differ. -/
theorem C104_refuted : ¬ C104_full := by
  intro h
  have h0 := mulTrace_total (J := bnParams) (C := bnCurve) bnParams_valid.d_eq 0 0
  have h1 := mulTrace_total (J := bnParams) (C := bnCurve) bnParams_valid.d_eq 0 1
  have e := h _ _ _ _ _ _ _ h0 h1
  rw [← e] at h1
  exact zero_ne_one (C104_reveals h0 h1)

/-- C104 (what holds): a multiplication always does the same number of doublings, one for every bit of the limbs; the number of additions is
the number of ones in the binary representation of the scalar. -/
theorem C104_count_partial {p a : EdwardsPoint (ZMod r)} {k : ZMod J.l} {t : List PointOp} (h : p.mulTrace k J = .ok (a, t)) :
    t.count .double = 64 * nLimbs J.l ∧ t.count .add = ones k.val := by
  rw [(mulTrace_ok h).2, count_double, count_add, (C48_iterbit k).2.2.2, List.length_reverse, List.count_reverse, (C48_iterbit k).1,
    ← ones_bits, (C48_iterbit k).2.2.1]
  exact ⟨rfl, rfl⟩

/-- What signing does: the multiplication by the nonce and the one by the secret key. -/
theorem signTrace_ok {sk : ZMod J.l} {m : ZMod r} {P : PoseidonParams (ZMod r)} {sig : ZMod J.l × ZMod r} {t : List PointOp}
    (h : Eddsa.signTrace J sk m P = .ok (sig, t)) :
    ∃ rho : ZMod J.l, Eddsa.hashR sk m = .ok rho ∧ ∃ a a' t1 t2, J.g.mulTrace rho J = .ok (a, t1) ∧ J.g.mulTrace sk J = .ok (a', t2) ∧
      t = t1 ++ t2 := by
  unfold Eddsa.signTrace at h
  cases h1 : Eddsa.hashR sk m with
  | error e => rw [h1] at h; cases h
  | ok rho =>
    rw [h1] at h
    replace h : (J.g.mulTrace rho J >>= _) = _ := h
    cases h2 : J.g.mulTrace rho J with
    | error e => rw [h2] at h; cases h
    | ok rp =>
      rw [h2] at h
      replace h : (J.g.mulTrace sk J >>= _) = _ := h
      cases h3 : J.g.mulTrace sk J with
      | error e => rw [h3] at h; cases h
      | ok ap =>
        rw [h3] at h
        replace h : (Eddsa.hashRam rp.1.x ap.1.x m P >>= _) = _ := h
        cases h4 : Eddsa.hashRam rp.1.x ap.1.x m P with
        | error e => rw [h4] at h; cases h
        | ok c =>
          rw [h4] at h
          replace h : (Num.intoOther J.l c >>= _) = _ := h
          cases h5 : Num.intoOther J.l c with
          | error e => rw [h5] at h; cases h
          | ok c' =>
            rw [h5] at h
            have e := (Prod.mk.inj (Except.ok.inj h)).2
            exact ⟨rho, rfl, rp.1, ap.1, rp.2, ap.2, h2, rfl, e.symm⟩

/-- C104 (signing): making a signature takes as many additions as nonce and secret key together have ones. -/
theorem C104_sign_partial {sk : ZMod J.l} {m : ZMod r} {P : PoseidonParams (ZMod r)} {sig : ZMod J.l × ZMod r} {t : List PointOp}
    (h : Eddsa.signTrace J sk m P = .ok (sig, t)) :
    ∃ rho : ZMod J.l, Eddsa.hashR sk m = .ok rho ∧ t.count .double = 128 * nLimbs J.l ∧ t.count .add = ones rho.val + ones sk.val := by
  obtain ⟨rho, h1, a, a', t1, t2, h2, h3, rfl⟩ := signTrace_ok h
  have c1 := C104_count_partial h2
  have c2 := C104_count_partial h3
  refine ⟨rho, h1, ?_, ?_⟩
  · rw [List.count_append, c1.1, c2.1]; ring
  · rw [List.count_append, c1.2, c2.2]

/-- C104 (signing): two runs of `eddsaposeidon_sign` that do the same operations have the same secret key. -/
theorem C104_sign_reveals {sk sk' : ZMod J.l} {m m' : ZMod r} {P P' : PoseidonParams (ZMod r)} {sig sig' : ZMod J.l × ZMod r} {t : List PointOp}
    (h : Eddsa.signTrace J sk m P = .ok (sig, t)) (h' : Eddsa.signTrace J sk' m' P' = .ok (sig', t)) : sk = sk' := by
  obtain ⟨rho, -, a, b, t1, t2, h2, h3, e⟩ := signTrace_ok h
  obtain ⟨rho', -, a', b', t1', t2', h2', h3', e'⟩ := signTrace_ok h'
  have app : ∀ x y, doubleAndAdd (x ++ y) = doubleAndAdd x ++ doubleAndAdd y := fun x y => List.flatMap_append
  have heq := e.symm.trans e'
  rw [(mulTrace_ok h2).2, (mulTrace_ok h3).2, (mulTrace_ok h2').2, (mulTrace_ok h3').2, ← app, ← app] at heq
  have hl : ∀ k : ZMod J.l, (Num.iterbitBE k).length = 64 * nLimbs J.l := by
    intro k
    rw [(C48_iterbit k).2.2.2, List.length_reverse, (C48_iterbit k).1]
  have h1 := (List.append_inj (doubleAndAdd_inj heq) ((hl _).trans (hl _).symm)).2
  rw [(C48_iterbit sk).2.2.2, (C48_iterbit sk').2.2.2] at h1
  have h2 := congrArg bitsNat (List.reverse_injective h1)
  rw [(C48_iterbit sk).2.2.1, (C48_iterbit sk').2.2.1] at h2
  exact ZMod.val_injective _ h2

/-- Multiplying the base point of BN256 by two and by three: one addition and two. -/
example : ∃ a t a' t', bnParams.g.mulTrace (2 : ZMod bnParams.l) bnParams = .ok (a, t) ∧ t.count .add = 1 ∧
    bnParams.g.mulTrace (3 : ZMod bnParams.l) bnParams = .ok (a', t') ∧ t'.count .add = 2 := by
  obtain ⟨G, hG, -⟩ := bnParams_valid.base
  have h2 := mulTrace_total (J := bnParams) (C := bnCurve) bnParams_valid.d_eq G 2
  have h3 := mulTrace_total (J := bnParams) (C := bnCurve) bnParams_valid.d_eq G 3
  rw [hG]
  refine ⟨_, _, _, _, h2, ?_, h3, ?_⟩
  · rw [(C104_count_partial h2).2, show (2 : ZMod bnParams.l).val = 2 from rfl]; decide +kernel
  · rw [(C104_count_partial h3).2, show (3 : ZMod bnParams.l).val = 3 from rfl]; decide +kernel

/-- Signing on the curve of BN256 meets the hypotheses of the theorems about signing. -/
example (m : ZMod bnR) (P : PoseidonParams (ZMod bnR)) (hP : PoseidonSpec.Shaped P) (ht : 4 ≤ P.t) :
    ∃ sig t, Eddsa.signTrace bnParams 5 m P = .ok (sig, t) := by
  obtain ⟨sqrt, hs⟩ := exists_isSqrt (ZMod bnR)
  obtain ⟨s, rx, A, h, -⟩ := C41_sign_verifies bnParams_valid hs aligned_bnR aligned_bnL (by decide +kernel) hP ht 5 m
  rw [(C104_erasure bnParams.g 5 5 m P).2] at h
  cases ht : Eddsa.signTrace bnParams 5 m P with
  | error e => rw [ht] at h; cases h
  | ok x => exact ⟨x.1, x.2, rfl⟩

end Fawkes.Props
