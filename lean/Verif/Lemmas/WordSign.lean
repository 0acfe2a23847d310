import Verif.Model.WordSign
import Verif.Lemmas.Natural
import Verif.Props.LimbsRand

/-!
# Lemmas: conversions, square roots, parameters and signatures on machine words
-/

namespace Fawkes.Limbs

open Natural

namespace Elem

variable {p : Nat} [Fact p.Prime] [odd : Fact (p % 2 = 1)]

theorem check_wordsOf {w : Words} {x : ZMod p} (h : WordsOf w x) : ∃ a : Elem p, check w = some a ∧ a.value = x :=
  ⟨⟨w, h.length, h.below⟩, dif_pos ⟨h.length, h.below⟩, value_of h⟩

theorem fromRepr_eq (r : Words) (hr : r.length = nLimbs p) : (fromRepr r : Option (Elem p)).map value = Num.fromRepr r := by
  rcases (Props.C115_repr (ne_two_of_odd odd.out)).1 r hr with ⟨h1, h2⟩ | ⟨x, w, h1, h2, h3⟩
  · unfold fromRepr
    rw [h2, h1]
    rfl
  · obtain ⟨a, h4, h5⟩ := check_wordsOf h3
    unfold fromRepr
    rw [h2, h1]
    show Option.map value (check w) = _
    rw [h4, ← h5]
    rfl

theorem intoRepr_eq (a : Elem p) : Limbs.intoRepr p a.words = Num.intoRepr a.value :=
  (Props.C115_repr (ne_two_of_odd odd.out)).2 _ _ a.wordsOf

theorem intoBinaryBE_eq (a : Elem p) : a.intoBinaryBE = Num.intoBinaryBE a.value := by
  unfold intoBinaryBE Num.intoBinaryBE
  rw [intoRepr_eq]

theorem fromBigUint_eq (x : Nat) : (fromBigUint p x).map value = Num.fromBigUint p x := by
  unfold fromBigUint Num.fromBigUint
  cases Num.writeBEInto (numBytes p) (limbsOf (nLimbs p) p) with
  | error e => rfl
  | ok order =>
    simp only [bind, Except.bind]
    split
    · rfl
    · generalize List.replicate _ _ ++ _ = buff
      rcases lt_or_ge buff.length (8 * nLimbs p) with h | h
      · rw [(readBE_spec _ _).2 h]
        rfl
      · obtain ⟨r, h1, h2, -⟩ := (readBE_spec _ _).1 h
        rw [h1]
        simp only []
        rw [← fromRepr_eq r h2]
        cases (fromRepr r : Option (Elem p)) <;> rfl

theorem fromBinaryBE_eq (b : List UInt8) : (fromBinaryBE p b).map value = Num.fromBinaryBE p b := fromBigUint_eq _

theorem intoOther_eq {q : Nat} [Fact q.Prime] [Fact (q % 2 = 1)] (a : Elem p) : (intoOther q a).map value = Num.intoOther q a.value := by
  unfold intoOther
  show _ = (Num.intoBinaryBE a.value >>= fun b => Num.fromBinaryBE q b)
  rw [intoBinaryBE_eq]
  cases Num.intoBinaryBE a.value with
  | error e => rfl
  | ok b => exact fromBinaryBE_eq b

theorem fromSeed_eq (b : List UInt8) : (fromSeed p b).map value = Num.fromSeed p b := by
  unfold fromSeed Num.fromSeed
  split
  · exact fromBinaryBE_eq _
  · rfl

theorem rand_eq (h64 : numBits p % 64 ≠ 0) (checks : Bool) (tries : Nat) (s : SeedboxBlake2) :
    (rand p checks tries s).map (fun q => (q.1.value, q.2)) = Num.rand p checks tries s := by
  obtain ⟨h1, h2⟩ := Props.C115_seedbox (p := p) (ne_two_of_odd odd.out) h64 checks tries s
  unfold rand
  cases h : Num.rand p checks tries s with
  | error e =>
    rw [h2 e h]
    rfl
  | ok q =>
    obtain ⟨x, s'⟩ := q
    obtain ⟨w, h3, h4⟩ := h1 x s' h
    obtain ⟨a, h5, h6⟩ := check_wordsOf h4
    rw [h3]
    simp only []
    rw [h5, ← h6]
    rfl

theorem genVec_map {F K σ E : Type} (f : F → K) (gen : σ → Except E (F × σ)) (gen' : σ → Except E (K × σ))
    (h : ∀ s, (gen s).map (fun q => (f q.1, q.2)) = gen' s) (n : Nat) (s : σ) :
    (Poseidon.genVec gen n s).map (fun q => (q.1.map f, q.2)) = Poseidon.genVec gen' n s := by
  induction n generalizing s with
  | zero => rfl
  | succ n ih =>
    show (gen s >>= fun q => Poseidon.genVec gen n q.2 >>= fun q' => pure (q.1 :: q'.1, q'.2)).map _ =
      (gen' s >>= fun q => Poseidon.genVec gen' n q.2 >>= fun q' => pure (q.1 :: q'.1, q'.2))
    rw [← h]
    refine bind_map _ _ _ _ _ fun a => ?_
    simp only []
    rw [← ih]
    exact bind_map _ _ _ _ _ fun b => rfl

theorem genRows_map {F K σ E : Type} (f : F → K) (gen : σ → Except E (F × σ)) (gen' : σ → Except E (K × σ))
    (h : ∀ s, (gen s).map (fun q => (f q.1, q.2)) = gen' s) (t n : Nat) (s : σ) :
    (Poseidon.genRows gen t n s).map (fun q => (q.1.map (List.map f), q.2)) = Poseidon.genRows gen' t n s := by
  induction n generalizing s with
  | zero => rfl
  | succ n ih =>
    show (Poseidon.genVec gen t s >>= fun q => Poseidon.genRows gen t n q.2 >>= fun q' => pure (q.1 :: q'.1, q'.2)).map _ =
      (Poseidon.genVec gen' t s >>= fun q => Poseidon.genRows gen' t n q.2 >>= fun q' => pure (q.1 :: q'.1, q'.2))
    rw [← genVec_map f gen gen' h]
    refine bind_map _ _ _ _ _ fun a => ?_
    simp only []
    rw [← ih]
    exact bind_map _ _ _ _ _ fun b => rfl

theorem newParams_eq {r : Nat} [Fact r.Prime] [Fact (r % 2 = 1)] (h64 : numBits r % 64 ≠ 0) (checks : Bool) (tries t f p : Nat) :
    (newParams r checks tries t f p).map (PoseidonParams.map value) = PoseidonParams.new r checks tries t f p := by
  unfold newParams PoseidonParams.new Poseidon.newParams
  rw [← genVec_map value _ _ (rand_eq (p := r) h64 checks tries)]
  refine bind_map _ _ _ _ _ fun a => ?_
  simp only []
  rw [← genRows_map value _ _ (rand_eq (p := r) h64 checks tries)]
  exact bind_map _ _ _ _ _ fun b => rfl

/-- The value as a homomorphism. -/
def hom (p : Nat) [Fact p.Prime] [Fact (p % 2 = 1)] : Elem p →+* ZMod p := (valueIso (p := p)).toRingHom

theorem hom_eq : ⇑(hom p) = value := rfl

theorem eq_zero_iff (a : Elem p) : a = 0 ↔ a.value = 0 := by
  rw [← value_zero (p := p), value_injective.eq_iff]

theorem eq_one_iff' (a : Elem p) : a = 1 ↔ a.value = 1 := by
  rw [← value_one (p := p), value_injective.eq_iff]

theorem powStep_map (x : Elem p) (q : Elem p × Bool) (b : Bool) :
    ((FieldSqrt.powStep x q b).1.value, (FieldSqrt.powStep x q b).2) = FieldSqrt.powStep x.value (q.1.value, q.2) b := by
  obtain ⟨res, found⟩ := q
  cases found <;> cases b <;> simp [FieldSqrt.powStep, value_mul]

theorem pow_map (x : Elem p) (e : List UInt64) : (FieldSqrt.pow x e).value = FieldSqrt.pow x.value e := by
  unfold FieldSqrt.pow
  have key : ∀ (l : List Bool) (q : Elem p × Bool), ((l.foldl (FieldSqrt.powStep x) q).1.value, (l.foldl (FieldSqrt.powStep x) q).2) =
      l.foldl (FieldSqrt.powStep x.value) (q.1.value, q.2) := by
    intro l
    induction l with
    | nil => intro q; rfl
    | cons b l ih =>
      intro q
      rw [List.foldl_cons, List.foldl_cons, ih, powStep_map]
  have h := congrArg Prod.fst (key (reprBitsBE e) (1, false))
  simp only [value_one] at h
  exact h

theorem legendre_map (x : Elem p) : legendre x = FieldSqrt.legendre x.value := by
  unfold legendre FieldSqrt.legendre
  simp only [eq_zero_iff, eq_one_iff', pow_map]

theorem order_map (fuel : Nat) (t : Elem p) (i : Nat) : order fuel t i = FieldSqrt.order fuel t.value i := by
  induction fuel generalizing t i with
  | zero => rfl
  | succ fuel ih =>
    unfold order FieldSqrt.order
    simp only [eq_one_iff', ih, value_mul]

theorem squares_map (n : Nat) (c : Elem p) : (squares n c).value = FieldSqrt.squares n c.value := by
  induction n generalizing c with
  | zero => rfl
  | succ n ih =>
    unfold squares FieldSqrt.squares
    rw [ih, value_mul]

theorem shanks_map (fuel : Nat) (c r t : Elem p) (m : Nat) :
    (shanks fuel c r t m).map value = FieldSqrt.shanks fuel c.value r.value t.value m := by
  induction fuel generalizing c r t m with
  | zero => rfl
  | succ fuel ih =>
    unfold shanks FieldSqrt.shanks
    simp only [eq_one_iff', order_map, value_mul]
    split
    · rfl
    · cases FieldSqrt.order (m + 1) (t.value * t.value) 1 with
      | none => rfl
      | some i =>
        simp only []
        split
        · rfl
        · rw [ih]
          simp only [value_mul, squares_map]

theorem sqrt16_map (g s : Nat) (a : Elem p) : (sqrt16 g s a).map (Option.map value) = FieldSqrt.sqrt16 g s a.value := by
  unfold sqrt16 FieldSqrt.sqrt16
  simp only [legendre_map]
  cases FieldSqrt.legendre a.value with
  | zero => rfl
  | nonResidue => rfl
  | residue =>
    simp only []
    have h := shanks_map (s + 1) (FieldSqrt.pow (ofValue (g : ZMod p)) (FieldSqrt.exponent p ((p - 1) / 2 ^ s)))
      (FieldSqrt.pow a (FieldSqrt.exponent p (((p - 1) / 2 ^ s + 1) / 2))) (FieldSqrt.pow a (FieldSqrt.exponent p ((p - 1) / 2 ^ s))) s
    rw [pow_map, pow_map, pow_map, value_ofValue] at h
    rw [← h]
    generalize shanks (p := p) (s + 1) _ _ _ s = o
    cases o <;> rfl

end Elem

section

open Elem

variable {r : Nat} [Fact r.Prime] [Fact (r % 2 = 1)]

theorem mulPoint_map {l : Nat} [Fact l.Prime] [Fact (l % 2 = 1)] (g : EdwardsPoint (Elem r)) (s : Elem l) (J : JubJubParams (Elem r)) :
    (mulPoint g s J).map (EdwardsPoint.map value) = (g.map value).mul s.value (J.map value) := by
  unfold mulPoint
  rw [intoRepr_eq]
  exact mul_map (hom r) g s.value J

theorem hashR_map {l : Nat} [Fact l.Prime] [Fact (l % 2 = 1)] (sk : Elem l) (m : Elem r) :
    (hashR sk m).map value = Eddsa.hashR sk.value m.value := by
  unfold hashR Eddsa.hashR
  rw [intoBinaryBE_eq, intoBinaryBE_eq]
  cases Num.intoBinaryBE sk.value with
  | error e => rfl
  | ok b1 =>
    cases Num.intoBinaryBE m.value with
    | error e => rfl
    | ok b2 => exact fromBinaryBE_eq _

theorem hashRam_map (rx a m : Elem r) (P : PoseidonParams (Elem r)) :
    (hashRam rx a m P).map value = Eddsa.hashRam rx.value a.value m.value (P.map value) := by
  unfold hashRam Eddsa.hashRam
  rw [← fromSeed_eq]
  exact bind_map _ _ _ _ _ fun seed => poseidonWithSalt_map (hom r) [rx, a, m] seed P

theorem sign_map (J : JubJubParams (Elem r)) [h1 : Fact J.l.Prime] [Fact (J.l % 2 = 1)] (sk : Elem J.l) (m : Elem r)
    (P : PoseidonParams (Elem r)) : (sign J sk m P).map (fun q => (q.1.value, q.2.value)) =
      @Eddsa.sign r _ (J.map value) h1 sk.value m.value (P.map value) := by
  unfold sign Eddsa.sign
  refine (bind_map _ _ _ value (fun rho => @EdwardsPoint.mul (ZMod r) _ _ (J.g.map value) J.l h1 rho (J.map value) >>= fun rp =>
    @EdwardsPoint.mul (ZMod r) _ _ (J.g.map value) J.l h1 sk.value (J.map value) >>= fun ap =>
      Eddsa.hashRam rp.x ap.x m.value (P.map value) >>= fun h => Num.intoOther J.l h >>= fun h' =>
        pure (rho + h' * sk.value, rp.x)) fun rho => ?_).trans (by rw [hashR_map]; rfl)
  have e1 := mulPoint_map J.g rho J
  have e2 := mulPoint_map J.g sk J
  refine (bind_map _ _ _ (EdwardsPoint.map value) (fun rp => @EdwardsPoint.mul (ZMod r) _ _ (J.g.map value) J.l h1 sk.value (J.map value) >>=
    fun ap => Eddsa.hashRam rp.x ap.x m.value (P.map value) >>= fun h => Num.intoOther J.l h >>= fun h' =>
      pure (rho.value + h' * sk.value, rp.x)) fun rp => ?_).trans ?_
  · refine (bind_map _ _ _ (EdwardsPoint.map value) (fun ap => Eddsa.hashRam rp.x.value ap.x m.value (P.map value) >>= fun h =>
      Num.intoOther J.l h >>= fun h' => pure (rho.value + h' * sk.value, rp.x.value)) fun ap => ?_).trans ?_
    · show _ = (Eddsa.hashRam rp.x.value ap.x.value m.value (P.map value) >>= fun h =>
        Num.intoOther J.l h >>= fun h' => pure (rho.value + h' * sk.value, rp.x.value))
      rw [← hashRam_map]
      refine bind_map _ _ _ _ _ fun h => ?_
      rw [← intoOther_eq]
      exact bind_map _ _ _ _ _ fun h' => by
        show Except.ok ((rho + h' * sk).value, rp.x.value) = Except.ok _
        rw [value_add, value_mul]
    · rw [e2]
      rfl
  · rw [e1]

theorem verify_map (sqrt : Elem r → Option (Elem r)) (sqrt' : ZMod r → Option (ZMod r)) (hs : ∀ a, (sqrt a).map value = sqrt' a.value)
    (J : JubJubParams (Elem r)) [h1 : Fact J.l.Prime] [Fact (J.l % 2 = 1)] (s : Elem J.l) (rx a m : Elem r)
    (P : PoseidonParams (Elem r)) : verify sqrt J s rx a m P =
      @Eddsa.verify r _ sqrt' (J.map value) h1 s.value rx.value a.value m.value (P.map value) := by
  have hid : ∀ x : Except Panic Bool, x.map id = x := fun x => by cases x <;> rfl
  rw [← hid (verify sqrt J s rx a m P)]
  have d1 := subgroupDecompress_map (hom r) sqrt sqrt' hs a J
  have d2 := subgroupDecompress_map (hom r) sqrt sqrt' hs rx J
  rw [hom_eq] at d1 d2
  unfold verify Eddsa.verify
  rw [← d1]
  refine bind_map _ _ _ _ _ fun o => ?_
  cases o with
  | none => rfl
  | some pa =>
    simp only [Option.map_some]
    rw [← d2]
    refine bind_map _ _ _ _ _ fun o => ?_
    cases o with
    | none => rfl
    | some pr =>
      simp only [Option.map_some]
      rw [← hashRam_map]
      refine bind_map _ _ _ _ _ fun h => ?_
      have e0 := intoOther_eq (q := J.l) h
      refine (bind_map _ _ _ value (fun h' => @EdwardsPoint.mul (ZMod r) _ _ (pa.map value) J.l h1 h' (J.map value) >>= fun ha =>
        @EdwardsPoint.mul (ZMod r) _ _ (J.g.map value) J.l h1 s.value (J.map value) >>= fun sb =>
          ha.add (pr.map value) (J.map value) >>= fun haR => pure (sb.x == haR.x && sb.y == haR.y)) fun h' => ?_).trans ?_
      · rw [← mulPoint_map]
        refine bind_map _ _ _ _ _ fun ha => ?_
        rw [← mulPoint_map]
        refine bind_map _ _ _ _ _ fun sb => ?_
        have e3 := add_map (hom r) ha pr J
        rw [hom_eq] at e3
        rw [← e3]
        refine bind_map _ _ _ _ _ fun haR => ?_
        show Except.ok _ = Except.ok _
        have b1 := eq_bool (hom r) sb.x haR.x
        have b2 := eq_bool (hom r) sb.y haR.y
        rw [hom_eq] at b1 b2
        show _ = Except.ok (((sb.x.value == haR.x.value) && (sb.y.value == haR.y.value)))
        rw [b1, b2]
        rfl
      · rw [e0]
        rfl

end

end Fawkes.Limbs
