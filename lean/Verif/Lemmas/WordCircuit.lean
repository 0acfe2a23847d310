import Verif.Lemmas.WordSign
import Verif.Lemmas.NaturalCircuit
import Verif.Model.WordCircuit

/-!
# Lemmas: circuits on machine words
-/

namespace Fawkes.Limbs

open Natural Elem

variable {r : Nat} [Fact r.Prime] [odd : Fact (r % 2 = 1)]

namespace Elem

theorem iterbitLE_value (a : Elem r) : a.iterbitLE = Num.iterbitLE a.value := by
  unfold iterbitLE Num.iterbitLE
  rw [intoRepr_eq]

theorem isEven_value (a : Elem r) : a.isEven = Num.isEven a.value := by
  unfold isEven Num.isEven Num.isOdd Limbs.isEven Limbs.isOdd
  rw [intoRepr_eq]
  cases Num.intoRepr a.value with
  | nil => rfl
  | cons l _ =>
    simp only [List.getD_cons_zero]
    congr 1
    rw [Bool.eq_iff_iff]
    simp only [decide_eq_true_eq, beq_iff_eq, ← UInt64.toNat_inj, UInt64.toNat_and]
    rw [show (1 : UInt64).toNat = 1 from rfl, Nat.and_one_is_mod]

theorem filterEven_value (a : Elem r) : a.filterEven.value = EdwardsPoint.filterEven a.value := by
  unfold filterEven EdwardsPoint.filterEven
  rw [isEven_value]
  split
  · rfl
  · exact map_neg (hom r) a

end Elem

namespace Bitify

theorem constLoop_map (vb : List Bool) (n i : Nat) (k rem : Elem r) :
    (constLoop vb n i k rem).map (fun q => (q.1.map (CBool.map value), q.2.value)) =
      Fawkes.Bitify.constLoop vb n i k.value rem.value := by
  induction n generalizing i k rem with
  | zero => rfl
  | succ n ih =>
    unfold constLoop Fawkes.Bitify.constLoop
    cases vb[i]? with
    | none => rfl
    | some bit =>
      simp only []
      have h2 : (2 * k).value = 2 * k.value := by
        have h := map_mul (hom r) 2 k
        rw [map_ofNat] at h
        exact h
      have h3 : (if bit then rem - k else rem).value = if bit then rem.value - k.value else rem.value := by
        cases bit
        · rfl
        · exact map_sub (hom r) rem k
      rw [← h2, ← h3, ← ih]
      cases constLoop vb n (i + 1) (2 * k) (if bit then rem - k else rem) with
      | error _ => rfl
      | ok q =>
        show Except.ok (CBool.map (hom r) (CBool.fromConst bit) :: _, _) = Except.ok (CBool.fromConst bit :: _, _)
        rw [bool_fromConst_map]

theorem witnessBits_map (v : Option (Elem r)) : witnessBits v = Fawkes.Bitify.witnessBits (v.map value) := by
  cases v with
  | none => rfl
  | some x => simp only [witnessBits, Fawkes.Bitify.witnessBits, Option.map_some, iterbitLE_value]

theorem maps_allocLoop (vb : List (Option Bool)) (n i : Nat) (k : Elem r) (rem : CNum (Elem r)) :
    Maps (hom r) (fun q : List (CBool (Elem r)) × CNum (Elem r) => (q.1.map (CBool.map value), q.2.map value))
      (allocLoop vb n i k rem) (Fawkes.Bitify.allocLoop vb n i k.value (rem.map value)) := by
  induction n generalizing i k rem with
  | zero => exact Maps.pure (hom r) _ _
  | succ n ih =>
    unfold allocLoop Fawkes.Bitify.allocLoop
    cases vb[i]? with
    | none => exact Maps.panic (hom r) _ _
    | some v =>
      refine (maps_bool_alloc (hom r) v).bind fun s => (maps_bool_assert (hom r) s).bind fun _ => ?_
      have h2 : (hom r) (2 * k) = 2 * (hom r) k := by rw [map_mul, map_ofNat]
      have h := ih (i + 1) (2 * k) (CNum.sub rem (CNum.mulConst s.num (2 * k)))
      rw [← hom_eq, csub_map, mulConst_map, h2] at h
      exact h.bind fun q => Maps.pure (hom r) _ _

theorem maps_intoBitsLE (x : CNum (Elem r)) (limit : Nat) :
    Maps (hom r) (List.map (CBool.map value)) (intoBitsLE x limit) (Fawkes.Bitify.intoBitsLE (x.map value) limit) := by
  unfold intoBitsLE Fawkes.Bitify.intoBitsLE
  rw [← hom_eq, asConst_map]
  cases x.asConst with
  | some v =>
    simp only [Option.map_some]
    refine Maps.bind (Maps.lift (hom r) (fun q => (q.1.map (CBool.map value), q.2.value)) (?_ : _ = _)) fun q =>
      (Maps.assert (hom r) ?_ _).bind fun _ => Maps.pure (hom r) _ _
    · rw [constLoop_map, iterbitLE_value]
      show _ = Fawkes.Bitify.constLoop (Num.iterbitLE v.value) limit 0 1 v.value
      rw [show (1 : Elem r).value = 1 from map_one (hom r)]
    · simp only [eq_zero_iff]
  | none =>
    simp only [Option.map_none]
    have h := maps_allocLoop (witnessBits x.value) (limit - 1) 1 1 x
    rw [show (1 : Elem r).value = 1 from map_one (hom r), witnessBits_map] at h
    rw [witnessBits_map]
    refine Maps.bind (g := fun q : List (CBool (Elem r)) × CNum (Elem r) => (q.1.map (CBool.map value), q.2.map value)) h fun q => ?_
    refine Maps.bind (maps_assertBit (hom r) q.2) fun _ => ?_
    exact Maps.ite Iff.rfl (Maps.panic (hom r) _ _) (Maps.pure (hom r) _ (⟨q.2⟩ :: q.1))

theorem compTerm_map (ctl ctu : Bool) (l u lu : CNum (Elem r)) : (compTerm ctl ctu l u lu).map (hom r) =
    Fawkes.Bitify.compTerm ctl ctu (l.map (hom r)) (u.map (hom r)) (lu.map (hom r)) := by
  cases ctl <;> cases ctu <;>
    simp only [compTerm, Fawkes.Bitify.compTerm, csub_map, cadd_map, subConst_map, addAssign_map, mulConst_map, map_one, map_ofNat]

theorem maps_compLoop (n : Nat) (ct : List Bool) (sig : List (CBool (Elem r))) (k : Elem r) (acc : CNum (Elem r)) :
    Maps (hom r) (fun q : CNum (Elem r) × Elem r => (q.1.map value, q.2.value)) (compLoop n ct sig k acc)
      (Fawkes.Bitify.compLoop n ct (sig.map (CBool.map value)) k.value (acc.map value)) := by
  induction n generalizing ct sig k acc with
  | zero => cases ct <;> cases sig <;> exact Maps.pure (hom r) _ _
  | succ n ih =>
    match ct, sig with
    | ctl :: ctu :: ct, l :: u :: sig =>
      unfold compLoop Fawkes.Bitify.compLoop
      refine (maps_mul (hom r) l.num u.num).bind fun lu => ?_
      have h := ih ct sig (2 * k) (CNum.add acc (CNum.mulConst (compTerm ctl ctu l.num u.num lu) k))
      have h2 : (2 * k).value = 2 * k.value := by
        have h := map_mul (hom r) 2 k
        rw [map_ofNat] at h
        exact h
      rw [h2, ← hom_eq, cadd_map, mulConst_map, compTerm_map] at h
      exact h
    | [], _ => exact Maps.panic (hom r) _ _
    | [_], _ => exact Maps.panic (hom r) _ _
    | _ :: _ :: _, [] => exact Maps.panic (hom r) _ _
    | _ :: _ :: _, [_] => exact Maps.panic (hom r) _ _

theorem maps_compConstant (x : List (CBool (Elem r))) (ct : Elem r) :
    Maps (hom r) (CBool.map value) (compConstant x ct) (Fawkes.Bitify.compConstant (x.map (CBool.map value)) ct.value) := by
  unfold compConstant Fawkes.Bitify.compConstant
  simp only [List.length_map]
  refine (Maps.assert (hom r) rfl _).bind fun _ => ?_
  have h := maps_compLoop (x.length / 2 + x.length % 2) ct.iterbitLE (x ++ if x.length % 2 = 1 then [CBool.fromConst false] else []) 1
    CNum.zero
  have h1 : List.map (CBool.map value) (x ++ if x.length % 2 = 1 then [CBool.fromConst false] else []) =
      x.map (CBool.map value) ++ if x.length % 2 = 1 then [CBool.fromConst false] else [] := by
    rw [List.map_append]
    congr 1
    split
    · show [CBool.map (hom r) (CBool.fromConst false)] = _
      rw [bool_fromConst_map]
    · rfl
  rw [h1, iterbitLE_value, show (1 : Elem r).value = 1 from map_one (hom r), show (CNum.zero : CNum (Elem r)).map value = CNum.zero from
    czero_map (hom r)] at h
  rw [iterbitLE_value]
  refine h.bind fun q => ?_
  have h2 := maps_intoBitsLE (CNum.addConst q.1 (q.2 - 1)) (x.length / 2 + x.length % 2 + 1)
  rw [← hom_eq, addConst_map, map_sub, map_one] at h2
  refine h2.bind fun bits => ?_
  simp only [List.getElem?_map]
  cases bits[x.length / 2 + x.length % 2]? with
  | none => exact Maps.panic (hom r) _ _
  | some b => exact Maps.pure (hom r) _ b

theorem maps_intoBitsLEStrict (x : CNum (Elem r)) :
    Maps (hom r) (List.map (CBool.map value)) (intoBitsLEStrict x) (Fawkes.Bitify.intoBitsLEStrict (x.map value)) := by
  refine (maps_intoBitsLE x (numBits r)).bind fun bits => ?_
  have h := maps_compConstant bits (-1)
  rw [show (-1 : Elem r).value = -1 from by have h := map_neg (hom r) 1; rw [map_one] at h; exact h] at h
  exact h.bind fun cmp => (maps_bool_assertConst (hom r) cmp false).bind fun _ => Maps.pure (hom r) _ bits

theorem fromLoop_map (bits : List (CBool (Elem r))) (k : Elem r) (acc : CNum (Elem r)) : (fromLoop bits k acc).map value =
    Fawkes.Bitify.fromLoop (bits.map (CBool.map value)) k.value (acc.map value) := by
  induction bits generalizing k acc with
  | nil => rfl
  | cons b bits ih =>
    unfold fromLoop
    rw [ih, ← hom_eq, addAssign_map, mulConst_map]
    show Fawkes.Bitify.fromLoop _ _ _ = Fawkes.Bitify.fromLoop _ (2 * (hom r) k) (CNum.addAssign _ (CNum.mulConst _ (2 * (hom r) k)))
    rw [map_mul, map_ofNat]
    rfl

theorem maps_fromBitsLE (bits : List (CBool (Elem r))) :
    Maps (hom r) (CNum.map value) (fromBitsLE bits) (Fawkes.Bitify.fromBitsLE (bits.map (CBool.map value))) := by
  cases bits with
  | nil => exact Maps.panic (hom r) _ _
  | cons b bits =>
    refine Maps.pure' (hom r) ?_
    rw [fromLoop_map, show (1 : Elem r).value = 1 from map_one (hom r)]
    rfl

end Bitify

namespace CPoint

theorem eighth_map (p : EdwardsPoint (Elem r)) (J : JubJubParams (Elem r)) [h1 : Fact J.l.Prime] [Fact (J.l % 2 = 1)] :
    (eighth p J).map (EdwardsPoint.map value) = @CEdwardsPoint.eighth (ZMod r) _ _ (p.map value) (J.map value) h1 := by
  unfold eighth CEdwardsPoint.eighth
  have h := inverse_map (hom J.l) (8 : Elem J.l)
  rw [map_ofNat] at h
  refine (bind_map _ _ _ _ (fun k => @EdwardsPoint.mul (ZMod r) _ _ (p.map value) J.l h1 k (J.map value)) fun k => mulPoint_map p k J).trans ?_
  rw [show (⇑(hom J.l)) = value from rfl] at h
  rw [h]
  rfl

theorem maps_assertInSubgroup (p : CEdwardsPoint (Elem r)) (J : JubJubParams (Elem r)) [h1 : Fact J.l.Prime] [Fact (J.l % 2 = 1)] :
    Maps (hom r) id (assertInSubgroup p J) (@CEdwardsPoint.assertInSubgroup (ZMod r) _ _ (p.map value) (J.map value) h1) := by
  unfold assertInSubgroup CEdwardsPoint.assertInSubgroup
  have h := mapValue_map (fun q => eighth q J) (fun q => @CEdwardsPoint.eighth (ZMod r) _ _ q (J.map value) h1) (EdwardsPoint.map value)
    (EdwardsPoint.map value) (fun a => eighth_map a J) p.getValue
  rw [← hom_eq, ← edGetValue_map (hom r)] at h
  refine (Maps.lift (hom r) _ h).bind fun v => (maps_edAlloc (hom r) v).bind fun q => (maps_assertInCurve (hom r) q J).bind fun _ =>
    (maps_edMulByCofactor (hom r) q J).bind fun q8 => ?_
  have hx := maps_assertZero (hom r) (CNum.sub p.x q8.x)
  have hy := maps_assertZero (hom r) (CNum.sub p.y q8.y)
  rw [csub_map] at hx hy
  exact hx.bind fun _ => hy

theorem decompressValue_map (sqrt : Elem r → Option (Elem r)) (sqrt' : ZMod r → Option (ZMod r))
    (hs : ∀ a, (sqrt a).map value = sqrt' a.value) (J : JubJubParams (Elem r)) [h1 : Fact J.l.Prime] [Fact (J.l % 2 = 1)] (x : Elem r) :
    (decompressValue sqrt J x).map (EdwardsPoint.map value) =
      @CEdwardsPoint.decompressValue (ZMod r) _ _ sqrt' (J.map value) h1 x.value := by
  unfold decompressValue CEdwardsPoint.decompressValue
  have h := subgroupDecompress_map (hom r) sqrt sqrt' hs x J
  refine (bind_map _ _ _ (Option.map (EdwardsPoint.map value))
    (fun q => @CEdwardsPoint.eighth (ZMod r) _ _ (q.getD (J.map value).g) (J.map value) h1) fun q => ?_).trans ?_
  · rw [eighth_map]
    cases q <;> rfl
  · rw [show (⇑(hom r)) = value from rfl] at h
    rw [h]

theorem maps_subgroupDecompress (sqrt : Elem r → Option (Elem r)) (sqrt' : ZMod r → Option (ZMod r))
    (hs : ∀ a, (sqrt a).map value = sqrt' a.value) (x : CNum (Elem r)) (J : JubJubParams (Elem r)) [h1 : Fact J.l.Prime]
    [Fact (J.l % 2 = 1)] : Maps (hom r) (CEdwardsPoint.map value) (subgroupDecompress sqrt x J)
      (@CEdwardsPoint.subgroupDecompress (ZMod r) _ _ sqrt' (x.map value) (J.map value) h1) := by
  unfold subgroupDecompress CEdwardsPoint.subgroupDecompress
  have h := mapValue_map (decompressValue sqrt J) (@CEdwardsPoint.decompressValue (ZMod r) _ _ sqrt' (J.map value) h1) value
    (EdwardsPoint.map value) (decompressValue_map sqrt sqrt' hs J) x.value
  refine (Maps.lift (hom r) _ h).bind fun v => (maps_edAlloc (hom r) v).bind fun q => (maps_assertInCurve (hom r) q J).bind fun _ =>
    (maps_edMulByCofactor (hom r) q J).bind fun q8 => ?_
  have hx := maps_assertZero (hom r) (CNum.sub x q8.x)
  rw [csub_map] at hx
  exact hx.bind fun _ => Maps.pure (hom r) _ q8

theorem rootValue_map (sqrt : Elem r → Option (Elem r)) (sqrt' : ZMod r → Option (ZMod r)) (hs : ∀ a, (sqrt a).map value = sqrt' a.value)
    (J : JubJubParams (Elem r)) (g : Elem r) :
    (rootValue sqrt J g).map value = CEdwardsPoint.rootValue sqrt' (J.map value) g.value := by
  unfold rootValue CEdwardsPoint.rootValue
  rw [show g.value * (J.map value).u = (g * J.u).value from (value_mul g J.u).symm, ← hs, ← hs]
  cases sqrt g with
  | some y => show Except.ok _ = Except.ok _; rw [filterEven_value]
  | none =>
    cases sqrt (g * J.u) with
    | some y => show Except.ok _ = Except.ok _; rw [filterEven_value]
    | none => rfl

theorem maps_checkAndGetY (sqrt : Elem r → Option (Elem r)) (sqrt' : ZMod r → Option (ZMod r))
    (hs : ∀ a, (sqrt a).map value = sqrt' a.value) (x : CNum (Elem r)) (J : JubJubParams (Elem r)) :
    Maps (hom r) (fun q : CBool (Elem r) × CNum (Elem r) => (q.1.map value, q.2.map value)) (checkAndGetY sqrt x J)
      (CEdwardsPoint.checkAndGetY sqrt' (x.map value) (J.map value)) := by
  unfold checkAndGetY CEdwardsPoint.checkAndGetY
  refine (maps_square (hom r) x).bind fun x2 => ?_
  have h1 := maps_mul (hom r) x2 (CNum.addConst x J.a)
  rw [addConst_map] at h1
  refine h1.bind fun x3 => ?_
  have h2 := maps_divConst (hom r) (CNum.addAssign x3 x) J.b
  rw [addAssign_map] at h2
  refine h2.bind fun g => ?_
  refine (Maps.lift (hom r) _ (mapValue_map _ _ value value (rootValue_map sqrt sqrt' hs J) g.value)).bind fun v =>
    (maps_alloc (hom r) v).bind fun q => (Bitify.maps_intoBitsLEStrict q).bind fun bits => ?_
  cases bits with
  | nil => exact Maps.panic (hom r) _ _
  | cons b _ =>
    refine (maps_bool_assertConst (hom r) b false).bind fun _ => (maps_square (hom r) q).bind fun sq => ?_
    have h3 := maps_isZero (hom r) (CNum.sub g sq)
    rw [csub_map] at h3
    refine h3.bind fun z1 => ?_
    have h4 := maps_isZero (hom r) (CNum.sub (CNum.mulConst g J.u) sq)
    rw [csub_map, mulConst_map] at h4
    refine h4.bind fun z2 => ?_
    have h5 := maps_assertZero (hom r) (CNum.subConst (CNum.addAssign z2.num z1.num) 1)
    rw [subConst_map, addAssign_map, map_one] at h5
    exact h5.bind fun _ => Maps.pure (hom r) _ _

theorem maps_fromScalar (sqrt : Elem r → Option (Elem r)) (sqrt' : ZMod r → Option (ZMod r))
    (hs : ∀ a, (sqrt a).map value = sqrt' a.value) (t : CNum (Elem r)) (J : JubJubParams (Elem r)) :
    Maps (hom r) (CEdwardsPoint.map value) (fromScalar sqrt t J) (CEdwardsPoint.fromScalar sqrt' (t.map value) (J.map value)) := by
  unfold fromScalar CEdwardsPoint.fromScalar
  have h1 := maps_square (hom r) (CNum.addConst t 1)
  rw [addConst_map, map_one] at h1
  refine h1.bind fun t2 => ?_
  have h2 := div_map (hom r) (-1) J.a
  rw [map_neg, map_one] at h2
  refine (Maps.lift (hom r) _ h2).bind fun i => ?_
  have h3 := maps_div (hom r) (CNum.mulConst (CNum.addConst (CNum.mulConst t2 J.u) 1) i) (CNum.mulConst t2 J.u)
  have hx3 : (CNum.mulConst (CNum.addConst (CNum.mulConst t2 J.u) 1) i).map (hom r) =
      CNum.mulConst (CNum.addConst (CNum.mulConst (t2.map (hom r)) (hom r J.u)) 1) (hom r i) := by
    rw [mulConst_map, addConst_map, mulConst_map, map_one]
  rw [hx3, mulConst_map] at h3
  refine h3.bind fun x2 => (maps_checkAndGetY sqrt sqrt' hs x2 J).bind fun q2 => ?_
  have h4 := maps_checkAndGetY sqrt sqrt' hs (CNum.mulConst (CNum.addConst (CNum.mulConst t2 J.u) 1) i) J
  rw [← hom_eq, hx3] at h4
  refine h4.bind fun q3 => ?_
  have h5 := maps_switch (hom r) x2 q2.1 (CNum.mulConst (CNum.addConst (CNum.mulConst t2 J.u) 1) i)
  rw [hx3] at h5
  exact h5.bind fun x => (maps_switch (hom r) q2.2 q2.1 q3.2).bind fun y => (maps_intoEdwards (hom r) ⟨x, y⟩).bind fun q =>
    maps_edMulByCofactor (hom r) q J

end CPoint

theorem maps_cVerify (sqrt : Elem r → Option (Elem r)) (sqrt' : ZMod r → Option (ZMod r)) (hs : ∀ a, (sqrt a).map value = sqrt' a.value)
    (J : JubJubParams (Elem r)) [h1 : Fact J.l.Prime] [Fact (J.l % 2 = 1)] (s rx a m : CNum (Elem r)) (P : PoseidonParams (Elem r)) :
    Maps (hom r) (CBool.map value) (cVerify sqrt J s rx a m P)
      (@Eddsa.cVerify r _ sqrt' (J.map value) h1 (s.map value) (rx.map value) (a.map value) (m.map value) (P.map value)) := by
  unfold cVerify Eddsa.cVerify
  refine (Maps.assert (hom r) rfl _).bind fun _ => (CPoint.maps_subgroupDecompress sqrt sqrt' hs a J).bind fun pa =>
    (CPoint.maps_subgroupDecompress sqrt sqrt' hs rx J).bind fun pr => (Maps.lift (hom r) _ (fromSeed_eq seedEddsaPoseidon)).bind fun seed =>
    (maps_poseidonWithSalt (hom r) [rx, a, m] seed P).bind fun h => (Bitify.maps_intoBitsLEStrict h).bind fun hb =>
    (maps_edMul (hom r) pa hb J).bind fun ha => (Bitify.maps_intoBitsLE s (numBits J.l)).bind fun sb =>
    (maps_edMul (hom r) (CEdwardsPoint.fromConst J.g) sb J).bind fun sbp => (maps_edAdd (hom r) ha pr J).bind fun haR => ?_
  have h := maps_isZero (hom r) (CNum.sub haR.x sbp.x)
  rw [csub_map] at h
  exact h

end Fawkes.Limbs
