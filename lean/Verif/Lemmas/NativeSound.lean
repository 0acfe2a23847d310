import Verif.Lemmas.NativeMont
import Verif.Lemmas.RigidCode
import Verif.Props.Bitify
import Verif.Props.CEcc
import Verif.Props.Eddsa

/-!
# Satisfying values of a call are the ones that the native code computes
-/

set_option linter.unusedSectionVars false

namespace Fawkes

open Props CPoseidon

variable {r : Nat} [Fact r.Prime] {W : Type} {q : List (CNum (ZMod r))} {s : CS (ZMod r)} {w : Index → ZMod r}

theorem done?_eq {α : Type} {x : Except Panic α} {a : α} : done? x = some a ↔ x = .ok a := by
  cases x <;> simp [done?]

theorem lookups_eq_pick (q : List (CNum (ZMod r))) (is : List Nat) : lookups q is = pick q is := by
  induction is with
  | nil => rfl
  | cons i is ih =>
    unfold lookups pick
    rw [ih]
    cases q[i]? <;> cases pick q is <;> rfl

theorem pick_map {α β : Type} (f : α → β) (l : List α) (is : List Nat) : pick (l.map f) is = (pick l is).map (List.map f) := by
  induction is with
  | nil => rfl
  | cons i is ih =>
    unfold pick
    rw [ih, List.getElem?_map]
    cases l[i]? <;> cases pick l is <;> rfl

/-- The values of the registers. -/
def valuesOf (w : Index → ZMod r) (q : List (CNum (ZMod r))) : List (ZMod r) := q.map fun a => a.lc.eval w

theorem valuesOf_get {i : Nat} {a : CNum (ZMod r)} (h : q[i]? = some a) : (valuesOf w q)[i]? = some (a.lc.eval w) := by
  simp [valuesOf, h]

theorem valuesOf_get' {i : Nat} {x : ZMod r} (h : (valuesOf w q)[i]? = some x) : ∃ a, q[i]? = some a ∧ a.lc.eval w = x := by
  unfold valuesOf at h
  rw [List.getElem?_map] at h
  cases hq : q[i]? with
  | none => rw [hq] at h; cases h
  | some a => rw [hq] at h; exact ⟨a, rfl, by injection h⟩

theorem valuesOf_pick {is : List Nat} {xs : List (CNum (ZMod r))} (h : lookups q is = some xs) :
    pick (valuesOf w q) is = some (xs.map fun a => a.lc.eval w) := by
  unfold valuesOf
  rw [pick_map, ← lookups_eq_pick, h]; rfl

theorem valuesOf_append (q q' : List (CNum (ZMod r))) : valuesOf w (q ++ q') = valuesOf w q ++ valuesOf w q' := by
  simp [valuesOf]

theorem mem_pick {α : Type} {l xs : List α} {is : List Nat} (h : pick l is = some xs) {x : α} (hx : x ∈ xs) :
    ∃ i ∈ is, l[i]? = some x := by
  induction is generalizing xs with
  | nil => cases h; cases hx
  | cons i is ih =>
    unfold pick at h
    cases hi : l[i]? with
    | none => rw [hi] at h; cases h
    | some a =>
      rw [hi] at h
      cases hl : pick l is with
      | none => rw [hl] at h; cases h
      | some ys =>
        rw [hl] at h; cases h
        rcases List.mem_cons.1 hx with rfl | hx
        · exact ⟨i, by simp, hi⟩
        · obtain ⟨j, hj, e⟩ := ih hl hx; exact ⟨j, by simp [hj], e⟩

theorem bit?_eq {x : ZMod r} {b : Bool} : bit? x = some b ↔ x = if b = true then 1 else 0 := by
  unfold bit?
  by_cases h0 : x = 0
  · subst h0; cases b <;> simp
  · by_cases h1 : x = 1
    · subst h1; cases b <;> simp
    · cases b <;> simp [h0, h1]

theorem bits?_eq {xs : List (ZMod r)} {bs : List Bool} : bits? xs = some bs ↔ List.Forall₂ (fun x b => x = if b = true then 1 else 0) xs bs := by
  induction xs generalizing bs with
  | nil =>
    cases bs with
    | nil => simp [bits?]
    | cons b bs => simp [bits?]
  | cons x xs ih =>
    unfold bits?
    cases bs with
    | nil =>
      cases hb : bit? x with
      | none => simp
      | some b => cases hc : bits? xs <;> simp
    | cons b bs =>
      rw [List.forall₂_cons, ← bit?_eq, ← ih]
      cases hb : bit? x with
      | none => simp
      | some b' =>
        cases hc : bits? xs with
        | none => simp
        | some bs' => simp

theorem bits_exist {xs : List (ZMod r)} (h : ∀ x ∈ xs, x = 0 ∨ x = 1) : ∃ bs, bits? xs = some bs := by
  induction xs with
  | nil => exact ⟨[], rfl⟩
  | cons x xs ih =>
    obtain ⟨bs, hb⟩ := ih fun y hy => h y (by simp [hy])
    rcases h x (by simp) with rfl | rfl
    · exact ⟨false :: bs, by simp [bits?, bit?, hb]⟩
    · exact ⟨true :: bs, by simp [bits?, bit?, hb]⟩

theorem spells_bits {xs : List (CNum (ZMod r))} {bs : List Bool} (h : bits? (xs.map fun a => a.lc.eval w) = some bs) :
    SpellsBits w (xs.map CBool.mk) bs := by
  have := bits?_eq.1 h
  rw [List.forall₂_map_left_iff] at this
  unfold SpellsBits
  rw [List.forall₂_map_left_iff]
  exact this

/-- Boolean registers. -/
theorem areBits {is : List Nat} {xs : List (CNum (ZMod r))} (hb : AreBits (valuesOf w q) is) (h : lookups q is = some xs) :
    ∃ bs, bits? (xs.map fun a => a.lc.eval w) = some bs ∧ SpellsBits w (xs.map CBool.mk) bs := by
  obtain ⟨bs, hbs⟩ := bits_exist (xs := xs.map fun a => a.lc.eval w) fun x hx => by
    obtain ⟨i, hi, e⟩ := mem_pick (valuesOf_pick (w := w) h) hx
    exact hb i hi x e
  exact ⟨bs, hbs, spells_bits hbs⟩

theorem map_ofBit {bits : List (CBool (ZMod r))} {bs : List Bool} (h : SpellsBits w bits bs) :
    valuesOf w (bits.map CBool.num) = bs.map ofBit := by
  induction h with
  | nil => rfl
  | cons h _ ih =>
    simp only [valuesOf, List.map_cons, List.map_map] at ih ⊢
    rw [ih]
    congr 1

section reading
variable {α : Type} {Q : α → CS (ZMod r) → Prop}

theorem spec_reg {i : Nat} {f : CNum (ZMod r) → M (ZMod r) α} (h : ∀ a, q[i]? = some a → Spec w s (f a) Q) :
    Spec w s (reg q i >>= f) Q := by
  unfold reg
  cases hi : q[i]? with
  | none => exact Spec.bind (Spec.panic (Q := fun _ _ => False)) fun _ _ _ h => h.elim
  | some a => exact fun x s' hr => h a hi x s' (by dsimp only at hr; rw [pure_bind] at hr; exact hr)

theorem spec_regs {is : List Nat} {f : List (CNum (ZMod r)) → M (ZMod r) α}
    (h : ∀ xs, lookups q is = some xs → Spec w s (f xs) Q) : Spec w s (regs q is >>= f) Q := by
  rw [run_regs]
  cases hi : lookups q is with
  | none => exact Spec.bind (Spec.panic (Q := fun _ _ => False)) fun _ _ _ h => h.elim
  | some a => exact fun x s' hr => h a hi x s' (by dsimp only at hr; rw [pure_bind] at hr; exact hr)

theorem regBits_bind (is : List Nat) (f : List (CBool (ZMod r)) → M (ZMod r) α) :
    (regBits q is >>= f) = (regs q is >>= fun xs => f (xs.map CBool.mk)) := by
  unfold regBits
  rw [run_regs]
  cases lookups q is with
  | none => rfl
  | some a => dsimp only; rw [pure_bind, pure_bind, pure_bind]

theorem regPoint_bind (i j : Nat) (f : CEdwardsPoint (ZMod r) → M (ZMod r) α) :
    (regPoint q i j >>= f) = (reg q i >>= fun a => reg q j >>= fun b => f ⟨a, b⟩) := by
  unfold regPoint reg
  cases q[i]? with
  | none => rfl
  | some a =>
    cases q[j]? with
    | none => rfl
    | some b => dsimp only; simp only [pure_bind]

theorem regMont_bind (i j : Nat) (f : CMontgomeryPoint (ZMod r) → M (ZMod r) α) :
    (regMont q i j >>= f) = (reg q i >>= fun a => reg q j >>= fun b => f ⟨a, b⟩) := by
  unfold regMont reg
  cases q[i]? with
  | none => rfl
  | some a =>
    cases q[j]? with
    | none => rfl
    | some b => dsimp only; simp only [pure_bind]

theorem spec_regBits {is : List Nat} {f : List (CBool (ZMod r)) → M (ZMod r) α}
    (h : ∀ xs, lookups q is = some xs → Spec w s (f (xs.map CBool.mk)) Q) : Spec w s (regBits q is >>= f) Q := by
  rw [regBits_bind]; exact spec_regs h

theorem spec_regPoint {i j : Nat} {f : CEdwardsPoint (ZMod r) → M (ZMod r) α}
    (h : ∀ a b, q[i]? = some a → q[j]? = some b → Spec w s (f ⟨a, b⟩) Q) : Spec w s (regPoint q i j >>= f) Q := by
  rw [regPoint_bind]; exact spec_reg fun a ha => spec_reg fun b hb => h a b ha hb

theorem spec_regMont {i j : Nat} {f : CMontgomeryPoint (ZMod r) → M (ZMod r) α}
    (h : ∀ a b, q[i]? = some a → q[j]? = some b → Spec w s (f ⟨a, b⟩) Q) : Spec w s (regMont q i j >>= f) Q := by
  rw [regMont_bind]; exact spec_reg fun a ha => spec_reg fun b hb => h a b ha hb

end reading

/-- The result of a call: `new` values were computed and appended. -/
def Gives (w : Index → ZMod r) (q : List (CNum (ZMod r))) (x : Option (List (ZMod r))) (q' : List (CNum (ZMod r))) : Prop :=
  ∃ new, x = some new ∧ valuesOf w q' = valuesOf w q ++ new

theorem Gives.none {x : Option (List (ZMod r))} (h : x = some []) : Gives w q x q := ⟨[], h, by simp⟩

theorem Gives.list {x : Option (List (ZMod r))} {l : List (CNum (ZMod r))} (h : x = some (valuesOf w l)) : Gives w q x (q ++ l) :=
  ⟨_, h, valuesOf_append _ _⟩

theorem Gives.one {x : Option (List (ZMod r))} {a : CNum (ZMod r)} (h : x = some [a.lc.eval w]) : Gives w q x (q ++ [a]) := .list h

theorem Gives.two {x : Option (List (ZMod r))} {a b : CNum (ZMod r)} (h : x = some [a.lc.eval w, b.lc.eval w]) : Gives w q x (q ++ [a, b]) :=
  .list h

section calls
variable (hw : IsAssignment w)
include hw

omit hw in
theorem eval_eq (a : CNum (ZMod r)) : a.eval w = a.lc.eval w := rfl

theorem sound_op (o : Op (ZMod r)) (ho : (Call.prim o : Call r W).Proper q (valuesOf w q)) (hn : ¬ (Call.prim o : Call r W).Own) :
    Spec w s (o.exec q) (fun q' _ => Gives w q (o.native (valuesOf w q)) q') := by
  cases o with
  | const v => exact Spec.pure fun _ => Gives.one (by rw [← eval_eq, CNum.eval_fromConst hw]; rfl)
  | alloc v => exact absurd trivial hn
  | allocInput v => exact absurd trivial hn
  | add i j =>
    exact spec_reg fun a ha => spec_reg fun b hb => Spec.pure fun _ => Gives.one (by
      rw [← eval_eq, CNum.eval_add]; simp only [Op.native, valuesOf_get ha, valuesOf_get hb]; rfl)
  | sub i j =>
    exact spec_reg fun a ha => spec_reg fun b hb => Spec.pure fun _ => Gives.one (by
      rw [← eval_eq, CNum.eval_sub]; simp only [Op.native, valuesOf_get ha, valuesOf_get hb]; rfl)
  | neg i =>
    exact spec_reg fun a ha => Spec.pure fun _ => Gives.one (by
      rw [← eval_eq, CNum.eval_neg]; simp only [Op.native, valuesOf_get ha]; rfl)
  | mulConst i k =>
    exact spec_reg fun a ha => Spec.pure fun _ => Gives.one (by
      rw [← eval_eq, CNum.eval_mulConst hw]; simp only [Op.native, valuesOf_get ha]; rfl)
  | divConst i k =>
    refine spec_reg fun a ha => Spec.bind (spec_divConst (k := k) ho) fun c _ _ hc => Spec.pure fun _ => Gives.one ?_
    have : c.lc.eval w = a.lc.eval w / k := by rw [eq_div_iff ho]; exact hc
    rw [this]
    simp only [Op.native, valuesOf_get ha]
    exact if_neg ho
  | mul i j =>
    refine spec_reg fun a ha => spec_reg fun b hb => Spec.bind (spec_mul hw a b) fun c _ _ hc => Spec.pure fun _ => Gives.one ?_
    rw [← eval_eq, hc]
    simp only [Op.native, valuesOf_get ha, valuesOf_get hb]; rfl
  | div i j =>
    refine spec_reg fun a ha => spec_reg fun b hb => Spec.bind (spec_div hw (ho.1 i (by simp) a ha) b) fun c _ _ hc =>
      Spec.pure fun _ => Gives.one ?_
    have hb0 : b.lc.eval w ≠ 0 := fun h => ho.2 (by rw [valuesOf_get hb, h])
    have : c.lc.eval w = a.lc.eval w / b.lc.eval w := by rw [eq_div_iff hb0]; exact hc
    rw [this]
    simp only [Op.native, valuesOf_get ha, valuesOf_get hb]
    exact if_neg hb0
  | enforce i j k =>
    refine spec_reg fun a ha => spec_reg fun b hb => spec_reg fun c hc => Spec.bind (spec_enforce a b c) fun _ _ _ h =>
      Spec.pure fun _ => Gives.none ?_
    simp only [Op.native, valuesOf_get ha, valuesOf_get hb, valuesOf_get hc]
    exact if_pos h
  | assertConst i v =>
    refine spec_reg fun a ha => Spec.bind (spec_assertConst hw a v) fun _ _ _ h => Spec.pure fun _ => Gives.none ?_
    simp only [Op.native, valuesOf_get ha]
    exact if_pos h
  | assertEq i j =>
    refine spec_reg fun a ha => spec_reg fun b hb => Spec.bind (spec_assertEq hw a b) fun _ _ _ h => Spec.pure fun _ => Gives.none ?_
    simp only [Op.native, valuesOf_get ha, valuesOf_get hb]
    exact if_pos h
  | assertNonzero i =>
    refine spec_reg fun a ha => Spec.bind (spec_assertNonzero hw a) fun _ _ _ h => Spec.pure fun _ => Gives.none ?_
    simp only [Op.native, valuesOf_get ha]
    exact if_neg h
  | assertBit i =>
    refine spec_reg fun a ha => Spec.bind (spec_assertBit hw a) fun _ _ _ h => Spec.pure fun _ => Gives.none ?_
    simp only [Op.native, valuesOf_get ha]
    exact if_pos h
  | inputize i =>
    refine spec_reg fun a ha => Spec.bind (Spec.of_post Post.true) fun _ _ _ _ => Spec.pure fun _ => Gives.none ?_
    simp only [Op.native, valuesOf_get ha]; rfl
  | isZero i =>
    refine spec_reg fun a ha => Spec.bind (spec_isZero hw a) fun c _ _ hc => Spec.pure fun _ => Gives.one ?_
    rw [← eval_eq, hc]
    simp only [Op.native, valuesOf_get ha, ofBit, decide_eq_true_eq]; rfl
  | isEq i j =>
    refine spec_reg fun a ha => spec_reg fun b hb => Spec.bind (spec_isEq hw a b) fun c _ _ hc => Spec.pure fun _ => Gives.one ?_
    rw [← eval_eq, hc]
    simp only [Op.native, valuesOf_get ha, valuesOf_get hb, ofBit, decide_eq_true_eq]; rfl
  | switch i b j =>
    refine spec_reg fun t ht => spec_reg fun c hc => spec_reg fun f hf => Spec.bind (spec_switch hw t f ⟨c⟩) fun o _ _ hx =>
      Spec.pure fun _ => Gives.one ?_
    rw [← eval_eq, hx]
    simp only [Op.native, valuesOf_get ht, valuesOf_get hc, valuesOf_get hf]
    rcases ho b (by simp) _ (valuesOf_get hc) with h | h
    · simp [eval_eq, h, bit?]
    · simp [eval_eq, h, bit?]

omit hw in
theorem selectAll_eq {k : Nat} {o : List (CNum (ZMod r))} {t : List (List (ZMod r))}
    (h : List.Forall₂ (fun x col => some (CNum.eval w x) = col[k]?) o t) : selectAll k t = some (valuesOf w o) := by
  induction h with
  | nil => rfl
  | cons h _ ih => simp only [selectAll, ih, ← h]; rfl

omit hw in
theorem zip_bits {bits : List (CBool (ZMod r))} {bs : List Bool} (h : SpellsBits w bits bs) (xs : List (CNum (ZMod r))) :
    List.Forall₂ (fun c b => c.1.num.eval w = if b = true then 1 else 0) (bits.zip xs) (bs.take xs.length) ∧
    bs.zip (xs.map fun a => a.lc.eval w) = (bs.take xs.length).zip ((bits.zip xs).map fun x => x.2.eval w) := by
  induction h generalizing xs with
  | nil => simp
  | cons h _ ih =>
    cases xs with
    | nil => simp
    | cons x xs =>
      obtain ⟨h1, h2⟩ := ih xs
      refine ⟨by simp only [List.zip_cons_cons, List.length_cons, List.take_succ_cons]; exact .cons h h1, ?_⟩
      simp only [List.map_cons, List.zip_cons_cons, List.length_cons, List.take_succ_cons, h2]

omit hw in
theorem bitsNat_three (b0 b1 b2 : Bool) : bitsNat [b0, b1, b2] = sel3 b0 b1 b2 := by
  cases b0 <;> cases b1 <;> cases b2 <;> rfl

omit hw in
theorem isPoint {J : JubJubParams (ZMod r)} {x y : Nat} {a b : CNum (ZMod r)} (h : IsPointAt (valuesOf w q) x y J)
    (ha : q[x]? = some a) (hb : q[y]? = some b) : EdwardsPoint.isInCurve ⟨a.lc.eval w, b.lc.eval w⟩ J = true :=
  h _ _ (valuesOf_get ha) (valuesOf_get hb)

omit hw in
theorem Tidy.varies (ht : Tidy s q) {a : CNum (ZMod r)} {i : Nat} (ha : q[i]? = some a) (h : a.asConst = none) : Varies a :=
  .of_canonical (ht a (List.mem_of_getElem? ha)).1 h

omit hw in
theorem Tidy.signal (ht : Tidy s q) {a b : CNum (ZMod r)} {i j : Nat} (ha : q[i]? = some a) (hb : q[j]? = some b)
    (h1 : a.asConst = none) (h2 : b.asConst = none) : CEdwardsPoint.IsSignal s ⟨a, b⟩ :=
  ⟨(ht a (List.mem_of_getElem? ha)).2, (ht b (List.mem_of_getElem? hb)).2, ht.varies ha h1, ht.varies hb h2⟩

theorem sound_call (hs : s.WF) (ht : Tidy s q) {v : Option W} {c : Call r W} (hc : c.Proper q (valuesOf w q)) (hn : ¬ c.Own) :
    Spec w s (c.exec v q) (fun q' _ => Gives w q (c.native (valuesOf w q)) q') := by
  have ht' {i : Nat} {a : CNum (ZMod r)} (h : q[i]? = some a) := (ht a (List.mem_of_getElem? h)).2
  cases c with
  | prim o => exact sound_op hw o hc hn
  | alloc is hint => exact absurd trivial hn
  | allocInput is hint => exact absurd trivial hn
  | intoBits i n =>
    obtain ⟨h1, h2, h3⟩ := hc
    refine spec_reg fun a ha => Spec.bind (Q := fun bits _ => (a.lc.eval w).val < 2 ^ n ∧ SpellsBits w bits (lowBits n (a.lc.eval w).val)) ?_
      fun bits _ _ hb => Spec.pure fun _ => Gives.list ?_
    · cases hac : a.asConst with
      | some c =>
        have he : a.lc.eval w = c := CNum.eval_of_asConst hw hac
        intro bits s' hr hsat
        rw [he]
        by_cases hlt : c.val < 2 ^ n
        · have hr := ((C14_const a c hac n h2 s).1 hlt).symm.trans hr
          injection hr with hr; injection hr with hr _
          rw [← hr]
          exact ⟨hlt, spells_const hw _⟩
        · have hr := ((C14_const a c hac n h2 s).2 (not_lt.1 hlt)).symm.trans hr
          cases hr
      | none =>
        intro bits s' hr hsat
        obtain ⟨bs, hl, hsp, he⟩ := spec_intoBits hw a n s bits s' hr hsat
        have he : a.lc.eval w = (bitsNat bs : ZMod r) := he
        have hlt := bitsNat_lt bs
        rw [hl] at hlt
        have hv : (a.lc.eval w).val = bitsNat bs := by
          rw [he, ZMod.val_natCast_of_lt (hlt.trans_le (h3 a ha hac))]
        rw [hv, ← hl, lowBits_bitsNat]
        exact ⟨hl ▸ hlt, hsp⟩
    · rw [map_ofBit hb.2]
      simp only [Call.native, valuesOf_get ha]
      exact if_pos hb.1
  | intoBitsStrict i =>
    refine spec_reg fun a ha => Spec.bind (spec_strict hw hc a s) fun bits _ _ hb => Spec.pure fun _ => Gives.list ?_
    rw [map_ofBit hb]
    simp only [Call.native, valuesOf_get ha]; rfl
  | compConstant is k =>
    obtain ⟨hb, h0, hlim, hp, hk⟩ := hc
    refine spec_regBits fun xs hx => ?_
    obtain ⟨bs, hbs, hsp⟩ := areBits hb hx
    have hlen : (xs.map CBool.mk).length = is.length := by rw [List.length_map, lookups_length hx]
    refine Spec.bind (spec_compConstant hw _ bs hsp k (by rw [hlen]; exact hp) s) fun c _ _ hcv => Spec.pure fun _ => Gives.one ?_
    rw [hlen, Nat.mod_eq_of_lt hk] at hcv
    rw [← eval_eq, hcv]
    simp [Call.native, valuesOf_pick hx, hbs, ofBit]
  | fromBits is =>
    refine spec_regBits fun xs hx => ?_
    obtain ⟨bs, hbs, hsp⟩ := areBits hc.1 hx
    refine Spec.bind (spec_fromBits hw _ s) fun c _ _ hcv => Spec.pure fun _ => Gives.one ?_
    rw [← eval_eq, hcv.2]
    have : (xs.map CBool.mk).map (fun b => b.num.eval w) = bs.map fun b => if b = true then (1 : ZMod r) else 0 := by
      have := bits?_eq.1 hbs
      rw [List.map_map]
      exact (List.forall₂_eq_eq_eq ▸ (List.forall₂_map_right_iff.2 this) :)
    rw [this, weighted_bits]
    simp [Call.native, valuesOf_pick hx, hbs]
  | mux3 is t =>
    refine spec_regBits fun xs hx => ?_
    obtain ⟨bs, hbs, hsp⟩ := areBits hc.1 hx
    have hl : bs.length = xs.length := by have := hsp.length_eq; rw [List.length_map] at this; exact this.symm
    by_cases h3 : xs.length = 3
    · match bs, hl.trans h3 with
      | [b0, b1, b2], _ =>
        refine Spec.bind (spec_mux3 hw hsp t s) fun o _ _ h => Spec.pure fun _ => Gives.list ?_
        have : Call.native (valuesOf w q) (Call.mux3 is t : Call r W) = selectAll (bitsNat [b0, b1, b2]) t := by
          simp [Call.native, valuesOf_pick hx, hbs]
        rw [this, bitsNat_three]
        exact selectAll_eq h
    · refine Spec.bind (Q := fun _ _ => False) ?_ fun _ _ _ h => h.elim
      intro o s' hr
      unfold Mux.mux3 at hr
      rw [M.run_bind, M.run_assert, List.length_map, decide_eq_false h3] at hr
      cases hr
  | poseidon is P =>
    refine spec_regs fun xs hx => Spec.bind (spec_poseidon hw xs P s) fun c _ _ h => Spec.pure fun _ => Gives.one ?_
    have h : Poseidon.poseidon (xs.map fun a => a.lc.eval w) P = .ok (c.lc.eval w) := h
    simp [Call.native, valuesOf_pick hx, h, done?]
  | poseidonWithSalt is seed P =>
    refine spec_regs fun xs hx => Spec.bind (spec_poseidonWithSalt hw xs seed P s) fun c _ _ h => Spec.pure fun _ => Gives.one ?_
    have h : Poseidon.poseidonWithSalt (xs.map fun a => a.lc.eval w) seed P = .ok (c.lc.eval w) := h
    simp [Call.native, valuesOf_pick hx, h, done?]
  | merkleProofRoot l ss ps P =>
    refine spec_reg fun a ha => spec_regs fun xs hx => spec_regBits fun ys hy => ?_
    obtain ⟨bs, hbs, hsp⟩ := areBits hc hy
    obtain ⟨hz, hz'⟩ := zip_bits hsp xs
    refine Spec.bind (spec_proofLoop hw P _ _ hz a s) fun c _ _ h => Spec.pure fun _ => Gives.one ?_
    have h : Poseidon.merkleProofRoot (a.lc.eval w) (xs.map fun a => a.lc.eval w) bs P = .ok (c.lc.eval w) := by
      refine Eq.trans ?_ h
      unfold Poseidon.merkleProofRoot
      rw [hz']
    simp [Call.native, valuesOf_get ha, valuesOf_pick hx, valuesOf_pick hy, hbs, h, done?]
  | merkleTreeRoot is P =>
    refine spec_regs fun xs hx => Spec.bind (spec_merkleTreeRoot hw xs P s) fun c _ _ h => Spec.pure fun _ => Gives.one ?_
    have h : Poseidon.merkleTreeRoot (xs.map fun a => a.lc.eval w) P = .ok (c.lc.eval w) := h
    simp [Call.native, valuesOf_pick hx, h, done?]
  | edDouble x y J =>
    obtain ⟨⟨C, hd⟩, hp, hsig⟩ := hc
    refine spec_regPoint fun a b ha hb => ?_
    refine Spec.bind (Q := fun o _ => ∃ R, EdwardsPoint.double ⟨a.lc.eval w, b.lc.eval w⟩ = .ok R ∧ o.Is w R) ?_
      fun o _ _ ⟨R, h, hR⟩ => Spec.pure fun _ => Gives.two ?_
    · intro o s' hr hsat
      obtain ⟨R, h, hR, -⟩ := C33_double_sound_partial hd hs (ht.signal ha hb (hsig x (by simp) a ha) (hsig y (by simp) b hb)) hw hr hsat
        (P := ⟨a.lc.eval w, b.lc.eval w⟩) ⟨rfl, rfl⟩ (isPoint hp ha hb)
      exact ⟨R, h, hR⟩
    · simp [Call.native, valuesOf_get ha, valuesOf_get hb, h, done?, hR.1, hR.2]
  | edMulByCofactor x y J =>
    obtain ⟨⟨C, hd⟩, hp, hsig⟩ := hc
    refine spec_regPoint fun a b ha hb => ?_
    refine Spec.bind (Q := fun o _ => ∃ R, EdwardsPoint.mulByCofactor ⟨a.lc.eval w, b.lc.eval w⟩ = .ok R ∧ o.Is w R) ?_
      fun o _ _ ⟨R, h, hR⟩ => Spec.pure fun _ => Gives.two ?_
    · intro o s' hr hsat
      obtain ⟨R, h, hR, -⟩ := C33_cofactor_sound_partial hd hs (ht.signal ha hb (hsig x (by simp) a ha) (hsig y (by simp) b hb)) hw hr hsat
        (P := ⟨a.lc.eval w, b.lc.eval w⟩) ⟨rfl, rfl⟩ (isPoint hp ha hb)
      exact ⟨R, h, hR⟩
    · simp [Call.native, valuesOf_get ha, valuesOf_get hb, h, done?, hR.1, hR.2]
  | edAdd x1 y1 x2 y2 J =>
    obtain ⟨⟨C, hd⟩, hp, hp', hsig⟩ := hc
    refine spec_regPoint fun a b ha hb => spec_regPoint fun c d hc hd' => ?_
    refine Spec.bind (Q := fun o _ => ∃ R, EdwardsPoint.add ⟨a.lc.eval w, b.lc.eval w⟩ ⟨c.lc.eval w, d.lc.eval w⟩ J = .ok R ∧ o.Is w R) ?_
      fun o _ _ ⟨R, h, hR⟩ => Spec.pure fun _ => Gives.two ?_
    · intro o s' hr hsat
      obtain ⟨R, h, hR, -⟩ := C33_add_sound_partial hd hs (ht.signal ha hb (hsig x1 (by simp) a ha) (hsig y1 (by simp) b hb))
        (ht.signal hc hd' (hsig x2 (by simp) c hc) (hsig y2 (by simp) d hd')) hw hr hsat
        (P := ⟨a.lc.eval w, b.lc.eval w⟩) (Q := ⟨c.lc.eval w, d.lc.eval w⟩) ⟨rfl, rfl⟩ ⟨rfl, rfl⟩ (isPoint hp ha hb) (isPoint hp' hc hd')
      exact ⟨R, h, hR⟩
    · simp [Call.native, valuesOf_get ha, valuesOf_get hb, valuesOf_get hc, valuesOf_get hd', h, done?, hR.1, hR.2]
  | assertInCurve x y J =>
    refine spec_regPoint fun a b ha hb => ?_
    refine Spec.bind (Q := fun _ _ => EdwardsPoint.isInCurve ⟨a.lc.eval w, b.lc.eval w⟩ J = true) ?_
      fun o _ _ h => Spec.pure fun _ => Gives.none ?_
    · exact fun o s' hr hsat => C34_sound _ hw hr hsat ⟨rfl, rfl⟩
    · simp [Call.native, valuesOf_get ha, valuesOf_get hb, h]
  | assertInSubgroup x y J hl =>
    obtain ⟨C, hv⟩ := hc
    refine spec_regPoint fun a b ha hb => ?_
    refine Spec.bind (Q := fun _ _ => EdwardsPoint.isInCurve ⟨a.lc.eval w, b.lc.eval w⟩ J = true ∧
      (EdwardsPoint.intoExtended ⟨a.lc.eval w, b.lc.eval w⟩).isInSubgroup J = true) ?_
      fun o _ _ h => Spec.pure fun _ => Gives.none ?_
    · exact fun o s' hr hsat => C35_sound hv hs _ hw hr hsat ⟨rfl, rfl⟩
    · simp [Call.native, valuesOf_get ha, valuesOf_get hb, h.1, h.2]
  | subgroupDecompress sqrt x J hl =>
    obtain ⟨hsq, C, hv⟩ := hc
    refine spec_reg fun a ha => ?_
    refine Spec.bind (Q := fun o _ => ∃ R, EdwardsPoint.subgroupDecompress sqrt (a.lc.eval w) J = .ok (some R) ∧ o.Is w R) ?_
      fun o _ _ ⟨R, h, hR⟩ => Spec.pure fun _ => Gives.two ?_
    · intro o s' hr hsat
      obtain ⟨R, h, hR, -⟩ := C36_sound hv hsq hs a hw hr hsat
      exact ⟨R, h, hR⟩
    · simp [Call.native, valuesOf_get ha, h, done?, hR.1, hR.2]
  | intoMontgomery x y =>
    obtain ⟨h0, h1, hsig⟩ := hc
    refine spec_regPoint fun a b ha hb => ?_
    refine Spec.bind ((specMode w hw).toMontgomery hs (p := ⟨a, b⟩) ⟨ht' ha, rfl⟩ ⟨ht' hb, rfl⟩
      (fun h => h0 (by rw [valuesOf_get ha]; exact congrArg some h)) (fun h => h1 (by rw [valuesOf_get hb]; exact congrArg some h))
      (ht.varies hb (hsig y (by simp) b hb)) hs) fun o _ _ ⟨z, h, hx, hy⟩ => Spec.pure fun _ => Gives.two ?_
    have h : EdwardsPoint.intoMontgomery ⟨a.lc.eval w, b.lc.eval w⟩ = .ok (some z) := h
    have hx : o.x.lc.eval w = z.x := hx.2
    have hy : o.y.lc.eval w = z.y := hy.2
    simp [Call.native, valuesOf_get ha, valuesOf_get hb, h, done?, hx, hy]
  | edMul x y is J =>
    obtain ⟨⟨C, hv⟩, hp, hsub, hbits, hcase⟩ := hc
    refine spec_regPoint fun a b ha hb => spec_regBits fun xs hx => ?_
    obtain ⟨bs, hbs, hsp⟩ := areBits hbits hx
    haveI : Fact J.l.Prime := ⟨hv.l_prime⟩
    obtain ⟨Q, hQ, hQa⟩ := (isInSubgroup_iff hv.d_eq ⟨a.lc.eval w, b.lc.eval w⟩).1 ⟨isPoint hp ha hb, hsub _ _ (valuesOf_get ha) (valuesOf_get hb)⟩
    have hpl : ∀ x ∈ xs.map CBool.mk, x.num.lc.Canonical ∧ x.num.lc.Alloc s := by
      intro x hx'; obtain ⟨y, hy, rfl⟩ := List.mem_map.1 hx'; exact ht y (lookups_mem hx y hy)
    have hPa : CEdwardsPoint.Is w ⟨a, b⟩ Q.affine := by rw [← hQa]; exact ⟨rfl, rfl⟩
    refine Spec.bind (Q := fun o _ => o.Is w (bitsNat bs • Q).affine ∧ Q.affine.mul (bitsNat bs : ZMod J.l) J = .ok (bitsNat bs • Q).affine) ?_
      fun o _ _ ⟨hR, h⟩ => Spec.pure fun _ => Gives.two ?_
    · intro o s' hr hsat
      rcases hcase with hsig | ⟨⟨a', b', ha', hb', hca, hcb⟩, h2, hind⟩
      · have hsi := ht.signal ha hb (hsig x (by simp) a ha) (hsig y (by simp) b hb)
        by_cases hnz : ∃ b ∈ xs.map CBool.mk, b.num.asConst ≠ some 0
        · obtain ⟨h1, h2, -⟩ := C38_sound hv hs hQ hsi (fun b hb => (hpl b hb).2) (fun b hb => Plain.of_canonical (hpl b hb).1) hnz hw hr hsat hPa hsp
          exact ⟨h1, h2⟩
        · push Not at hnz
          have hc : CEdwardsPoint.asConst ⟨a, b⟩ = none := by
            unfold CEdwardsPoint.asConst; rw [show a.asConst = none from hsig x (by simp) a ha]; rfl
          exact absurd hr (C38_panics hc hnz _)
      · rw [ha] at ha'; rw [hb] at hb'
        injection ha' with ha'; injection hb' with hb'; subst ha' hb'
        obtain ⟨cx, h1⟩ := Option.ne_none_iff_exists'.1 hca
        obtain ⟨cy, h2'⟩ := Option.ne_none_iff_exists'.1 hcb
        have e1 : cx = Q.x := (CNum.eval_of_asConst hw h1).symm.trans hPa.1
        have e2 : cy = Q.y := (CNum.eval_of_asConst hw h2').symm.trans hPa.2
        have hr : ((CEdwardsPoint.fromConst Q.affine).mul (xs.map CBool.mk) J).run s = .ok (o, s') := by
          rw [← hr]
          unfold CEdwardsPoint.mul CEdwardsPoint.asConst
          rw [h1, h2', e1, e2]
          simp only [CEdwardsPoint.fromConst, CNum.asConst_fromConst]
          rfl
        have hlen := lookups_length hx
        obtain ⟨h1, h2, -⟩ := C39_sound_partial hv hs hQ (fun b hb => (hpl b hb).2) (by rw [List.length_map]; omega)
          (by
            rw [← List.map_take, List.map_map]
            rw [show CBool.num ∘ CBool.mk = (id : CNum (ZMod r) → _) from rfl, List.map_id]
            exact hind xs (by rw [← lookups_eq_pick]; exact hx)) hw hr hsat hsp
        exact ⟨h1, h2⟩
    · rw [← hQa] at h
      simp only [Call.native, valuesOf_get ha, valuesOf_get hb, valuesOf_pick hx, hbs, Option.bind_eq_bind, Option.bind_some]
      rw [dif_pos hv.l_prime, h, hR.1, hR.2]
      rfl
  | fromScalar sqrt t J =>
    obtain ⟨hsq, ⟨C, hv⟩, h8, hsig, h1⟩ := hc
    refine spec_reg fun a ha => ?_
    refine Spec.bind (Q := fun o _ => ∃ R, EdwardsPoint.fromScalar sqrt (a.lc.eval w) J = .ok R ∧ o.Is w R) ?_
      fun o _ _ ⟨R, h, hR⟩ => Spec.pure fun _ => Gives.two ?_
    · intro o s' hr hsat
      obtain ⟨-, R, h, hR, -⟩ := C40_sound_partial hv hsq h8 hs (ht' ha) (ht.varies ha (hsig t (by simp) a ha)) hw hr hsat
      exact ⟨R, h, hR⟩
    · simp [Call.native, valuesOf_get ha, h, done?, hR.1, hR.2]
  | montDouble x y J =>
    obtain ⟨h0, two, hja, hjb, hsig⟩ := hc
    refine spec_regMont fun a b ha hb => ?_
    refine Spec.bind ((specMode w hw).tangent (J := J) hs (p := ⟨a, b⟩) ⟨ht' ha, rfl⟩ ⟨ht' hb, rfl⟩
      (fun h => h0 (by rw [valuesOf_get hb]; exact congrArg some h)) two hja hjb (ht.varies ha (hsig x (by simp) a ha)) hs)
      fun o _ _ ⟨z, z', h, hx, hy⟩ => Spec.pure fun _ => Gives.two ?_
    have h : tangent J (a.lc.eval w) (b.lc.eval w) = [z, z'] := h
    have hx : o.x.lc.eval w = z := hx.2
    have hy : o.y.lc.eval w = z' := hy.2
    simp [Call.native, valuesOf_get ha, valuesOf_get hb, h, hx, hy]
  | montAdd x1 y1 x2 y2 J =>
    obtain ⟨h0, hvar⟩ := hc
    refine spec_regMont fun a b ha hb => spec_regMont fun c d hc hd' => ?_
    refine Spec.bind ((specMode w hw).chord (J := J) hs (p := ⟨a, b⟩) (q := ⟨c, d⟩) ⟨ht' ha, rfl⟩ ⟨ht' hb, rfl⟩ ⟨ht' hc, rfl⟩ ⟨ht' hd', rfl⟩
      (h0 _ _ (valuesOf_get ha) (valuesOf_get hc)) (hvar b d hb hd') hs)
      fun o _ _ ⟨z, z', h, hx, hy⟩ => Spec.pure fun _ => Gives.two ?_
    have h : chord J (a.lc.eval w) (b.lc.eval w) (c.lc.eval w) (d.lc.eval w) = [z, z'] := h
    have hx : o.x.lc.eval w = z := hx.2
    have hy : o.y.lc.eval w = z' := hy.2
    simp [Call.native, valuesOf_get ha, valuesOf_get hb, valuesOf_get hc, valuesOf_get hd', h, hx, hy]
  | intoEdwards x y =>
    obtain ⟨h0, h1, hsig⟩ := hc
    refine spec_regMont fun a b ha hb => ?_
    refine Spec.bind ((specMode w hw).toEdwards hs (p := ⟨a, b⟩) ⟨ht' ha, rfl⟩ ⟨ht' hb, rfl⟩
      (fun h => h0 (by rw [valuesOf_get ha]; exact congrArg some h))
      (h1.imp (fun h1 h => h1 (by rw [valuesOf_get hb]; exact congrArg some h)) (fun h1 => by
        rw [valuesOf_get ha] at h1; injection h1)) trivial
      (ht.varies ha (hsig x (by simp) a ha)) hs) fun o _ _ ⟨z, h, hx, hy⟩ => Spec.pure fun _ => Gives.two ?_
    have h : MontgomeryPoint.intoAffine ⟨a.lc.eval w, b.lc.eval w⟩ = .ok z := h
    have hx : o.x.lc.eval w = z.x := hx.2
    have hy : o.y.lc.eval w = z.y := hy.2
    simp [Call.native, valuesOf_get ha, valuesOf_get hb, h, done?, hx, hy]
  | eddsaVerify sqrt si ri ai mi P J hl =>
    obtain ⟨hsq, ⟨C, hv⟩, har, hal, h32, hbits, hP, ht4, hsig, hch⟩ := hc
    refine spec_reg fun a ha => spec_reg fun b hb => spec_reg fun c hc => spec_reg fun d hd => ?_
    refine Spec.bind (Q := fun o _ => (a.lc.eval w).val < 2 ^ numBits J.l ∧
      (∃ A R, EdwardsPoint.subgroupDecompress sqrt (c.lc.eval w) J = .ok (some A) ∧
        EdwardsPoint.subgroupDecompress sqrt (b.lc.eval w) J = .ok (some R)) ∧
      ∃ bb, Eddsa.verify sqrt J ((a.lc.eval w).val : ZMod J.l) (b.lc.eval w) (c.lc.eval w) (d.lc.eval w) P = .ok bb ∧
        o.num.lc.eval w = if bb then 1 else 0) ?_
      fun o _ _ ⟨h1, ⟨A, R, h2, h3⟩, bb, h4, h5⟩ => Spec.pure fun _ => Gives.one ?_
    · exact fun o s' hr hsat => C43_sound hv hsq har hal h32 hs (ht' ha) (ht' hb) (ht' hc) (ht' hd) (hsig si (by simp) a ha) hw hr hsat
    · simp [Call.native, valuesOf_get ha, valuesOf_get hb, valuesOf_get hc, valuesOf_get hd, h1, h2, h3, h4, h5, done?, ofBit, -ZMod.natCast_val]

end calls

end Fawkes
