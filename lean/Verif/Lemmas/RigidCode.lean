import Verif.Lemmas.RigidBits
import Verif.Lemmas.CEccAcc
import Verif.Lemmas.FirstWindow
import Verif.Lemmas.SelfLink
import Verif.Spec.Unique

/-!
# Whole calls and programs leave no choice for helper variables
-/

set_option linter.unusedSectionVars false

namespace Fawkes

section link
variable {F : Type} [Field F] [DecidableEq F]

/-- Canonical signals over variables of the constraint system. -/
def Tidy (s : CS F) (q : List (CNum F)) : Prop := ∀ a ∈ q, a.lc.Canonical ∧ a.lc.Alloc s

/-- A run that ends in `fin`, linked with itself, whatever the constraints at its start. -/
def tidyLink (fin : CS F) (hf : fin.WF) : Link F where
  st s t := s = t
  ok _ _ s' := s'.vars <+: fin.vars
  ok_mid _ h2 h := ⟨h2.vars.trans h, h⟩
  lax := false
  known := false
  fit a b := a = b ∧ Good false fin a
  fit_value := by
    rintro a b ⟨rfl, h⟩
    exact Or.inr ⟨rfl, fun k => by cases k⟩
  fit_asConst h := by rw [h.1]
  fit_length h := by rw [h.1]
  fit_const v := ⟨rfl, Good.const v⟩
  fit_addAssign := by rintro a b _ _ ⟨rfl, ha⟩ ⟨rfl, hb⟩; exact ⟨rfl, ha.addAssign hb⟩
  fit_sub := by rintro a b _ _ ⟨rfl, ha⟩ ⟨rfl, hb⟩; exact ⟨rfl, ha.sub hb⟩
  fit_scale := by rintro a _ k hk ⟨rfl, ha⟩; exact ⟨rfl, ha.scale hk⟩
  sim_alloc' := by
    rintro u v h s t rfl a s' hr hok
    obtain ⟨rfl, -⟩ := h.resolve_left (by simp)
    have h0 := hr
    unfold CNum.alloc at hr
    rw [M.run_bind, run_csalloc] at hr
    split at hr
    · next heq => split at heq <;> cases hr
    · next i s1 heq =>
      split at heq
      · cases heq
      · injection heq with heq; injection heq with e1 e2
        subst e1 e2
        rw [M.run_pure] at hr; injection hr with hr; injection hr with e1 e2
        subst e1 e2
        refine ⟨_, _, h0, rfl, rfl, ?_⟩
        change (CS.pushVar _ _ _).vars <+: _ at hok; rw [pushVar_vars] at hok
        exact Good.of_var hf (hok.subset (by simp)) fun k => by cases k
  sim_allocInput' := by
    rintro u v h s t rfl a s' hr hok
    obtain ⟨rfl, -⟩ := h.resolve_left (by simp)
    have h0 := hr
    rw [run_csallocInput] at hr
    split at hr
    · cases hr
    · injection hr with hr; injection hr with e1 e2
      subst e1 e2
      refine ⟨_, _, h0, rfl, rfl, ?_⟩
      change (CS.pushVar _ _ _).vars <+: _ at hok; rw [pushVar_vars] at hok
      exact Good.of_var hf (hok.subset (by simp)) fun k => by cases k
  sim_enforce' := by
    rintro p a b c _ _ _ ⟨rfl, ha⟩ ⟨rfl, hb⟩ ⟨rfl, hc⟩ s t rfl x s' hr hok
    exact ⟨x, s', hr, rfl, trivial⟩

theorem tidyLink_fits {fin : CS F} {hf : fin.WF} {q : List (CNum F)} (h : Tidy fin q) :
    List.Forall₂ (tidyLink fin hf).fit q q := by
  induction q with
  | nil => exact .nil
  | cons a q ih => exact .cons ⟨rfl, ⟨(h a (by simp)).1, (h a (by simp)).2, fun k => by cases k⟩⟩ (ih fun x hx => h x (by simp [hx]))

theorem tidyLink_tidy {fin : CS F} {hf : fin.WF} {q q' : List (CNum F)}
    (h : List.Forall₂ (tidyLink fin hf).fit q q') : Tidy fin q := by
  induction h with
  | nil => simp [Tidy]
  | cons h _ ih =>
    intro a ha
    rcases List.mem_cons.1 ha with rfl | ha
    · exact ⟨h.2.canon, h.2.alloc⟩
    · exact ih a ha

theorem Tidy.mono {s s' : CS F} {q : List (CNum F)} (h : Tidy s q) (e : s.Ext s') : Tidy s' q :=
  fun a ha => ⟨(h a ha).1, (h a ha).2.mono e⟩

theorem Tidy.append {s : CS F} {q q' : List (CNum F)} (h : Tidy s q) (h' : Tidy s q') : Tidy s (q ++ q') :=
  fun a ha => (List.mem_append.1 ha).elim (h a) (h' a)

end link

variable {r : Nat} [Fact r.Prime] {W : Type} {q : List (CNum (ZMod r))} {s : CS (ZMod r)} {w w' : Index → ZMod r}

theorem tidy_call {v : Option W} {c : Call r W} {q' : List (CNum (ZMod r))} {s' : CS (ZMod r)} (hs : s.WF) (hq : Tidy s q)
    (h : (c.exec v q).run s = .ok (q', s')) : Tidy s' q' := by
  have e := M.run_ext h
  obtain ⟨_, _, _, _, h3⟩ := sim_call (X := tidyLink s' (e.wf hs)) (q := q) (q' := q) (tidyLink_fits (hq.mono e))
    (w := v) (w' := v) (Or.inr ⟨rfl, fun k => by cases k⟩) c (fun k => by cases k) (fun k => by cases k) s s rfl _ _ h
    (List.prefix_refl _)
  exact tidyLink_tidy h3

section reading
variable {α : Type} {Q : α → CS (ZMod r) → Prop}

theorem rig_reg {i : Nat} {f : CNum (ZMod r) → M (ZMod r) α} (h : ∀ a, q[i]? = some a → Rig w w' s (f a) Q) :
    Rig w w' s (reg q i >>= f) Q := by
  unfold reg
  cases hi : q[i]? with
  | none => exact Rig.bind (Rig.panic (Q := fun _ _ => False)) fun _ _ _ h => h.elim
  | some a => exact fun x s' hr => h a hi x s' (by dsimp only at hr; rw [pure_bind] at hr; exact hr)

theorem run_regs (is : List Nat) : regs q is = (match lookups q is with | some xs => pure xs | none => M.panic .outOfBounds) := by
  induction is with
  | nil => rfl
  | cons i is ih =>
    unfold regs lookups reg
    cases hi : q[i]? with
    | none => rfl
    | some a =>
      rw [ih]
      cases lookups q is <;> rfl

theorem rig_regs {is : List Nat} {f : List (CNum (ZMod r)) → M (ZMod r) α}
    (h : ∀ xs, lookups q is = some xs → Rig w w' s (f xs) Q) : Rig w w' s (regs q is >>= f) Q := by
  rw [run_regs]
  cases hi : lookups q is with
  | none => exact Rig.bind (Rig.panic (Q := fun _ _ => False)) fun _ _ _ h => h.elim
  | some a => exact fun x s' hr => h a hi x s' (by dsimp only at hr; rw [pure_bind] at hr; exact hr)

theorem rig_regBits {is : List Nat} {f : List (CBool (ZMod r)) → M (ZMod r) α}
    (h : ∀ xs, lookups q is = some xs → Rig w w' s (f (xs.map CBool.mk)) Q) : Rig w w' s (regBits q is >>= f) Q :=
  fun x s' hr => rig_regs (f := fun xs => f (xs.map CBool.mk)) h x s' (by
    unfold regBits at hr
    obtain ⟨a, s1, h1, h2⟩ := M.bind_ok hr
    obtain ⟨b, s2, h3, h4⟩ := M.bind_ok h1
    rw [M.run_pure] at h4; injection h4 with h4; injection h4 with e1 e2; subst e1 e2
    rw [M.run_bind, h3]; exact h2)

theorem rig_regPoint {i j : Nat} {f : CEdwardsPoint (ZMod r) → M (ZMod r) α}
    (h : ∀ a b, q[i]? = some a → q[j]? = some b → Rig w w' s (f ⟨a, b⟩) Q) : Rig w w' s (regPoint q i j >>= f) Q := by
  intro x s' hr
  refine rig_reg (f := fun a => reg q j >>= fun b => f ⟨a, b⟩) (i := i) (q := q)
    (fun a ha => rig_reg fun b hb => h a b ha hb) x s' ?_
  unfold regPoint at hr
  obtain ⟨p, s1, h1, h2⟩ := M.bind_ok hr
  obtain ⟨a, s2, h3, h4⟩ := M.bind_ok h1
  obtain ⟨b, s3, h5, h6⟩ := M.bind_ok h4
  rw [M.run_pure] at h6; injection h6 with h6; injection h6 with e1 e2; subst e1 e2
  rw [M.run_bind, h3]
  show (reg q j >>= _).run s2 = _
  rw [M.run_bind, h5]; exact h2

theorem rig_regMont {i j : Nat} {f : CMontgomeryPoint (ZMod r) → M (ZMod r) α}
    (h : ∀ a b, q[i]? = some a → q[j]? = some b → Rig w w' s (f ⟨a, b⟩) Q) : Rig w w' s (regMont q i j >>= f) Q := by
  intro x s' hr
  refine rig_reg (f := fun a => reg q j >>= fun b => f ⟨a, b⟩) (i := i) (q := q)
    (fun a ha => rig_reg fun b hb => h a b ha hb) x s' ?_
  unfold regMont at hr
  obtain ⟨p, s1, h1, h2⟩ := M.bind_ok hr
  obtain ⟨a, s2, h3, h4⟩ := M.bind_ok h1
  obtain ⟨b, s3, h5, h6⟩ := M.bind_ok h4
  rw [M.run_pure] at h6; injection h6 with h6; injection h6 with e1 e2; subst e1 e2
  rw [M.run_bind, h3]
  show (reg q j >>= _).run s2 = _
  rw [M.run_bind, h5]; exact h2

theorem lookups_mem {is : List Nat} {xs : List (CNum (ZMod r))} (h : lookups q is = some xs) : ∀ a ∈ xs, a ∈ q := by
  induction is generalizing xs with
  | nil => cases h; simp
  | cons i is ih =>
    unfold lookups at h
    cases hi : q[i]? with
    | none => rw [hi] at h; cases h
    | some a =>
      rw [hi] at h
      cases hl : lookups q is with
      | none => rw [hl] at h; cases h
      | some ys =>
        rw [hl] at h
        cases h
        intro b hb
        rcases List.mem_cons.1 hb with rfl | hb
        · exact List.mem_of_getElem? hi
        · exact ih hl b hb

theorem lookups_length {is : List Nat} {xs : List (CNum (ZMod r))} (h : lookups q is = some xs) : xs.length = is.length := by
  induction is generalizing xs with
  | nil => cases h; rfl
  | cons i is ih =>
    unfold lookups at h
    cases hi : q[i]? with
    | none => rw [hi] at h; cases h
    | some a =>
      rw [hi] at h
      cases hl : lookups q is with
      | none => rw [hl] at h; cases h
      | some ys =>
        rw [hl] at h
        cases h
        simp [ih hl]

end reading

section calls
variable (hw : IsAssignment w) (hw' : IsAssignment w')
include hw hw'

/-- Results are appended to the registers. -/
theorem Rig.done {s1 : CS (ZMod r)} {l : List (CNum (ZMod r))} : Rig w w' s1 (Pure.pure (q ++ l) : M (ZMod r) _) (fun _ _ => True) :=
  Rig.pure trivial

theorem rig_op (hq : ∀ a ∈ q, Same w w' a) (o : Op (ZMod r)) (ho : (Call.prim o : Call r W).Sharp w q) :
    Rig w w' s (o.exec q) (fun _ _ => True) := by
  have hm {i : Nat} {a : CNum (ZMod r)} (h : q[i]? = some a) : Same w w' a := hq a (List.mem_of_getElem? h)
  cases o with
  | const v => exact Rig.pure trivial
  | alloc v => exact ho.elim
  | allocInput v => exact ho.elim
  | add i j => exact rig_reg fun a ha => rig_reg fun b hb => Rig.pure trivial
  | sub i j => exact rig_reg fun a ha => rig_reg fun b hb => Rig.pure trivial
  | neg i => exact rig_reg fun a ha => Rig.pure trivial
  | mulConst i k => exact rig_reg fun a ha => Rig.pure trivial
  | divConst i k => exact rig_reg fun a ha => Rig.bind (rig_divConst hw hw' (hm ha) k) fun _ _ _ _ => Rig.pure trivial
  | mul i j => exact rig_reg fun a ha => rig_reg fun b hb => Rig.bind (rig_mul hw hw' (hm ha) (hm hb)) fun _ _ _ _ => Rig.pure trivial
  | div i j => 
    exact rig_reg fun a ha => rig_reg fun b hb =>
      Rig.bind (rig_div hw hw' (hm ha) (hm hb) (ho a b ha hb)) fun _ _ _ _ => Rig.pure trivial
  | enforce i j k => 
    exact rig_reg fun a ha => rig_reg fun b hb => rig_reg fun c hc =>
      Rig.bind (rig_enforce hw hw' a b c) fun _ _ _ _ => Rig.pure trivial
  | assertConst i v => exact rig_reg fun a ha => Rig.bind (rig_assertConst hw hw' v) fun _ _ _ _ => Rig.pure trivial
  | assertEq i j => exact rig_reg fun a ha => rig_reg fun b hb => Rig.bind (rig_assertEq hw hw') fun _ _ _ _ => Rig.pure trivial
  | assertNonzero i => exact rig_reg fun a ha => Rig.bind (rig_assertNonzero hw hw' (hm ha)) fun _ _ _ _ => Rig.pure trivial
  | assertBit i => exact rig_reg fun a ha => Rig.bind (rig_assertBit hw hw') fun _ _ _ _ => Rig.pure trivial
  | inputize i => exact rig_reg fun a ha => Rig.bind (rig_inputize hw hw' (hm ha)) fun _ _ _ _ => Rig.pure trivial
  | isZero i => exact rig_reg fun a ha => Rig.bind (rig_isZero hw hw' (hm ha) (ho a ha)) fun _ _ _ _ => Rig.pure trivial
  | isEq i j => 
    exact rig_reg fun a ha => rig_reg fun b hb =>
      Rig.bind (rig_isEq hw hw' (hm ha) (hm hb) (ho a b ha hb)) fun _ _ _ _ => Rig.pure trivial
  | switch i b j => 
    exact rig_reg fun a ha => rig_reg fun b hb => rig_reg fun c hc =>
      Rig.bind (rig_switch hw hw' (hm ha) (hm hc) (b := ⟨b⟩) (hm hb)) fun _ _ _ _ => Rig.pure trivial

theorem same_lookups (hq : ∀ a ∈ q, Same w w' a) {is : List Nat} {xs : List (CNum (ZMod r))} (h : lookups q is = some xs) :
    ∀ a ∈ xs, Same w w' a := fun a ha => hq a (lookups_mem h a ha)

theorem same_bits (hq : ∀ a ∈ q, Same w w' a) {is : List Nat} {xs : List (CNum (ZMod r))} (h : lookups q is = some xs) :
    ∀ b ∈ xs.map CBool.mk, Same w w' b.num := by
  intro b hb
  obtain ⟨a, ha, rfl⟩ := List.mem_map.1 hb
  exact hq a (lookups_mem h a ha)

omit hw hw' in
theorem montY_ne {C : EdCurve (ZMod r)} {l : Nat} (hl : l % 2 = 1) {R : EdPoint C} (hR : l • R = 0) (h0 : R ≠ 0) :
    (EdPoint.torsion2 + R).montY ≠ 0 := by
  have h1 : EdPoint.torsion2 + R ≠ 0 := torsion2_add_ne hl hR (nsmul_zero l)
  intro h
  have := (EdPoint.montY_eq_zero_iff h1).1 h
  exact h0 (by simpa using this)

theorem det_bits {bits : List (CBool (ZMod r))} {bs : List Bool} (ha : ∀ b ∈ bits, b.num.lc.Alloc s)
    (hb : ∀ b ∈ bits, Same w w' b.num) (h : SpellsBits w bits bs) : (detMode w w' hw hw').Bits s bits bs :=
  (forall₂_and_mem (forall₂_and_mem h ha) hb).imp fun _ _ h => ⟨h.2.1, h.2.2, h.1.symm.trans h.2.2⟩

theorem rig_edMul {C : EdCurve (ZMod r)} {J : JubJubParams (ZMod r)} (hv : J.Valid C) (hs : s.WF) {a b : CNum (ZMod r)}
    {bits : List (CNum (ZMod r))} (ha : a.lc.Canonical ∧ a.lc.Alloc s) (hb : b.lc.Canonical ∧ b.lc.Alloc s) (ht : Tidy s bits)
    (sa : Same w w' a) (sb : Same w w' b) (sbits : ∀ x ∈ bits, Same w w' x) {Q : EdPoint C} {bs : List Bool}
    (hQ : InSubgroup J.l Q) (hx : a.lc.eval w = Q.x) (hy : b.lc.eval w = Q.y) (hbs : SpellsBits w (bits.map CBool.mk) bs)
    (hcase : (a.asConst = none ∧ b.asConst = none ∧ bitsNat bs • Q ≠ 0) ∨
      (a.asConst ≠ none ∧ b.asConst ≠ none ∧ (Q = 0 ∨ 2 ≤ bits.length ∧ Independent (bits.take 3) ∧ bitsNat bs • Q ≠ 0))) :
    Rig w w' s (CEdwardsPoint.mul ⟨a, b⟩ (bits.map CBool.mk) J) (fun _ _ => True) := by
  have hl2 : J.l % 2 = 1 := hv.l_prime.eq_two_or_odd.resolve_left (by have := hv.l_large; omega)
  have hB : (detMode w w' hw hw').Bits s (bits.map CBool.mk) bs := by
    refine det_bits hw hw' ?_ ?_ hbs
    · intro x hx; obtain ⟨y, hy, rfl⟩ := List.mem_map.1 hx; exact (ht y hy).2
    · intro x hx; obtain ⟨y, hy, rfl⟩ := List.mem_map.1 hx; exact sbits y hy
  have hR : J.l • (bitsNat bs • Q) = 0 := by rw [← mul_nsmul, mul_comm, mul_nsmul, hQ, nsmul_zero]
  unfold CEdwardsPoint.mul
  rcases hcase with ⟨h1, h2, h0⟩ | ⟨h1, h2, h3⟩
  · have hc : CEdwardsPoint.asConst ⟨a, b⟩ = none := by unfold CEdwardsPoint.asConst; rw [h1]; rfl
    rw [hc]
    obtain ⟨G, hJG, hG0, hG⟩ := hv.base
    have hQ0 : Q ≠ 0 := by rintro rfl; exact h0 (nsmul_zero _)
    have hQx : Q.x ≠ 0 := by
      rw [Ne, EdPoint.x_eq_zero_iff]
      exact fun h => h.elim hQ0 (ne_torsion2_of_killed hl2 hQ)
    by_cases hnz : ∃ x ∈ bits.map CBool.mk, x.num.asConst ≠ some 0
    · refine ((detMode w w' hw hw').mulVarBase hv.a_eq hv.b_eq hl2 hG hG0 hJG hQ hs (p := ⟨a, b⟩) (Q := Q)
        ⟨⟨ha.2, hx, sa.symm.trans hx⟩, ⟨hb.2, hy, sb.symm.trans hy⟩⟩ (.of_canonical ha.1 h1) (.of_canonical hb.1 h2) hB ?_ hnz
        hQx (montY_ne hl2 hR h0) hs).mono fun _ _ _ _ => trivial
      intro x hx; obtain ⟨y, hy, rfl⟩ := List.mem_map.1 hx; exact Plain.of_canonical (ht y hy).1
    · push Not at hnz
      exact fun o s' h => (IsZeroLC.mulVarBase _ _ hnz o s' h).elim
  · obtain ⟨cx, h1⟩ := Option.ne_none_iff_exists'.1 h1
    obtain ⟨cy, h2⟩ := Option.ne_none_iff_exists'.1 h2
    have e1 : cx = Q.x := by rw [← hx]; exact (CNum.eval_of_asConst hw h1).symm
    have e2 : cy = Q.y := by rw [← hy]; exact (CNum.eval_of_asConst hw h2).symm
    have hc : CEdwardsPoint.asConst ⟨a, b⟩ = some Q.affine := by
      unfold CEdwardsPoint.asConst; rw [h1, h2, e1, e2]; rfl
    rw [hc]
    rcases h3 with rfl | ⟨hlen, hind, h0⟩
    · exact ((detMode w w' hw hw').mulConstBase_reach hv.d_eq hv.a_eq hv.b_eq hv.l_prime hv.l_large hQ hs hB
        (fun h => absurd rfl h) (fun h => absurd rfl h) hs).mono fun _ _ _ _ => trivial
    · refine ((detMode w w' hw hw').mulConstBase hv.d_eq hv.a_eq hv.b_eq hv.l_prime hv.l_large hQ hs hB (by simpa using hlen) ?_
        (fun _ => montY_ne hl2 hR h0) hs).mono fun _ _ _ _ => trivial
      rw [← List.map_take, List.map_map]
      rwa [show CBool.num ∘ CBool.mk = (id : CNum (ZMod r) → _) from rfl, List.map_id]

theorem rig_call (hs : s.WF) (ht : Tidy s q) (hag : Agree w w' s) {v : Option W} {c : Call r W} (hc : c.Sharp w q) :
    Rig w w' s (c.exec v q) (fun _ _ => True) := by
  have hq : ∀ a ∈ q, Same w w' a := fun a ha => hag.same hw hw' (ht a ha).2
  have hm {i : Nat} {a : CNum (ZMod r)} (h : q[i]? = some a) : Same w w' a := hq a (List.mem_of_getElem? h)
  have ht' {i : Nat} {a : CNum (ZMod r)} (h : q[i]? = some a) := ht a (List.mem_of_getElem? h)
  cases c with
  | prim o => exact rig_op hw hw' hq o hc
  | alloc is hint => exact hc.elim
  | allocInput is hint => exact hc.elim
  | intoBits i n =>
    exact rig_reg fun a ha => Rig.bind (rig_intoBits hw hw' (hm ha) (hc a ha)) fun _ _ _ _ => Rig.pure trivial
  | intoBitsStrict i => exact rig_reg fun a ha => Rig.bind (rig_strict hw hw' hc (hm ha)) fun _ _ _ _ => Rig.pure trivial
  | compConstant is k =>
    refine rig_regBits fun xs hx => Rig.bind (rig_compConstant hw hw' (same_bits hw hw' hq hx) k ?_) fun _ _ _ _ => Rig.pure trivial
    rw [List.length_map, lookups_length hx]; exact hc
  | fromBits is =>
    exact rig_regBits fun xs hx => Rig.bind (rig_fromBits hw hw' (same_bits hw hw' hq hx)) fun _ _ _ _ => Rig.pure trivial
  | mux3 is t =>
    exact rig_regBits fun xs hx => Rig.bind (rig_mux3 hw hw' (same_bits hw hw' hq hx) t) fun _ _ _ _ => Rig.pure trivial
  | poseidon is P =>
    exact rig_regs fun xs hx => Rig.bind (rig_poseidon hw hw' P (same_lookups hw hw' hq hx)) fun _ _ _ _ => Rig.pure trivial
  | poseidonWithSalt is seed P =>
    exact rig_regs fun xs hx => Rig.bind (rig_poseidonWithSalt hw hw' P seed (same_lookups hw hw' hq hx))
      fun _ _ _ _ => Rig.pure trivial
  | merkleProofRoot l ss ps P =>
    exact rig_reg fun a ha => rig_regs fun xs hx => rig_regBits fun ys hy =>
      Rig.bind (rig_merkleProofRoot hw hw' P (hm ha) (same_lookups hw hw' hq hx) (same_bits hw hw' hq hy))
        fun _ _ _ _ => Rig.pure trivial
  | merkleTreeRoot is P =>
    exact rig_regs fun xs hx => Rig.bind (rig_merkleTreeRoot hw hw' P (same_lookups hw hw' hq hx)) fun _ _ _ _ => Rig.pure trivial
  | edDouble x y J =>
    refine rig_regPoint fun a b ha hb => ?_
    obtain ⟨C, hd, P, hP⟩ := hc a b ha hb
    exact Rig.bind (rig_edDouble hw hw' hd ⟨hm ha, hm hb⟩ hP) fun _ _ _ _ => Rig.pure trivial
  | edMulByCofactor x y J =>
    refine rig_regPoint fun a b ha hb => ?_
    obtain ⟨C, hd, P, hP⟩ := hc.1 a b ha hb
    refine Rig.bind ((detMode w w' hw hw').edMulByCofactor hd hs (p := ⟨a, b⟩) (Q := P)
      ⟨⟨(ht' ha).2, hP.1, (hm ha).symm.trans hP.1⟩, ⟨(ht' hb).2, hP.2, (hm hb).symm.trans hP.2⟩⟩
      (.of_canonical (ht' ha).1 (hc.2.1 a ha)) (.of_canonical (ht' hb).1 (hc.2.2 b hb)) hs) fun _ _ _ _ => Rig.pure trivial
  | edAdd x1 y1 x2 y2 J =>
    refine rig_regPoint fun a b ha hb => rig_regPoint fun c d hc' hd' => ?_
    obtain ⟨C, hd, P, Q, hP, hQ⟩ := hc a b c d ha hb hc' hd'
    exact Rig.bind (rig_edAdd hw hw' hd ⟨hm ha, hm hb⟩ ⟨hm hc', hm hd'⟩ hP hQ) fun _ _ _ _ => Rig.pure trivial
  | assertInCurve x y J =>
    exact rig_regPoint fun a b ha hb => Rig.bind (rig_assertInCurve hw hw' ⟨hm ha, hm hb⟩) fun _ _ _ _ => Rig.pure trivial
  | assertInSubgroup x y J hl => exact hc.elim
  | subgroupDecompress sqrt x J hl => exact hc.elim
  | intoMontgomery x y =>
    exact rig_regPoint fun a b ha hb => Rig.bind (rig_intoMontgomery hw hw' ⟨hm ha, hm hb⟩ (hc a b ha hb).1 (hc a b ha hb).2)
      fun _ _ _ _ => Rig.pure trivial
  | edMul x y is J =>
    refine rig_regPoint fun a b ha hb => rig_regBits fun xs hx => ?_
    obtain ⟨C, hv, Q, bs, hQ, ex, ey, hbs, hcase⟩ := hc a b xs ha hb hx
    exact Rig.bind (rig_edMul hw hw' hv hs (ht' ha) (ht' hb) (fun x h => ht x (lookups_mem hx x h)) (hm ha) (hm hb)
      (same_lookups hw hw' hq hx) hQ ex ey hbs hcase) fun _ _ _ _ => Rig.pure trivial
  | fromScalar sqrt t J => exact hc.elim
  | montDouble x y J =>
    exact rig_regMont fun a b ha hb => Rig.bind (rig_montDouble hw hw' (p := ⟨a, b⟩) (hm ha) (hm hb) (hc.1 b hb) hc.2.1 hc.2.2)
      fun _ _ _ _ => Rig.pure trivial
  | montAdd x1 y1 x2 y2 J =>
    exact rig_regMont fun a b ha hb => rig_regMont fun c d hc' hd' =>
      Rig.bind (rig_montAdd hw hw' (p := ⟨a, b⟩) (q := ⟨c, d⟩) (hm ha) (hm hb) (hm hc') (hm hd') (hc a c ha hc'))
        fun _ _ _ _ => Rig.pure trivial
  | intoEdwards x y =>
    exact rig_regMont fun a b ha hb => Rig.bind (rig_intoEdwards hw hw' (p := ⟨a, b⟩) (hm ha) (hm hb) (hc a b ha hb).1
      (hc a b ha hb).2) fun _ _ _ _ => Rig.pure trivial
  | eddsaVerify sqrt s rx a m P J hl => exact hc.elim

end calls

end Fawkes
