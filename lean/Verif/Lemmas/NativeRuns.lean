import Verif.Lemmas.NativeSound
import Verif.Lemmas.Signal
import Verif.Props.Poseidon

/-!
# A call on which the native code succeeds is possible in the circuit
-/

set_option linter.unusedSectionVars false

namespace Fawkes

open Props

variable {r : Nat} [Fact r.Prime] {W : Type} {q : List (CNum (ZMod r))} {s : CS (ZMod r)}

/-- Every register carries the value of its linear combination. -/
def Carried (s : CS (ZMod r)) (q : List (CNum (ZMod r))) : Prop := ∀ a ∈ q, Has s a (a.lc.eval s.assign)

theorem Runs.of {α : Type} {m : M (ZMod r) α} (h : ∃ o s', m.run s = .ok (o, s') ∧ s'.Honest) : Runs s m (fun _ _ => True) := by
  obtain ⟨o, s', h, hs⟩ := h
  exact ⟨o, s', h, M.run_ext h, hs, trivial⟩

section reading
variable {α : Type} {Q : α → CS (ZMod r) → Prop}

theorem runs_reg {i : Nat} {a : CNum (ZMod r)} (hi : q[i]? = some a) {f : CNum (ZMod r) → M (ZMod r) α} (h : Runs s (f a) Q) :
    Runs s (reg q i >>= f) Q := by
  unfold reg
  rw [hi]; dsimp only; rw [pure_bind]; exact h

theorem runs_regs {is : List Nat} {xs : List (CNum (ZMod r))} (hi : lookups q is = some xs)
    {f : List (CNum (ZMod r)) → M (ZMod r) α} (h : Runs s (f xs) Q) : Runs s (regs q is >>= f) Q := by
  rw [run_regs, hi]; dsimp only; rw [pure_bind]; exact h

theorem runs_regBits {is : List Nat} {xs : List (CNum (ZMod r))} (hi : lookups q is = some xs)
    {f : List (CBool (ZMod r)) → M (ZMod r) α} (h : Runs s (f (xs.map CBool.mk)) Q) : Runs s (regBits q is >>= f) Q := by
  rw [regBits_bind]; exact runs_regs hi h

theorem runs_regPoint {i j : Nat} {a b : CNum (ZMod r)} (hi : q[i]? = some a) (hj : q[j]? = some b)
    {f : CEdwardsPoint (ZMod r) → M (ZMod r) α} (h : Runs s (f ⟨a, b⟩) Q) : Runs s (regPoint q i j >>= f) Q := by
  rw [regPoint_bind]; exact runs_reg hi (runs_reg hj h)

theorem runs_regMont {i j : Nat} {a b : CNum (ZMod r)} (hi : q[i]? = some a) (hj : q[j]? = some b)
    {f : CMontgomeryPoint (ZMod r) → M (ZMod r) α} (h : Runs s (f ⟨a, b⟩) Q) : Runs s (regMont q i j >>= f) Q := by
  rw [regMont_bind]; exact runs_reg hi (runs_reg hj h)

end reading

theorem runs_then {α β : Type} {m : M (ZMod r) α} {f : α → β} {Q : α → CS (ZMod r) → Prop} (h : Runs s m Q) :
    Runs s (m >>= fun a => pure (f a)) (fun _ _ => True) :=
  Runs.bind h fun _ _ _ hs _ => Runs.pure hs trivial

theorem get_reg {w : Index → ZMod r} {β : Type} {i : Nat} {g : ZMod r → Option β} {x : β} (h : ((valuesOf w q)[i]?).bind g = some x) :
    ∃ a, q[i]? = some a ∧ g (a.lc.eval w) = some x := by
  cases hv : (valuesOf w q)[i]? with
  | none => rw [hv] at h; cases h
  | some v =>
    obtain ⟨a, ha, rfl⟩ := valuesOf_get' hv
    rw [hv] at h
    exact ⟨a, ha, h⟩

theorem get_regs {w : Index → ZMod r} {β : Type} {is : List Nat} {g : List (ZMod r) → Option β} {x : β}
    (h : (pick (valuesOf w q) is).bind g = some x) :
    ∃ xs, lookups q is = some xs ∧ g (xs.map fun a => a.lc.eval w) = some x := by
  cases hq : lookups q is with
  | none =>
    unfold valuesOf at h
    rw [pick_map, ← lookups_eq_pick, hq] at h; cases h
  | some xs =>
    rw [valuesOf_pick hq] at h
    exact ⟨xs, rfl, h⟩

theorem get_some {α β : Type} {y : Option α} {g : α → Option β} {x : β} (h : y.bind g = some x) : ∃ a, y = some a ∧ g a = some x :=
  Option.bind_eq_some_iff.1 h

theorem get_lc {q0 : List (CNum (ZMod r))} (hl : q0.map CNum.lc = q.map CNum.lc) {i : Nat} {a : CNum (ZMod r)} (ha : q[i]? = some a) :
    ∃ a0, q0[i]? = some a0 ∧ a0.lc = a.lc := by
  have : (q0.map CNum.lc)[i]? = some a.lc := by rw [hl, List.getElem?_map, ha]; rfl
  rw [List.getElem?_map] at this
  exact Option.map_eq_some_iff.1 this

theorem lookups_lc {q0 : List (CNum (ZMod r))} (hl : q0.map CNum.lc = q.map CNum.lc) {is : List Nat} {xs : List (CNum (ZMod r))}
    (hx : lookups q is = some xs) : ∃ ys, lookups q0 is = some ys ∧ ys.map CNum.lc = xs.map CNum.lc := by
  rw [lookups_eq_pick] at hx ⊢
  have h := pick_map CNum.lc q is
  rw [← hl, pick_map, hx] at h
  exact Option.map_eq_some_iff.1 h

theorem asConst_lc {a b : CNum (ZMod r)} (h : a.lc = b.lc) : a.asConst = b.asConst := by unfold CNum.asConst; rw [h]

/-- No run multiplies a signal by bits that are all the constant zero. -/
theorem no_zero_bits {q0 : List (CNum (ZMod r))} (hl : q0.map CNum.lc = q.map CNum.lc) {x y : Nat} {is : List Nat} {J : JubJubParams (ZMod r)}
    {a : CNum (ZMod r)} {xs : List (CNum (ZMod r))} (ha : q[x]? = some a) (hx : lookups q is = some xs) (hac : a.asConst = none)
    (h0 : ∀ y ∈ xs, y.asConst = some 0) {v : Option W} {s0 : CS (ZMod r)} {o : List (CNum (ZMod r)) × CS (ZMod r)}
    (hr : ((Call.edMul x y is J : Call r W).exec v q0).run s0 = .ok o) : False := by
  obtain ⟨a0, ha0, hla⟩ := get_lc hl ha
  obtain ⟨ys, hys, hly⟩ := lookups_lc hl hx
  have hr : ((reg q0 x >>= fun a => reg q0 y >>= fun b => regBits q0 is >>= fun bits =>
      CEdwardsPoint.mul ⟨a, b⟩ bits J >>= fun o => pure (q0 ++ [o.x, o.y])).run s0) = .ok o := by
    rw [← regPoint_bind x y (fun p => regBits q0 is >>= fun bits => CEdwardsPoint.mul p bits J >>= fun o => pure (q0 ++ [o.x, o.y]))]
    exact hr
  obtain ⟨a1, s1, r1, hr⟩ := M.bind_ok hr
  obtain ⟨b1, s2, r2, hr⟩ := M.bind_ok hr
  obtain ⟨bits, s3, r3, hr⟩ := M.bind_ok hr
  obtain ⟨p, s4, r4, -⟩ := M.bind_ok hr
  have e1 : a1 = a0 := by
    unfold reg at r1
    rw [ha0] at r1; rw [M.run_pure] at r1; injection r1 with r1; injection r1 with r1 _; exact r1.symm
  have e2 : bits = ys.map CBool.mk := by
    unfold regBits at r3
    rw [run_regs, hys, pure_bind, M.run_pure] at r3; injection r3 with r3; injection r3 with r3 _; exact r3.symm
  subst e1 e2
  refine C38_panics (p := ⟨a1, b1⟩) ?_ ?_ _ r4
  · unfold CEdwardsPoint.asConst; rw [asConst_lc hla, hac]; rfl
  · intro b hb
    obtain ⟨z, hz, rfl⟩ := List.mem_map.1 hb
    have : z.lc ∈ xs.map CNum.lc := by rw [← hly]; exact List.mem_map_of_mem hz
    obtain ⟨z', hz', e⟩ := List.mem_map.1 this
    exact (asConst_lc e).symm.trans (h0 z' hz')

section calls
variable (hs : s.Honest) (hq : Carried s q)
include hs hq

omit hs in
theorem Carried.at {i : Nat} {a : CNum (ZMod r)} (h : q[i]? = some a) : Has s a (a.lc.eval s.assign) := hq a (List.mem_of_getElem? h)

omit hs in
theorem Carried.all {is : List Nat} {xs : List (CNum (ZMod r))} (h : lookups q is = some xs) :
    List.Forall₂ (Has s) xs (xs.map fun a => a.lc.eval s.assign) := by
  rw [List.forall₂_map_right_iff, List.forall₂_same]
  exact fun x hx => hq x (lookups_mem h x hx)

omit hs in
theorem Carried.bits {is : List Nat} {xs : List (CNum (ZMod r))} {bs : List Bool} (h : lookups q is = some xs)
    (hb : bits? (xs.map fun a => a.lc.eval s.assign) = some bs) : CarriesBits s (xs.map CBool.mk) bs := by
  have h1 := bits?_eq.1 hb
  unfold CarriesBits
  rw [List.forall₂_map_left_iff] at h1 ⊢
  refine (forall₂_and_mem h1 fun x hx => hq x (lookups_mem h x hx)).imp fun a b h => ?_
  have := h.1
  rwa [h.2] at this

theorem runs_op {o : Op (ZMod r)} (ho : (Call.prim o : Call r W).Proper q (valuesOf s.assign q)) {new : List (ZMod r)}
    (hn : o.native (valuesOf s.assign q) = some new) : Runs s (o.exec q) (fun _ _ => True) := by
  cases o with
  | const v => exact Runs.pure hs trivial
  | alloc v => cases hn
  | allocInput v => cases hn
  | add i j =>
    obtain ⟨a, ha, hn⟩ := get_reg hn
    obtain ⟨b, hb, hn⟩ := get_reg hn
    exact runs_reg ha (runs_reg hb (Runs.pure hs trivial))
  | sub i j =>
    obtain ⟨a, ha, hn⟩ := get_reg hn
    obtain ⟨b, hb, hn⟩ := get_reg hn
    exact runs_reg ha (runs_reg hb (Runs.pure hs trivial))
  | neg i =>
    obtain ⟨a, ha, hn⟩ := get_reg hn
    exact runs_reg ha (Runs.pure hs trivial)
  | mulConst i k =>
    obtain ⟨a, ha, hn⟩ := get_reg hn
    exact runs_reg ha (Runs.pure hs trivial)
  | divConst i k =>
    obtain ⟨a, ha, hn⟩ := get_reg hn
    exact runs_reg ha (runs_then (runs_divConst hs (hq.at ha) ho))
  | mul i j =>
    obtain ⟨a, ha, hn⟩ := get_reg hn
    obtain ⟨b, hb, hn⟩ := get_reg hn
    exact runs_reg ha (runs_reg hb (runs_then (runs_mul hs (hq.at ha) (hq.at hb))))
  | div i j =>
    obtain ⟨a, ha, hn⟩ := get_reg hn
    obtain ⟨b, hb, hn⟩ := get_reg hn
    exact runs_reg ha (runs_reg hb (runs_then (runs_div hs (hq.at ha) (hq.at hb) (ho.1 i (by simp) a ha)
      fun h => ho.2 (by rw [valuesOf_get hb, h]))))
  | enforce i j k =>
    obtain ⟨a, ha, hn⟩ := get_reg hn
    obtain ⟨b, hb, hn⟩ := get_reg hn
    obtain ⟨c, hc, hn⟩ := get_reg hn
    refine runs_reg ha (runs_reg hb (runs_reg hc (runs_then (runs_enforce hs (hq.at ha) (hq.at hb) (hq.at hc) ?_))))
    by_contra h
    rw [if_neg h] at hn; cases hn
  | assertConst i v =>
    obtain ⟨a, ha, hn⟩ := get_reg hn
    by_cases h : a.lc.eval s.assign = v
    · exact runs_reg ha (runs_then (runs_assertConst hs (h ▸ hq.at ha)))
    · rw [if_neg h] at hn; cases hn
  | assertEq i j =>
    obtain ⟨a, ha, hn⟩ := get_reg hn
    obtain ⟨b, hb, hn⟩ := get_reg hn
    by_cases h : a.lc.eval s.assign = b.lc.eval s.assign
    · exact runs_reg ha (runs_reg hb (runs_then (runs_assertEq hs (h ▸ hq.at ha) (hq.at hb))))
    · rw [if_neg h] at hn; cases hn
  | assertNonzero i =>
    obtain ⟨a, ha, hn⟩ := get_reg hn
    refine runs_reg ha (runs_then (runs_assertNonzero hs (hq.at ha) ?_))
    intro h; rw [if_pos h] at hn; cases hn
  | assertBit i =>
    obtain ⟨a, ha, hn⟩ := get_reg hn
    refine runs_reg ha (runs_then (runs_assertBit hs (hq.at ha) ?_))
    by_contra h; rw [if_neg h] at hn; cases hn
  | inputize i =>
    obtain ⟨a, ha, hn⟩ := get_reg hn
    exact runs_reg ha (runs_then (runs_inputize hs (hq.at ha)))
  | isZero i =>
    obtain ⟨a, ha, hn⟩ := get_reg hn
    exact runs_reg ha (runs_then (runs_isZero hs (hq.at ha)))
  | isEq i j =>
    obtain ⟨a, ha, hn⟩ := get_reg hn
    obtain ⟨b, hb, hn⟩ := get_reg hn
    exact runs_reg ha (runs_reg hb (runs_then (runs_isEq hs (hq.at ha) (hq.at hb))))
  | switch i b j =>
    obtain ⟨t, ht, hn⟩ := get_reg hn
    obtain ⟨c, hc, hn⟩ := get_reg hn
    obtain ⟨f, hf, hn⟩ := get_reg hn
    exact runs_reg ht (runs_reg hc (runs_reg hf (runs_then (runs_switch hs (b := ⟨c⟩) (hq.at ht) (hq.at hf) (hq.at hc)
      (ho b (by simp) _ (valuesOf_get hc))))))

theorem runs_call (ht : Tidy s q) {v : Option W} {c : Call r W} (hc : c.Proper q (valuesOf s.assign q)) {new : List (ZMod r)}
    (hn : c.native (valuesOf s.assign q) = some new)
    (hk : ∃ (v0 : Option W) (q0 : List (CNum (ZMod r))) (s0 : CS (ZMod r)) (o : _), q0.map CNum.lc = q.map CNum.lc ∧ (c.exec v0 q0).run s0 = .ok o) :
    Runs s (c.exec v q) (fun _ _ => True) := by
  cases c with
  | prim o => exact runs_op hs hq hc hn
  | alloc is hint => cases hn
  | allocInput is hint => cases hn
  | intoBits i n =>
    obtain ⟨a, ha, hn⟩ := get_reg hn
    obtain ⟨h1, h2, h3⟩ := hc
    by_cases hlt : (a.lc.eval s.assign).val < 2 ^ n
    · exact runs_reg ha (runs_then (runs_intoBits hs (hq.at ha) n h1 h2 hlt))
    · rw [if_neg hlt] at hn; cases hn
  | intoBitsStrict i =>
    obtain ⟨a, ha, hn⟩ := get_reg hn
    exact runs_reg ha (runs_then (runs_strict hs hc (hq.at ha)))
  | compConstant is k =>
    obtain ⟨hb, h0, hlim, hp, hk⟩ := hc
    obtain ⟨xs, hx, hn⟩ := get_regs hn
    obtain ⟨bs, hbs, hn⟩ := get_some hn
    have hlen : (xs.map CBool.mk).length = is.length := by rw [List.length_map, lookups_length hx]
    obtain ⟨o, s', h1, h2, -⟩ := C15_complete (xs.map CBool.mk) k (by rw [hlen]; exact hk) (by rw [hlen]; exact hp) (by rw [hlen]; exact h0)
      (by rw [hlen]; exact hlim) s hs bs (hq.bits hx hbs)
    exact runs_regBits hx (runs_then (Runs.of ⟨o, s', h1, h2⟩))
  | fromBits is =>
    obtain ⟨xs, hx, hn⟩ := get_regs hn
    obtain ⟨bs, hbs, hn⟩ := get_some hn
    have hlen := lookups_length hx
    obtain ⟨o, s', h1, h2, -⟩ := C17_complete (xs.map CBool.mk) (by
      intro h; rw [List.map_eq_nil_iff] at h; rw [h] at hlen
      exact hc.2 (List.eq_nil_of_length_eq_zero hlen.symm)) s hs bs (hq.bits hx hbs)
    exact runs_regBits hx (runs_then (Runs.of ⟨o, s', h1, h2⟩))
  | mux3 is t =>
    obtain ⟨xs, hx, hn⟩ := get_regs hn
    obtain ⟨bs, hbs, hn⟩ := get_some hn
    by_cases h3 : bs.length = 3
    · match bs, h3 with
      | [b0, b1, b2], _ =>
        obtain ⟨o, s', h1, h2, -⟩ := C18_complete (xs.map CBool.mk) t hc.2 s hs b0 b1 b2 (hq.bits hx hbs)
        exact runs_regBits hx (runs_then (Runs.of ⟨o, s', h1, h2⟩))
    · rw [if_neg h3] at hn; cases hn
  | poseidon is P =>
    obtain ⟨xs, hx, hn⟩ := get_regs hn
    obtain ⟨y, hy, hn⟩ := get_some hn
    obtain ⟨o, s', h1, h2, -⟩ := C19_complete P xs _ s hs (hq.all hx) y (done?_eq.1 hy)
    exact runs_regs hx (runs_then (Runs.of ⟨o, s', h1, h2⟩))
  | poseidonWithSalt is seed P =>
    obtain ⟨xs, hx, hn⟩ := get_regs hn
    obtain ⟨y, hy, hn⟩ := get_some hn
    obtain ⟨o, s', h1, h2, -⟩ := C20_complete P xs seed _ s hs (hq.all hx) y (done?_eq.1 hy)
    exact runs_regs hx (runs_then (Runs.of ⟨o, s', h1, h2⟩))
  | merkleProofRoot l ss ps P =>
    obtain ⟨a, ha, hn⟩ := get_reg hn
    obtain ⟨xs, hx, hn⟩ := get_regs hn
    obtain ⟨ys, hy, hn⟩ := get_regs hn
    obtain ⟨bs, hbs, hn⟩ := get_some hn
    obtain ⟨z, hz, hn⟩ := get_some hn
    obtain ⟨o, s', h1, h2, -⟩ := C21_complete P a xs (ys.map CBool.mk) _ _ bs s hs (hq.at ha) (hq.all hx) (hq.bits hy hbs) z (done?_eq.1 hz)
    exact runs_reg ha (runs_regs hx (runs_regBits hy (runs_then (Runs.of ⟨o, s', h1, h2⟩))))
  | merkleTreeRoot is P =>
    obtain ⟨xs, hx, hn⟩ := get_regs hn
    obtain ⟨y, hy, hn⟩ := get_some hn
    obtain ⟨o, s', h1, h2, -⟩ := C22_complete P xs _ s hs (hq.all hx) y (done?_eq.1 hy)
    exact runs_regs hx (runs_then (Runs.of ⟨o, s', h1, h2⟩))
  | edDouble x y J =>
    obtain ⟨a, ha, hn⟩ := get_reg hn
    obtain ⟨b, hb, hn⟩ := get_reg hn
    obtain ⟨⟨C, hd⟩, hp, hsig⟩ := hc
    obtain ⟨o, s', R, h1, h2, -⟩ := C33_double_complete_partial hd hs (ht.signal ha hb (hsig x (by simp) a ha) (hsig y (by simp) b hb))
      (P := ⟨a.lc.eval s.assign, b.lc.eval s.assign⟩) ⟨hq.at ha, hq.at hb⟩ (isPoint hp ha hb)
    exact runs_regPoint ha hb (runs_then (Runs.of ⟨o, s', h1, h2⟩))
  | edMulByCofactor x y J =>
    obtain ⟨a, ha, hn⟩ := get_reg hn
    obtain ⟨b, hb, hn⟩ := get_reg hn
    obtain ⟨⟨C, hd⟩, hp, hsig⟩ := hc
    obtain ⟨o, s', R, h1, h2, -⟩ := C33_cofactor_complete_partial hd hs (ht.signal ha hb (hsig x (by simp) a ha) (hsig y (by simp) b hb))
      (P := ⟨a.lc.eval s.assign, b.lc.eval s.assign⟩) ⟨hq.at ha, hq.at hb⟩ (isPoint hp ha hb)
    exact runs_regPoint ha hb (runs_then (Runs.of ⟨o, s', h1, h2⟩))
  | edAdd x1 y1 x2 y2 J =>
    obtain ⟨a, ha, hn⟩ := get_reg hn
    obtain ⟨b, hb, hn⟩ := get_reg hn
    obtain ⟨c, hc', hn⟩ := get_reg hn
    obtain ⟨d, hd', hn⟩ := get_reg hn
    obtain ⟨⟨C, hd⟩, hp, hp', hsig⟩ := hc
    obtain ⟨o, s', R, h1, h2, -⟩ := C33_add_complete_partial hd hs (ht.signal ha hb (hsig x1 (by simp) a ha) (hsig y1 (by simp) b hb))
      (ht.signal hc' hd' (hsig x2 (by simp) c hc') (hsig y2 (by simp) d hd'))
      (P := ⟨a.lc.eval s.assign, b.lc.eval s.assign⟩) (Q := ⟨c.lc.eval s.assign, d.lc.eval s.assign⟩)
      ⟨hq.at ha, hq.at hb⟩ ⟨hq.at hc', hq.at hd'⟩ (isPoint hp ha hb) (isPoint hp' hc' hd')
    exact runs_regPoint ha hb (runs_regPoint hc' hd' (runs_then (Runs.of ⟨o, s', h1, h2⟩)))
  | assertInCurve x y J =>
    obtain ⟨a, ha, hn⟩ := get_reg hn
    obtain ⟨b, hb, hn⟩ := get_reg hn
    by_cases h : EdwardsPoint.isInCurve ⟨a.lc.eval s.assign, b.lc.eval s.assign⟩ J = true
    · obtain ⟨s', h1, h2⟩ := C34_complete hs (p := ⟨a, b⟩) ⟨hq.at ha, hq.at hb⟩ h
      exact runs_regPoint ha hb (runs_then (Runs.of ⟨(), s', h1, h2⟩))
    · rw [if_neg h] at hn; cases hn
  | assertInSubgroup x y J hl =>
    obtain ⟨C, hv⟩ := hc
    obtain ⟨a, ha, hn⟩ := get_reg hn
    obtain ⟨b, hb, hn⟩ := get_reg hn
    by_cases h : EdwardsPoint.isInCurve ⟨a.lc.eval s.assign, b.lc.eval s.assign⟩ J = true ∧
      (EdwardsPoint.intoExtended ⟨a.lc.eval s.assign, b.lc.eval s.assign⟩).isInSubgroup J = true
    · obtain ⟨s', h1, h2⟩ := C35_complete hv hs (p := ⟨a, b⟩) ⟨hq.at ha, hq.at hb⟩ h.1 h.2
      exact runs_regPoint ha hb (runs_then (Runs.of ⟨(), s', h1, h2⟩))
    · rw [if_neg h] at hn; cases hn
  | subgroupDecompress sqrt x J hl =>
    obtain ⟨hsq, C, hv⟩ := hc
    obtain ⟨a, ha, hn⟩ := get_reg hn
    obtain ⟨z, hz, hn⟩ := get_some hn
    obtain ⟨z', rfl, hn⟩ := get_some hn
    obtain ⟨o, s', h1, h2, -⟩ := C36_complete hv hsq hs (hq.at ha) (done?_eq.1 hz)
    exact runs_reg ha (runs_then (Runs.of ⟨o, s', h1, h2⟩))
  | intoMontgomery x y =>
    obtain ⟨h0, h1, hsig⟩ := hc
    obtain ⟨a, ha, hn⟩ := get_reg hn
    obtain ⟨b, hb, hn⟩ := get_reg hn
    exact runs_regPoint ha hb (runs_then ((runsMode (ZMod r)).toMontgomery hs (p := ⟨a, b⟩) (hq.at ha) (hq.at hb)
      (fun h => h0 (by rw [valuesOf_get ha, h])) (fun h => h1 (by rw [valuesOf_get hb, h]))
      (ht.varies hb (hsig y (by simp) b hb))))
  | edMul x y is J =>
    obtain ⟨⟨C, hv⟩, hp, hsub, hbits, hcase⟩ := hc
    obtain ⟨a, ha, hn⟩ := get_reg hn
    obtain ⟨b, hb, hn⟩ := get_reg hn
    obtain ⟨xs, hx, hn⟩ := get_regs hn
    obtain ⟨bs, hbs, hn⟩ := get_some hn
    clear hn
    haveI : Fact J.l.Prime := ⟨hv.l_prime⟩
    obtain ⟨Q, hQ, hQa⟩ := (isInSubgroup_iff hv.d_eq ⟨a.lc.eval s.assign, b.lc.eval s.assign⟩).1
      ⟨isPoint hp ha hb, hsub _ _ (valuesOf_get ha) (valuesOf_get hb)⟩
    have hpl : ∀ x ∈ xs.map CBool.mk, x.num.lc.Canonical ∧ x.num.lc.Alloc s := by
      intro x hx'; obtain ⟨y, hy, rfl⟩ := List.mem_map.1 hx'; exact ht y (lookups_mem hx y hy)
    have hPa : CEdwardsPoint.Carries s ⟨a, b⟩ Q.affine := by rw [← hQa]; exact ⟨hq.at ha, hq.at hb⟩
    refine runs_regPoint ha hb (runs_regBits hx (runs_then (Runs.of ?_)))
    rcases hcase with hsig | ⟨⟨a', b', ha', hb', hca, hcb⟩, h2, hind⟩
    · have hsi := ht.signal ha hb (hsig x (by simp) a ha) (hsig y (by simp) b hb)
      have hnz : ∃ b ∈ xs.map CBool.mk, b.num.asConst ≠ some 0 := by
        obtain ⟨v0, q0, s0, o, hl, hr⟩ := hk
        by_contra h0
        push Not at h0
        refine no_zero_bits hl ha hx (hsig x (by simp) a ha) (fun y hy => h0 ⟨y⟩ (List.mem_map_of_mem hy)) hr
      obtain ⟨o, s', h1, h2, -⟩ := C38_complete hv hs hQ hsi (fun b hb => Plain.of_canonical (hpl b hb).1) hnz hPa (hq.bits hx hbs)
      exact ⟨o, s', h1, h2⟩
    · rw [ha] at ha'; rw [hb] at hb'
      injection ha' with ha'; injection hb' with hb'; subst ha' hb'
      obtain ⟨cx, h1⟩ := Option.ne_none_iff_exists'.1 hca
      obtain ⟨cy, h2'⟩ := Option.ne_none_iff_exists'.1 hcb
      have e1 : cx = Q.x := (CNum.eval_of_asConst s.assign_isAssignment h1).symm.trans hPa.1.eval
      have e2 : cy = Q.y := (CNum.eval_of_asConst s.assign_isAssignment h2').symm.trans hPa.2.eval
      have hlen := lookups_length hx
      obtain ⟨o, s', h3, h4, -⟩ := C39_complete_partial hv hs hQ (bits := xs.map CBool.mk) (by rw [List.length_map]; omega)
        (by
          rw [← List.map_take, List.map_map]
          rw [show CBool.num ∘ CBool.mk = (id : CNum (ZMod r) → _) from rfl, List.map_id]
          exact hind xs (by rw [← lookups_eq_pick]; exact hx)) (hq.bits hx hbs)
      refine ⟨o, s', ?_, h4⟩
      rw [← h3]
      unfold CEdwardsPoint.mul CEdwardsPoint.asConst
      rw [h1, h2', e1, e2]
      simp only [CEdwardsPoint.fromConst, CNum.asConst_fromConst]
      rfl
  | fromScalar sqrt t J =>
    obtain ⟨hsq, ⟨C, hv⟩, h8, hsig, h1⟩ := hc
    obtain ⟨a, ha, hn⟩ := get_reg hn
    obtain ⟨o, s', R, h2, h3, -⟩ := C40_complete_partial hv hsq h8 hs (hq.at ha) (ht.varies ha (hsig t (by simp) a ha))
      (fun h => h1 (by rw [valuesOf_get ha, h]))
    exact runs_reg ha (runs_then (Runs.of ⟨o, s', h2, h3⟩))
  | montDouble x y J =>
    obtain ⟨h0, two, hja, hjb, hsig⟩ := hc
    obtain ⟨a, ha, hn⟩ := get_reg hn
    obtain ⟨b, hb, hn⟩ := get_reg hn
    exact runs_regMont ha hb (runs_then ((runsMode (ZMod r)).tangent (J := J) hs (p := ⟨a, b⟩) (hq.at ha) (hq.at hb)
      (fun h => h0 (by rw [valuesOf_get hb, h])) two hja hjb (ht.varies ha (hsig x (by simp) a ha))))
  | montAdd x1 y1 x2 y2 J =>
    obtain ⟨h0, hvar⟩ := hc
    obtain ⟨a, ha, hn⟩ := get_reg hn
    obtain ⟨b, hb, hn⟩ := get_reg hn
    obtain ⟨c, hc', hn⟩ := get_reg hn
    obtain ⟨d, hd', hn⟩ := get_reg hn
    exact runs_regMont ha hb (runs_regMont hc' hd' (runs_then ((runsMode (ZMod r)).chord (J := J) hs (p := ⟨a, b⟩) (q := ⟨c, d⟩)
      (hq.at ha) (hq.at hb) (hq.at hc') (hq.at hd') (h0 _ _ (valuesOf_get ha) (valuesOf_get hc')) (hvar b d hb hd'))))
  | intoEdwards x y =>
    obtain ⟨h0, h1, hsig⟩ := hc
    obtain ⟨a, ha, hn⟩ := get_reg hn
    obtain ⟨b, hb, hn⟩ := get_reg hn
    exact runs_regMont ha hb (runs_then ((runsMode (ZMod r)).toEdwards hs (p := ⟨a, b⟩) (hq.at ha) (hq.at hb)
      (fun h => h0 (by rw [valuesOf_get ha, h]))
      (h1.imp (fun h1 h => h1 (by rw [valuesOf_get hb, h])) (fun h1 => by
        rw [valuesOf_get ha] at h1; injection h1)) trivial
      (ht.varies ha (hsig x (by simp) a ha))))
  | eddsaVerify sqrt si ri ai mi P J hl =>
    obtain ⟨hsq, ⟨C, hv⟩, har, hal, h32, hbits, hP, ht4, hsig, hch⟩ := hc
    obtain ⟨a, ha, hn⟩ := get_reg hn
    obtain ⟨b, hb, hn⟩ := get_reg hn
    obtain ⟨c, hc', hn⟩ := get_reg hn
    obtain ⟨d, hd', hn⟩ := get_reg hn
    obtain ⟨z, hz, hn⟩ := get_some (y := done? _) hn
    obtain ⟨z1, rfl, hn⟩ := get_some (y := z) hn
    obtain ⟨y, hy, hn⟩ := get_some (y := done? _) hn
    obtain ⟨y1, rfl, hn⟩ := get_some (y := y) hn
    by_cases hlt : (a.lc.eval s.assign).val < 2 ^ numBits J.l
    · obtain ⟨o, s', bb, h1, h2, -⟩ := C43_complete hv hsq har hal h32 hbits hP ht4 hs (hq.at ha) (hq.at hb) (hq.at hc') (hq.at hd')
        (hsig si (by simp) a ha) hlt (done?_eq.1 hz) (done?_eq.1 hy)
        (Or.inl (hch _ _ _ (valuesOf_get hb) (valuesOf_get hc') (valuesOf_get hd')))
      exact runs_reg ha (runs_reg hb (runs_reg hc' (runs_reg hd' (runs_then (Runs.of ⟨o, s', h1, h2⟩)))))
    · rw [if_neg hlt] at hn; cases hn

end calls

end Fawkes
