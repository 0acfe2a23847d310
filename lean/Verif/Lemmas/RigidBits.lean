import Verif.Lemmas.Rigid

/-!
# Two satisfying assignments: bit decomposition and comparison
-/

set_option linter.unusedSectionVars false

namespace Fawkes

open Bitify

variable {p : Nat} [hp : Fact p.Prime] {w w' : Index → ZMod p} {s : CS (ZMod p)}

/-- The new variables are among the listed bits. -/
def Covered {F : Type} [Field F] (s s' : CS F) (bits : List (CBool F)) : Prop :=
  ∀ k ∈ s'.vars.map Prod.fst, k ∈ s.vars.map Prod.fst ∨ ∃ b ∈ bits, b.num.lc = [(k, 1)]

theorem Covered.agree {F : Type} [Field F] [DecidableEq F] {w w' : Index → F} {s s' : CS F} {bits : List (CBool F)}
    (h : Covered s s' bits) (hag : Agree w w' s) (hb : ∀ b ∈ bits, Same w w' b.num) : Agree w w' s' := by
  intro k hk
  rcases h k hk with h | ⟨b, hm, hl⟩
  · exact hag k h
  · exact (same_var hl).1 (hb b hm)

theorem same_vars_assertBit {F : Type} [Field F] [DecidableEq F] {s : CS F} (a : CNum F) :
    Post s (CNum.assertBit a) (fun _ s' => s'.vars = s.vars) := by
  unfold CNum.assertBit
  split
  · exact Post.assert fun _ => rfl
  · exact (post_enforce _ _ _ _).mono fun _ s' _ h => by rw [h.1]

theorem covered_allocLoop (vb : List (Option Bool)) (n : Nat) : ∀ (i : Nat) (k : ZMod p) (rem : CNum (ZMod p)) {s : CS (ZMod p)},
    Post s (allocLoop vb n i k rem) (fun r s' => Covered s s' r.1) := by
  induction n with
  | zero => intro i k rem s; exact Post.pure fun k hk => Or.inl hk
  | succ n ih =>
    intro i k rem s
    unfold allocLoop
    split
    · exact Post.panic
    · next v _ =>
      refine Post.bind (Q := fun c s1 => c.num.lc = [(s.nextAlloc, 1)] ∧ s1.vars = s.vars ++ [(s.nextAlloc, v.map boolToF)]) ?_
        fun c s1 _ hc => ?_
      · unfold CBool.alloc
        refine Post.bind (post_alloc s _) fun x s1 _ hx => Post.pure ⟨hx.2.1, ?_⟩
        rw [hx.2.2, pushVar_vars]
      refine Post.bind (same_vars_assertBit c.num) fun _ s2 _ h2 => ?_
      refine Post.bind (ih (i + 1) (2 * k) _) fun r s3 _ h3 => ?_
      refine Post.pure fun k hk => ?_
      rcases h3 k hk with h | ⟨b, hb, hl⟩
      · rw [h2, hc.2, List.map_append, List.mem_append] at h
        rcases h with h | h
        · exact Or.inl h
        · simp only [List.map_cons, List.map_nil, List.mem_singleton] at h
          exact Or.inr ⟨c, by simp, by rw [h]; exact hc.1⟩
      · exact Or.inr ⟨b, by simp [hb], hl⟩

theorem covered_intoBits (x : CNum (ZMod p)) (n : Nat) :
    Post s (intoBitsLE x n) (fun bits s' => Covered s s' bits) := by
  unfold intoBitsLE
  split
  · refine Post.bind (Q := fun _ s1 => s1.vars = s.vars) (Post.lift fun _ _ => rfl) fun r s1 _ h1 => ?_
    refine Post.bind (Q := fun _ s2 => s2.vars = s1.vars) (Post.assert fun _ => rfl) fun _ s2 _ h2 => ?_
    exact Post.pure fun k hk => Or.inl (by rw [h2, h1] at hk; exact hk)
  · refine Post.bind (covered_allocLoop _ _ _ _ _) fun r s1 _ h1 => ?_
    refine Post.bind (same_vars_assertBit _) fun _ s2 _ h2 => ?_
    split
    · exact Post.panic
    · refine Post.pure fun k hk => ?_
      rw [h2] at hk
      rcases h1 k hk with h | ⟨b, hb, hl⟩
      · exact Or.inl h
      · exact Or.inr ⟨b, by simp [hb], hl⟩

theorem same_of_spells {bits : List (CBool (ZMod p))} {bs : List Bool} (h : SpellsBits w bits bs)
    (h' : SpellsBits w' bits bs) : ∀ b ∈ bits, Same w w' b.num := by
  induction h with
  | nil => simp
  | cons h1 h2 ih =>
    cases h' with
    | cons h1' h2' =>
      intro b hb
      rcases List.mem_cons.1 hb with rfl | hb
      · exact Eq.trans h1 (Eq.symm h1')
      · exact ih h2' b hb

section
variable (hw : IsAssignment w) (hw' : IsAssignment w')
include hw hw'

/-- The bits of a decomposition are determined if the limit leaves no room for two of them. -/
theorem rig_intoBits {x : CNum (ZMod p)} (hx : Same w w' x) {n : Nat} (hn : x.asConst = none → 2 ^ n ≤ p) :
    Rig w w' s (intoBitsLE x n) (fun bits _ => ∀ b ∈ bits, Same w w' b.num) := by
  intro bits s' hr hs hs' hag
  have hb : ∀ b ∈ bits, Same w w' b.num := by
    cases hc : x.asConst with
    | some v =>
      obtain ⟨bs, h1, h2, h3⟩ := spec_intoBits hw x n s bits s' hr hs
      unfold intoBitsLE at hr
      rw [hc] at hr
      obtain ⟨r, s1, hr1, hr2⟩ := M.bind_ok hr
      obtain ⟨_, s2, hr3, hr4⟩ := M.bind_ok hr2
      rw [M.run_pure] at hr4
      cases hr4
      rw [M.run_lift] at hr1
      by_cases h : n ≤ (Num.iterbitLE v).length
      · rw [constLoop_ok _ _ _ _ _ (by omega)] at hr1
        cases hr1
        intro b hb
        obtain ⟨c, _, rfl⟩ := List.mem_map.1 hb
        exact .fromConst hw hw' _
      · rw [constLoop_err _ _ _ _ _ (by omega) (by omega)] at hr1; simp at hr1
    | none =>
      obtain ⟨bs, h1, h2, h3⟩ := spec_intoBits hw x n s bits s' hr hs
      obtain ⟨bs', h1', h2', h3'⟩ := spec_intoBits hw' x n s bits s' hr hs'
      have hn := hn hc
      have e : bs = bs' := by
        have l1 := bitsNat_lt bs
        have l2 := bitsNat_lt bs'
        rw [h1] at l1; rw [h1'] at l2
        have e := natCast_inj_of_lt (p := p) (l1.trans_le hn) (l2.trans_le hn) (by rw [← h3, ← h3', hx])
        rw [← lowBits_bitsNat bs, ← lowBits_bitsNat bs', e, h1, h1']
      subst e
      exact same_of_spells h2 h2'
  exact ⟨(covered_intoBits x n bits s' hr).agree hag hb, hb⟩

theorem same_compTerm (cl cu : Bool) {l u lu : CNum (ZMod p)} (hl : Same w w' l) (hu : Same w w' u) (hlu : Same w w' lu) :
    Same w w' (compTerm cl cu l u lu) := by
  cases cl <;> cases cu <;> unfold compTerm
  · exact (hl.add hu).sub hlu
  · exact (hlu.addAssign hu).subConst hw hw' 1
  · exact (((hu.mulConst hw hw' 2).addAssign hl).sub hlu).subConst hw hw' 1
  · exact hlu.subConst hw hw' 1

theorem rig_compLoop (n : Nat) : ∀ (ct : List Bool) (sig : List (CBool (ZMod p))) (k : ZMod p) (acc : CNum (ZMod p))
    {s : CS (ZMod p)}, (∀ b ∈ sig, Same w w' b.num) → Same w w' acc →
    Rig w w' s (compLoop n ct sig k acc) (fun r _ => Same w w' r.1) := by
  induction n with
  | zero => intro ct sig k acc s _ ha; exact Rig.pure ha
  | succ n ih =>
    intro ct sig k acc s hs ha
    match ct, sig with
    | cl :: cu :: ct, l :: u :: sig =>
      unfold compLoop
      have hl := hs l (by simp)
      have hu := hs u (by simp)
      refine Rig.bind (rig_mul hw hw' hl hu) fun lu s1 _ hlu => ?_
      exact ih ct sig _ _ (fun b hb => hs b (by simp [hb]))
        (ha.add ((same_compTerm hw hw' cl cu hl hu hlu).mulConst hw hw' k))
    | [], _ => exact Rig.panic
    | [_], _ => exact Rig.panic
    | _ :: _ :: _, [] => exact Rig.panic
    | _ :: _ :: _, [_] => exact Rig.panic

theorem rig_compConstant {sig : List (CBool (ZMod p))} (hb : ∀ b ∈ sig, Same w w' b.num) (ct : ZMod p)
    (hp2 : 2 ^ ((sig.length + 1) / 2 + 1) ≤ p) :
    Rig w w' s (compConstant sig ct) (fun r _ => Same w w' r.num) := by
  unfold compConstant
  rw [nsteps_eq]
  refine Rig.bind (Q := fun _ _ => True) (Rig.assert fun _ => trivial) fun _ s1 _ _ => ?_
  refine Rig.bind (rig_compLoop hw hw' _ _ _ _ _ ?_ (.zero hw hw')) fun r s2 _ hr => ?_
  · intro b hm
    rcases List.mem_append.1 hm with hm | hm
    · exact hb b hm
    · split at hm
      · rw [List.mem_singleton.1 hm]; exact .fromConst hw hw' _
      · cases hm
  refine Rig.bind (rig_intoBits hw hw' (hr.addConst hw hw' _) fun _ => hp2) fun bits s3 _ hbits => ?_
  split
  · exact Rig.panic
  · next b hb' => exact Rig.pure (hbits b (List.mem_of_getElem? hb'))

theorem rig_strict (h8 : 8 ≤ p) {x : CNum (ZMod p)} (hx : Same w w' x) :
    Rig w w' s (intoBitsLEStrict x) (fun bits _ => ∀ b ∈ bits, Same w w' b.num) := by
  intro bits s' hr hs hs' hag
  have h1 := spec_strict hw h8 x s bits s' hr hs
  have h2 := spec_strict hw' h8 x s bits s' hr hs'
  unfold Same at hx
  rw [← hx] at h2
  have hb := same_of_spells h1 h2
  refine ⟨?_, hb⟩
  have hl : bits.length = numBits p := by rw [h1.length, lowBits_length]
  unfold intoBitsLEStrict at hr
  obtain ⟨bits', s1, hr1, hr2⟩ := M.bind_ok hr
  obtain ⟨c, s2, hr3, hr4⟩ := M.bind_ok hr2
  obtain ⟨u, s3, hr5, hr6⟩ := M.bind_ok hr4
  rw [M.run_pure] at hr6
  cases hr6
  have a1 := (covered_intoBits x _ bits s1 hr1).agree hag hb
  have e3 := M.run_ext hr5
  have a2 := (rig_compConstant hw hw' hb (-1) (by rw [hl]; exact strict_bound h8) _ _ hr3 (e3.sat hs) (e3.sat hs') a1).1
  exact (rig_assertConst hw hw' _ _ _ hr5 hs hs' a2).1

theorem same_fromLoop (bs : List (CBool (ZMod p))) : ∀ (k : ZMod p) (acc : CNum (ZMod p)), Same w w' acc →
    (∀ b ∈ bs, Same w w' b.num) → Same w w' (fromLoop bs k acc) := by
  induction bs with
  | nil => intro k acc ha _; exact ha
  | cons b bs ih =>
    intro k acc ha h
    exact ih _ _ (ha.addAssign ((h b (by simp)).mulConst hw hw' _)) fun b hb => h b (by simp [hb])

theorem rig_fromBits {bs : List (CBool (ZMod p))} (h : ∀ b ∈ bs, Same w w' b.num) :
    Rig w w' s (fromBitsLE bs) (fun r _ => Same w w' r) := by
  unfold fromBitsLE
  split
  · exact Rig.panic
  · exact Rig.pure (same_fromLoop hw hw' _ _ _ (h _ (by simp)) fun b hb => h b (by simp [hb]))

end

end Fawkes
