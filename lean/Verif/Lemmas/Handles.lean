import Verif.Model.Handles
import Verif.Lemmas.Logic

/-!
# The functions of `Model/Handles` on signals of one constraint system

Each of them is the function without references, run on that system; all results belong to that system again.
-/

namespace Fawkes.Handle

variable {F : Type} {α β : Type}

instance : LawfulMonad (H F) := LawfulMonad.mk' (H F)
  (id_map := fun x => by
    funext σ; simp only [Functor.map, H, Function.comp]
    cases x σ <;> rfl)
  (pure_bind := fun _ _ => rfl)
  (bind_assoc := fun x f g => by
    funext σ; simp only [bind]
    cases x σ <;> rfl)

theorem on_pure (h : Nat) (a : α) : on h (pure a : M F α) = pure a := by
  funext σ
  simp only [on, M.run_pure]
  congr; funext k; split
  · next e => rw [e]
  · rfl

theorem bind_apply (m : H F α) (f : α → H F β) (σ : Store F) :
    (m >>= f) σ = match m σ with
      | .error e => .error e
      | .ok (a, σ) => f a σ := rfl

theorem on_bind (h : Nat) (m : M F α) (f : α → M F β) : on h (m >>= f) = on h m >>= fun a => on h (f a) := by
  funext σ
  rw [bind_apply]
  simp only [on, M.run_bind]
  cases m.run (σ h) with
  | error e => rfl
  | ok r =>
    simp only [↓reduceIte]
    cases (f r.1).run r.2 with
    | error e => rfl
    | ok r' =>
      simp only
      congr 2; funext k; split <;> rfl

theorem on_panic (h : Nat) (e : Panic) : on h (M.panic e : M F α) = H.panic e := rfl

theorem on_lift (h : Nat) (x : Except Panic α) : on h (M.lift x : M F α) = H.lift x := by
  cases x with
  | error e => rfl
  | ok a => exact on_pure h a

theorem on_assert (h : Nat) (b : Bool) (e : Panic) : on h (M.assert b e : M F Unit) = H.assert b e := by
  cases b
  · rfl
  · exact on_pure h ()

theorem map_panic (f : α → β) (e : Panic) : f <$> (H.panic e : H F α) = H.panic e := rfl

theorem panic_bind (f : α → H F β) (e : Panic) : (H.panic e : H F α) >>= f = H.panic e := rfl

theorem lift_ok (a : α) : (H.lift (.ok a) : H F α) = pure a := rfl

theorem lift_error (e : Panic) : (H.lift (.error e) : H F α) = H.panic e := rfl

/-- A signal of the system `h` -/
def tag (h : Nat) (a : CNum F) : HNum F := ⟨h, a⟩
def tagB (h : Nat) (b : CBool F) : HBool F := ⟨tag h b.num⟩
def tagE (h : Nat) (p : CEdwardsPoint F) : HEdwards F := ⟨tag h p.x, tag h p.y⟩
def tagM (h : Nat) (p : CMontgomeryPoint F) : HMontgomery F := ⟨tag h p.x, tag h p.y⟩

/-! ## src/circuit/num.rs, src/circuit/bool.rs -/

section numbers

variable [Field F] [DecidableEq F] (h : Nat)

theorem tag_cs (a : CNum F) : (tag h a).cs = h := rfl
theorem tag_value (a : CNum F) : (tag h a).value = a.value := rfl
theorem tag_capacity (a : CNum F) : (tag h a).capacity = a.capacity := rfl
theorem tag_asConst (a : CNum F) : (tag h a).asConst = a.asConst := rfl
theorem tagB_asConst (b : CBool F) : (tagB h b).asConst = b.asConst := rfl
theorem tagB_num (b : CBool F) : (tagB h b).num = tag h b.num := rfl
theorem tagB_mk (a : CNum F) : (⟨tag h a⟩ : HBool F) = tagB h ⟨a⟩ := rfl
theorem fromConst_tag (v : F) : HNum.fromConst h v = tag h (CNum.fromConst v) := rfl
theorem fromVar_tag (v : Option F) (i : Index) : HNum.fromVar h v i = tag h (CNum.fromVar v i) := rfl
theorem zero_tag : (HNum.zero h : HNum F) = tag h CNum.zero := rfl
theorem one_tag : (HNum.one h : HNum F) = tag h CNum.one := rfl
theorem deriveVar_tag (a : CNum F) (v : Option F) (i : Index) : (tag h a).deriveVar v i = tag h (CNum.fromVar v i) := rfl
theorem deriveConst_tag (a : CNum F) (v : F) : (tag h a).deriveConst v = tag h (CNum.fromConst v) := rfl
theorem bFromConst_tag (b : Bool) : (HBool.fromConst h b : HBool F) = tagB h (CBool.fromConst b) := rfl
theorem neg_tag (a : CNum F) : (tag h a).neg = tag h a.neg := rfl
theorem addAssign_tag (a b : CNum F) : (tag h a).addAssign (tag h b) = tag h (a.addAssign b) := rfl
theorem sub_tag (a b : CNum F) : (tag h a).sub (tag h b) = tag h (a.sub b) := rfl
theorem addConst_tag (a : CNum F) (k : F) : (tag h a).addConst k = tag h (a.addConst k) := rfl
theorem subConst_tag (a : CNum F) (k : F) : (tag h a).subConst k = tag h (a.subConst k) := rfl
theorem constSub_tag (a : CNum F) (k : F) : HNum.constSub k (tag h a) = tag h (CNum.constSub k a) := rfl

theorem add_tag (a b : CNum F) : (tag h a).add (tag h b) = tag h (a.add b) := by
  unfold HNum.add CNum.add
  simp only [tag_capacity, addAssign_tag, apply_ite (tag h)]
  rfl

theorem mulConst_tag (a : CNum F) (k : F) : (tag h a).mulConst k = tag h (a.mulConst k) := by
  unfold HNum.mulConst
  by_cases hk : k = 0
  · rw [if_pos hk]; unfold CNum.mulConst; rw [if_pos hk]; rfl
  · rw [if_neg hk]; rfl

theorem alloc_tag (v : Option F) : HNum.alloc h v = tag h <$> on h (CNum.alloc v) := by
  simp only [HNum.alloc, CNum.alloc, csAlloc, on_bind, on_pure, map_bind, map_pure, fromVar_tag]

theorem enforce_tag (a b c : CNum F) : csEnforce h (tag h a) (tag h b) (tag h c) = on h (CS.enforce a b c) := rfl

theorem divConst_tag (a : CNum F) (k : F) : (tag h a).divConst k = tag h <$> on h (a.divConst k) := by
  simp only [HNum.divConst, ← bind_pure_comp]; rfl

theorem mul_tag (a b : CNum F) : (tag h a).mul (tag h b) = tag h <$> on h (a.mul b) := by
  simp only [HNum.mul, CNum.mul, tag_asConst, tag_cs, tag_value]
  cases a.asConst <;> cases b.asConst <;>
  simp only [on_bind, on_pure, map_bind, map_pure, mulConst_tag, alloc_tag, bind_map_left, enforce_tag]

theorem divValue_on (a b : Option F) : (HNum.divValue a b : H F (Option F)) = on h (CNum.divValue a b) := by
  unfold HNum.divValue CNum.divValue
  cases a <;> cases b <;> simp only [on_pure]
  split <;> simp only [on_pure, on_panic]

theorem div_tag (a b : CNum F) : (tag h a).div (tag h b) = tag h <$> on h (a.div b) := by
  simp only [HNum.div, CNum.div, tag_asConst, tag_cs, tag_value]
  cases a.asConst <;> cases b.asConst <;>
  simp only [on_bind, on_pure, map_bind, map_pure, divConst_tag, alloc_tag, bind_map_left, enforce_tag, divValue_on h]

theorem square_tag (a : CNum F) : (tag h a).square = tag h <$> on h a.square := mul_tag h a a

theorem assertConst_tag (a : CNum F) (c : F) : (tag h a).assertConst c = on h (a.assertConst c) := by
  simp only [HNum.assertConst, CNum.assertConst, tag_asConst, tag_cs]
  cases a.asConst <;> simp only [on_assert, one_tag, deriveConst_tag, enforce_tag]

theorem assertZero_tag (a : CNum F) : (tag h a).assertZero = on h a.assertZero := assertConst_tag h a 0

theorem assertEq_tag (a b : CNum F) : (tag h a).assertEq (tag h b) = on h (a.assertEq b) := assertZero_tag h (a.sub b)

theorem assertNonzero_tag (a : CNum F) : (tag h a).assertNonzero = on h a.assertNonzero := by
  simp only [HNum.assertNonzero, CNum.assertNonzero, tag_asConst, tag_cs, tag_value]
  cases a.asConst <;> simp only [on_assert, one_tag, enforce_tag, on_bind, alloc_tag, bind_map_left]

theorem assertBit_tag (a : CNum F) : (tag h a).assertBit = on h a.assertBit := by
  simp only [HNum.assertBit, CNum.assertBit, tag_asConst, tag_cs]
  cases a.asConst <;> simp only [on_assert, zero_tag, subConst_tag, enforce_tag]

theorem inputize_tag (a : CNum F) : (tag h a).inputize = on h a.inputize := by
  simp only [HNum.inputize, CNum.inputize, tag_asConst, tag_cs, tag_value, csAllocInput]
  cases a.asConst <;> simp only [on_bind, one_tag, deriveVar_tag, deriveConst_tag, enforce_tag]

theorem isZero_tag (a : CNum F) : (tag h a).isZero = tagB h <$> on h a.isZero := by
  simp only [HNum.isZero, CNum.isZero, tag_asConst, tag_cs, tag_value]
  cases a.asConst <;>
  simp only [on_bind, on_pure, map_bind, map_pure, one_tag, alloc_tag, bind_map_left, assertNonzero_tag, mul_tag, assertBit_tag, sub_tag,
    tagB_mk, deriveConst_tag]

theorem isEq_tag (a b : CNum F) : (tag h a).isEq (tag h b) = tagB h <$> on h (a.isEq b) := isZero_tag h (a.sub b)

theorem bAlloc_tag (v : Option Bool) : (HBool.alloc h v : H F (HBool F)) = tagB h <$> on h (CBool.alloc v) := by
  simp only [HBool.alloc, CBool.alloc, alloc_tag, on_bind, on_pure, map_bind, map_pure, bind_map_left, tagB_mk]

theorem assert_tag (b : CBool F) : (tagB h b).assert = on h b.assert := assertBit_tag h b.num

theorem assertFalse_tag (b : CBool F) : (tagB h b).assertFalse = on h b.assertFalse := assertConst_tag h b.num _

theorem switch_tag (a : CNum F) (b : CBool F) (c : CNum F) :
    (tag h a).switch (tagB h b) (tag h c) = tag h <$> on h (a.switch b c) := by
  simp only [HNum.switch, CNum.switch, tagB_asConst, tagB_num, tag_capacity, on_bind, on_lift, map_bind]
  congr 1; funext o
  rcases o with _ | _ | _
  · by_cases hc : c.capacity < a.capacity <;> simp only [hc, if_true, if_false, on_bind, on_pure, map_bind, map_pure, bind_map_left, sub_tag, mul_tag, addAssign_tag, constSub_tag]
  · simp only [on_pure, map_pure]
  · simp only [on_pure, map_pure]

end numbers

/-! ## src/circuit/bitify.rs -/

section bitify

variable {p : Nat} [Fact p.Prime] (h : Nat)

/-- A list of bits and a number -/
def tagBits (x : List (CBool F) × CNum F) : List (HBool F) × HNum F := (x.1.map (tagB h), tag h x.2)

theorem allocLoop_tag (vb : List (Option Bool)) : ∀ (n i : Nat) (k : ZMod p) (rem : CNum (ZMod p)),
    allocLoop h vb n i k (tag h rem) = tagBits h <$> on h (Bitify.allocLoop vb n i k rem)
  | 0, i, k, rem => by simp only [allocLoop, Bitify.allocLoop, on_pure, map_pure]; rfl
  | n + 1, i, k, rem => by
    unfold allocLoop Bitify.allocLoop
    cases vb[i]? with
    | none => simp only [on_panic, map_panic]
    | some v =>
      simp only [bAlloc_tag, on_bind, map_bind, bind_map_left, assert_tag, tagB_num, mulConst_tag, sub_tag,
        allocLoop_tag vb n, on_pure, map_pure]
      rfl

theorem intoBitsLE_tag (a : CNum (ZMod p)) (limit : Nat) :
    intoBitsLE (tag h a) limit = List.map (tagB h) <$> on h (Bitify.intoBitsLE a limit) := by
  unfold intoBitsLE Bitify.intoBitsLE
  simp only [tag_asConst, tag_cs, tag_value]
  cases a.asConst with
  | some v => simp only [on_bind, map_bind, on_lift, on_assert, on_pure, map_pure]; rfl
  | none =>
    simp only [on_bind, map_bind, allocLoop_tag, bind_map_left, tagBits, assertBit_tag]
    by_cases hl : limit = 0 <;> simp only [hl, if_true, if_false, on_panic, map_panic, on_pure, map_pure, List.map_cons] <;> rfl

theorem compTerm_tag (ctl ctu : Bool) (l u lu : CNum (ZMod p)) :
    compTerm ctl ctu (tag h l) (tag h u) (tag h lu) = tag h (Bitify.compTerm ctl ctu l u lu) := by
  cases ctl <;> cases ctu <;> simp only [compTerm, Bitify.compTerm, add_tag, sub_tag, mulConst_tag, addAssign_tag, subConst_tag]

theorem compLoop_tag : ∀ (n : Nat) (ct : List Bool) (sig : List (CBool (ZMod p))) (k : ZMod p) (acc : CNum (ZMod p)),
    compLoop n ct (sig.map (tagB h)) k (tag h acc) = (fun x => (tag h x.1, x.2)) <$> on h (Bitify.compLoop n ct sig k acc)
  | 0, ct, sig, k, acc => by simp only [compLoop, Bitify.compLoop, on_pure, map_pure]
  | n + 1, [], sig, k, acc => by simp only [compLoop, Bitify.compLoop, on_panic, map_panic]
  | n + 1, [_], sig, k, acc => by simp only [compLoop, Bitify.compLoop, on_panic, map_panic]
  | n + 1, _ :: _ :: _, [], k, acc => by simp only [List.map, compLoop, Bitify.compLoop, on_panic, map_panic]
  | n + 1, _ :: _ :: _, [_], k, acc => by simp only [List.map, compLoop, Bitify.compLoop, on_panic, map_panic]
  | n + 1, ctl :: ctu :: ct, l :: u :: sig, k, acc => by
    simp only [List.map, compLoop, Bitify.compLoop, tagB_num, mul_tag, on_bind, map_bind, bind_map_left, compTerm_tag,
      mulConst_tag, add_tag, compLoop_tag n]

theorem compConstant_tag (sig : List (CBool (ZMod p))) (ct : ZMod p) :
    compConstant (sig.map (tagB h)) ct = tagB h <$> on h (Bitify.compConstant sig ct) := by
  cases sig with
  | nil => rfl
  | cons b bs =>
    unfold compConstant Bitify.compConstant
    have e : (List.map (tagB h) (b :: bs) ++
        if (List.map (tagB h) (b :: bs)).length % 2 = 1 then [HBool.fromConst h false] else [])
        = List.map (tagB h) ((b :: bs) ++ if (b :: bs).length % 2 = 1 then [CBool.fromConst false] else []) := by
      rw [List.map_append, List.length_map, apply_ite (List.map (tagB h))]; rfl
    simp only [List.map_cons] at e ⊢
    simp only [tagB_num, tag_cs]
    rw [e]
    have hpos : (M.assert (decide (0 < (b :: bs).length)) : M (ZMod p) Unit) = pure () := by simp [M.assert]
    rw [hpos]
    simp only [List.length_cons, List.length_map, on_bind, on_pure, pure_bind, map_bind, zero_tag, compLoop_tag, bind_map_left,
      addConst_tag, intoBitsLE_tag, List.getElem?_map]
    congr 1; funext x; congr 1; funext bits
    cases bits[(bs.length + 1) / 2 + (bs.length + 1) % 2]? <;> simp only [Option.map, on_panic, on_pure, map_panic, map_pure]

theorem intoBitsLEStrict_tag (a : CNum (ZMod p)) :
    intoBitsLEStrict (tag h a) = List.map (tagB h) <$> on h (Bitify.intoBitsLEStrict a) := by
  simp only [intoBitsLEStrict, Bitify.intoBitsLEStrict, intoBitsLE_tag, compConstant_tag, assertFalse_tag, on_bind, on_pure, map_bind,
    map_pure, bind_map_left]

theorem fromLoop_tag : ∀ (bs : List (CBool (ZMod p))) (k : ZMod p) (acc : CNum (ZMod p)),
    fromLoop (bs.map (tagB h)) k (tag h acc) = tag h (Bitify.fromLoop bs k acc)
  | [], _, _ => rfl
  | b :: bs, k, acc => by
    simp only [List.map, fromLoop, Bitify.fromLoop, tagB_num, mulConst_tag, addAssign_tag, fromLoop_tag bs]

theorem fromBitsLE_tag (bs : List (CBool (ZMod p))) : fromBitsLE (bs.map (tagB h)) = tag h <$> on h (Bitify.fromBitsLE bs) := by
  cases bs <;> simp only [List.map, fromBitsLE, Bitify.fromBitsLE, on_panic, map_panic, on_pure, map_pure, tagB_num, fromLoop_tag]

end bitify

section gadgets

variable [Field F] [DecidableEq F] (h : Nat)

/-! ## src/circuit/mux.rs -/

theorem column_tag (s0 s1 s2 : CBool F) (s10 : CNum F) (c0 c1 c2 c3 c4 c5 c6 c7 : F) :
    column (tagB h s0) (tagB h s1) (tagB h s2) (tag h s10) c0 c1 c2 c3 c4 c5 c6 c7
      = tag h <$> on h (Mux.column s0 s1 s2 s10 c0 c1 c2 c3 c4 c5 c6 c7) := by
  simp only [column, Mux.column, tagB_num, mulConst_tag, add_tag, addConst_tag, mul_tag, on_bind, on_pure, map_bind, map_pure,
    bind_map_left]

theorem columns_tag (s0 s1 s2 : CBool F) (s10 : CNum F) : ∀ cs : List (List F),
    columns (tagB h s0) (tagB h s1) (tagB h s2) (tag h s10) cs = List.map (tag h) <$> on h (Mux.columns s0 s1 s2 s10 cs)
  | [] => by simp only [columns, Mux.columns, on_pure, map_pure, List.map]
  | col :: cs => by
    unfold columns Mux.columns
    split
    · next heq => cases heq
    · next heq =>
      injection heq with h1 h2; subst h1 h2
      simp only [column_tag, columns_tag s0 s1 s2 s10 cs, on_bind, on_pure, map_bind, map_pure, bind_map_left, List.map]
    · next hne heq =>
      injection heq with h1 h2; subst h1 h2
      split
      · next heq => cases heq
      · next heq => injection heq with h1 h2; exact (hne _ _ _ _ _ _ _ _ h1).elim
      · simp only [on_panic, map_panic]

theorem mux3_tag (s : List (CBool F)) (c : List (List F)) :
    mux3 (s.map (tagB h)) c = List.map (tag h) <$> on h (Mux.mux3 s c) := by
  simp only [mux3, Mux.mux3, on_bind, on_assert, map_bind, List.length_map]
  congr 1; funext _; congr 1; funext _
  rcases s with _ | ⟨s0, _ | ⟨s1, _ | ⟨s2, _ | ⟨s3, s⟩⟩⟩⟩ <;>
  simp only [List.map, on_panic, map_panic, tagB_num, mul_tag, on_bind, map_bind, bind_map_left, columns_tag]

/-! ## src/circuit/poseidon.rs -/

theorem ark_tag (st : List (CNum F)) (c : F) : ark (st.map (tag h)) c = (CPoseidon.ark st c).map (tag h) := by
  simp only [ark, CPoseidon.ark, List.map_map]; rfl

theorem sigma_tag (a : CNum F) : sigma (tag h a) = tag h <$> on h (CPoseidon.sigma a) := by
  simp only [sigma, CPoseidon.sigma, mul_tag, on_bind, map_bind, bind_map_left]

theorem sigmaAll_tag : ∀ st : List (CNum F), sigmaAll (st.map (tag h)) = List.map (tag h) <$> on h (CPoseidon.sigmaAll st)
  | [] => by simp only [List.map, sigmaAll, CPoseidon.sigmaAll, on_pure, map_pure]
  | x :: xs => by
    simp only [List.map, sigmaAll, CPoseidon.sigmaAll, sigma_tag, sigmaAll_tag xs, on_bind, on_pure, map_bind, map_pure, bind_map_left]

theorem mixRow_tag : ∀ (st : List (CNum F)) (row : List F) (acc : CNum F),
    mixRow (st.map (tag h)) row (tag h acc) = (CPoseidon.mixRow st row acc).map (tag h)
  | [], _, _ => rfl
  | _ :: _, [], _ => rfl
  | x :: st, r :: row, acc => by
    simp only [List.map, mixRow, CPoseidon.mixRow, mulConst_tag, addAssign_tag, mixRow_tag st]

theorem mixRows_tag (st : List (CNum F)) : ∀ (rows : List (List F)) (n : Nat),
    mixRows h (st.map (tag h)) rows n = (CPoseidon.mixRows st rows n).map (List.map (tag h))
  | [], 0 => rfl
  | _ :: _, 0 => rfl
  | [], _ + 1 => rfl
  | row :: rows, n + 1 => by
    simp only [mixRows, CPoseidon.mixRows, zero_tag, mixRow_tag, mixRows_tag st rows n]
    cases CPoseidon.mixRow st row CNum.zero with
    | error e => rfl
    | ok x =>
      cases CPoseidon.mixRows st rows n with
      | error e => rfl
      | ok xs => rfl

theorem mix_tag (st : List (CNum F)) (P : PoseidonParams F) : mix (st.map (tag h)) P = (CPoseidon.mix st P).map (List.map (tag h)) := by
  cases st with
  | nil => simp [mix, CPoseidon.mix, CPoseidon.mixRows, Except.map]
  | cons x st =>
    have := mixRows_tag h (x :: st) P.m (x :: st).length
    simpa [mix, CPoseidon.mix, tag_cs] using this

theorem layer_tag (P : PoseidonParams F) (i : Nat) (st : List (CNum F)) :
    layer P i (st.map (tag h)) = List.map (tag h) <$> on h (CPoseidon.layer P i st) := by
  unfold layer CPoseidon.layer
  by_cases hc : i < P.f / 2 ∨ P.f / 2 + P.p ≤ i
  · rw [if_pos hc, if_pos hc, sigmaAll_tag]
  · rw [if_neg hc, if_neg hc]
    cases st <;> simp only [List.map, on_panic, map_panic, sigma_tag, on_bind, on_pure, map_bind, map_pure, bind_map_left]

theorem lift_map (f : α → β) (x : Except Panic α) : (H.lift (x.map f) : H F β) = f <$> H.lift x := by
  cases x <;> rfl

theorem rounds_tag (P : PoseidonParams F) : ∀ (n i : Nat) (st : List (CNum F)),
    rounds P n i (st.map (tag h)) = List.map (tag h) <$> on h (CPoseidon.rounds P n i st)
  | 0, _, _ => by simp only [rounds, CPoseidon.rounds, on_pure, map_pure]
  | n + 1, i, st => by
    simp only [rounds, CPoseidon.rounds, ark_tag, layer_tag, mix_tag, lift_map, rounds_tag P n, on_bind, on_lift, map_bind, bind_map_left]

theorem getIdx_map (l : List α) (f : α → β) (i : Nat) : getIdx (l.map f) i = (getIdx l i).map f := by
  simp only [getIdx, List.getElem?_map]
  cases l[i]? <;> rfl

theorem poseidon_tag (ins : List (CNum F)) (P : PoseidonParams F) :
    poseidon (ins.map (tag h)) P = tag h <$> on h (CPoseidon.poseidon ins P) := by
  unfold poseidon CPoseidon.poseidon
  simp only [List.length_map]
  cases ins with
  | nil => simp [on_panic, map_panic]
  | cons x xs =>
    have e : List.map (tag h) (x :: xs) ++ List.replicate (P.t - (x :: xs).length) (tag h CNum.zero)
        = List.map (tag h) ((x :: xs) ++ List.replicate (P.t - (x :: xs).length) CNum.zero) := by
      rw [List.map_append, List.map_replicate]
    simp only [List.map_cons] at e ⊢
    simp only [tag_cs, zero_tag]
    by_cases hl : (x :: xs).length ≤ P.t
    · rw [if_neg (not_not.mpr hl), if_neg (not_not.mpr hl), if_neg (by simp), e]
      simp only [rounds_tag, getIdx_map, lift_map, on_bind, on_lift, map_bind, bind_map_left]
    · rw [if_pos hl, if_pos hl]; rfl

theorem poseidonWithSalt_tag (ins : List (CNum F)) (seed : F) (P : PoseidonParams F) :
    poseidonWithSalt (ins.map (tag h)) seed P = tag h <$> on h (CPoseidon.poseidonWithSalt ins seed P) := by
  unfold poseidonWithSalt CPoseidon.poseidonWithSalt
  cases ins with
  | nil => simp [on_panic, map_panic]
  | cons x xs =>
    have e : List.map (tag h) (x :: xs) ++ [tag h (CNum.fromConst seed)] = List.map (tag h) ((x :: xs) ++ [CNum.fromConst seed]) := by
      rw [List.map_append]; rfl
    have hlen : (List.map (tag h) (x :: xs)).length = (x :: xs).length := List.length_map _
    simp only [List.map_cons] at e hlen ⊢
    simp only [tag_cs, fromConst_tag]
    rw [e, hlen, if_neg (show ¬ ¬ 0 < (x :: xs).length by simp)]
    by_cases hl : (x :: xs).length < P.t
    · rw [if_neg (not_not.mpr hl), if_neg (not_not.mpr hl), poseidon_tag]
    · rw [if_pos hl, if_pos hl]; rfl

theorem poseidon2_tag (a b : CNum F) (P : PoseidonParams F) :
    poseidon [tag h a, tag h b] P = tag h <$> on h (CPoseidon.poseidon [a, b] P) := poseidon_tag h [a, b] P

/-- The pairs of `path.zip(sibling)` -/
def tagPair (x : CBool F × CNum F) : HBool F × HNum F := (tagB h x.1, tag h x.2)

theorem proofLoop_tag (P : PoseidonParams F) : ∀ (l : List (CBool F × CNum F)) (root : CNum F),
    proofLoop P (tag h root) (l.map (tagPair h)) = tag h <$> on h (CPoseidon.proofLoop P root l)
  | [], root => by simp only [List.map, proofLoop, CPoseidon.proofLoop, on_pure, map_pure]
  | (b, s) :: l, root => by
    simp only [List.map, tagPair, proofLoop, CPoseidon.proofLoop, switch_tag, add_tag, sub_tag, poseidon2_tag, on_bind, map_bind, bind_map_left]
    congr 1; funext x; congr 1; funext y
    exact proofLoop_tag P l y

theorem merkleProofRoot_tag (leaf : CNum F) (sibling : List (CNum F)) (path : List (CBool F)) (P : PoseidonParams F) :
    merkleProofRoot (tag h leaf) (sibling.map (tag h)) (path.map (tagB h)) P
      = tag h <$> on h (CPoseidon.merkleProofRoot leaf sibling path P) := by
  unfold merkleProofRoot CPoseidon.merkleProofRoot
  rw [← proofLoop_tag, List.zip_map]; rfl

theorem treeInner_tag (P : PoseidonParams F) : ∀ (n i : Nat) (st : List (CNum F)),
    treeInner P n i (st.map (tag h)) = List.map (tag h) <$> on h (CPoseidon.treeInner P n i st)
  | 0, _, _ => by simp only [treeInner, CPoseidon.treeInner, on_pure, map_pure]
  | n + 1, i, st => by
    simp only [treeInner, CPoseidon.treeInner, getIdx_map, lift_map, poseidon2_tag, on_bind, on_lift, map_bind, bind_map_left,
      ← List.map_set, treeInner_tag P n]

theorem treeLevels_tag (P : PoseidonParams F) (total : Nat) : ∀ (n j : Nat) (st : List (CNum F)),
    treeLevels P total n j (st.map (tag h)) = List.map (tag h) <$> on h (CPoseidon.treeLevels P total n j st)
  | 0, _, _ => by simp only [treeLevels, CPoseidon.treeLevels, on_pure, map_pure]
  | n + 1, j, st => by
    simp only [treeLevels, CPoseidon.treeLevels, treeInner_tag, on_bind, map_bind, bind_map_left, treeLevels_tag P total n]

theorem merkleTreeRoot_tag (leaf : List (CNum F)) (P : PoseidonParams F) :
    merkleTreeRoot (leaf.map (tag h)) P = tag h <$> on h (CPoseidon.merkleTreeRoot leaf P) := by
  unfold merkleTreeRoot CPoseidon.merkleTreeRoot
  cases leaf with
  | nil => simp [on_panic, map_panic]
  | cons x xs =>
    have e : ∀ n, List.map (tag h) (x :: xs) ++ List.replicate n (tag h CNum.zero)
        = List.map (tag h) ((x :: xs) ++ List.replicate n CNum.zero) := by
      intro n; rw [List.map_append, List.map_replicate]
    have hlen : (List.map (tag h) (x :: xs)).length = (x :: xs).length := List.length_map _
    rw [if_neg (show ¬ ¬ 0 < (x :: xs).length by simp)]
    simp only [List.map_cons] at e hlen ⊢
    simp only [tag_cs, zero_tag, hlen, e]
    simp only [← List.map_cons, ← List.map_append, treeLevels_tag, getIdx_map, lift_map, on_bind, on_lift, map_bind, bind_map_left]

/-! ## src/circuit/ecc.rs -/

theorem tagE_x (p : CEdwardsPoint F) : (tagE h p).x = tag h p.x := rfl
theorem tagE_y (p : CEdwardsPoint F) : (tagE h p).y = tag h p.y := rfl
theorem tagM_x (p : CMontgomeryPoint F) : (tagM h p).x = tag h p.x := rfl
theorem tagM_y (p : CMontgomeryPoint F) : (tagM h p).y = tag h p.y := rfl
theorem tagE_cs (p : CEdwardsPoint F) : (tagE h p).cs = h := rfl
theorem tagE_mk (x y : CNum F) : (⟨tag h x, tag h y⟩ : HEdwards F) = tagE h ⟨x, y⟩ := rfl
theorem tagM_mk (x y : CNum F) : (⟨tag h x, tag h y⟩ : HMontgomery F) = tagM h ⟨x, y⟩ := rfl
theorem tagE_getValue (p : CEdwardsPoint F) : (tagE h p).getValue = p.getValue := rfl
theorem tagE_asConst (p : CEdwardsPoint F) : (tagE h p).asConst = p.asConst := rfl
theorem eFromConst_tag (p : EdwardsPoint F) : HEdwards.fromConst h p = tagE h (CEdwardsPoint.fromConst p) := rfl
theorem mFromConst_tag (p : MontgomeryPoint F) : HMontgomery.fromConst h p = tagM h (CMontgomeryPoint.fromConst p) := rfl

theorem mSwitch_tag (t : CMontgomeryPoint F) (b : CBool F) (f : CMontgomeryPoint F) :
    (tagM h t).switch (tagB h b) (tagM h f) = tagM h <$> on h (t.switch b f) := by
  simp only [HMontgomery.switch, CMontgomeryPoint.switch, tagM_x, tagM_y, switch_tag, on_bind, on_pure, map_bind, map_pure, bind_map_left,
    tagM_mk]

theorem mDouble_tag (p : CMontgomeryPoint F) (J : JubJubParams F) : (tagM h p).double J = tagM h <$> on h (p.double J) := by
  simp only [HMontgomery.double, CMontgomeryPoint.double, tagM_x, tagM_y, square_tag, mulConst_tag, add_tag, addConst_tag, sub_tag,
    subConst_tag, div_tag, mul_tag, on_bind, on_pure, map_bind, map_pure, bind_map_left, tagM_mk]

theorem mAdd_tag (p q : CMontgomeryPoint F) (J : JubJubParams F) : (tagM h p).add (tagM h q) J = tagM h <$> on h (p.add q J) := by
  simp only [HMontgomery.add, CMontgomeryPoint.add, tagM_x, tagM_y, square_tag, mulConst_tag, addAssign_tag, addConst_tag, sub_tag,
    subConst_tag, div_tag, mul_tag, on_bind, on_pure, map_bind, map_pure, bind_map_left, tagM_mk]

theorem intoEdwards_tag (p : CMontgomeryPoint F) : (tagM h p).intoEdwards = tagE h <$> on h p.intoEdwards := by
  simp only [HMontgomery.intoEdwards, CMontgomeryPoint.intoEdwards, tagM_x, tagM_y, isZero_tag, tagB_num, addAssign_tag, addConst_tag,
    subConst_tag, div_tag, on_bind, on_pure, map_bind, map_pure, bind_map_left, tagE_mk]

theorem eSwitch_tag (t : CEdwardsPoint F) (b : CBool F) (f : CEdwardsPoint F) :
    (tagE h t).switch (tagB h b) (tagE h f) = tagE h <$> on h (t.switch b f) := by
  simp only [HEdwards.switch, CEdwardsPoint.switch, tagE_x, tagE_y, switch_tag, on_bind, on_pure, map_bind, map_pure, bind_map_left, tagE_mk]

theorem eAlloc_tag (v : Option (EdwardsPoint F)) : HEdwards.alloc h v = tagE h <$> on h (CEdwardsPoint.alloc v) := by
  simp only [HEdwards.alloc, CEdwardsPoint.alloc, alloc_tag, on_bind, on_pure, map_bind, map_pure, bind_map_left, tagE_mk]

theorem eDouble_tag (p : CEdwardsPoint F) (J : JubJubParams F) : (tagE h p).double J = tagE h <$> on h (p.double J) := by
  simp only [HEdwards.double, CEdwardsPoint.double, tagE_x, tagE_y, square_tag, mulConst_tag, add_tag, addConst_tag, sub_tag,
    constSub_tag, div_tag, mul_tag, on_bind, on_pure, map_bind, map_pure, bind_map_left, tagE_mk]

theorem mulByCofactor_tag (p : CEdwardsPoint F) (J : JubJubParams F) :
    (tagE h p).mulByCofactor J = tagE h <$> on h (p.mulByCofactor J) := by
  simp only [HEdwards.mulByCofactor, CEdwardsPoint.mulByCofactor, eDouble_tag, on_bind, map_bind, bind_map_left]

theorem eAdd_tag (p q : CEdwardsPoint F) (J : JubJubParams F) : (tagE h p).add (tagE h q) J = tagE h <$> on h (p.add q J) := by
  simp only [HEdwards.add, CEdwardsPoint.add, tagE_x, tagE_y, mulConst_tag, add_tag, addConst_tag, sub_tag,
    constSub_tag, div_tag, mul_tag, on_bind, on_pure, map_bind, map_pure, bind_map_left, tagE_mk]

theorem assertInCurve_tag (p : CEdwardsPoint F) (J : JubJubParams F) : (tagE h p).assertInCurve J = on h (p.assertInCurve J) := by
  simp only [HEdwards.assertInCurve, CEdwardsPoint.assertInCurve, tagE_x, tagE_y, square_tag, mulConst_tag, sub_tag, subConst_tag, tag_cs,
    enforce_tag, on_bind, bind_map_left]

theorem assertInSubgroup_tag (p : CEdwardsPoint F) (J : JubJubParams F) [Fact J.l.Prime] :
    (tagE h p).assertInSubgroup J = on h (p.assertInSubgroup J) := by
  simp only [HEdwards.assertInSubgroup, CEdwardsPoint.assertInSubgroup, tagE_x, tagE_y, tagE_cs, tagE_getValue, eAlloc_tag,
    assertInCurve_tag, mulByCofactor_tag, sub_tag, assertZero_tag, on_bind, on_lift, bind_map_left]

theorem subgroupDecompress_tag (sqrt : F → Option F) (x : CNum F) (J : JubJubParams F) [Fact J.l.Prime] :
    HEdwards.subgroupDecompress sqrt (tag h x) J = tagE h <$> on h (CEdwardsPoint.subgroupDecompress sqrt x J) := by
  simp only [HEdwards.subgroupDecompress, CEdwardsPoint.subgroupDecompress, tagE_x, tag_cs, tag_value, eAlloc_tag,
    assertInCurve_tag, mulByCofactor_tag, sub_tag, assertZero_tag, on_bind, on_lift, on_pure, map_bind, map_pure, bind_map_left]

theorem intoMontgomery_tag (p : CEdwardsPoint F) : (tagE h p).intoMontgomery = tagM h <$> on h p.intoMontgomery := by
  simp only [HEdwards.intoMontgomery, CEdwardsPoint.intoMontgomery, tagE_x, tagE_y, addConst_tag, constSub_tag, div_tag, on_bind, on_pure,
    map_bind, map_pure, bind_map_left, tagM_mk]

theorem windowLoop_tag (J : JubJubParams F) : ∀ (n : Nat) (bits : List (CBool F)) (_ : bits.length ≤ n) (acc : CMontgomeryPoint F)
    (base : EdwardsPointEx F),
    HEdwards.windowLoop J (bits.map (tagB h)) (tagM h acc) base = tagM h <$> on h (CEdwardsPoint.windowLoop J bits acc base)
  | _, [], _, acc, base => by simp only [List.map, HEdwards.windowLoop, CEdwardsPoint.windowLoop, on_pure, map_pure]
  | _, [_], _, acc, base => by simp only [List.map, HEdwards.windowLoop, CEdwardsPoint.windowLoop, on_pure, map_pure]
  | _, [_, _], _, acc, base => by simp only [List.map, HEdwards.windowLoop, CEdwardsPoint.windowLoop, on_pure, map_pure]
  | n + 1, b0 :: b1 :: b2 :: bits, hn, acc, base => by
    have hm := fun t => mux3_tag h [b0, b1, b2] t
    simp only [List.map] at hm
    simp only [List.map, HEdwards.windowLoop, CEdwardsPoint.windowLoop, hm, on_bind, on_lift, map_bind, bind_map_left]
    congr 1; funext t; congr 1; funext res
    rcases res with _ | ⟨x, _ | ⟨y, _ | ⟨z, res⟩⟩⟩ <;> simp only [List.map, on_panic, map_panic, on_bind, map_bind]
    have hlen : bits.length ≤ n := by simp only [List.length_cons] at hn; omega
    simp only [tagM_mk, mAdd_tag, bind_map_left, windowLoop_tag J n bits hlen]

theorem finish_tag (acc : CMontgomeryPoint F) : HEdwards.finish (tagM h acc) = tagE h <$> on h (CEdwardsPoint.finish acc) := by
  simp only [HEdwards.finish, CEdwardsPoint.finish, intoEdwards_tag, tagE_x, tagE_y, neg_tag, on_bind, on_pure, map_bind, map_pure,
    bind_map_left, tagE_mk]

theorem mulConstBase_tag (c : EdwardsPoint F) (bits : List (CBool F)) (J : JubJubParams F) :
    HEdwards.mulConstBase h c (bits.map (tagB h)) J = tagE h <$> on h (CEdwardsPoint.mulConstBase c bits J) := by
  unfold HEdwards.mulConstBase CEdwardsPoint.mulConstBase
  simp only
  by_cases hz : c.intoExtended.isZero
  · rw [if_pos hz, if_pos hz, on_pure, map_pure]; rfl
  · rw [if_neg hz, if_neg hz]
    have e : List.map (tagB h) bits ++ List.replicate ((3 - (List.map (tagB h) bits).length % 3) % 3) (HBool.fromConst h false)
        = List.map (tagB h) (CEdwardsPoint.padBits3 bits) := by
      rw [CEdwardsPoint.padBits3, List.map_append, List.map_replicate, List.length_map]; rfl
    rw [e]
    simp only [List.length_map, mFromConst_tag, windowLoop_tag h J _ _ le_rfl, finish_tag, on_bind, on_lift, map_bind, bind_map_left]

theorem doublings_tag (J : JubJubParams F) : ∀ (n : Nat) (p : CMontgomeryPoint F),
    HEdwards.doublings J n (tagM h p) = List.map (tagM h) <$> on h (CEdwardsPoint.doublings J n p)
  | 0, _ => by simp only [HEdwards.doublings, CEdwardsPoint.doublings, on_pure, map_pure, List.map]
  | n + 1, p => by
    simp only [HEdwards.doublings, CEdwardsPoint.doublings, mDouble_tag, doublings_tag J n, on_bind, on_pure, map_bind, map_pure,
      bind_map_left, List.map]

theorem addLoop_tag (J : JubJubParams F) : ∀ (bits : List (CBool F)) (exps : List (CMontgomeryPoint F)) (acc : CMontgomeryPoint F),
    HEdwards.addLoop J (bits.map (tagB h)) (exps.map (tagM h)) (tagM h acc) = tagM h <$> on h (CEdwardsPoint.addLoop J bits exps acc)
  | [], _, _ => by simp only [List.map, HEdwards.addLoop, CEdwardsPoint.addLoop, on_pure, map_pure]
  | _ :: _, [], _ => by simp only [List.map, HEdwards.addLoop, CEdwardsPoint.addLoop, on_panic, map_panic]
  | b :: bits, e :: exps, acc => by
    simp only [List.map, HEdwards.addLoop, CEdwardsPoint.addLoop, mAdd_tag, mSwitch_tag, addLoop_tag J bits, on_bind, map_bind, bind_map_left]

theorem mulVarBase_tag (p : CEdwardsPoint F) (bits : List (CBool F)) (J : JubJubParams F) :
    HEdwards.mulVarBase h (tagE h p) (bits.map (tagB h)) J = tagE h <$> on h (CEdwardsPoint.mulVarBase p bits J) := by
  simp only [HEdwards.mulVarBase, CEdwardsPoint.mulVarBase, tagE_x, isZero_tag, eFromConst_tag, eSwitch_tag, intoMontgomery_tag,
    List.length_map, doublings_tag, zero_tag, tagM_mk, ← List.map_cons, addLoop_tag, mSwitch_tag, finish_tag, on_bind, map_bind,
    bind_map_left]

theorem eMul_tag (p : CEdwardsPoint F) (bits : List (CBool F)) (J : JubJubParams F) :
    (tagE h p).mul (bits.map (tagB h)) J = tagE h <$> on h (p.mul bits J) := by
  simp only [HEdwards.mul, CEdwardsPoint.mul, tagE_asConst, tagE_cs]
  cases p.asConst <;> simp only [mulVarBase_tag, mulConstBase_tag]

end gadgets

section scalar

variable {r : Nat} [Fact r.Prime] (h : Nat)

/-- A bit and a number -/
def tagY (x : CBool F × CNum F) : HBool F × HNum F := (tagB h x.1, tag h x.2)

theorem checkAndGetY_tag (sqrt : ZMod r → Option (ZMod r)) (x : CNum (ZMod r)) (J : JubJubParams (ZMod r)) :
    HEdwards.checkAndGetY sqrt (tag h x) J = tagY h <$> on h (CEdwardsPoint.checkAndGetY sqrt x J) := by
  simp only [HEdwards.checkAndGetY, CEdwardsPoint.checkAndGetY, tag_cs, tag_value, square_tag, addConst_tag, mul_tag, addAssign_tag,
    divConst_tag, alloc_tag, intoBitsLEStrict_tag, on_bind, on_lift, map_bind, bind_map_left]
  congr 1; funext x2; congr 1; funext x3; congr 1; funext g; congr 1; funext v; congr 1; funext pre; congr 1; funext bits
  cases bits with
  | nil => simp only [List.map, on_panic, map_panic]
  | cons b bits =>
    simp only [List.map, assertFalse_tag, square_tag, sub_tag, isZero_tag, mulConst_tag, tagB_num, addAssign_tag, subConst_tag,
      assertZero_tag, on_bind, on_pure, map_bind, map_pure, bind_map_left, tagY]

theorem fromScalar_tag (sqrt : ZMod r → Option (ZMod r)) (t : CNum (ZMod r)) (J : JubJubParams (ZMod r)) :
    HEdwards.fromScalar sqrt (tag h t) J = tagE h <$> on h (CEdwardsPoint.fromScalar sqrt t J) := by
  simp only [HEdwards.fromScalar, CEdwardsPoint.fromScalar, addConst_tag, square_tag, mulConst_tag, div_tag, checkAndGetY_tag, tagY,
    switch_tag, tagM_mk, intoEdwards_tag, mulByCofactor_tag, on_bind, on_lift, map_bind, bind_map_left]

theorem eddsaVerify_tag (sqrt : ZMod r → Option (ZMod r)) (J : JubJubParams (ZMod r)) [Fact J.l.Prime] (s rx a m : CNum (ZMod r))
    (P : PoseidonParams (ZMod r)) :
    eddsaVerify sqrt J (tag h s) (tag h rx) (tag h a) (tag h m) P = tagB h <$> on h (Eddsa.cVerify sqrt J s rx a m P) := by
  have hp := fun seed => poseidonWithSalt_tag h [rx, a, m] seed P
  simp only [List.map] at hp
  simp only [eddsaVerify, Eddsa.cVerify, subgroupDecompress_tag, hp, intoBitsLEStrict_tag, eMul_tag, intoBitsLE_tag, tag_cs,
    eFromConst_tag, eAdd_tag, tagE_x, sub_tag, isZero_tag, on_bind, on_lift, on_assert, map_bind, bind_map_left]

/-! ## Clients -/

theorem reg_tag [Field F] [DecidableEq F] (q : List (CNum F)) (i : Nat) :
    reg (q.map (tag h)) i = tag h <$> on h (Fawkes.reg q i) := by
  simp only [reg, Fawkes.reg, List.getElem?_map]
  cases q[i]? <;> simp only [Option.map, on_pure, map_pure, on_panic, map_panic]

theorem regs_tag (q : List (CNum (ZMod r))) : ∀ is : List Nat,
    regs (q.map (tag h)) is = List.map (tag h) <$> on h (Fawkes.regs q is)
  | [] => by simp only [regs, Fawkes.regs, on_pure, map_pure, List.map]
  | i :: is => by
    simp only [regs, Fawkes.regs, reg_tag, regs_tag q is, on_bind, on_pure, map_bind, map_pure, bind_map_left, List.map]

theorem regBits_tag (q : List (CNum (ZMod r))) (is : List Nat) :
    regBits (q.map (tag h)) is = List.map (tagB h) <$> on h (Fawkes.regBits q is) := by
  simp only [regBits, Fawkes.regBits, regs_tag, on_bind, on_pure, map_bind, map_pure, bind_map_left, List.map_map]
  rfl

theorem regPoint_tag (q : List (CNum (ZMod r))) (x y : Nat) :
    regPoint (q.map (tag h)) x y = tagE h <$> on h (Fawkes.regPoint q x y) := by
  simp only [regPoint, Fawkes.regPoint, reg_tag, on_bind, on_pure, map_bind, map_pure, bind_map_left, tagE_mk]

theorem regMont_tag (q : List (CNum (ZMod r))) (x y : Nat) :
    regMont (q.map (tag h)) x y = tagM h <$> on h (Fawkes.regMont q x y) := by
  simp only [regMont, Fawkes.regMont, reg_tag, on_bind, on_pure, map_bind, map_pure, bind_map_left, tagM_mk]

theorem execOp_tag [Field F] [DecidableEq F] (q : List (CNum F)) (o : Op F) :
    execOp h (q.map (tag h)) o = List.map (tag h) <$> on h (o.exec q) := by
  cases o <;>
  simp only [execOp, Op.exec, reg_tag, fromConst_tag, alloc_tag, csAllocInput, fromVar_tag, add_tag, sub_tag, neg_tag, mulConst_tag,
    divConst_tag, mul_tag, div_tag, enforce_tag, assertConst_tag, assertEq_tag, assertNonzero_tag, assertBit_tag, inputize_tag, isZero_tag,
    isEq_tag, tagB_mk, tagB_num, switch_tag, on_bind, on_pure, map_bind, map_pure, bind_map_left, List.map_append, List.map]

theorem map_num_tagB (bs : List (CBool F)) : (bs.map (tagB h)).map HBool.num = (bs.map CBool.num).map (tag h) := by
  simp only [List.map_map]; rfl

theorem map_value_tag [Field F] [DecidableEq F] (q : List (CNum F)) : (q.map (tag h)).map HNum.value = q.map CNum.value := by
  simp only [List.map_map]; rfl

theorem execCall_tag {W : Type} (w : Option W) (q : List (CNum (ZMod r))) (c : Call r W) :
    execCall h w (q.map (tag h)) c = List.map (tag h) <$> on h (c.exec w q) := by
  cases c <;>
  simp only [execCall, Call.exec, execOp_tag, reg_tag, regs_tag, regBits_tag, regPoint_tag, regMont_tag, map_value_tag, alloc_tag,
    csAllocInput, fromVar_tag, intoBitsLE_tag, intoBitsLEStrict_tag, compConstant_tag, fromBitsLE_tag, mux3_tag, poseidon_tag,
    poseidonWithSalt_tag, merkleProofRoot_tag, merkleTreeRoot_tag, eDouble_tag, mulByCofactor_tag, eAdd_tag, assertInCurve_tag,
    assertInSubgroup_tag, subgroupDecompress_tag, intoMontgomery_tag, eMul_tag, fromScalar_tag, mDouble_tag, mAdd_tag, intoEdwards_tag,
    eddsaVerify_tag, tagB_num, tagE_x, tagE_y, tagM_x, tagM_y, map_num_tagB,
    on_bind, on_pure, on_lift, map_bind, map_pure, bind_map_left, List.map_append, List.map]

end scalar

end Fawkes.Handle
