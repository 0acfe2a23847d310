import Verif.Props.KeysExist
import Verif.Props.Preimage
import Verif.Lemmas.UsedSignal

/-!
# The library's own variables never prevent keys: C90

`generate_keys` fails when a variable is in no constraint (C67, C88).  Functions of the library allocate helper variables that the client
does not see.  All of them are constrained, so that only the client's own `alloc` calls matter.
-/

namespace Fawkes.Props

open Groth16

variable {r : Nat} [Fact r.Prime] {W : Type}

/-- C90: every private variable that a call of the library adds, other than `alloc` itself, occurs in a constraint: for every call, all
arguments, and at every point of a circuit. -/
theorem C90_call (w : Option W) (q q' : List (CNum (ZMod r))) (c : Call r W) (hc : ¬ c.Allocates) (s s' : CS (ZMod r))
    (h : (c.exec w q).run s = .ok (q', s')) (hb : s.backend ≠ .test) (j : Nat) (h1 : s.naux ≤ j) (h2 : j < s'.naux) :
    s'.Occurs (.aux j) :=
  uses_call w q c hc s q' s' h hb j h1 h2

/-- C90: the same for the operations on signals of any type. -/
theorem C90_signal {F : Type} [Field F] [DecidableEq F] (t : Ty) (a b : t.S F) (c : CBool F) (v : t.V F) (s s' : CS F)
    (hb : s.backend ≠ .test) (j : Nat) (h1 : s.naux ≤ j) (h2 : j < s'.naux)
    (h : (∃ x, (t.switch a c b).run s = .ok (x, s')) ∨ (∃ x, (t.isEq a b).run s = .ok (x, s')) ∨
      (t.assertEq a b).run s = .ok ((), s') ∨ (t.assertConst a v).run s = .ok ((), s') ∨ (t.inputize a).run s = .ok ((), s')) :
    s'.Occurs (.aux j) := by
  rcases h with ⟨x, h⟩ | ⟨x, h⟩ | h | h | h
  · exact t.uses_switch a b c s x s' h hb j h1 h2
  · exact t.uses_isEq a b s x s' h hb j h1 h2
  · exact t.uses_assertEq a b s _ s' h hb j h1 h2
  · exact t.uses_assertConst a v s _ s' h hb j h1 h2
  · exact t.uses_inputize a s _ s' h hb j h1 h2

/-- The variables that the `alloc` calls of a client return. -/
inductive OwnVar (w : Option W) : List (CNum (ZMod r)) → Code r W → CS (ZMod r) → Nat → Prop
  | here {q : List (CNum (ZMod r))} {c : Call r W} {next : List (LC (ZMod r)) → Code r W} {s : CS (ZMod r)} (hc : c.Allocates) :
      OwnVar w q (.call c next) s s.naux
  | later {q q' : List (CNum (ZMod r))} {c : Call r W} {next : List (LC (ZMod r)) → Code r W} {s s' : CS (ZMod r)} {j : Nat}
      (h : (c.exec w q).run s = .ok (q', s')) (hj : OwnVar w q' (next (q'.map CNum.lc)) s' j) : OwnVar w q (.call c next) s j

theorem post_regs_state (q : List (CNum (ZMod r))) (is : List Nat) (s : CS (ZMod r)) : Post s (regs q is) (fun _ s' => s' = s) := by
  induction is generalizing s with
  | nil => exact Post.pure rfl
  | cons i is ih =>
    have h1 : Post s (reg q i) (fun _ s' => s' = s) := by
      unfold reg
      split
      · exact Post.pure rfl
      · intro a s' h; cases h
    refine Post.bind h1 fun x s1 _ e1 => Post.bind (ih s1) fun xs s2 _ e2 => Post.pure ?_
    rw [e2, e1]

theorem alloc_call {w : Option W} {q q' : List (CNum (ZMod r))} {c : Call r W} (hc : c.Allocates) {s s' : CS (ZMod r)}
    (hb : s.backend ≠ .test) (h : (c.exec w q).run s = .ok (q', s')) :
    s'.naux = s.naux + 1 ∧ ∃ x, q' = q ++ [x] ∧ x.lc = [(.aux s.naux, 1)] := by
  have key : ∀ (v : Option (ZMod r)) (s : CS (ZMod r)), s.backend ≠ .test →
      (CNum.alloc v >>= fun x => pure (q ++ [x]) : M (ZMod r) _).run s = .ok (q', s') →
      s'.naux = s.naux + 1 ∧ ∃ x, q' = q ++ [x] ∧ x.lc = [(.aux s.naux, 1)] := by
    intro v s hb h
    obtain ⟨x, s1, r1, r2⟩ := M.bind_ok h
    rw [M.run_pure] at r2; injection r2 with r2; injection r2 with e1 e2; subst e1 e2
    obtain ⟨hl, hn⟩ := bare_alloc hb r1
    exact ⟨hn, x, rfl, hl⟩
  cases c <;> try exact hc.elim
  case prim o =>
    cases o <;> try exact hc.elim
    case alloc v => exact key v s hb h
  case alloc is hint =>
    obtain ⟨xs, s1, r1, h⟩ := M.bind_ok h
    obtain ⟨v, s2, r2, h⟩ := M.bind_ok h
    have e1 : s1 = s := post_regs_state q is s _ _ r1
    have e2 : s2 = s1 := by
      cases hv : hintValue hint w (xs.map CNum.value) with
      | error e => rw [hv] at r2; cases r2
      | ok v' => rw [hv] at r2; injection r2 with r2; injection r2 with _ r2; exact r2.symm
    rw [e2, e1] at h
    exact key v s hb h

/-- With constraints added later. -/
theorem program_occurs {w : Option W} {u : CS (ZMod r)} {j : Nat} (code : Code r W) : ∀ (q o : List (CNum (ZMod r))) (s s' : CS (ZMod r)),
    (code.exec w q).run s = .ok (o, s') → s.backend ≠ .test → s'.Ext u → (∀ j, OwnVar w q code s j → u.Occurs (.aux j)) →
    s.naux ≤ j → j < s'.naux → u.Occurs (.aux j) := by
  induction code with
  | done =>
    intro q o s s' h hb he hown h1 h2
    unfold Code.exec at h
    rw [M.run_pure] at h; injection h with h; injection h with _ h; subst h
    omega
  | call c next ih =>
    intro q o s s' h hb he hown h1 h2
    unfold Code.exec at h
    obtain ⟨q1, s1, r1, r2⟩ := M.bind_ok h
    by_cases hj : j < s1.naux
    · by_cases hc : c.Allocates
      · obtain ⟨hn, -⟩ := alloc_call hc hb r1
        obtain rfl : j = s.naux := by omega
        exact hown _ (.here hc)
      · exact (C90_call w q q1 c hc s s1 r1 hb j h1 hj).mono ((M.run_ext r2).trans he)
    · exact ih _ _ _ _ _ r2 (by rw [(M.run_ext r1).backend]; exact hb) he (fun j hj => hown j (.later r1 hj)) (by omega) h2

/-- C90: in a circuit of any length: if the variables of the client's own `alloc` calls occur in constraints, all variables do. -/
theorem C90_program (w : Option W) (code : Code r W) (q o : List (CNum (ZMod r))) (s s' : CS (ZMod r))
    (h : (code.exec w q).run s = .ok (o, s')) (hb : s.backend ≠ .test)
    (hown : ∀ j, OwnVar w q code s j → s'.Occurs (.aux j)) (j : Nat) (h1 : s.naux ≤ j) (h2 : j < s'.naux) :
    s'.Occurs (.aux j) :=
  program_occurs code q o s s' h hb (CS.Ext.refl _) hown h1 h2

theorem OwnVar.lt {w : Option W} {code : Code r W} {q o : List (CNum (ZMod r))} {s s' : CS (ZMod r)} {j : Nat}
    (hj : OwnVar w q code s j) (h : (code.exec w q).run s = .ok (o, s')) (hb : s.backend ≠ .test) : j < s'.naux := by
  induction hj with
  | here hc =>
    unfold Code.exec at h
    obtain ⟨q1, s1, r1, r2⟩ := M.bind_ok h
    have := (alloc_call hc hb r1).1
    have := (M.run_ext r2).naux
    omega
  | later h' _ ih =>
    unfold Code.exec at h
    obtain ⟨q1, s1, r1, r2⟩ := M.bind_ok h
    rw [h'] at r1; injection r1 with r1; injection r1 with e1 e2; subst e1 e2
    exact ih r2 (by rw [(M.run_ext h').backend]; exact hb)

/-- C90 for a circuit written by hand: it uses all its variables exactly if it uses those of its own `alloc` calls. -/
theorem C90_handwritten (code : Code r W) (o0 : List (CNum (ZMod r))) (s0 : CS (ZMod r))
    (hset : (handwritten code none).run (CS.new .setup) = .ok (o0, s0)) :
    AllUsed s0 ↔ ∀ j, OwnVar none [] code (CS.new .setup) j → s0.Occurs (.aux j) :=
  ⟨fun h j hj => h j (hj.lt hset (by simp [CS.new])), fun h j hj => C90_program none code [] o0 _ s0 hset (by simp [CS.new]) h j
    (by simp [CS.new]) hj⟩

/-- C90 for a circuit of the macros: all variables are used exactly if those of the secret data and those of the client's own `alloc`
calls are.  The variables of the public data always are. -/
theorem C90_generated (P Q : Ty) (code : Code r W) (a0 : P.S (ZMod r)) (s0 : CS (ZMod r))
    (hset : (generated P Q code none none none).run (CS.new .setup) = .ok (a0, s0)) :
    ∃ a b s1 s2, (P.alloc none).run (CS.new .setup) = .ok (a, s1) ∧ (Q.alloc none).run s1 = .ok (b, s2) ∧
      (AllUsed s0 ↔ (∀ i, i < Q.width → s0.Occurs (.aux (P.width + i))) ∧
        ∀ j, OwnVar none (P.linearize a ++ Q.linearize b) code s2 j → s0.Occurs (.aux j)) := by
  obtain ⟨a, s1, r1, h⟩ := M.bind_ok hset
  obtain ⟨b, s2, r2, h⟩ := M.bind_ok h
  obtain ⟨_, s3, r3, h⟩ := M.bind_ok h
  obtain ⟨_, s4, r4, h⟩ := M.bind_ok h
  rw [M.run_pure] at h; injection h with h; injection h with _ h; subst h
  obtain ⟨o, s3', r3', h⟩ := M.bind_ok r3
  rw [M.run_pure] at h; injection h with h; injection h with _ h; subst h
  refine ⟨a, b, s1, s2, r1, r2, ?_⟩
  have b0 : (CS.new .setup : CS (ZMod r)).backend ≠ .test := by simp [CS.new]
  have b1 : s1.backend ≠ .test := by rw [(M.run_ext r1).backend]; exact b0
  have b2 : s2.backend ≠ .test := by rw [(M.run_ext r2).backend]; exact b1
  have b3 : s3'.backend ≠ .test := by rw [(M.run_ext r3').backend]; exact b2
  have n1 : s1.naux = P.width := by rw [(P.post_alloc_next none _ b0 _ _ r1).1]; simp [CS.new]
  have n2 : s2.naux = P.width + Q.width := by rw [(Q.post_alloc_next none _ b1 _ _ r2).1, n1]
  have l3 := (M.run_ext r3').naux
  have l4 := (M.run_ext r4).naux
  constructor
  · intro hu
    refine ⟨fun i hi => hu _ (by omega), fun j hj => hu j ?_⟩
    have := hj.lt r3' b2
    omega
  · rintro ⟨hQ, hown⟩ j hj
    by_cases j1 : j < P.width
    · obtain ⟨x, hx, e⟩ := P.covers_alloc none _ b0 _ _ r1 j (by simp [CS.new]) (by omega)
      refine P.touches_inputize a ⟨j, e⟩ hx _ _ _ r4 _ ?_
      rw [e]; exact List.mem_singleton.2 rfl
    by_cases j2 : j < P.width + Q.width
    · have := hQ (j - P.width) (by omega)
      rwa [show P.width + (j - P.width) = j by omega] at this
    by_cases j3 : j < s3'.naux
    · exact program_occurs code _ _ _ _ r3' b2 (M.run_ext r4) hown (by omega) j3
    · exact P.uses_inputize a _ _ _ r4 b3 j (by omega) hj

/-- C90: keys for a circuit written by hand depend on its own `alloc` calls only. -/
theorem C90_keys_handwritten {K : TwoAdic (ZMod r)} (hK : LawfulTwoAdic K) (code : Code r W) (o0 : List (CNum (ZMod r)))
    (s0 : CS (ZMod r)) (hset : (handwritten code none).run (CS.new .setup) = .ok (o0, s0))
    (hown : ∀ j, OwnVar none [] code (CS.new .setup) j → s0.Occurs (.aux j))
    (hsize : s0.cons.length + s0.ninputs ≤ 2 ^ (K.S - 1)) :
    ∃ bad : Finset (ZMod r × ZMod r × ZMod r), bad.card ≤ 2 * (s0.cons.length + s0.ninputs) * s0.naux * r ^ 2 ∧
      ∀ {G1 G2 : Type} [AddCommGroup G1] [AddCommGroup G2] [DecidableEq G1] [DecidableEq G2] (t : Toxic G1 G2 r)
        (_ : r • t.g1 = 0) (_ : t.g1 ≠ 0) (_ : t.gamma ≠ 0) (_ : t.delta ≠ 0) (_ : (t.alpha, t.beta, t.tau) ∉ bad),
        ∃ params, generateKeys K t (handwritten code none) = .ok params :=
  C88_keys_handwritten hK code o0 s0 hset ((C90_handwritten code o0 s0 hset).2 hown) hsize

theorem LC.eval_congr {F : Type} [Field F] {l : LC F} {w w' : Index → F} (h : ∀ i ∈ l.keys, w i = w' i) : l.eval w = l.eval w' := by
  unfold LC.eval
  congr 1
  refine List.map_congr_left fun t ht => ?_
  rw [h t.1 (List.mem_map_of_mem ht)]

/-- A variable on which the verdict depends occurs in a constraint. -/
theorem occurs_of_depends {s : CS (ZMod r)} {i : Index} {w w' : Index → ZMod r} (hw : s.Sat w) (hw' : ¬ s.Sat w')
    (h : ∀ k, k ≠ i → w' k = w k) : s.Occurs i := by
  by_contra hno
  refine hw' fun c hc => ?_
  have key : ∀ l : LC (ZMod r), (∀ k ∈ l.keys, k ∈ c.a.lc.keys ++ c.b.lc.keys ++ c.c.lc.keys) → l.eval w' = l.eval w := by
    intro l hl
    exact LC.eval_congr fun k hk => h k fun hki => hno ⟨c, hc, hki ▸ hl k hk⟩
  have := hw c hc
  unfold Constraint.Sat at this ⊢
  rw [key c.a.lc fun k hk => by simp [hk], key c.b.lc fun k hk => by simp [hk], key c.c.lc fun k hk => by simp [hk]]
  exact this

theorem occurs_shape {s s' : CS (ZMod r)} (h : s.cons.map Constraint.shape = s'.cons.map Constraint.shape) {i : Index}
    (ho : s.Occurs i) : s'.Occurs i := by
  obtain ⟨c, hc, hi⟩ := ho
  have : c.shape ∈ s'.cons.map Constraint.shape := h ▸ List.mem_map_of_mem hc
  obtain ⟨c', hc', e⟩ := List.mem_map.1 this
  refine ⟨c', hc', ?_⟩
  simp only [Constraint.shape, Prod.mk.injEq] at e
  rwa [e.1, e.2.1, e.2.2]

theorem post_inputize_naux {F : Type} [Field F] [DecidableEq F] (a : CNum F) (s : CS F) :
    Post s (CNum.inputize a) (fun _ s' => s'.naux = s.naux) := by
  have key : ∀ (v : Option F) (f : Index → M F Unit), (∀ i s, Post s (f i) (fun _ s' => s'.naux = s.naux)) →
      Post s (CS.allocInput v >>= f) (fun _ s' => s'.naux = s.naux) := by
    intro v f hf
    have h1 : Post s (CS.allocInput v : M F Index) (fun _ s' => s'.naux = s.naux) := by
      intro i s' h
      rw [run_csallocInput] at h
      split at h
      · cases h
      · injection h with h; injection h with _ h; subst h; rfl
    exact Post.bind h1 fun i s1 _ e => (hf i s1).mono fun _ _ _ e' => e'.trans e
  have he : ∀ (a b c : CNum F) (s : CS F), Post s (CS.enforce a b c) (fun _ s' => s'.naux = s.naux) := by
    intro a b c s u s' h
    rw [(post_enforce s a b c _ _ h).1]
  unfold CNum.inputize
  split
  · exact key _ _ fun i s => he _ _ _ s
  · exact key _ _ fun i s => he _ _ _ s

/-- C86, C90: the crate's own circuit has keys for every hash function that is not constant, for all but few random choices. -/
theorem C86_keys {K : TwoAdic (ZMod r)} (hK : LawfulTwoAdic K) (P : PoseidonParams (ZMod r)) (x x' v : ZMod r)
    (hv : Poseidon.poseidon [x] P = .ok v) (hne : Poseidon.poseidon [x'] P ≠ .ok v) (hsize : hashCount P + 4 ≤ 2 ^ (K.S - 1)) :
    ∃ (s0 : CS (ZMod r)) (bad : Finset (ZMod r × ZMod r × ZMod r)),
      ((CheckPreimage.default : CheckPreimage (ZMod r)).synthesize P).run (CS.new .setup) = .ok ((), s0) ∧
      bad.card ≤ 2 * (hashCount P + 4) * s0.naux * r ^ 2 ∧
      ∀ {G1 G2 : Type} [AddCommGroup G1] [AddCommGroup G2] [DecidableEq G1] [DecidableEq G2] (t : Toxic G1 G2 r)
        (_ : r • t.g1 = 0) (_ : t.g1 ≠ 0) (_ : t.gamma ≠ 0) (_ : t.delta ≠ 0) (_ : (t.alpha, t.beta, t.tau) ∉ bad),
        ∃ params, generateKeys K t ((CheckPreimage.default : CheckPreimage (ZMod r)).synthesize P) = .ok params := by
  obtain ⟨s, h, hs⟩ := preimage_runs hv .prove
  obtain ⟨o, h'⟩ := preimage_handwritten (w := some (v, x)) h
  obtain ⟨o0, s0, hset, -, -, hshape, -⟩ := handwritten_shape (preimage_fits P) h'
  have hrun : ((CheckPreimage.default : CheckPreimage (ZMod r)).synthesize P).run (CS.new .setup) = .ok ((), s0) := by
    have := handwritten_preimage P none
    show ((preimageOf none).synthesize P).run _ = _
    rw [← this, M.run_bind, hset]; rfl
  have hn := (preimage_sound (by simp) hrun).1
  have hone : s0.Occurs (.aux 1) := by
    have ha : IsAssignment s.assign := by simp [IsAssignment, CS.assign]
    refine occurs_shape hshape (occurs_of_depends hs.sat
      (w' := fun i => if i = .aux 1 then x' else s.assign i) (fun hs' => hne ?_) fun k hk => if_neg hk)
    have e1 := (preimage_sound (by simp) h).2 _ (show IsAssignment (fun i => if i = .aux 1 then x' else s.assign i) by simpa [IsAssignment] using ha) hs'
    have e2 := (preimage_sound (by simp) h).2 _ ha hs.sat
    simp only [if_true] at e1
    rw [if_neg (by simp)] at e1
    have ex := preimage_inputs h
    have hi : s.assign (.input 1) = v := by
      unfold publicInputs at ex
      rw [(preimage_sound (by simp) h).1] at ex
      simpa using ex
    rw [e1, hi]
  have hzero : s0.Occurs (.aux 0) := by
    obtain ⟨i, s1, h1, h⟩ := M.bind_ok hrun
    obtain ⟨_, s2, h2, h⟩ := M.bind_ok h
    obtain ⟨hl, -⟩ := bare_alloc (by simp [CS.new]) h1
    refine (touches_inputize (Bare.asConst ⟨_, hl⟩) _ _ _ h2 _ ?_).mono (M.run_ext h)
    rw [hl]; simp [LC.keys, CS.new]
  have hused : AllUsed s0 := by
    intro j hj
    obtain ⟨i, s1, h1, h⟩ := M.bind_ok hrun
    obtain ⟨_, s2, h2, h⟩ := M.bind_ok h
    have hrest := M.run_ext h
    obtain ⟨p, s3, h3, h⟩ := M.bind_ok h
    have b0 : (CS.new .setup : CS (ZMod r)).backend ≠ .test := by simp [CS.new]
    have b1 : s1.backend ≠ .test := by rw [(M.run_ext h1).backend]; exact b0
    have b2 : s2.backend ≠ .test := by rw [(M.run_ext h2).backend]; exact b1
    have b3 : s3.backend ≠ .test := by rw [(M.run_ext h3).backend]; exact b2
    have n1 : s1.naux = 1 := (bare_alloc b0 h1).2
    by_cases j1 : j < s2.naux
    · by_cases j0 : j < 1
      · obtain rfl : j = 0 := by omega
        exact hzero
      · exact (uses_inputize _ _ _ _ h2 b1 j (by omega) j1).mono hrest
    · have n2 : s2.naux = 1 := by
        rw [post_inputize_naux _ _ _ _ h2, n1]
      have n3 := (bare_alloc b2 h3).2
      by_cases j2 : j = 1
      · rw [j2]; exact hone
      · exact Uses.bind (CPoseidon.uses_poseidon _ _) (fun _ => uses_assertZero _) _ _ _ h b3 j (by omega) hj
  have hc : s0.cons.length ≤ 2 + hashCount P := by
    have hc : Cost ((CheckPreimage.default : CheckPreimage (ZMod r)).synthesize P) (0 + (1 + (0 + (hashCount P + 1)))) true :=
      Cost.bind (cost_alloc _).weak fun _ => Cost.bind (cost_inputize _) fun _ => Cost.bind (cost_alloc _).weak fun _ =>
        Cost.bind (CPoseidon.cost_poseidon _ _).weak fun _ => (cost_assertZero _).weak
    have := (hc _ _ _ hrun).1
    simp only [CS.new, List.length_nil] at this
    omega
  obtain ⟨bad, hcard, hbad⟩ := C88_keys_handwritten hK _ o0 s0 hset hused (by omega)
  refine ⟨s0, bad, hrun, hcard.trans ?_, ?_⟩
  · exact Nat.mul_le_mul_right _ (Nat.mul_le_mul_right _ (by omega))
  · intro G1 G2 _ _ _ _ t h1 n1 hg hd ht
    obtain ⟨params, hk⟩ := hbad t h1 n1 hg hd ht
    rw [← generateKeys_unit, handwritten_preimage] at hk
    exact ⟨params, hk⟩

/-- The small hash function of C86 is not constant. -/
example : Poseidon.poseidon [9] smallPoseidon = .ok 27 ∧ Poseidon.poseidon [10] smallPoseidon ≠ .ok 27 ∧
    hashCount smallPoseidon + 4 ≤ 2 ^ (smallK.S - 1) := by decide +kernel

/-- A client whose only own variable is used, and one that forgets it: the second has no keys. -/
def forgetful (used : Bool) : Code 97 Unit :=
  .call (.prim (.alloc none)) fun _ => if used then .call (.prim (.isZero 0)) fun _ => .done else .done

example : let s := finalState (handwritten (forgetful true) none) (CS.new .setup)
    ((handwritten (forgetful true) none).run (CS.new .setup)).isOk = true ∧ s.naux = 4 ∧ AllUsed s := by
  unfold AllUsed
  decide +kernel

example : ¬ AllUsed (finalState (handwritten (forgetful false) none) (CS.new .setup)) := by
  unfold AllUsed
  decide +kernel

/-- Its `alloc` returns variable 0, which the test for zero constrains. -/
example : OwnVar none [] (forgetful true) (CS.new .setup) 0 := .here trivial

end Fawkes.Props
