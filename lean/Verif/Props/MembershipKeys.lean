import Verif.Lemmas.FreshKeys
import Verif.Props.Membership
import Verif.Props.Signature

/-!
# Membership in a Merkle tree, from key generation to the verdict: C89

The circuit that asserts its directions to be bits has keys, for every depth that fits the evaluation domain.
-/

namespace Fawkes.Props

open Groth16

variable {r : Nat} [Fact r.Prime] {P : PoseidonParams (ZMod r)}

theorem root_ok (hP : PoseidonSpec.Shaped P) (ht : 2 ≤ P.t) (l : List (Bool × ZMod r)) (leaf : ZMod r) :
    ∃ root, Poseidon.proofLoop P leaf l = .ok root := by
  induction l generalizing leaf with
  | nil => exact ⟨leaf, rfl⟩
  | cons x l ih =>
    obtain ⟨b, x⟩ := x
    unfold Poseidon.proofLoop
    rw [Poseidon.poseidon_ok hP _ (by cases b <;> simp) (by cases b <;> simpa using ht)]
    exact ih _

theorem touches_asserts (l : List (CBool (ZMod r))) {x : CNum (ZMod r)} (hx : Bare x) (hm : x ∈ l.map CBool.num) :
    Touches (listForM CBool.assert l) x := by
  induction l with
  | nil => cases hm
  | cons b l ih =>
    rcases List.mem_cons.1 hm with rfl | hm
    · exact Touches.left (touches_assertBit hx.asConst)
    · exact Touches.right fun _ => ih hm

/-- The signals of the circuit. -/
theorem checked_signals {n : Nat} {s1 s2 : CS (ZMod r)} {v : Option ((Ty.pair (.vec n .num) (.vec n .bool)).V (ZMod r))}
    {b : SizedVec (CNum (ZMod r)) n × SizedVec (CBool (ZMod r)) n} (w1 : s1.WF)
    (h : (Ty.alloc (F := ZMod r) (.pair (.vec n .num) (.vec n .bool)) v).run s1 = .ok (b, s2)) :
    (∀ x ∈ b.1.items, x.lc.Alloc s2 ∧ FreshVar s1 x) ∧ (∀ x ∈ b.2.items, x.num.lc.Alloc s2 ∧ FreshVar s1 x.num) ∧
    (Ty.pair (.vec n .num) (.vec n .bool)).leaves (ZMod r) b = b.1.items ++ b.2.items.map CBool.num := by
  have e : (Ty.pair (.vec n .num) (.vec n .bool)).linearize (F := ZMod r) b = b.1.items ++ b.2.items.map CBool.num := by
    show b.1.items.flatMap (fun a => [a]) ++ b.2.items.flatMap (fun a => [a.num]) = _
    simp [List.flatMap_singleton', ← List.map_eq_flatMap]
  have hv : ∀ x ∈ (Ty.pair (.vec n .num) (.vec n .bool)).linearize (F := ZMod r) b, x.lc.Alloc s2 ∧ FreshVar s1 x :=
    Ty.post_alloc_new (.pair (.vec n .num) (.vec n .bool)) v s1 w1 _ _ h
  rw [e] at hv
  refine ⟨fun x hx => hv x (by simp [hx]), fun x hx => hv x.num (by simp; exact .inr ⟨x, hx, rfl⟩), ?_⟩
  exact (Ty.linearize_eq (.pair (.vec n .num) (.vec n .bool)) b).symm.trans e

/-- Every secret variable of the circuit occurs in a constraint. -/
theorem checked_occurs {n : Nat} (hf : 2 ≤ P.f) (a : CNum (ZMod r) × CNum (ZMod r))
    (b : SizedVec (CNum (ZMod r)) n × SizedVec (CBool (ZMod r)) n) {s1 s2 s3 : CS (ZMod r)} (e12 : s1.Ext s2) (w2 : s2.WF)
    (ha : a.2.lc.Alloc s1) (v1 : ∀ x ∈ b.1.items, x.lc.Alloc s2 ∧ FreshVar s1 x)
    (v2 : ∀ x ∈ b.2.items, x.num.lc.Alloc s2 ∧ FreshVar s1 x.num) (l1 : b.1.items.length = n) (l2 : b.2.items.length = n)
    (h3 : (checkedMain P n a b).run s2 = .ok ((), s3)) (hb : s2.backend ≠ .test) (j : Nat) (x : CNum (ZMod r)) (e : x.lc = [(.aux j, 1)])
    (hx : x ∈ b.1.items ++ b.2.items.map CBool.num) : s3.Occurs (.aux j) := by
  obtain ⟨_, s4, g1, g2⟩ := M.bind_ok h3
  obtain ⟨z, s5, g3, g4⟩ := M.bind_ok g2
  rcases List.mem_append.1 hx with hx | hx
  · refine CS.Occurs.mono ?_ (M.run_ext g4)
    have hocc := CPoseidon.post_proofLoop_occurs P hf (b.2.items.zip b.1.items) (s0 := s2) (M.run_ext g1) ((M.run_ext g1).wf w2)
      (root := a.2) (fun y hy => by
        obtain ⟨q1, q2⟩ := List.of_mem_zip hy
        refine ⟨(v2 _ q1).2.varies, ?_⟩
        obtain ⟨k, k1, k2, k3⟩ := (v1 _ q2).2
        refine ⟨k, k1, k2, ((v1 _ q2).1 k (by simp [k1])).resolve_left k2, fun hk => ?_⟩
        exact (ha k hk).elim k2 k3) z s5 g3
    obtain ⟨i', hi', hx'⟩ := List.mem_iff_getElem.1 hx
    refine hocc (b.2.items[i']'(by omega), x) ?_ _ (by simp [e])
    exact List.mem_iff_getElem.2 ⟨i', by simp; omega, by simp [hx']⟩
  · refine CS.Occurs.mono ?_ (M.run_ext g2)
    exact touches_asserts b.2.items ⟨_, e⟩ hx _ _ _ g1 (.aux j) (by simp [e])

/-- C89: for every depth, the circuit with the assertions can be built without data; it has three inputs (the constant one counts), and
every variable occurs in a constraint. -/
theorem C89_setup (hP : PoseidonSpec.Shaped P) (ht : 2 ≤ P.t) (hf : 2 ≤ P.f) (n : Nat) :
    ∃ a0 s0, (checkedCircuit P n none none).run (CS.new .setup) = .ok (a0, s0) ∧ s0.ninputs = 3 ∧ AllUsed s0 := by
  obtain ⟨root, hroot⟩ := root_ok hP ht ((List.replicate n false).zip (List.replicate n 0)) 0
  obtain ⟨a, s, hrun, hs⟩ := checked_runs (sib := List.replicate n 0) (path := List.replicate n false) (n := n) (by simp) (by simp) hroot .prove
  have hq := checked_generated P n (some ()) (some (root, 0)) (some (⟨List.replicate n 0⟩, ⟨List.replicate n false⟩))
  rw [hq.run_eq] at hrun
  obtain ⟨a0, s0, hset, -⟩ := C12_circuit (.pair .num .num) (.pair (.vec n .num) (.vec n .bool)) _ (checkedCode_fits n P).1 _ _ _ a s hrun
  have hset' := ((checked_generated P n none none none).run_eq (CS.new .setup)).trans hset
  obtain ⟨hn, -⟩ := synthesize_values (.pair .num .num) (.pair (.vec n .num) (.vec n .bool)) (checkedMain P n) none none
    (fun a b s s' h hs => (Cost.bind (cost_asserts _) fun _ => Cost.bind (CPoseidon.cost_proofLoop P _ _) fun _ => cost_assertZero _ :
      Cost (checkedMain P n a b) _) s () s' h |>.2 rfl hs) (by simp) hset'
  refine ⟨a0, s0, hset', hn, ?_⟩
  obtain ⟨_, _, _, _, -, -, hall⟩ := C90_generated (.pair .num .num) (.pair (.vec n .num) (.vec n .bool)) _ a0 s0 hset
  refine hall.2 ⟨fun i hi => ?_, fun j hj => ?_⟩
  · obtain ⟨s1, b, s2, s3, h1, h2, h3, h4⟩ := synthesize_ok hset'
    have w0 : (CS.new .setup : CS (ZMod r)).WF := ⟨le_refl _, by simp [CS.new], by simp [CS.new], by simp [CS.new]⟩
    have w1 := (M.run_ext h1).wf w0
    have w2 := (M.run_ext h2).wf w1
    have b0 : (CS.new .setup : CS (ZMod r)).backend ≠ .test := by simp [CS.new]
    have b1 : s1.backend ≠ .test := by rw [(M.run_ext h1).backend]; exact b0
    have n1 : s1.naux = 2 := by rw [(Ty.post_alloc_next (.pair .num .num) none _ b0 _ _ h1).1]; rfl
    have n2 : s2.naux = 2 + (Ty.pair (.vec n .num) (.vec n .bool)).width := by
      rw [(Ty.post_alloc_next (.pair (.vec n .num) (.vec n .bool)) none _ b1 _ _ h2).1, n1]
    obtain ⟨v1, v2, hl⟩ := checked_signals w1 h2
    have hleaf := Ty.post_alloc_vars (.pair .num .num) none _ w0 _ _ h1
    have hleaf2 : (a0 : CNum (ZMod r) × CNum (ZMod r)).2.lc.Alloc s1 := (hleaf _ (List.mem_append_right _ (List.mem_singleton_self _))).1
    obtain ⟨x, hx, e⟩ := Ty.covers_alloc (.pair (.vec n .num) (.vec n .bool)) none _ b1 _ _ h2 (2 + i) (by omega) (by omega)
    have hok := (Ty.post_alloc (.pair (.vec n .num) (.vec n .bool)) none _ _ _ h2).1
    obtain ⟨⟨l1, -⟩, l2, -⟩ := hok
    rw [hl] at hx
    exact (checked_occurs hf a0 b (M.run_ext h2) w2 hleaf2 v1 v2 l1 l2 h3 (by rw [(M.run_ext h2).backend]; exact b1) (2 + i) x e hx).mono
      (M.run_ext h4)
  · exfalso
    have key : ∀ (l : List Nat) (q : List (CNum (ZMod r))) (s : CS (ZMod r)) (j : Nat), ¬ OwnVar none q (checks (memberCode n P) l) s j := by
      intro l
      induction l with
      | nil =>
        intro q s j hj
        unfold checks memberCode at hj
        cases hj with
        | here hc => exact hc
        | later _ hj =>
          cases hj with
          | here hc => exact hc
          | later _ hj => cases hj
      | cons i l ih =>
        intro q s j hj
        unfold checks at hj
        cases hj with
        | here hc => exact hc
        | later _ hj => exact ih _ _ _ hj
    exact key _ _ _ _ hj

/-- C89, from key generation to the verdict: for all random choices of the key generator except few there are keys; with them every
authentic proof of membership is turned into a proof that `verify` accepts for the root and the leaf. -/
theorem C89_chain {K : TwoAdic (ZMod r)} (hK : LawfulTwoAdic K) (hP : PoseidonSpec.Shaped P) (ht : 2 ≤ P.t) (hf : 2 ≤ P.f) (n : Nat)
    (a0 : CNum (ZMod r) × CNum (ZMod r)) (s0 : CS (ZMod r)) (hset : (checkedCircuit P n none none).run (CS.new .setup) = .ok (a0, s0))
    (hsize : s0.cons.length + 3 ≤ 2 ^ (K.S - 1)) :
    ∃ bad : Finset (ZMod r × ZMod r × ZMod r), bad.card ≤ 2 * (s0.cons.length + 3) * (3 * s0.naux + 7) * r ^ 2 ∧
      ∀ {G1 G2 T : Type} [AddCommGroup G1] [AddCommGroup G2] [DecidableEq G1] [DecidableEq G2] [CommMonoid T] [DecidableEq T]
        {E : Engine G1 G2 T} {e : G1 → G2 → Tˣ} (_ : PairingEngine E e) (_ : ∀ a b b', e a (b + b') = e a b * e a b')
        (t : Toxic G1 G2 r) (_ : r • t.g1 = 0) (_ : r • t.g2 = 0) (_ : t.g1 ≠ 0) (_ : t.g2 ≠ 0) (_ : t.gamma ≠ 0) (_ : t.delta ≠ 0)
        (_ : (t.alpha, t.beta, t.tau) ∉ bad),
        ∃ params, generateKeys K t (checkedCircuit P n none none) = .ok params ∧
          ∀ (leaf : ZMod r) (sibling : List (ZMod r)) (path : List Bool) (_ : sibling.length = n) (_ : path.length = n) (x y : ZMod r),
            ∃ root proof, Poseidon.merkleProofRoot leaf sibling path P = .ok root ∧
              prove K params x y (checkedCircuit P n (some (root, leaf)) (some (⟨sibling⟩, ⟨path⟩))) = .ok proof ∧
              Groth16.verify E (truncate params.vk) proof [root, leaf] = .ok (.ok true) := by
  classical
  obtain ⟨a0', s0', hset', hn, hused⟩ := C89_setup hP ht hf n
  rw [hset] at hset'; injection hset' with hset'; injection hset' with e1 e2; subst e1 e2
  have hg := checked_generated P n none none none
  obtain ⟨bad, hcard, hbad⟩ := C89_complete hK P n a0 s0 hset
  obtain ⟨bad', hcard', hbad'⟩ := C88_keys hK (.pair .num .num) (.pair (.vec n .num) (.vec n .bool)) (checkedCode n P) a0 s0
    ((hg.run_eq (CS.new .setup)).symm.trans hset) hused (by omega)
  rw [hn] at hcard hcard'
  refine ⟨bad' ∪ (Finset.univ ×ˢ Finset.univ ×ˢ bad), ?_, ?_⟩
  · refine (Finset.card_union_le _ _).trans ?_
    rw [Finset.card_product, Finset.card_product, Finset.card_univ, ZMod.card]
    refine (Nat.add_le_add hcard' (Nat.mul_le_mul_left r (Nat.mul_le_mul_left r hcard))).trans (Nat.le_of_eq ?_)
    ring
  · intro G1 G2 T _ _ _ _ _ _ E e hE hr t h1 h2 n1 n2 hgam hdel htau
    rw [Finset.mem_union, not_or] at htau
    obtain ⟨params, hk⟩ := hbad' t h1 n1 hgam hdel htau.1
    have hk' := (generateKeys_sameRun K t hg).trans hk
    refine ⟨params, hk', fun leaf sibling path l1 l2 x y => ?_⟩
    obtain ⟨root, hroot⟩ := root_ok hP ht (path.zip sibling) leaf
    obtain ⟨proof, q4, q5⟩ := hbad hE hr t h1 h2 n1 n2 (fun h => htau.2 (by simp [h])) params hk' root leaf sibling path l1 l2 hroot x y
    exact ⟨root, proof, hroot, q4, q5⟩

theorem takes_asserts (l : List (CBool (ZMod r))) (h : ∀ b ∈ l, b.num.asConst = none) : ∀ {s : CS (ZMod r)},
    Takes s (listForM CBool.assert l) l.length (fun _ _ => True) := by
  induction l with
  | nil => intro s; exact Takes.pure trivial
  | cons b l ih =>
    intro s
    exact Takes.cast (Takes.bind (takes_assertBit (h b (by simp))) fun _ s1 _ _ => ih (fun c hc => h c (by simp [hc])))
      (by rw [List.length_cons]; omega)

/-- Allocating signals adds no constraint. -/
theorem _root_.Fawkes.Ty.takes_alloc (t : Ty) (v : Option (t.V (ZMod r))) (s : CS (ZMod r)) (hs : s.WF) :
    Takes s (t.alloc v) 0 (fun a s' => t.ok (ZMod r) a ∧ ∀ x ∈ t.linearize a, x.lc.Alloc s' ∧ FreshVar s x) := by
  have num : ∀ (s : CS (ZMod r)) (v : Option (ZMod r)), Takes s (CNum.alloc v) 0 (fun _ _ => True) := fun s v =>
    (post_alloc s v).mono fun x s' _ h => ⟨by rw [h.2.2, pushVar_cons]; rfl, trivial⟩
  have key : Takes s (t.alloc v) 0 (fun _ _ => True) := by
    clear hs
    induction t generalizing s with
    | num => exact num s _
    | bool => exact (Takes.bind (num s _) fun _ _ _ _ => Takes.pure (Q := fun _ _ => True) trivial : Takes s _ (0 + 0) _)
    | pair t u iht ihu =>
      exact (Takes.bind (iht _ s) fun _ s1 _ _ => Takes.bind (ihu _ s1) fun _ _ _ _ => Takes.pure (Q := fun _ _ => True) trivial : Takes s _ (0 + (0 + 0)) _)
    | vec n t ih =>
      have key : ∀ {A : Type} (f : A → M (ZMod r) (t.S (ZMod r))) (as : List A), (∀ a s, Takes s (f a) 0 (fun _ _ => True)) →
          Takes s (listMapM f as >>= fun l => M.lift (SizedVec.collect l)) 0 (fun (_ : (Ty.vec n t).S (ZMod r)) _ => True) := by
        intro A f as hf
        have hl : ∀ s, Takes s (listMapM f as) 0 (fun _ _ => True) := by
          clear ih
          induction as with
          | nil => intro s; exact Takes.pure (Q := fun _ _ => True) trivial
          | cons a as ih =>
            intro s
            exact (Takes.bind (hf a s) fun _ s1 _ _ => Takes.bind (ih s1) fun _ _ _ _ => Takes.pure (Q := fun _ _ => True) trivial : Takes s _ (0 + (0 + 0)) _)
        exact (Takes.bind (hl s) fun _ s1 _ _ => Takes.lift fun _ _ => trivial : Takes s _ (0 + 0) _)
      cases v with
      | none => exact key _ _ (fun a s => ih none s)
      | some v => exact key _ _ (fun a s => ih (some a) s)
  exact fun a s' h => ⟨(key a s' h).1, (Ty.post_alloc t v s a s' h).1, Ty.post_alloc_new t v s hs a s' h⟩

theorem checked_takes {n k : Nat} (hf : 2 ≤ P.f) (hm : ∀ row ∈ P.m, ∀ c ∈ row, c ≠ 0) (a : CNum (ZMod r) × CNum (ZMod r))
    (b : SizedVec (CNum (ZMod r)) n × SizedVec (CBool (ZMod r)) n) {s1 s2 : CS (ZMod r)} (w1 : s1.WF) (e2 : s1.Ext s2)
    (a1 : a.1.lc.Alloc s1) (a2 : a.2.lc.Alloc s1) (va : Varies (CNum.sub a.1 a.2)) (v1 : ∀ x ∈ b.1.items, x.lc.Alloc s2 ∧ FreshVar s1 x)
    (v2 : ∀ x ∈ b.2.items, x.num.lc.Alloc s2 ∧ FreshVar s1 x.num) (l1 : b.1.items.length = n) (l2 : b.2.items.length = n)
    (hk : 1 + 3 * (2 + (P.f - 1) * P.t + P.p) = k) : Takes s2 (checkedMain P n a b) (n + (n * k + 1)) (fun _ _ => True) := by
  have w2 := e2.wf w1
  refine Takes.bind (Takes.cast (takes_asserts b.2.items fun x hx => (v2 x hx).2.asConst) l2) fun _ s3 e3 _ => ?_
  have hl : (b.2.items.zip b.1.items).length = n := by simp [l1, l2]
  refine Takes.bind (Takes.cast (CPoseidon.takes_proofLoop P hm hf (b.2.items.zip b.1.items) e3 (e3.wf w2) ((a2.mono e2).mono e3)
    (fun x hx => ⟨(v1 _ (List.of_mem_zip hx).2).1, (v2 _ (List.of_mem_zip hx).1).2.varies⟩)
    (fun x hx => ((v1 _ (List.of_mem_zip (List.mem_of_mem_head? hx)).2).2.newIn.sub a2).varies)) (by rw [hl, hk])) fun z s4 e4 hz => ?_
  refine CEdwardsPoint.takes_assertZero ?_
  rcases hz.2 with ⟨-, rfl⟩ | hz
  · exact va
  · exact (hz.sub_left ((a1.mono e2).mono e3)).varies

/-- C89: the number of constraints of the circuit with the assertions: one for every level, those of the proof (C92), one for the equality
and two for the inputs. -/
theorem C89_count (hf : 2 ≤ P.f) (hm : ∀ row ∈ P.m, ∀ c ∈ row, c ≠ 0) (n : Nat) (p : Option (ZMod r × ZMod r))
    (q : Option (SizedVec (ZMod r) n × SizedVec Bool n)) (be : Backend) :
    Adds (CS.new be) (checkedCircuit P n p q) (n + n * (1 + 3 * (2 + (P.f - 1) * P.t + P.p)) + 3) := by
  have w0 : (CS.new be : CS (ZMod r)).WF := ⟨le_refl _, by simp [CS.new], by simp [CS.new], by simp [CS.new]⟩
  have alloc2 : Takes (CS.new be : CS (ZMod r)) ((Ty.pair .num .num).alloc p) 0 (fun (a : CNum (ZMod r) × CNum (ZMod r)) s' =>
      a.1.lc.Alloc s' ∧ a.2.lc.Alloc s' ∧ Varies (CNum.sub a.1 a.2)) :=
    (Takes.bind (takes_alloc w0 (p.map Prod.fst)) fun x s1 e1 hx => Takes.bind (takes_alloc (e1.wf w0) (p.map Prod.snd)) fun y s2 e2 hy =>
      Takes.pure ⟨hx.2.mono e2, hy.2, (hy.1.newIn.sub_left hx.2).varies⟩ : Takes (CS.new be : CS (ZMod r)) _ (0 + (0 + 0)) _)
  generalize hk : 1 + 3 * (2 + (P.f - 1) * P.t + P.p) = k
  refine Takes.adds (Q := fun _ _ => True) (Takes.cast (Takes.bind alloc2 fun (a : CNum (ZMod r) × CNum (ZMod r)) s1 e1 ha => ?_)
    (show 0 + (0 + ((n + (n * k + 1)) + ((1 + 1) + 0))) = n + n * k + 3 by omega))
  refine Takes.bind (Ty.takes_alloc (.pair (.vec n .num) (.vec n .bool)) q s1 (e1.wf w0))
    fun (b : SizedVec (CNum (ZMod r)) n × SizedVec (CBool (ZMod r)) n) s2 e2 hb => ?_
  refine Takes.bind (Q := fun _ _ => True) ?_ fun _ s3 e3 _ => ?_
  · have hlin : (Ty.pair (.vec n .num) (.vec n .bool)).linearize (F := ZMod r) b = b.1.items ++ b.2.items.map CBool.num := by
      show b.1.items.flatMap (fun a => [a]) ++ b.2.items.flatMap (fun a => [a.num]) = _
      simp [List.flatMap_singleton', ← List.map_eq_flatMap]
    obtain ⟨hok, hb⟩ := hb
    obtain ⟨⟨l1, -⟩, l2, -⟩ := hok
    rw [hlin] at hb
    exact checked_takes hf hm a b (e1.wf w0) e2 ha.1 ha.2.1 ha.2.2 (fun x hx => hb x (by simp [hx]))
      (fun x hx => hb x.num (by simp; exact .inr ⟨x, hx, rfl⟩)) l1 l2 hk
  · refine Takes.bind (Q := fun _ _ => True) ?_ fun _ s4 _ _ => Takes.pure trivial
    exact Takes.bind (takes_inputize a.1) fun _ s5 _ _ => takes_inputize a.2

/-- C89 for the parameters of the repository over BN256: the circuit for trees of depth `n` has `230 * n + 3` constraints, and everything
above holds for it, for every depth that fits the evaluation domain. -/
theorem C89_bn {checks : Bool} {tries : Nat} {P : PoseidonParams (ZMod bnR)} (hP : PoseidonParams.new bnR checks tries 3 8 53 = .ok P)
    {K : TwoAdic (ZMod bnR)} (hK : LawfulTwoAdic K) (n : Nat) (hn : 230 * n + 6 ≤ 2 ^ (K.S - 1)) :
    ∃ a0 s0, (checkedCircuit P n none none).run (CS.new .setup) = .ok (a0, s0) ∧ s0.cons.length = 230 * n + 3 ∧
    ∃ bad : Finset (ZMod bnR × ZMod bnR × ZMod bnR), bad.card ≤ 2 * (230 * n + 6) * (3 * s0.naux + 7) * bnR ^ 2 ∧
      ∀ {G1 G2 T : Type} [AddCommGroup G1] [AddCommGroup G2] [DecidableEq G1] [DecidableEq G2] [CommMonoid T] [DecidableEq T]
        {E : Engine G1 G2 T} {e : G1 → G2 → Tˣ} (_ : PairingEngine E e) (_ : ∀ a b b', e a (b + b') = e a b * e a b')
        (t : Toxic G1 G2 bnR) (_ : bnR • t.g1 = 0) (_ : bnR • t.g2 = 0) (_ : t.g1 ≠ 0) (_ : t.g2 ≠ 0) (_ : t.gamma ≠ 0) (_ : t.delta ≠ 0)
        (_ : (t.alpha, t.beta, t.tau) ∉ bad),
        ∃ params, generateKeys K t (checkedCircuit P n none none) = .ok params ∧
          ∀ (leaf : ZMod bnR) (sibling : List (ZMod bnR)) (path : List Bool) (_ : sibling.length = n) (_ : path.length = n)
            (x y : ZMod bnR), ∃ root proof, Poseidon.merkleProofRoot leaf sibling path P = .ok root ∧
              prove K params x y (checkedCircuit P n (some (root, leaf)) (some (⟨sibling⟩, ⟨path⟩))) = .ok proof ∧
              Groth16.verify E (truncate params.vk) proof [root, leaf] = .ok (.ok true) := by
  obtain ⟨e1, e2, e3⟩ := new_ok hP
  have hshape : PoseidonSpec.Shaped P := (C60_shape _ _ _ _ _ _ hP).1
  have hm : ∀ row ∈ P.m, ∀ c ∈ row, c ≠ 0 := by rw [bnRM3_eq hP]; exact bnRM3_nonzero
  obtain ⟨a0, s0, hset, -⟩ := C89_setup hshape (by omega) (by omega) n
  have hc := C89_count (P := P) (by omega) hm n none none .setup a0 s0 hset
  rw [e1, e2, e3] at hc
  have hc : s0.cons.length = 230 * n + 3 := hc.trans (by show 0 + (n + n * 229 + 3) = _; omega)
  refine ⟨a0, s0, hset, hc, ?_⟩
  have := C89_chain hK hshape (by omega) (by omega) n a0 s0 hset (by rw [hc]; exact hn)
  rw [hc] at this
  exact this

/-- C89 for the parameters of the repository over BLS12-381: the circuit for trees of depth `n` has `230 * n + 3` constraints, and everything
above holds for it, for every depth that fits the evaluation domain. -/
theorem C89_bls {checks : Bool} {tries : Nat} {P : PoseidonParams (ZMod blsR)} (hP : PoseidonParams.new blsR checks tries 3 8 53 = .ok P)
    {K : TwoAdic (ZMod blsR)} (hK : LawfulTwoAdic K) (n : Nat) (hn : 230 * n + 6 ≤ 2 ^ (K.S - 1)) :
    ∃ a0 s0, (checkedCircuit P n none none).run (CS.new .setup) = .ok (a0, s0) ∧ s0.cons.length = 230 * n + 3 ∧
    ∃ bad : Finset (ZMod blsR × ZMod blsR × ZMod blsR), bad.card ≤ 2 * (230 * n + 6) * (3 * s0.naux + 7) * blsR ^ 2 ∧
      ∀ {G1 G2 T : Type} [AddCommGroup G1] [AddCommGroup G2] [DecidableEq G1] [DecidableEq G2] [CommMonoid T] [DecidableEq T]
        {E : Engine G1 G2 T} {e : G1 → G2 → Tˣ} (_ : PairingEngine E e) (_ : ∀ a b b', e a (b + b') = e a b * e a b')
        (t : Toxic G1 G2 blsR) (_ : blsR • t.g1 = 0) (_ : blsR • t.g2 = 0) (_ : t.g1 ≠ 0) (_ : t.g2 ≠ 0) (_ : t.gamma ≠ 0) (_ : t.delta ≠ 0)
        (_ : (t.alpha, t.beta, t.tau) ∉ bad),
        ∃ params, generateKeys K t (checkedCircuit P n none none) = .ok params ∧
          ∀ (leaf : ZMod blsR) (sibling : List (ZMod blsR)) (path : List Bool) (_ : sibling.length = n) (_ : path.length = n)
            (x y : ZMod blsR), ∃ root proof, Poseidon.merkleProofRoot leaf sibling path P = .ok root ∧
              prove K params x y (checkedCircuit P n (some (root, leaf)) (some (⟨sibling⟩, ⟨path⟩))) = .ok proof ∧
              Groth16.verify E (truncate params.vk) proof [root, leaf] = .ok (.ok true) := by
  obtain ⟨e1, e2, e3⟩ := new_ok hP
  have hshape : PoseidonSpec.Shaped P := (C60_shape _ _ _ _ _ _ hP).1
  have hm : ∀ row ∈ P.m, ∀ c ∈ row, c ≠ 0 := by rw [blsRM3_eq hP]; exact blsRM3_nonzero
  obtain ⟨a0, s0, hset, -⟩ := C89_setup hshape (by omega) (by omega) n
  have hc := C89_count (P := P) (by omega) hm n none none .setup a0 s0 hset
  rw [e1, e2, e3] at hc
  have hc : s0.cons.length = 230 * n + 3 := hc.trans (by show 0 + (n + n * 229 + 3) = _; omega)
  refine ⟨a0, s0, hset, hc, ?_⟩
  have := C89_chain hK hshape (by omega) (by omega) n a0 s0 hset (by rw [hc]; exact hn)
  rw [hc] at this
  exact this

/-- Everything in it exists: the parameters and the roots of unity of the field; trees of depth 32 fit. -/
example : (∃ P, PoseidonParams.new bnR true 20 3 8 53 = .ok P) ∧ 230 * 32 + 6 ≤ 2 ^ (28 - 1) ∧
    LawfulTwoAdic (⟨28, ((7 : Nat) : ZMod bnR) ^ ((bnR - 1) / 2 ^ 28), ((7 : Nat) : ZMod bnR)⟩ : TwoAdic (ZMod bnR)) :=
  ⟨by
    have := bnRM3_new
    cases h : PoseidonParams.new bnR true 20 3 8 53 with
    | error e => rw [h] at this; cases this
    | ok P => exact ⟨P, rfl⟩, by norm_num, lawful_of_cert 28 7 256 (by decide) (by decide +kernel) (by decide +kernel) (by decide +kernel)
    (by decide +kernel) (by decide +kernel) (by decide +kernel) (by decide +kernel)⟩

end Fawkes.Props
