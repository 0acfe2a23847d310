import Verif.Lemmas.Plain
import Verif.Props.Knowledge
import Verif.Props.Poseidon
import Verif.Props.KeysExist

/-!
# Membership in a Merkle tree: C89

The circuit for which the gadgets of src/circuit/poseidon.rs are made: public are a root and a leaf, secret is a `CMerkleProof`, and the
circuit asserts that the proof leads from the leaf to the root.  As written it does not prove membership: `CBool::alloc` adds no
constraint, so a prover may use any numbers as directions.
-/

namespace Fawkes.Props

open Groth16

variable {r : Nat} [Fact r.Prime]

/-- A client: public are a root and a leaf, secret are the siblings and the path of a proof of `n` levels
(`CMerkleProof`, src/circuit/poseidon.rs:14-19). -/
def memberMain (P : PoseidonParams (ZMod r)) (n : Nat) (a : CNum (ZMod r) × CNum (ZMod r))
    (b : SizedVec (CNum (ZMod r)) n × SizedVec (CBool (ZMod r)) n) : M (ZMod r) Unit := do
  let root ← CPoseidon.merkleProofRoot a.2 b.1.items b.2.items P
  CNum.assertEq a.1 root

/-- The same client, asserting first that the path consists of bits. -/
def checkedMain (P : PoseidonParams (ZMod r)) (n : Nat) (a : CNum (ZMod r) × CNum (ZMod r))
    (b : SizedVec (CNum (ZMod r)) n × SizedVec (CBool (ZMod r)) n) : M (ZMod r) Unit := do
  listForM CBool.assert b.2.items
  memberMain P n a b

/-- The circuit object of the macros with `memberMain`. -/
def memberCircuit (P : PoseidonParams (ZMod r)) (n : Nat) (p : Option (ZMod r × ZMod r))
    (q : Option (SizedVec (ZMod r) n × SizedVec Bool n)) : M (ZMod r) (CNum (ZMod r) × CNum (ZMod r)) :=
  synthesize (.pair .num .num) (.pair (.vec n .num) (.vec n .bool)) (memberMain P n) p q

/-- The circuit object of the macros with `checkedMain`. -/
def checkedCircuit (P : PoseidonParams (ZMod r)) (n : Nat) (p : Option (ZMod r × ZMod r))
    (q : Option (SizedVec (ZMod r) n × SizedVec Bool n)) : M (ZMod r) (CNum (ZMod r) × CNum (ZMod r)) :=
  synthesize (.pair .num .num) (.pair (.vec n .num) (.vec n .bool)) (checkedMain P n) p q

/-- What a cheating prover runs: the same code, but the directions are allocated with any numbers as values. -/
def forgedCircuit (P : PoseidonParams (ZMod r)) (n : Nat) (p : ZMod r × ZMod r) (sibling path : List (ZMod r)) :
    M (ZMod r) (CNum (ZMod r) × CNum (ZMod r)) :=
  synthesize (.pair .num .num) (.pair (.vec n .num) (.vec n .num))
    (fun a b => memberMain P n a (b.1, ⟨(b.2 : SizedVec (CNum (ZMod r)) n).items.map CBool.mk⟩))
    (some p) (some ((⟨sibling⟩ : SizedVec (ZMod r) n), (⟨path⟩ : SizedVec (ZMod r) n)))

/-- The leaf is in the tree: some proof of `n` levels leads to the root. -/
def IsMember (P : PoseidonParams (ZMod r)) (n : Nat) (root leaf : ZMod r) : Prop :=
  ∃ sibling path, sibling.length = n ∧ path.length = n ∧ Poseidon.merkleProofRoot leaf sibling path P = .ok root

/-- C89 (false, see `C89_refuted`): accepted proofs of the circuit show membership. -/
def C89_full : Prop :=
  ∀ (r : Nat) [Fact r.Prime] (K : TwoAdic (ZMod r)) (_ : LawfulTwoAdic K) (P : PoseidonParams (ZMod r)) (n : Nat)
    (a0 : CNum (ZMod r) × CNum (ZMod r)) (s0 : CS (ZMod r)) (_ : (memberCircuit P n none none).run (CS.new .setup) = .ok (a0, s0))
    (S : AlgebraicProver r) (inputs : List (ZMod r)),
    ∃ bad : Finset (ZMod r × ZMod r × ZMod r × ZMod r × ZMod r),
      bad.card ≤ (4 * (s0.cons.length + 3) * (s0.naux + 5) + 8) * r ^ 4 ∧
      ∀ {G1 G2 T : Type} [AddCommGroup G1] [AddCommGroup G2] [DecidableEq G1] [DecidableEq G2] [CommMonoid T] [DecidableEq T]
        {E : Engine G1 G2 T} {e : G1 → G2 → Tˣ} (_ : PairingEngine E e) (_ : ∀ a b b', e a (b + b') = e a b * e a b')
        (t : Toxic G1 G2 r) (_ : r • t.g1 = 0) (_ : r • t.g2 = 0) (_ : e t.g1 t.g2 ≠ 1)
        (_ : (t.alpha, t.beta, t.gamma, t.delta, t.tau) ∉ bad) (params : Parameters G1 G2)
        (_ : generateKeys K t (memberCircuit P n none none) = .ok params),
        verify E (truncate params.vk) (S.proof t.g1 t.g2 params) inputs = .ok (.ok true) →
          ∃ root leaf, inputs = [root, leaf] ∧ IsMember P n root leaf

/-! ### The circuit as a client program -/

def memberCode (n : Nat) (P : PoseidonParams (ZMod r)) : Code r Unit :=
  .call (.merkleProofRoot 1 (List.range' 2 n) (List.range' (2 + n) n) P) fun _ =>
  .call (.prim (.assertEq 0 (2 + n + n))) fun _ => .done

theorem regs_range (q : List (CNum (ZMod r))) (n k : Nat) (h : k + n ≤ q.length) :
    regs q (List.range' k n) = (pure ((q.drop k).take n) : M (ZMod r) (List (CNum (ZMod r)))) := by
  induction n generalizing k with
  | zero => simp [regs]
  | succ n ih =>
    rw [List.range'_succ, regs, ih (k + 1) (by omega)]
    have hk : q[k]? = some q[k] := List.getElem?_eq_getElem (by omega)
    unfold reg
    rw [hk]
    simp only [pure_bind]
    rw [List.drop_eq_getElem_cons (show k < q.length by omega), List.take_succ_cons]

theorem memberCode_exec (P : PoseidonParams (ZMod r)) (n : Nat) (w : Option Unit) (x y : CNum (ZMod r)) (sib path : List (CNum (ZMod r)))
    (h1 : sib.length = n) (h2 : path.length = n) :
    (do let _ ← (memberCode n P).exec w (x :: y :: (sib ++ path))) = (do
      let root ← CPoseidon.merkleProofRoot y sib (path.map CBool.mk) P
      CNum.assertEq x root) := by
  have e1 : (((x :: y :: (sib ++ path)).drop 2).take n) = sib := by simp [← h1]
  have e2 : (((x :: y :: (sib ++ path)).drop (2 + n)).take n) = path := by
    rw [show 2 + n = n + 2 by omega]
    simp [← h1, ← h2, List.drop_append, List.take_of_length_le (Nat.le_of_eq (h2.trans h1.symm))]
  have e3 : ∀ z : CNum (ZMod r), reg ((x :: y :: (sib ++ path)) ++ [z]) (2 + n + n) = (pure z : M (ZMod r) (CNum (ZMod r))) := by
    intro z
    unfold reg
    rw [List.getElem?_append_right (by simp; omega), show 2 + n + n - (x :: y :: (sib ++ path)).length = 0 by simp; omega]
    rfl
  have e0 : ∀ z : CNum (ZMod r), reg ((x :: y :: (sib ++ path)) ++ [z]) 0 = (pure x : M (ZMod r) (CNum (ZMod r))) := fun _ => rfl
  have e4 : reg (x :: y :: (sib ++ path)) 1 = (pure y : M (ZMod r) (CNum (ZMod r))) := rfl
  unfold memberCode
  simp only [Code.exec, Call.exec, Op.exec, regBits, regs_range _ _ _ (show 2 + n ≤ (x :: y :: (sib ++ path)).length by simp; omega),
    regs_range _ _ _ (show 2 + n + n ≤ (x :: y :: (sib ++ path)).length by simp; omega), e1, e2, e0, e3, e4, bind_assoc, pure_bind,
    bind_pure_unit]

theorem member_main (P : PoseidonParams (ZMod r)) (n : Nat) (w : Option Unit) (x y : CNum (ZMod r)) (sib : SizedVec (CNum (ZMod r)) n)
    (path : SizedVec (CBool (ZMod r)) n) (h1 : sib.items.length = n) (h2 : path.items.length = n) :
    memberMain P n (x, y) (sib, path) = (do
      let _ ← (memberCode n P).exec w ((Ty.pair .num .num).linearize (F := ZMod r) (x, y) ++
        (Ty.pair (.vec n .num) (.vec n .bool)).linearize (F := ZMod r) (sib, path))) := by
  have e1 : (Ty.pair .num .num).linearize (F := ZMod r) (x, y) ++
      (Ty.pair (.vec n .num) (.vec n .bool)).linearize (F := ZMod r) (sib, path) =
      x :: y :: (sib.items ++ path.items.map CBool.num) := by
    show [x] ++ [y] ++ (sib.items.flatMap (fun a => [a]) ++ path.items.flatMap fun a => [a.num]) = _
    simp [List.flatMap_singleton', ← List.map_eq_flatMap]
  rw [e1]
  refine Eq.trans ?_ (memberCode_exec P n w x y sib.items (path.items.map CBool.num) h1 (by simpa using h2)).symm
  unfold memberMain
  rw [List.map_map]
  have : (CBool.mk ∘ CBool.num : CBool (ZMod r) → CBool (ZMod r)) = id := rfl
  rw [this, List.map_id]

theorem forged_main (P : PoseidonParams (ZMod r)) (n : Nat) (w : Option Unit) (x y : CNum (ZMod r)) (sib path : SizedVec (CNum (ZMod r)) n)
    (h1 : sib.items.length = n) (h2 : path.items.length = n) :
    memberMain P n (x, y) (sib, ⟨path.items.map CBool.mk⟩) = (do
      let _ ← (memberCode n P).exec w ((Ty.pair .num .num).linearize (F := ZMod r) (x, y) ++
        (Ty.pair (.vec n .num) (.vec n .num)).linearize (F := ZMod r) (sib, path))) := by
  have e1 : (Ty.pair .num .num).linearize (F := ZMod r) (x, y) ++
      (Ty.pair (.vec n .num) (.vec n .num)).linearize (F := ZMod r) (sib, path) =
      x :: y :: (sib.items ++ path.items) := by
    show [x] ++ [y] ++ (sib.items.flatMap (fun a => [a]) ++ path.items.flatMap fun a => [a]) = _
    simp [List.flatMap_singleton']
  rw [e1]
  exact (memberCode_exec P n w x y sib.items path.items h1 h2).symm

theorem member_generated (P : PoseidonParams (ZMod r)) (n : Nat) (w : Option Unit) (p : Option (ZMod r × ZMod r))
    (q : Option (SizedVec (ZMod r) n × SizedVec Bool n)) :
    SameRun Eq (memberCircuit P n p q)
      (generated (.pair .num .num) (.pair (.vec n .num) (.vec n .bool)) (memberCode n P) w p q) :=
  sameRun_synthesize (F := ZMod r) (.pair .num .num) (.pair (.vec n .num) (.vec n .bool)) _ _ p q fun a b hb =>
    member_main P n w a.1 a.2 b.1 b.2 hb.1.1 hb.2.1

theorem forged_generated (P : PoseidonParams (ZMod r)) (n : Nat) (w : Option Unit) (p : ZMod r × ZMod r) (sib path : List (ZMod r)) :
    SameRun Eq (forgedCircuit P n p sib path)
      (generated (.pair .num .num) (.pair (.vec n .num) (.vec n .num)) (memberCode n P) w (some p)
        (some ((⟨sib⟩ : SizedVec (ZMod r) n), (⟨path⟩ : SizedVec (ZMod r) n)))) :=
  sameRun_synthesize (F := ZMod r) (.pair .num .num) (.pair (.vec n .num) (.vec n .num)) _ _ _ _ fun a b hb =>
    forged_main P n w a.1 a.2 b.1 b.2 hb.1.1 hb.2.1

theorem memberCode_fits (n : Nat) (P : PoseidonParams (ZMod r)) : (memberCode n P).WidthsFit ∧ (memberCode n P).Quiet := by
  simp [memberCode, Code.WidthsFit, Call.WidthsFit, Code.Quiet, Call.publishes, Op.publishes]

/-! ### The run of the cheating prover -/

theorem runs_allocs {s : CS (ZMod r)} (hs : s.Honest) (vs : List (ZMod r)) :
    Runs s (listMapM (fun x => CNum.alloc (some x)) vs)
      (fun l s' => List.Forall₂ (fun a v => Has s' a v ∧ a.asConst = none) l vs) := by
  induction vs generalizing s with
  | nil => exact Runs.pure hs .nil
  | cons v vs ih =>
    refine Runs.bind (runs_alloc hs v) fun a s1 e1 h1 ha => ?_
    refine Runs.bind (ih h1) fun l s2 e2 h2 hl => ?_
    exact Runs.pure h2 (.cons ⟨ha.1.mono e2, ha.2.asConst⟩ hl)

theorem runs_allocVec {s : CS (ZMod r)} (hs : s.Honest) {n : Nat} (vs : List (ZMod r)) (hn : vs.length = n) :
    Runs s ((Ty.vec n .num).alloc (some (⟨vs⟩ : SizedVec (ZMod r) n)))
      (fun a s' => List.Forall₂ (fun a v => Has s' a v ∧ a.asConst = none) (a : SizedVec (CNum (ZMod r)) n).items vs) := by
  refine Runs.bind (runs_allocs hs vs) fun (l : List (CNum (ZMod r))) s1 e1 h1 hl => ?_
  exact Runs.lift (a := (⟨l⟩ : SizedVec (CNum (ZMod r)) n)) h1 (if_pos ((List.Forall₂.length_eq hl).trans hn)) hl

/-- The first sibling of a forged proof for `leaf`, made from an authentic proof for `leaf0` with the first sibling `s0`. -/
def forgedSibling (leaf0 s0 leaf : ZMod r) : ZMod r := leaf0 + s0 - leaf

/-- The first direction of a forged proof. -/
def forgedDirection (leaf0 s0 : ZMod r) (b0 : Bool) (leaf : ZMod r) : ZMod r :=
  ((if b0 then s0 else leaf0) - leaf) / (leaf0 + s0 - 2 * leaf)

theorem forged_first (leaf0 s0 : ZMod r) (b0 : Bool) (leaf : ZMod r) (hne : 2 * leaf ≠ leaf0 + s0) :
    leaf + forgedDirection leaf0 s0 b0 leaf * (forgedSibling leaf0 s0 leaf - leaf) = if b0 then s0 else leaf0 := by
  have h0 : leaf0 + s0 - 2 * leaf ≠ 0 := fun h => hne (by linear_combination -h)
  unfold forgedDirection forgedSibling
  rw [show leaf0 + s0 - leaf - leaf = leaf0 + s0 - 2 * leaf by ring, div_mul_cancel₀ _ h0]
  ring

theorem forged_runs {P : PoseidonParams (ZMod r)} {leaf0 s0 root : ZMod r} {sib : List (ZMod r)} {b0 : Bool} {path : List Bool} {n : Nat}
    (h1 : sib.length = n) (h2 : path.length = n)
    (hauth : Poseidon.merkleProofRoot leaf0 (s0 :: sib) (b0 :: path) P = .ok root) (leaf : ZMod r) (hne : 2 * leaf ≠ leaf0 + s0)
    (be : Backend) :
    ∃ a s, (forgedCircuit P (n + 1) (root, leaf) (forgedSibling leaf0 s0 leaf :: sib)
      (forgedDirection leaf0 s0 b0 leaf :: path.map fun b => if b then 1 else 0)).run (CS.new be) = .ok (a, s) ∧ s.Honest := by
  unfold Poseidon.merkleProofRoot at hauth
  rw [List.zip_cons_cons, Poseidon.proofLoop] at hauth
  obtain ⟨dirs, hd⟩ : ∃ d : List (ZMod r), d = path.map fun b => if b then 1 else 0 := ⟨_, rfl⟩
  rw [← hd]
  have key : Runs (CS.new be) (forgedCircuit P (n + 1) (root, leaf) (forgedSibling leaf0 s0 leaf :: sib)
      (forgedDirection leaf0 s0 b0 leaf :: dirs)) (fun _ _ => True) := by
    refine Runs.bind (Runs.bind (runs_alloc (CS.honest_new be) root) fun x s1 e1 h1 hx =>
      Runs.bind (runs_alloc h1 leaf) fun y s2 e2 h2 hy => Runs.pure (Q := fun (a : CNum (ZMod r) × CNum (ZMod r)) s' =>
        Has s' a.1 root ∧ Has s' a.2 leaf) h2 ⟨hx.1.mono e2, hy.1⟩) fun (a : CNum (ZMod r) × CNum (ZMod r)) s2 _ hs2 ha => ?_
    obtain ⟨hx, hy⟩ := ha
    refine Runs.bind (Runs.bind (runs_allocVec hs2 (forgedSibling leaf0 s0 leaf :: sib) (by simp [h1])) fun u s3 e3 h3 hu =>
      Runs.bind (runs_allocVec (n := n + 1) h3 (forgedDirection leaf0 s0 b0 leaf :: dirs) (by simp [hd, h2]))
        fun v s4 e4 h4 hv => Runs.pure (Q := fun (b : SizedVec (CNum (ZMod r)) (n + 1) × SizedVec (CNum (ZMod r)) (n + 1)) s' =>
          List.Forall₂ (fun a v => Has s' a v ∧ a.asConst = none) b.1.items (forgedSibling leaf0 s0 leaf :: sib) ∧
          List.Forall₂ (fun a v => Has s' a v ∧ a.asConst = none) b.2.items
            (forgedDirection leaf0 s0 b0 leaf :: dirs)) h4
          ⟨List.Forall₂.imp (fun _ _ h => ⟨h.1.mono e4, h.2⟩) hu, hv⟩)
      fun (b : SizedVec (CNum (ZMod r)) (n + 1) × SizedVec (CNum (ZMod r)) (n + 1)) s4 e4 hs4 hb => ?_
    obtain ⟨⟨us⟩, ⟨vs⟩⟩ := b
    obtain ⟨hu, hv⟩ := hb
    refine Runs.bind (Q := fun _ _ => True) ?_ fun _ s5 e5 hs5 _ => ?_
    · show Runs s4 (memberMain P (n + 1) a (⟨us⟩, ⟨vs.map CBool.mk⟩)) _
      simp only at hu hv
      cases hu with
      | @cons u _ us _ hu hus =>
        cases hv with
        | @cons v _ vs _ hv hvs =>
          have hx4 := hx.mono e4
          have hy4 := hy.mono e4
          refine Runs.bind (Q := fun z s' => Has s' z root) ?_ fun z s5 e5 hs5 hz => runs_assertEq hs5 (hx4.mono e5) hz
          show Runs s4 (CPoseidon.proofLoop P a.2 ((⟨v⟩, u) :: (vs.map CBool.mk).zip us)) _
          have hsw := runs_switch_gen (b := ⟨v⟩) hs4 hu.1 hy4 hv.1 (fun h => absurd hv.2 h)
          rw [forged_first leaf0 s0 b0 leaf hne] at hsw
          refine Runs.bind hsw fun first s5 e5 hs5 hf => ?_
          have hsec := has_sub (has_add (hy4.mono e5) (hu.1.mono e5)) hf
          cases hp : Poseidon.poseidon (if b0 = true then [s0, leaf0] else [leaf0, s0]) P with
          | error e => rw [hp] at hauth; cases hauth
          | ok h =>
            rw [hp] at hauth
            have hpair : (if b0 = true then [s0, leaf0] else [leaf0, s0]) =
              [(if b0 = true then s0 else leaf0), leaf + forgedSibling leaf0 s0 leaf - (if b0 = true then s0 else leaf0)] := by
              unfold forgedSibling
              cases b0 <;> simp
            refine Runs.bind (CPoseidon.runs_poseidon P hs5 (.cons hf (.cons hsec .nil)) (hpair ▸ hp)) fun z s6 e6 hs6 hz => ?_
            refine CPoseidon.runs_proofLoop P _ (path.zip sib) hs6 ?_ hz hauth
            subst hd
            have e56 := e5.trans e6
            clear hauth h1 h2 hpair hp hsec hf hsw
            induction vs generalizing us path sib with
            | nil =>
              cases path with
              | nil => exact .nil
              | cons => cases hvs
            | cons v' vs ih =>
              cases path with
              | nil => cases hvs
              | cons b path =>
                cases us with
                | nil =>
                  cases hus
                  exact .nil
                | cons u' us =>
                  cases hus with
                  | cons hu' hus =>
                    cases hvs with
                    | cons hv' hvs => exact .cons ⟨hv'.1.mono e56, hu'.1.mono e56⟩ (ih hus hvs)
    · refine Runs.bind (Q := fun _ _ => True) (Runs.bind (runs_inputize hs5 ((hx.mono e4).mono e5)) fun _ s6 e6 hs6 _ =>
        (runs_inputize hs6 (((hy.mono e4).mono e5).mono e6)).mono fun _ _ _ _ _ => trivial) fun _ s7 e7 hs7 _ => Runs.pure hs7 trivial
  obtain ⟨a, s, h, -, hs, -⟩ := key
  exact ⟨a, s, h, hs⟩

/-- C89: how to cheat.  From any authentic proof of any leaf, a proof for any other public leaf with the same root can be made, with one
exception, and `verify` accepts it. -/
theorem C89_forgery {K : TwoAdic (ZMod r)} (hK : LawfulTwoAdic K) (P : PoseidonParams (ZMod r)) (n : Nat)
    (a0 : CNum (ZMod r) × CNum (ZMod r)) (s0 : CS (ZMod r))
    (hset : (memberCircuit P (n + 1) none none).run (CS.new .setup) = .ok (a0, s0)) :
    ∃ bad : Finset (ZMod r), bad.card ≤ 2 * (s0.cons.length + s0.ninputs) * (2 * (s0.ninputs + s0.naux) + 1) ∧
      ∀ {G1 G2 T : Type} [AddCommGroup G1] [AddCommGroup G2] [DecidableEq G1] [DecidableEq G2] [CommMonoid T] [DecidableEq T]
        {E : Engine G1 G2 T} {e : G1 → G2 → Tˣ} (_ : PairingEngine E e) (_ : ∀ a b b', e a (b + b') = e a b * e a b')
        (t : Toxic G1 G2 r) (_ : r • t.g1 = 0) (_ : r • t.g2 = 0) (_ : t.g1 ≠ 0) (_ : t.g2 ≠ 0) (_ : t.tau ∉ bad)
        (params : Parameters G1 G2) (_ : generateKeys K t (memberCircuit P (n + 1) none none) = .ok params)
        (root leaf0 sib0 : ZMod r) (sibling : List (ZMod r)) (b0 : Bool) (path : List Bool) (_ : sibling.length = n) (_ : path.length = n)
        (_ : Poseidon.merkleProofRoot leaf0 (sib0 :: sibling) (b0 :: path) P = .ok root)
        (leaf : ZMod r) (_ : 2 * leaf ≠ leaf0 + sib0) (x y : ZMod r),
        ∃ proof, prove K params x y (forgedCircuit P (n + 1) (root, leaf) (forgedSibling leaf0 sib0 leaf :: sibling)
            (forgedDirection leaf0 sib0 b0 leaf :: path.map fun b => if b then 1 else 0)) = .ok proof ∧
          verify E (truncate params.vk) proof [root, leaf] = .ok (.ok true) := by
  have hm := member_generated P (n + 1) none none none
  have hp := sameRun_generated (.pair .num .num) (.pair (.vec (n + 1) .num) (.vec (n + 1) .bool)) (memberCode (n + 1) P) none none
  have hset' : (generated (.pair .num .num) (.pair (.vec (n + 1) .num) (.vec (n + 1) .num)) (memberCode (n + 1) P) none none none).run
      (CS.new .setup) = .ok (a0, s0) := by
    have e := (hm.run_eq (CS.new .setup)).trans (hp.run_eq (CS.new .setup))
    exact e.symm.trans hset
  obtain ⟨fit, quiet⟩ := memberCode_fits (n + 1) P
  obtain ⟨bad, hcard, hbad⟩ := C67_accepts_public hK (.pair .num .num) (.pair (.vec (n + 1) .num) (.vec (n + 1) .num)) (by simp [Ty.width])
    (memberCode (n + 1) P) fit quiet a0 s0 hset'
  refine ⟨bad, hcard, ?_⟩
  intro G1 G2 T _ _ _ _ _ _ E e hE hr t h1 h2 n1 n2 ht params hk root leaf0 sib0 sibling b0 path l1 l2 hauth leaf hne x y
  have hk' : generateKeys K t (generated (.pair .num .num) (.pair (.vec (n + 1) .num) (.vec (n + 1) .num)) (memberCode (n + 1) P)
      none none none) = .ok params := by
    exact ((generateKeys_sameRun K t hm).trans (generateKeys_sameRun K t hp)).symm.trans hk
  obtain ⟨a, s, hrun, hs⟩ := forged_runs l1 l2 hauth leaf hne .prove
  have hf := forged_generated P (n + 1) (some ()) (root, leaf) (forgedSibling leaf0 sib0 leaf :: sibling)
    (forgedDirection leaf0 sib0 b0 leaf :: path.map fun b => if b then 1 else 0)
  rw [hf.run_eq] at hrun
  obtain ⟨proof, inputs, q1, q2, q3⟩ := hbad hE hr t h1 h2 n1 n2 ht params hk' () (root, leaf) ⟨trivial, trivial⟩ _ a s hrun hs.sat x y
  refine ⟨proof, (prove_sameRun K params x y hf).trans q1, ?_⟩
  have q4 := (keys_of_run (G1 := G1) (G2 := G2) (P := .pair .num .num) fit quiet (p := (root, leaf)) ⟨trivial, trivial⟩ hrun).2.2.1
  rw [q2] at q4
  injection q4 with q4; injection q4 with q4
  rw [q4] at q3
  exact q3

/-! ### Asserting the directions -/

theorem cost_asserts (l : List (CBool (ZMod r))) : Cost (listForM CBool.assert l) l.length := by
  induction l with
  | nil => exact Cost.pure
  | cons b l ih => exact (Cost.bind (cost_assertBit b.num) fun _ => ih).mono (by simp; omega)

theorem spec_asserts {w : Index → ZMod r} (hw : IsAssignment w) (l : List (CBool (ZMod r))) (s : CS (ZMod r)) :
    Spec w s (listForM CBool.assert l)
      (fun _ _ => ∃ bs : List Bool, List.Forall₂ (fun (c : CBool (ZMod r)) b => c.num.lc.eval w = if b = true then 1 else 0) l bs) := by
  induction l generalizing s with
  | nil => exact Spec.pure fun _ => ⟨[], .nil⟩
  | cons c l ih =>
    refine Spec.bind (spec_assertBit hw c.num) fun _ s1 _ hc => (ih s1).mono fun _ _ _ h => ?_
    obtain ⟨bs, h⟩ := h
    rcases hc with hc | hc
    · exact ⟨false :: bs, .cons (by simpa using hc) h⟩
    · exact ⟨true :: bs, .cons (by simpa using hc) h⟩

/-- C89, with the directions asserted to be bits (`path[i].assert()` before the use of the gadget): whoever makes an accepted proof by
combining the points of the keys knows a proof of membership for the public root and leaf, except for few secrets of the key generator.
Missing from `C89_full`: the circuit without these assertions, where it is false. -/
theorem C89_asserted_partial {K : TwoAdic (ZMod r)} (hK : LawfulTwoAdic K) (P : PoseidonParams (ZMod r)) (n : Nat)
    (a0 : CNum (ZMod r) × CNum (ZMod r)) (s0 : CS (ZMod r))
    (hset : (checkedCircuit P n none none).run (CS.new .setup) = .ok (a0, s0)) (S : AlgebraicProver r) (inputs : List (ZMod r)) :
    ∃ bad : Finset (ZMod r × ZMod r × ZMod r × ZMod r × ZMod r),
      bad.card ≤ (4 * (s0.cons.length + 3) * (s0.naux + 5) + 8) * r ^ 4 ∧
      ∀ {G1 G2 T : Type} [AddCommGroup G1] [AddCommGroup G2] [DecidableEq G1] [DecidableEq G2] [CommMonoid T] [DecidableEq T]
        {E : Engine G1 G2 T} {e : G1 → G2 → Tˣ} (_ : PairingEngine E e) (_ : ∀ a b b', e a (b + b') = e a b * e a b')
        (t : Toxic G1 G2 r) (_ : r • t.g1 = 0) (_ : r • t.g2 = 0) (_ : e t.g1 t.g2 ≠ 1)
        (_ : (t.alpha, t.beta, t.gamma, t.delta, t.tau) ∉ bad) (params : Parameters G1 G2)
        (_ : generateKeys K t (checkedCircuit P n none none) = .ok params),
        verify E (truncate params.vk) (S.proof t.g1 t.g2 params) inputs = .ok (.ok true) →
          ∃ root leaf sibling path, inputs = [root, leaf] ∧ sibling.length = n ∧ path.length = n ∧
            S.secrets (.pair .num .num) (.pair (.vec n .num) (.vec n .bool)) = sibling ++ path.map (fun b => if b then 1 else 0) ∧
            Poseidon.merkleProofRoot leaf sibling path P = .ok root := by
  let R (inputs secrets : List (ZMod r)) : Prop := ∃ root leaf sibling path, inputs = [root, leaf] ∧ sibling.length = n ∧
    path.length = n ∧ secrets = sibling ++ path.map (fun b => if b then 1 else 0) ∧
    Poseidon.merkleProofRoot leaf sibling path P = .ok root
  have hR : ∀ (a : (Ty.pair .num .num).S (ZMod r)) (b : (Ty.pair (.vec n .num) (.vec n .bool)).S (ZMod r)) (s s' : CS (ZMod r)) (w : Index → ZMod r),
      (Ty.pair .num .num).ok (ZMod r) a → (Ty.pair (.vec n .num) (.vec n .bool)).ok (ZMod r) b → s.WF →
      (∀ x ∈ (Ty.pair .num .num).linearize a ++ (Ty.pair (.vec n .num) (.vec n .bool)).linearize b, x.lc.Alloc s ∧ Varies x) →
      IsAssignment w → (checkedMain P n a b).run s = .ok ((), s') → s'.Sat w →
      R ((Ty.pair .num .num).evals w a) ((Ty.pair (.vec n .num) (.vec n .bool)).evals w b) := by
    intro a b s s' w _ hb _ _ hw h hs
    obtain ⟨⟨hb1, -⟩, hb2, -⟩ := hb
    have key : ∀ (a : CNum (ZMod r) × CNum (ZMod r)) (b : SizedVec (CNum (ZMod r)) n × SizedVec (CBool (ZMod r)) n),
        b.1.items.length = n → b.2.items.length = n → (checkedMain P n a b).run s = .ok ((), s') →
        R [a.1.lc.eval w, a.2.lc.eval w] (b.1.items.map (fun x => x.lc.eval w) ++ b.2.items.map fun x => x.num.lc.eval w) := by
      intro a b hb1 hb2 h
      obtain ⟨_, s1, h1, h⟩ := M.bind_ok h
      obtain ⟨z, s2, h2, h3⟩ := M.bind_ok h
      have t2 := (M.run_ext h3).sat hs
      have t1 := (M.run_ext h2).sat t2
      obtain ⟨bs, hbs⟩ := spec_asserts hw _ _ _ _ h1 t1
      have e := spec_assertEq hw _ _ _ _ h3 hs
      have hroot := C21_sound P a.2 b.1.items b.2.items bs s1 s2 z w hw (hb2.trans hb1.symm) hbs h2 t2
      refine ⟨_, _, b.1.items.map (fun x => x.lc.eval w), bs, rfl, by simpa using hb1, (List.Forall₂.length_eq hbs).symm.trans hb2, ?_, ?_⟩
      · congr 1
        clear hroot h1 h2 h hb2
        generalize b.2.items = l at hbs ⊢
        induction hbs with
        | nil => rfl
        | cons hc _ ih => rw [List.map_cons, List.map_cons, hc, ih]
      · rw [hroot]
        exact congrArg Except.ok e.symm
    have := key a b hb1 hb2 h
    have e1 : (Ty.pair .num .num).evals w a = [a.1.lc.eval w, a.2.lc.eval w] := rfl
    have e2 : (Ty.pair (.vec n .num) (.vec n .bool)).evals w b =
        (b.1.items.map (fun x => CNum.lc x |>.eval w) ++ b.2.items.map fun x => (CBool.num x).lc.eval w) := by
      refine (Ty.evals_pair _ _ w b).trans ?_
      exact congrArg₂ (· ++ ·) ((Ty.evals_vec n .num w b.1).trans (List.map_eq_flatMap (f := fun x : CNum (ZMod r) => x.lc.eval w) (l := b.1.items)).symm)
        ((Ty.evals_vec n .bool w b.2).trans (List.map_eq_flatMap (f := fun x : CBool (ZMod r) => x.num.lc.eval w) (l := b.2.items)).symm)
    rw [e1, e2]
    exact this
  obtain ⟨bad, hcard, hbad⟩ := C87_knowledge hK (.pair .num .num) (.pair (.vec n .num) (.vec n .bool)) (checkedMain P n)
    (fun a b s s' h hs => (Cost.bind (cost_asserts _) fun _ => Cost.bind (CPoseidon.cost_proofLoop P _ _) fun _ => cost_assertZero _ :
      Cost (checkedMain P n a b) _) s () s' h |>.2 rfl hs) R hR a0 s0 hset S inputs
  refine ⟨bad, ?_, ?_⟩
  · refine hcard.trans (Nat.le_of_eq ?_)
    simp only [Ty.width]
    ring
  · intro G1 G2 T _ _ _ _ _ _ E e hE hr t h1 h2 hne ht params hk hv
    exact (hbad hE hr t h1 h2 hne ht params hk hv).2

def checks (c : Code r Unit) : List Nat → Code r Unit
  | [] => c
  | i :: is => .call (.prim (.assertBit i)) fun _ => checks c is

theorem checks_exec (c : Code r Unit) (w : Option Unit) (q : List (CNum (ZMod r))) (n k : Nat) (h : k + n ≤ q.length) :
    (checks c (List.range' k n)).exec w q = (do listForM CNum.assertBit ((q.drop k).take n); c.exec w q) := by
  induction n generalizing k with
  | zero => simp [checks, listForM]
  | succ n ih =>
    have hk : reg q k = (pure q[k] : M (ZMod r) (CNum (ZMod r))) := by
      unfold reg; rw [List.getElem?_eq_getElem (by omega)]
    rw [List.range'_succ, checks, List.drop_eq_getElem_cons (show k < q.length by omega), List.take_succ_cons]
    simp only [Code.exec, Call.exec, Op.exec, listForM, hk, pure_bind, bind_assoc]
    congr 1
    funext _
    exact ih (k + 1) (by omega)

theorem asserts_num (l : List (CBool (ZMod r))) : listForM CBool.assert l = listForM CNum.assertBit (l.map CBool.num) := by
  induction l with
  | nil => rfl
  | cons b l ih => rw [List.map_cons, listForM, listForM, ih]; rfl

def checkedCode (n : Nat) (P : PoseidonParams (ZMod r)) : Code r Unit := checks (memberCode n P) (List.range' (2 + n) n)

theorem checkedCode_fits (n : Nat) (P : PoseidonParams (ZMod r)) : (checkedCode n P).WidthsFit ∧ (checkedCode n P).Quiet := by
  unfold checkedCode
  generalize List.range' (2 + n) n = l
  induction l with
  | nil => exact memberCode_fits n P
  | cons i l ih => exact ⟨⟨trivial, fun _ => ih.1⟩, ⟨rfl, fun _ => ih.2⟩⟩

theorem checked_main (P : PoseidonParams (ZMod r)) (n : Nat) (w : Option Unit) (x y : CNum (ZMod r)) (sib : SizedVec (CNum (ZMod r)) n)
    (path : SizedVec (CBool (ZMod r)) n) (h1 : sib.items.length = n) (h2 : path.items.length = n) :
    checkedMain P n (x, y) (sib, path) = (do
      let _ ← (checkedCode n P).exec w ((Ty.pair .num .num).linearize (F := ZMod r) (x, y) ++
        (Ty.pair (.vec n .num) (.vec n .bool)).linearize (F := ZMod r) (sib, path))) := by
  have e1 : (Ty.pair .num .num).linearize (F := ZMod r) (x, y) ++
      (Ty.pair (.vec n .num) (.vec n .bool)).linearize (F := ZMod r) (sib, path) =
      x :: y :: (sib.items ++ path.items.map CBool.num) := by
    show [x] ++ [y] ++ (sib.items.flatMap (fun a => [a]) ++ path.items.flatMap fun a => [a.num]) = _
    simp [List.flatMap_singleton', ← List.map_eq_flatMap]
  have hm := member_main P n w x y sib path h1 h2
  unfold checkedMain checkedCode
  rw [hm, e1, checks_exec _ _ _ _ _ (by simp; omega), asserts_num]
  have e2 : (((x :: y :: (sib.items ++ path.items.map CBool.num)).drop (2 + n)).take n) = path.items.map CBool.num := by
    rw [show 2 + n = n + 2 by omega]
    have : (path.items.map CBool.num).length = n := by simpa using h2
    simp only [List.drop_succ_cons]
    rw [List.drop_append, List.drop_of_length_le (Nat.le_of_eq h1), h1, Nat.sub_self, List.drop_zero, List.nil_append,
      List.take_of_length_le (Nat.le_of_eq this)]
  rw [e2, bind_assoc]

theorem checked_generated (P : PoseidonParams (ZMod r)) (n : Nat) (w : Option Unit) (p : Option (ZMod r × ZMod r))
    (q : Option (SizedVec (ZMod r) n × SizedVec Bool n)) :
    SameRun Eq (checkedCircuit P n p q)
      (generated (.pair .num .num) (.pair (.vec n .num) (.vec n .bool)) (checkedCode n P) w p q) :=
  sameRun_synthesize (F := ZMod r) (.pair .num .num) (.pair (.vec n .num) (.vec n .bool)) _ _ p q fun a b hb =>
    checked_main P n w a.1 a.2 b.1 b.2 hb.1.1 hb.2.1

theorem runs_allocBools {s : CS (ZMod r)} (hs : s.Honest) (vs : List Bool) :
    Runs s (listMapM (fun x => CBool.alloc (some x)) vs)
      (fun l s' => List.Forall₂ (fun (a : CBool (ZMod r)) v => Has s' a.num (if v = true then 1 else 0)) l vs) := by
  induction vs generalizing s with
  | nil => exact Runs.pure hs .nil
  | cons v vs ih =>
    refine Runs.bind (Q := fun (a : CBool (ZMod r)) s' => Has s' a.num (if v = true then 1 else 0)) (Runs.bind (runs_alloc hs (boolToF v)) fun a s1 _ h1 ha => Runs.pure h1 ha.1) fun a s1 e1 h1 ha => ?_
    refine Runs.bind (ih h1) fun l s2 e2 h2 hl => ?_
    exact Runs.pure h2 (.cons (ha.mono e2) hl)

theorem runs_allocBoolVec {s : CS (ZMod r)} (hs : s.Honest) {n : Nat} (vs : List Bool) (hn : vs.length = n) :
    Runs s ((Ty.vec n .bool).alloc (some (⟨vs⟩ : SizedVec Bool n)))
      (fun a s' => List.Forall₂ (fun (a : CBool (ZMod r)) v => Has s' a.num (if v = true then 1 else 0))
        (a : SizedVec (CBool (ZMod r)) n).items vs) := by
  refine Runs.bind (runs_allocBools hs vs) fun (l : List (CBool (ZMod r))) s1 e1 h1 hl => ?_
  exact Runs.lift (a := (⟨l⟩ : SizedVec (CBool (ZMod r)) n)) h1 (if_pos ((List.Forall₂.length_eq hl).trans hn)) hl

theorem runs_asserts (l : List (CBool (ZMod r))) : ∀ (s : CS (ZMod r)) (_ : s.Honest) (bs : List Bool)
    (_ : List.Forall₂ (fun (c : CBool (ZMod r)) b => Has s c.num (if b = true then 1 else 0)) l bs),
    Runs s (listForM CBool.assert l) (fun _ _ => True) := by
  induction l with
  | nil => exact fun s hs bs h => Runs.pure hs trivial
  | cons c l ih =>
    intro s hs bs h
    cases h with
    | @cons _ b _ bs hc hl =>
      exact Runs.bind (runs_assertBit hs hc (by cases b <;> simp)) fun _ s1 e1 h1 _ =>
        ih s1 h1 bs (List.Forall₂.imp (fun _ _ h => h.mono e1) hl)

theorem checked_runs {P : PoseidonParams (ZMod r)} {leaf root : ZMod r} {sib : List (ZMod r)} {path : List Bool} {n : Nat}
    (h1 : sib.length = n) (h2 : path.length = n) (hauth : Poseidon.merkleProofRoot leaf sib path P = .ok root) (be : Backend) :
    ∃ a s, (checkedCircuit P n (some (root, leaf)) (some (⟨sib⟩, ⟨path⟩))).run (CS.new be) = .ok (a, s) ∧ s.Honest := by
  have key : Runs (CS.new be) (checkedCircuit P n (some (root, leaf)) (some (⟨sib⟩, ⟨path⟩))) (fun _ _ => True) := by
    refine Runs.bind (Runs.bind (runs_alloc (CS.honest_new be) root) fun x s1 e1 h1 hx =>
      Runs.bind (runs_alloc h1 leaf) fun y s2 e2 h2 hy => Runs.pure (Q := fun (a : CNum (ZMod r) × CNum (ZMod r)) s' =>
        Has s' a.1 root ∧ Has s' a.2 leaf) h2 ⟨hx.1.mono e2, hy.1⟩) fun (a : CNum (ZMod r) × CNum (ZMod r)) s2 _ hs2 ha => ?_
    obtain ⟨hx, hy⟩ := ha
    refine Runs.bind (Runs.bind (runs_allocVec hs2 sib h1) fun u s3 e3 h3 hu =>
      Runs.bind (runs_allocBoolVec (n := n) h3 path h2)
        fun v s4 e4 h4 hv => Runs.pure (Q := fun (b : SizedVec (CNum (ZMod r)) n × SizedVec (CBool (ZMod r)) n) s' =>
          List.Forall₂ (Has s') b.1.items sib ∧
          List.Forall₂ (fun (c : CBool (ZMod r)) b => Has s' c.num (if b = true then 1 else 0)) b.2.items path) h4
          ⟨List.Forall₂.imp (fun _ _ h => h.1.mono e4) hu, hv⟩)
      fun (b : SizedVec (CNum (ZMod r)) n × SizedVec (CBool (ZMod r)) n) s4 e4 hs4 hb => ?_
    obtain ⟨hu, hv⟩ := hb
    refine Runs.bind (Q := fun _ _ => True) ?_ fun _ s5 e5 hs5 _ => ?_
    · show Runs s4 (checkedMain P n a b) _
      refine Runs.bind (runs_asserts _ s4 hs4 path hv) fun _ s5 e5 hs5 _ => ?_
      have e5' : s4.Ext s5 := e5
      refine Runs.bind (Q := fun z s' => Has s' z root) ?_ fun z s6 e6 hs6 hz =>
        runs_assertEq hs6 (((hx.mono e4).mono e5).mono e6) hz
      obtain ⟨z, s6, q1, q2, q3⟩ := C21_complete P a.2 b.1.items b.2.items leaf sib path s5 hs5 ((hy.mono e4).mono e5)
        (List.Forall₂.imp (fun _ _ h => h.mono e5) hu) (List.Forall₂.imp (fun _ _ h => h.mono e5) hv) root hauth
      exact ⟨z, s6, q1, M.run_ext q1, q2, q3⟩
    · refine Runs.bind (Q := fun _ _ => True) (Runs.bind (runs_inputize hs5 ((hx.mono e4).mono e5)) fun _ s6 e6 hs6 _ =>
        (runs_inputize hs6 (((hy.mono e4).mono e5).mono e6)).mono fun _ _ _ _ _ => trivial) fun _ s7 e7 hs7 _ => Runs.pure hs7 trivial
  obtain ⟨a, s, h, -, hs, -⟩ := key
  exact ⟨a, s, h, hs⟩

/-- C89: the assertions do not get in the way.  Whoever has an authentic proof for the public root and leaf can prove it, and `verify`
accepts the proof, unless the secret point of the key generator is one of few. -/
theorem C89_complete {K : TwoAdic (ZMod r)} (hK : LawfulTwoAdic K) (P : PoseidonParams (ZMod r)) (n : Nat)
    (a0 : CNum (ZMod r) × CNum (ZMod r)) (s0 : CS (ZMod r)) (hset : (checkedCircuit P n none none).run (CS.new .setup) = .ok (a0, s0)) :
    ∃ bad : Finset (ZMod r), bad.card ≤ 2 * (s0.cons.length + s0.ninputs) * (2 * (s0.ninputs + s0.naux) + 1) ∧
      ∀ {G1 G2 T : Type} [AddCommGroup G1] [AddCommGroup G2] [DecidableEq G1] [DecidableEq G2] [CommMonoid T] [DecidableEq T]
        {E : Engine G1 G2 T} {e : G1 → G2 → Tˣ} (_ : PairingEngine E e) (_ : ∀ a b b', e a (b + b') = e a b * e a b')
        (t : Toxic G1 G2 r) (_ : r • t.g1 = 0) (_ : r • t.g2 = 0) (_ : t.g1 ≠ 0) (_ : t.g2 ≠ 0) (_ : t.tau ∉ bad)
        (params : Parameters G1 G2) (_ : generateKeys K t (checkedCircuit P n none none) = .ok params)
        (root leaf : ZMod r) (sibling : List (ZMod r)) (path : List Bool) (_ : sibling.length = n) (_ : path.length = n)
        (_ : Poseidon.merkleProofRoot leaf sibling path P = .ok root) (x y : ZMod r),
        ∃ proof, prove K params x y (checkedCircuit P n (some (root, leaf)) (some (⟨sibling⟩, ⟨path⟩))) = .ok proof ∧
          verify E (truncate params.vk) proof [root, leaf] = .ok (.ok true) := by
  have hm := checked_generated P n none none none
  have hset' := (hm.run_eq (CS.new .setup)).symm.trans hset
  obtain ⟨fit, quiet⟩ := checkedCode_fits n P
  obtain ⟨bad, hcard, hbad⟩ := C67_accepts_public hK (.pair .num .num) (.pair (.vec n .num) (.vec n .bool)) (by simp [Ty.width])
    (checkedCode n P) fit quiet a0 s0 hset'
  refine ⟨bad, hcard, ?_⟩
  intro G1 G2 T _ _ _ _ _ _ E e hE hr t h1 h2 n1 n2 ht params hk root leaf sibling path l1 l2 hauth x y
  have hk' := (generateKeys_sameRun K t hm).symm.trans hk
  obtain ⟨a, s, hrun, hs⟩ := checked_runs l1 l2 hauth .prove
  have hf := checked_generated P n (some ()) (some (root, leaf)) (some (⟨sibling⟩, ⟨path⟩))
  rw [hf.run_eq] at hrun
  obtain ⟨proof, inputs, q1, q2, q3⟩ := hbad hE hr t h1 h2 n1 n2 ht params hk' () (root, leaf) ⟨trivial, trivial⟩ _ a s hrun hs.sat x y
  refine ⟨proof, (prove_sameRun K params x y hf).trans q1, ?_⟩
  have q4 := (keys_of_run (G1 := G1) (G2 := G2) (P := .pair .num .num) fit quiet (p := (root, leaf)) ⟨trivial, trivial⟩ hrun).2.2.1
  rw [q2] at q4
  injection q4 with q4; injection q4 with q4
  rw [q4] at q3
  exact q3

/-! ### The forger as a prover that combines points of the keys -/

/-- C89: the forger of `C89_forgery` is one of the provers of C84, who only combine points of the keys. -/
theorem C89_forger {K : TwoAdic (ZMod r)} (hK : LawfulTwoAdic K) (P : PoseidonParams (ZMod r)) (n : Nat)
    (a0 : CNum (ZMod r) × CNum (ZMod r)) (s0 : CS (ZMod r))
    (hset : (memberCircuit P (n + 1) none none).run (CS.new .setup) = .ok (a0, s0))
    (root leaf0 sib0 : ZMod r) (sibling : List (ZMod r)) (b0 : Bool) (path : List Bool) (l1 : sibling.length = n) (l2 : path.length = n)
    (hauth : Poseidon.merkleProofRoot leaf0 (sib0 :: sibling) (b0 :: path) P = .ok root)
    (leaf : ZMod r) (hne : 2 * leaf ≠ leaf0 + sib0) :
    ∃ (bad : Finset (ZMod r)) (S : AlgebraicProver r),
      bad.card ≤ 4 * (s0.cons.length + s0.ninputs) * (2 * (s0.ninputs + s0.naux) + 1) ∧
      ∀ {G1 G2 T : Type} [AddCommGroup G1] [AddCommGroup G2] [DecidableEq G1] [DecidableEq G2] [CommMonoid T] [DecidableEq T]
        {E : Engine G1 G2 T} {e : G1 → G2 → Tˣ} (_ : PairingEngine E e) (_ : ∀ a b b', e a (b + b') = e a b * e a b')
        (t : Toxic G1 G2 r) (_ : r • t.g1 = 0) (_ : r • t.g2 = 0) (_ : t.g1 ≠ 0) (_ : t.g2 ≠ 0) (_ : t.tau ∉ bad)
        (params : Parameters G1 G2) (_ : generateKeys K t (memberCircuit P (n + 1) none none) = .ok params),
        verify E (truncate params.vk) (S.proof t.g1 t.g2 params) [root, leaf] = .ok (.ok true) := by
  have hm := member_generated P (n + 1) none none none
  have hp := sameRun_generated (.pair .num .num) (.pair (.vec (n + 1) .num) (.vec (n + 1) .bool)) (memberCode (n + 1) P) none none
  have hset' : (generated (.pair .num .num) (.pair (.vec (n + 1) .num) (.vec (n + 1) .num)) (memberCode (n + 1) P) none none none).run
      (CS.new .setup) = .ok (a0, s0) := by
    have e := (hm.run_eq (CS.new .setup)).trans (hp.run_eq (CS.new .setup))
    exact e.symm.trans hset
  obtain ⟨fit, quiet⟩ := memberCode_fits (n + 1) P
  obtain ⟨bad, hcard, hbad⟩ := C89_forgery hK P n a0 s0 hset
  obtain ⟨a, s, hrun, hs⟩ := forged_runs l1 l2 hauth leaf hne .prove
  have hf := forged_generated P (n + 1) (some ()) (root, leaf) (forgedSibling leaf0 sib0 leaf :: sibling)
    (forgedDirection leaf0 sib0 b0 leaf :: path.map fun b => if b then 1 else 0)
  rw [hf.run_eq] at hrun
  obtain ⟨hi, ha, hcons, -⟩ := shape_of_run fit hset' hrun
  have hl : s.cons.length = s0.cons.length := by simpa using congrArg List.length hcons
  obtain ⟨bad', hcard', S, inputs, -, -, hS⟩ := C84_honest hK (.pair .num .num) (.pair (.vec (n + 1) .num) (.vec (n + 1) .num))
    (memberCode (n + 1) P) fit quiet () (root, leaf) ⟨trivial, trivial⟩ _ a s hrun 0 0
  rw [hl, hi, ha] at hcard'
  refine ⟨bad ∪ bad', S, (Finset.card_union_le _ _).trans (by linarith), ?_⟩
  intro G1 G2 T _ _ _ _ _ _ E e hE hr t h1 h2 n1 n2 ht params hk
  have hk' : generateKeys K t (generated (.pair .num .num) (.pair (.vec (n + 1) .num) (.vec (n + 1) .num)) (memberCode (n + 1) P)
      none none none) = .ok params := by
    exact ((generateKeys_sameRun K t hm).trans (generateKeys_sameRun K t hp)).symm.trans hk
  rw [Finset.mem_union, not_or] at ht
  obtain ⟨proof, q1, q2⟩ := hbad hE hr t h1 h2 n1 n2 ht.1 params hk root leaf0 sib0 sibling b0 path l1 l2 hauth leaf hne 0 0
  rw [← hS t h1 h2 n1 n2 ht.2 params hk' proof ((prove_sameRun K params 0 0 hf).symm.trans q1)]
  exact q2

/-! ### A tree in the field of 7681 elements -/

instance forgeFact : Fact (Nat.Prime 7681) := ⟨by norm_num⟩

/-- The field of 7681 elements has a root of unity of order 512. -/
def forgeK : TwoAdic (ZMod 7681) := ⟨9, 7146, 17⟩

theorem forgeK_lawful : LawfulTwoAdic forgeK := by
  have h := lawful_of_cert (r := 7681) 9 17 13 (by decide) (by decide) (by decide) (by decide) (by decide)
    (by decide) (by decide +kernel) (by decide +kernel)
  have e : (⟨9, ((17 : Nat) : ZMod 7681) ^ ((7681 - 1) / 2 ^ 9), ((17 : Nat) : ZMod 7681)⟩ : TwoAdic (ZMod 7681)) = forgeK := by
    unfold forgeK
    congr 1
  rwa [e] at h

/-- The hash `(a, b) ↦ a⁵ + b⁵`. -/
def forgeHash : PoseidonParams (ZMod 7681) := ⟨[0], [[1, 1], [1, 0]], 2, 1, 0⟩

theorem forgeHash_eq (a b : ZMod 7681) : Poseidon.poseidon [a, b] forgeHash = .ok (a ^ 5 + b ^ 5) := by
  have h : Poseidon.poseidon [a, b] forgeHash = .ok (0 + 1 * Poseidon.sigma (a + 0) + 1 * Poseidon.sigma (b + 0)) := rfl
  rw [h]
  unfold Poseidon.sigma
  congr 1
  ring

/-- The tree of the leaves 1 and 0 has the root 1; 2 is not a leaf of any tree of this depth with this root. -/
theorem not_member : ¬ IsMember forgeHash 1 1 2 := by
  rintro ⟨sibling, path, h1, h2, h⟩
  obtain ⟨x, rfl⟩ := List.length_eq_one_iff.1 h1
  obtain ⟨b, rfl⟩ := List.length_eq_one_iff.1 h2
  have hx : x ^ 5 = -31 := by
    have e : Poseidon.poseidon (if b then [x, 2] else [2, x]) forgeHash = .ok 1 := by
      have e : (Poseidon.poseidon (if b then [x, 2] else [2, x]) forgeHash >>= fun z => Except.ok z) = .ok 1 := h
      cases hp : Poseidon.poseidon (if b then [x, 2] else [2, x]) forgeHash with
      | ok z => rw [hp] at e; exact e
      | error z => rw [hp] at e; exact e
    have e2 : x ^ 5 + 2 ^ 5 = 1 := by
      cases b
      · rw [if_neg (by simp), forgeHash_eq] at e
        injection e with e
        rw [add_comm]; exact e
      · rw [if_pos rfl, forgeHash_eq] at e
        injection e
    linear_combination e2
  have hx0 : x ≠ 0 := by rintro rfl; exact absurd hx (by decide)
  have h3 : (x ^ 5) ^ 1536 = 1 := by rw [← pow_mul]; exact ZMod.pow_card_sub_one_eq_one hx0
  rw [hx] at h3
  exact absurd h3 (by decide +kernel)

def forgeState : CS (ZMod 7681) := match (memberCircuit forgeHash 1 none none).run (CS.new .setup) with
  | .ok (_, s) => s
  | .error _ => CS.new .setup

theorem forge_setup : ∃ a0, (memberCircuit forgeHash 1 none none).run (CS.new .setup) = .ok (a0, forgeState) := by
  have h : ((memberCircuit forgeHash 1 none none).run (CS.new .setup)).isOk = true := by decide +kernel
  unfold forgeState
  cases hr : (memberCircuit forgeHash 1 none none).run (CS.new .setup) with
  | ok p => exact ⟨p.1, rfl⟩
  | error e => rw [hr] at h; cases h

theorem forge_counts : forgeState.cons.length = 10 ∧ forgeState.ninputs = 3 ∧ forgeState.naux = 11 := by decide +kernel

theorem forge_used : AllUsed forgeState := by
  unfold AllUsed
  decide +kernel

/-- The pairing `(a, b) ↦ ab` of a field with itself, with values written additively. -/
def productPairing (a b : ZMod r) : (Multiplicative (ZMod r))ˣ := toUnits (Multiplicative.ofAdd (a * b))

def productEngine : Engine (ZMod r) (ZMod r) (Multiplicative (ZMod r)) where
  millerLoop l := ((l.map fun q => productPairing q.1 q.2).prod : (Multiplicative (ZMod r))ˣ)
  finalExponentiation t := some t

theorem productEngine_computes : PairingEngine (productEngine (r := r)) productPairing where
  product _ := rfl
  add_left a a' b := by unfold productPairing; rw [add_mul, ofAdd_add, map_mul]

theorem productPairing_right (a b b' : ZMod r) : productPairing a (b + b') = productPairing a b * productPairing a b' := by
  unfold productPairing; rw [mul_add, ofAdd_add, map_mul]

theorem productPairing_one : productPairing (1 : ZMod r) 1 ≠ 1 := by
  unfold productPairing
  rw [ne_eq, EmbeddingLike.map_eq_one_iff, ← ofAdd_zero, Multiplicative.ofAdd.injective.eq_iff]
  simp

/-- Secrets that avoid few secrets exist. -/
theorem exists_secrets (B1 : Finset (ZMod r × ZMod r × ZMod r × ZMod r × ZMod r)) (A : Finset (ZMod r))
    (B2 : Finset (ZMod r × ZMod r × ZMod r)) (h : B1.card + (A.card + 2) * r ^ 4 + B2.card * r ^ 2 < r ^ 5) :
    ∃ alpha beta gamma delta tau : ZMod r, gamma ≠ 0 ∧ delta ≠ 0 ∧ (alpha, beta, gamma, delta, tau) ∉ B1 ∧ tau ∉ A ∧
      (alpha, beta, tau) ∉ B2 := by
  classical
  have hcard : Fintype.card (ZMod r) = r := ZMod.card r
  by_contra hno
  push Not at hno
  let f1 : Finset (ZMod r × ZMod r × ZMod r × ZMod r × ZMod r) :=
    Finset.univ ×ˢ Finset.univ ×ˢ Finset.univ ×ˢ Finset.univ ×ˢ A
  let f2 : Finset (ZMod r × ZMod r × ZMod r × ZMod r × ZMod r) :=
    Finset.univ ×ˢ Finset.univ ×ˢ {0} ×ˢ Finset.univ ×ˢ Finset.univ
  let f3 : Finset (ZMod r × ZMod r × ZMod r × ZMod r × ZMod r) :=
    Finset.univ ×ˢ Finset.univ ×ˢ Finset.univ ×ˢ {0} ×ˢ Finset.univ
  let f4 : Finset (ZMod r × ZMod r × ZMod r × ZMod r × ZMod r) :=
    (B2 ×ˢ (Finset.univ : Finset (ZMod r × ZMod r))).image fun q => (q.1.1, q.1.2.1, q.2.1, q.2.2, q.1.2.2)
  have hcover : (Finset.univ : Finset (ZMod r × ZMod r × ZMod r × ZMod r × ZMod r)) ⊆ B1 ∪ (f1 ∪ (f2 ∪ (f3 ∪ f4))) := by
    rintro ⟨a, b, c, d, t⟩ -
    simp only [Finset.mem_union]
    by_cases h1 : (a, b, c, d, t) ∈ B1
    · exact .inl h1
    by_cases h2 : t ∈ A
    · exact .inr (.inl (by simp [f1, h2]))
    by_cases h3 : c = 0
    · exact .inr (.inr (.inl (by simp [f2, h3])))
    by_cases h4 : d = 0
    · exact .inr (.inr (.inr (.inl (by simp [f3, h4]))))
    · refine .inr (.inr (.inr (.inr (Finset.mem_image.2 ⟨((a, b, t), (c, d)), ?_, rfl⟩))))
      exact Finset.mem_product.2 ⟨hno a b c d t h3 h4 h1 h2, Finset.mem_univ _⟩
  have hle := Finset.card_le_card hcover
  have c1 : f1.card = A.card * r ^ 4 := by simp [f1, Finset.card_product, hcard]; ring
  have c2 : f2.card = r ^ 4 := by simp [f2, Finset.card_product, hcard]; ring
  have c3 : f3.card = r ^ 4 := by simp [f3, Finset.card_product, hcard]; ring
  have c4 : f4.card ≤ B2.card * r ^ 2 := by
    refine Finset.card_image_le.trans (Nat.le_of_eq ?_)
    rw [Finset.card_product, Finset.card_univ, Fintype.card_prod, hcard, pow_two]
  have c0 : (Finset.univ : Finset (ZMod r × ZMod r × ZMod r × ZMod r × ZMod r)).card = r ^ 5 := by
    simp only [Finset.card_univ, Fintype.card_prod, hcard]; ring
  have u1 := Finset.card_union_le B1 (f1 ∪ (f2 ∪ (f3 ∪ f4)))
  have u2 := Finset.card_union_le f1 (f2 ∪ (f3 ∪ f4))
  have u3 := Finset.card_union_le f2 (f3 ∪ f4)
  have u4 := Finset.card_union_le f3 f4
  rw [c0] at hle
  rw [c1] at u2
  rw [c2] at u3
  rw [c3] at u4
  have : (A.card + 2) * r ^ 4 = A.card * r ^ 4 + r ^ 4 + r ^ 4 := by ring
  omega

/-- C89 is false: in the field of 7681 elements, with a tree of depth one, a prover that combines points of the keys has proofs accepted
for a number that is in no tree with the given root, for most secrets of the key generator. -/
theorem C89_refuted : ¬ C89_full := by
  intro hfull
  obtain ⟨a0, hset⟩ := forge_setup
  obtain ⟨hc, hi, ha⟩ := forge_counts
  obtain ⟨A, S, hA, hforge⟩ := C89_forger forgeK_lawful forgeHash 0 a0 forgeState hset 1 1 0 [] false [] rfl rfl
    (by rw [show Poseidon.merkleProofRoot (1 : ZMod 7681) [0] [false] forgeHash = .ok 1 from by decide +kernel]) 2 (by decide)
  obtain ⟨B1, hB1, hsound⟩ := hfull 7681 forgeK forgeK_lawful forgeHash 1 a0 forgeState hset S [1, 2]
  have hm := member_generated forgeHash 1 none none none
  obtain ⟨B2, hB2, hkeys⟩ := C88_keys forgeK_lawful (.pair .num .num) (.pair (.vec 1 .num) (.vec 1 .bool)) (memberCode 1 forgeHash) a0 forgeState
    ((hm.run_eq (CS.new .setup)).symm.trans hset) forge_used (by rw [hc, hi]; decide)
  rw [hc, hi, ha] at hA hB2
  rw [hc, ha] at hB1
  obtain ⟨alpha, beta, gamma, delta, tau, hg, hd, n1, n2, n3⟩ := exists_secrets B1 A B2 (by
    have : B2.card * 7681 ^ 2 ≤ 286 * 7681 ^ 2 * 7681 ^ 2 := Nat.mul_le_mul_right _ hB2
    have : (A.card + 2) * 7681 ^ 4 ≤ 1510 * 7681 ^ 4 := Nat.mul_le_mul_right _ (by omega)
    omega)
  let t : Toxic (ZMod 7681) (ZMod 7681) 7681 := ⟨1, 1, alpha, beta, gamma, delta, tau⟩
  have o : 7681 • (1 : ZMod 7681) = 0 := by rw [nsmul_eq_mul, ZMod.natCast_self, zero_mul]
  obtain ⟨params, hk⟩ := hkeys t o one_ne_zero hg hd n3
  replace hk : generateKeys forgeK t (memberCircuit forgeHash 1 none none) = .ok params := (generateKeys_sameRun forgeK t hm).trans hk
  have hv := hforge productEngine_computes productPairing_right t o o one_ne_zero one_ne_zero n2 params hk
  obtain ⟨root, leaf, hin, hmem⟩ := hsound productEngine_computes productPairing_right t o o productPairing_one n1 params hk hv
  injection hin with h1 hin
  injection hin with h2 _
  subst h1; subst h2
  exact not_member hmem

/-- The same hash in the field of 97 elements. -/
def forgeHash97 : PoseidonParams (ZMod 97) := ⟨[0], [[1, 1], [1, 0]], 2, 1, 0⟩

/-- A forged proof, computed from the authentic one for the leaf 1 with the sibling 0: accepted for the leaf 2. -/
example :
    (do let params ← (generateKeys smallK smallToxic (memberCircuit forgeHash97 1 none none)).toOption
        let proof ← (prove smallK params 11 12
          (forgedCircuit forgeHash97 1 (1, 2) [forgedSibling 1 0 2] [forgedDirection 1 0 false 2])).toOption
        let b ← (verify smallEngine (truncate params.vk) proof [(1 : ZMod 97), 2]).toOption
        pure b.toOption) = some (some true) := by
  decide +kernel

/-- The circuit with the assertions, computed: the authentic proof is accepted for its leaf only. -/
example :
    (do let params ← (generateKeys smallK smallToxic (checkedCircuit forgeHash97 1 none none)).toOption
        let proof ← (prove smallK params 11 12 (checkedCircuit forgeHash97 1 (some (1, 1)) (some (⟨[0]⟩, ⟨[false]⟩)))).toOption
        let b ← (verify smallEngine (truncate params.vk) proof [(1 : ZMod 97), 1]).toOption
        let b' ← (verify smallEngine (truncate params.vk) proof [(1 : ZMod 97), 2]).toOption
        pure (b.toOption, b'.toOption)) = some (some true, some false) := by
  decide +kernel

/-- The hypotheses of `C89_forgery` and `C89_complete` in the field of 97 elements. -/
example : Poseidon.merkleProofRoot (1 : ZMod 97) [0] [false] forgeHash97 = .ok 1 ∧ (2 : ZMod 97) * 2 ≠ 1 + 0 := by
  decide +kernel

end Fawkes.Props
