import Verif.Props.MerkleUpdate
import Verif.Props.Native

/-!
# C102: a circuit that checks the update of a Merkle tree
-/

namespace Fawkes.Props

open Groth16

variable {r : Nat} [Fact r.Prime]

/-- A client: public are the old and the new root, secret are the old and the new leaf and a `CMerkleProof` of `n` levels
(src/circuit/poseidon.rs:14-19).  It asserts that the path consists of bits and that the proof leads from the old leaf to the old root and
from the new leaf to the new root. -/
def treeUpdate (P : PoseidonParams (ZMod r)) (n : Nat) : List (Call r Unit) :=
  ((List.range' (4 + n) n).map fun i => .prim (.assertBit i)) ++
    [.merkleProofRoot 2 (List.range' 4 n) (List.range' (4 + n) n) P, .prim (.assertEq 0 (4 + 2 * n)),
      .merkleProofRoot 3 (List.range' 4 n) (List.range' (4 + n) n) P, .prim (.assertEq 1 (4 + 2 * n + 1))]

theorem native_merkle {W : Type} (P : PoseidonParams (ZMod r)) {ins vals : List (ZMod r)} {l a : Nat} {is js : List Nat} {leaf root : ZMod r}
    {sibs path : List (ZMod r)} {bits : List Bool} (hl : vals[l]? = some leaf) (hs : pick vals is = some sibs) (hp : pick vals js = some path)
    (hb : bits? path = some bits) (ha : vals[a]? = some root) (n : Nat) (hn : n = vals.length) (rest : List (Call r W))
    (o : List (ZMod r) × List (ZMod r)) :
    nativeRun (.merkleProofRoot l is js P :: .prim (.assertEq a n) :: rest) ins vals = some o ↔
      Poseidon.merkleProofRoot leaf sibs bits P = .ok root ∧ nativeRun rest ins (vals ++ [root]) = some o := by
  subst hn
  cases hm : Poseidon.merkleProofRoot leaf sibs bits P with
  | error e => simp [nativeRun, Call.step, Call.native, hl, hs, hp, hb, hm, done?]
  | ok x =>
    have e1 : (Call.merkleProofRoot l is js P : Call r W).step ins vals = some (ins, [x], []) := by
      simp [Call.step, Call.native, hl, hs, hp, hb, hm, done?]
    have ha' : (vals ++ [x])[a]? = some root := by
      rw [List.getElem?_append_left (List.getElem?_eq_some_iff.1 ha).1, ha]
    have e2 : (Call.prim (.assertEq a vals.length) : Call r W).step ins (vals ++ [x]) = if root = x then some (ins, [], []) else none := by
      show ((do let a ← (vals ++ [x])[a]?; let b ← (vals ++ [x])[vals.length]?
                if a = b then pure [] else none : Option (List (ZMod r))).bind fun xs => pure (ins, xs, [])) = _
      rw [ha', show (vals ++ [x])[vals.length]? = some x by simp]
      show (if root = x then some [] else none : Option (List (ZMod r))).bind _ = _
      split <;> rfl
    rw [nativeRun, e1]
    show ((nativeRun (.prim (.assertEq a vals.length) :: rest) ins (vals ++ [x])).bind fun o => pure (o.1, [] ++ o.2)) = _ ↔ _
    rw [nativeRun, e2]
    by_cases hx : root = x
    · subst hx
      simp only [if_true, List.nil_append]
      rw [show (some (ins, ([] : List (ZMod r)), ([] : List (ZMod r))) >>= fun x =>
        match x with | (ins, new, pub) => nativeRun rest ins (vals ++ [root] ++ new) >>= fun o => pure (o.1, pub ++ o.2)) =
        (nativeRun rest ins (vals ++ [root] ++ [])).bind fun o => pure (o.1, [] ++ o.2) from rfl]
      rw [List.append_nil]
      cases nativeRun rest ins (vals ++ [root]) with
      | none => simp
      | some o' => simp
    · have : ¬ x = root := fun h => hx h.symm
      simp [hx, this]

theorem native_treeUpdate (P : PoseidonParams (ZMod r)) (n : Nat) (old new x y : ZMod r) (siblings path : List (ZMod r)) (hs : siblings.length = n)
    (hl : path.length = n) :
    (∃ ins out, nativeRun (treeUpdate P n) ins ([old, new] ++ x :: y :: (siblings ++ path)) = some (out, [])) ↔
      ∃ bits : List Bool, path = bits.map ofBit ∧ Poseidon.merkleProofRoot x siblings bits P = .ok old ∧
        Poseidon.merkleProofRoot y siblings bits P = .ok new := by
  set vals : List (ZMod r) := old :: new :: x :: y :: (siblings ++ path) with hvals
  have hlen : vals.length = 4 + 2 * n := by simp [hvals, hs, hl]; omega
  have hsib : pick vals (List.range' 4 n) = some siblings := by
    rw [pick_range _ _ _ (by omega)]
    simp [hvals, ← hs]
  have hpath : pick vals (List.range' (4 + n) n) = some path := by
    rw [pick_range _ _ _ (by omega)]
    have : vals.drop (4 + n) = path := by
      rw [hvals, show 4 + n = n + 1 + 1 + 1 + 1 by omega, List.drop_succ_cons, List.drop_succ_cons, List.drop_succ_cons, List.drop_succ_cons, ← hs,
        List.drop_left]
    rw [this, ← hl, List.take_length]
  have hbit : (∀ i ∈ List.range' (4 + n) n, vals[i]? = some 0 ∨ vals[i]? = some 1) ↔ ∀ x ∈ path, x = 0 ∨ x = 1 := by
    have hget : ∀ j (hj : j < path.length), vals[4 + n + j]? = some path[j] := by
      intro j hj
      rw [hvals, show 4 + n + j = n + j + 1 + 1 + 1 + 1 by omega, List.getElem?_cons_succ, List.getElem?_cons_succ, List.getElem?_cons_succ,
        List.getElem?_cons_succ, ← hs, List.getElem?_append_right (by omega), Nat.add_sub_cancel_left, List.getElem?_eq_getElem hj]
    constructor
    · intro hh x hx
      obtain ⟨j, hj, rfl⟩ := List.getElem_of_mem hx
      have := hh (4 + n + j) (by rw [List.mem_range'_1]; omega)
      rw [hget j hj] at this
      simpa using this
    · intro hh i hi
      rw [List.mem_range'_1] at hi
      obtain ⟨j, rfl⟩ := Nat.exists_eq_add_of_le hi.1
      have hj : j < path.length := by omega
      rw [hget j hj]
      simpa using hh _ (List.getElem_mem hj)
  have hmore : ∀ (z : ZMod r) (k m : Nat) (o : List (ZMod r)), pick vals (List.range' k m) = some o → k + m ≤ vals.length →
      pick (vals ++ [z]) (List.range' k m) = some o := by
    intro z k m o ho hk
    rw [pick_range _ _ _ hk] at ho
    rw [pick_range _ _ _ (by simp; omega), ← ho, List.drop_append_of_le_length (by omega), List.take_append_of_le_length (by simp; omega)]
  have htail : ∀ (bits : List Bool) (ins : List (ZMod r)) (o : List (ZMod r) × List (ZMod r)), path = bits.map ofBit →
      (nativeRun (W := Unit) [.merkleProofRoot 2 (List.range' 4 n) (List.range' (4 + n) n) P, .prim (.assertEq 0 (4 + 2 * n)),
        .merkleProofRoot 3 (List.range' 4 n) (List.range' (4 + n) n) P, .prim (.assertEq 1 (4 + 2 * n + 1))] ins vals = some o ↔
      Poseidon.merkleProofRoot x siblings bits P = .ok old ∧ Poseidon.merkleProofRoot y siblings bits P = .ok new ∧ ins = [] ∧
        o = (vals ++ [old] ++ [new], [])) := by
    intro bits ins o hb
    have hb' : bits? path = some bits := by rw [hb]; exact bits_ofBit bits
    rw [native_merkle P (leaf := x) (root := old) (by rw [hvals]; rfl) hsib hpath hb' (by rw [hvals]; rfl) _ hlen.symm,
      native_merkle P (leaf := y) (root := new) (by rw [hvals]; rfl) (hmore _ _ _ _ hsib (by omega)) (hmore _ _ _ _ hpath (by omega)) hb'
        (by rw [hvals]; rfl) _ (by simp [hlen])]
    have : nativeRun (W := Unit) [] ins (vals ++ [old] ++ [new]) = some o ↔ ins = [] ∧ o = (vals ++ [old] ++ [new], []) := by
      by_cases hi : ins = []
      · subst hi
        simp [nativeRun]
        exact eq_comm
      · simp [nativeRun, hi]
    rw [this]
  have hv2 : ([old, new] ++ x :: y :: (siblings ++ path)) = vals := rfl
  rw [hv2]
  unfold treeUpdate
  simp only [native_assertBits, hbit]
  constructor
  · rintro ⟨ins, out, hb, hn⟩
    obtain ⟨bits, -, h2⟩ := bits_all path hb
    have := (htail bits ins _ h2).1 hn
    exact ⟨bits, h2, this.1, this.2.1⟩
  · rintro ⟨bits, h2, hm, hm'⟩
    refine ⟨[], _, ?_, (htail bits [] _ h2).2 ⟨hm, hm', rfl, rfl⟩⟩
    rw [h2]
    intro x hx
    obtain ⟨b, -, rfl⟩ := List.mem_map.1 hx
    cases b <;> simp [ofBit]

theorem quiet_treeUpdate (P : PoseidonParams (ZMod r)) (n : Nat) : ∀ c ∈ treeUpdate P n, c.publishes = false := by
  intro c hc
  rcases List.mem_append.1 hc with hc | hc
  · obtain ⟨i, -, rfl⟩ := List.mem_map.1 hc; rfl
  · simp only [List.mem_cons, List.not_mem_nil, or_false] at hc
    rcases hc with rfl | rfl | rfl | rfl <;> rfl

theorem proper_treeUpdate (P : PoseidonParams (ZMod r)) (n : Nat) (v : Option Unit) (vals : List (ZMod r)) (hlen : vals.length = 4 + 2 * n)
    (q : List (CNum (ZMod r))) (t : CS (ZMod r)) (ins : List (ZMod r)) : (straight (treeUpdate P n)).Proper v q t ins vals := by
  unfold treeUpdate
  refine proper_assertBits _ _ _ (fun hbits q s ins => ?_) _ _ _
  refine ⟨hbits, fun _ _ _ new1 _ _ _ => ⟨trivial, fun _ _ _ new2 _ _ _ => ⟨?_, fun _ _ _ _ _ _ _ => ⟨trivial, fun _ _ _ _ _ _ _ => trivial⟩⟩⟩⟩
  rw [List.append_assoc]
  intro j hj z hz
  have hjlt : j < vals.length := by
    rw [List.mem_range'_1] at hj; omega
  rw [List.getElem?_append_left hjlt] at hz
  exact hbits j hj z hz

theorem width_treeUpdate (n : Nat) : (Ty.pair (.pair .num .num) (.pair (.vec n .num) (.vec n .bool))).width = 2 + (n + n) := by simp [Ty.width]

/-- C102 (circuit): the circuit can be satisfied with two roots, two leaves, siblings and a path if and only if the path consists of bits and the
proof leads from the old leaf to the old root and from the new leaf to the new root: with `C102_two_roots`, if and only if the tree has
been updated at this position. -/
theorem C102_circuit (P : PoseidonParams (ZMod r)) (n : Nat) (v : Option Unit) (p : Option (ZMod r × ZMod r))
    (q : Option ((Ty.pair (.pair .num .num) (.pair (.vec n .num) (.vec n .bool))).V (ZMod r))) (be : Backend) (hbe : be ≠ .test)
    (a : CNum (ZMod r) × CNum (ZMod r)) (s : CS (ZMod r))
    (h : (generated (.pair .num .num) (.pair (.pair .num .num) (.pair (.vec n .num) (.vec n .bool))) (straight (treeUpdate P n)) v p q).run (CS.new be) =
      .ok (a, s))
    (old new x y : ZMod r) (siblings path : List (ZMod r)) (hs : siblings.length = n) (hl : path.length = n) :
    (∃ w, IsAssignment w ∧ s.Sat w ∧ w (.input 1) = old ∧ w (.input 2) = new ∧
        (List.range (2 + (n + n))).map (fun i => w (.aux (2 + i))) = x :: y :: (siblings ++ path)) ↔
      ∃ bits : List Bool, path = bits.map ofBit ∧ Poseidon.merkleProofRoot x siblings bits P = .ok old ∧
        Poseidon.merkleProofRoot y siblings bits P = .ok new := by
  have hwidth := width_treeUpdate n
  have key := C100_macros (.pair .num .num) (.pair (.pair .num .num) (.pair (.vec n .num) (.vec n .bool))) (treeUpdate P n)
    (quiet_treeUpdate P n) v p q be hbe a s h [old, new] (x :: y :: (siblings ++ path)) rfl (by rw [hwidth]; simp [hs, hl]; omega)
    (fun data t ins _ => proper_treeUpdate P n v _ (by simp [hs, hl]; omega) data t ins)
  have htwo : ∀ w : Index → ZMod r, (List.range 2).map (fun i => w (.input (1 + i))) = [old, new] ↔ w (.input 1) = old ∧ w (.input 2) = new := by
    intro w
    show [w (.input (1 + 0)), w (.input (1 + 1))] = [old, new] ↔ _
    simp
  rw [hwidth] at key
  simp only [show (Ty.pair .num .num).width = 2 from rfl, htwo, and_assoc] at key
  rw [← key]
  exact native_treeUpdate P n old new x y siblings path hs hl

/-- C102 (proofs): whoever makes an accepted proof for this circuit by combining points of the keys, for the two roots `old` and `new`, knows two
leaves and a Merkle proof of `n` levels that leads from the one to `old` and from the other to `new`, except for few secrets of the key generator:
they are the coefficients `S.secrets` with which the prover combines the points. -/
theorem C102_accepted {K : TwoAdic (ZMod r)} (hK : LawfulTwoAdic K) (P : PoseidonParams (ZMod r)) (n : Nat)
    (a0 : CNum (ZMod r) × CNum (ZMod r)) (s0 : CS (ZMod r))
    (hset : (generated (.pair .num .num) (.pair (.pair .num .num) (.pair (.vec n .num) (.vec n .bool))) (straight (treeUpdate P n)) none none none).run
      (CS.new .setup) = .ok (a0, s0)) (S : AlgebraicProver r) (old new : ZMod r) :
    ∃ bad : Finset (ZMod r × ZMod r × ZMod r × ZMod r × ZMod r),
      bad.card ≤ (4 * (s0.cons.length + 3) * (s0.naux + 5) + 8) * r ^ 4 ∧
      ∀ {G1 G2 T : Type} [AddCommGroup G1] [AddCommGroup G2] [DecidableEq G1] [DecidableEq G2] [CommMonoid T] [DecidableEq T]
        {E : Engine G1 G2 T} {e : G1 → G2 → Tˣ} (_ : PairingEngine E e) (_ : ∀ a b b', e a (b + b') = e a b * e a b')
        (t : Toxic G1 G2 r) (_ : r • t.g1 = 0) (_ : r • t.g2 = 0) (_ : e t.g1 t.g2 ≠ 1)
        (_ : (t.alpha, t.beta, t.gamma, t.delta, t.tau) ∉ bad) (params : Parameters G1 G2)
        (_ : generateKeys K t (generated (.pair .num .num) (.pair (.pair .num .num) (.pair (.vec n .num) (.vec n .bool)))
          (straight (treeUpdate P n)) none none none) = .ok params),
        verify E (truncate params.vk) (S.proof t.g1 t.g2 params) [old, new] = .ok (.ok true) →
          ∃ x y siblings, ∃ bits : List Bool, siblings.length = n ∧ bits.length = n ∧
            S.secrets (.pair .num .num) (.pair (.pair .num .num) (.pair (.vec n .num) (.vec n .bool))) = x :: y :: (siblings ++ bits.map ofBit) ∧
            Poseidon.merkleProofRoot x siblings bits P = .ok old ∧ Poseidon.merkleProofRoot y siblings bits P = .ok new := by
  have hwidth := width_treeUpdate n
  set Q : Ty := .pair (.pair .num .num) (.pair (.vec n .num) (.vec n .bool)) with hQ
  have hsec : (S.secrets (.pair .num .num) Q).length = 2 + (n + n) := by rw [← hwidth]; simp [AlgebraicProver.secrets]
  obtain ⟨bad, hcard, hbad⟩ := C100_knowledge hK (.pair .num .num) Q (treeUpdate P n) (quiet_treeUpdate P n) a0 s0 hset S [old, new]
    (fun data t ins _ => proper_treeUpdate P n none _ (by rw [List.length_append, hsec]; simp; omega) data t ins)
  refine ⟨bad, hcard.trans (le_of_eq ?_), ?_⟩
  · rw [show (Ty.pair .num .num).width = 2 from rfl]
    congr 3
    omega
  · intro G1 G2 T _ _ _ _ _ _ E e hE hb t h1 h2 h3 h4 params hk hver
    obtain ⟨-, hrun⟩ := hbad hE hb t h1 h2 h3 h4 params hk hver
    generalize S.secrets (.pair .num .num) Q = sec at hsec hrun
    obtain ⟨x, sec1, rfl⟩ := List.exists_cons_of_length_eq_add_one (n := 1 + (n + n)) (by rw [hsec]; omega)
    obtain ⟨y, rest, rfl⟩ := List.exists_cons_of_length_eq_add_one (l := sec1) (n := n + n) (by simp at hsec; omega)
    have hlen : rest.length = n + n := by simp at hsec; omega
    rw [← List.take_append_drop n rest] at hrun
    have hs : (rest.take n).length = n := by simp [hlen]
    have hl : (rest.drop n).length = n := by simp [hlen]
    obtain ⟨bits, hb, hx, hy⟩ := (native_treeUpdate P n old new x y _ _ hs hl).1 hrun
    exact ⟨x, y, _, bits, hs, by rw [hb, List.length_map] at hl; exact hl, by rw [← hb, List.take_append_drop], hx, hy⟩

/-- The hypotheses are met: keys can be generated for trees of height 2, and there is an update to prove. -/
example : ((generated (.pair .num .num) (.pair (.pair .num .num) (.pair (.vec 2 .num) (.vec 2 .bool)))
      (straight (treeUpdate (⟨[3], [[1, 2], [1, 3]], 2, 1, 0⟩ : PoseidonParams (ZMod 97)) 2)) none none none).run (CS.new .setup)).isOk = true ∧
    Poseidon.merkleProofRoot 5 [6, 7] [true, false] (⟨[3], [[1, 2], [1, 3]], 2, 1, 0⟩ : PoseidonParams (ZMod 97)) = .ok 93 ∧
    (Poseidon.merkleProofRoot 8 [6, 7] [true, false] (⟨[3], [[1, 2], [1, 3]], 2, 1, 0⟩ : PoseidonParams (ZMod 97))).isOk = true := by
  refine ⟨by decide +kernel, by decide +kernel, by decide +kernel⟩

end Fawkes.Props
