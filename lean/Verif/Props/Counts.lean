import Verif.Lemmas.CountsBits
import Verif.Lemmas.CountsShipped
import Verif.Lemmas.CountsTree
import Verif.Lemmas.PoseidonShippedBn
import Verif.Lemmas.PoseidonShippedBls
import Verif.Lemmas.SelfLink

/-!
# The size of the library's circuits: C92

The number of constraints that a function adds depends only on the parameters and on the numbers of its arguments, not on the values: it is
the same for setup and proving.  The table in README.md:46-53 gives the numbers for BN256; all of its single-function rows but one are
right.
-/

namespace Fawkes.Props

section general

variable {F : Type} [Field F] [DecidableEq F] {s : CS F}

/-- C92: a Poseidon hash costs three constraints for each of its nonlinear functions: one function for every input that is not a constant
in the first round, `t` in each of the other full rounds and one in each partial round. -/
theorem C92_poseidon (P : PoseidonParams F) (hm : ∀ row ∈ P.m, ∀ c ∈ row, c ≠ 0) (hf : 2 ≤ P.f)
    (inputs : List (CNum F)) (hs : s.WF) (hal : ∀ a ∈ inputs, a.lc.Alloc s) (hpl : ∀ a ∈ inputs, Plain a)
    (hv : ∃ a ∈ inputs, a.asConst = none) :
    Adds s (CPoseidon.poseidon inputs P) (3 * ((inputs.countP fun a => a.asConst.isNone) + (P.f - 1) * P.t + P.p)) :=
  (CPoseidon.takes_poseidon P hm hf hs hal hpl hv).adds

/-- C92: a hash of constants costs nothing. -/
theorem C92_poseidon_constants (P : PoseidonParams F) (inputs : List (CNum F)) (h : ∀ a ∈ inputs, ∃ v, a.asConst = some v) :
    Adds s (CPoseidon.poseidon inputs P) 0 :=
  (CPoseidon.takes_poseidon_known P h).adds

/-- C92: the root of a Merkle tree: three constraints for every node that is not a constant, and those of the later rounds for
every hash of such nodes; the empty part of the tree is free. -/
theorem C92_tree (P : PoseidonParams F) (hm : ∀ row ∈ P.m, ∀ c ∈ row, c ≠ 0) (hf : 2 ≤ P.f) (leaves : List (CNum F)) (hs : s.WF)
    (h : ∀ a ∈ leaves, a.lc.Alloc s ∧ Varies a) :
    Adds s (CPoseidon.merkleTreeRoot leaves P)
      (treeCount ((P.f - 1) * P.t + P.p) (Nat.size (leaves.length - 1)) leaves.length) :=
  (CPoseidon.takes_merkleTreeRoot P hm hf hs h).adds

/-- C92: the root of a full tree of `2 ^ d` leaves costs `2 ^ d - 1` hashes of two inputs. -/
theorem C92_tree_full (P : PoseidonParams F) (hm : ∀ row ∈ P.m, ∀ c ∈ row, c ≠ 0) (hf : 2 ≤ P.f) (leaves : List (CNum F)) (hs : s.WF)
    (h : ∀ a ∈ leaves, a.lc.Alloc s ∧ Varies a) (d : Nat) (hd : leaves.length = 2 ^ d) :
    Adds s (CPoseidon.merkleTreeRoot leaves P) ((2 ^ d - 1) * (3 * (2 + (P.f - 1) * P.t + P.p))) := by
  have h1 := C92_tree P hm hf leaves hs h
  have hsz : Nat.size (2 ^ d - 1) = d := by
    apply Nat.le_antisymm
    · rw [Nat.size_le]; have := Nat.one_le_two_pow (n := d); omega
    · cases d with
      | zero => simp
      | succ d => rw [Nat.succ_le_iff, Nat.lt_size, pow_succ]; have := Nat.one_le_two_pow (n := d); omega
  rw [hd, hsz, treeCount_full, ← Nat.add_assoc] at h1
  exact h1

/-- C92: a Merkle proof costs a hash of two inputs and one more constraint for every level. -/
theorem C92_merkle (P : PoseidonParams F) (hm : ∀ row ∈ P.m, ∀ c ∈ row, c ≠ 0) (hf : 2 ≤ P.f) (leaf : CNum F)
    (sibling : List (CNum F)) (path : List (CBool F)) (hs : s.WF) (hl : leaf.lc.Alloc s) (hsib : ∀ x ∈ sibling, x.lc.Alloc s)
    (hpath : ∀ b ∈ path, Varies b.num) (h0 : ∀ x ∈ sibling.head?, Varies (CNum.sub x leaf)) :
    Adds s (CPoseidon.merkleProofRoot leaf sibling path P)
      (min path.length sibling.length * (1 + 3 * (2 + (P.f - 1) * P.t + P.p))) := by
  have h := CPoseidon.takes_proofLoop P hm hf (path.zip sibling) (CS.Ext.refl s) hs hl
    (fun x hx => ⟨hsib _ (List.of_mem_zip hx).2, hpath _ (List.of_mem_zip hx).1⟩)
    (fun x hx => by
      match path, sibling, hx with
      | b :: path, y :: sibling, hx =>
        cases (Option.mem_some.1 hx)
        exact h0 y rfl)
  rw [List.length_zip] at h
  exact h.adds

variable {C : EdCurve F} {J : JubJubParams F}

/-- C92: three constraints to check that a point lies on the curve. -/
theorem C92_in_curve (hs : s.WF) (p : CEdwardsPoint F) (vx : Varies p.x) (vy : Varies p.y) : Adds s (p.assertInCurve J) 3 :=
  (CEdwardsPoint.takes_assertInCurve hs vx vy).adds

/-- C92: twenty constraints to check that a point lies in the subgroup, whatever signals are given. -/
theorem C92_in_subgroup [Fact J.l.Prime] (hJ : J.Valid C) (hs : s.WF) (p : CEdwardsPoint F) (ax : p.x.lc.Alloc s) (ay : p.y.lc.Alloc s) :
    Adds s (p.assertInSubgroup J) 20 :=
  (CEdwardsPoint.takes_assertInSubgroup (by rw [hJ.d_eq]; exact C.d_ne_zero) C.two_ne_zero hs ax ay).adds

/-- C92: a scalar multiplication of a point that is not known in advance by `n` bits costs `9 n + 10` constraints. -/
theorem C92_mul (hJ : J.Valid C) (hs : s.WF) (p : CEdwardsPoint F) (ax : p.x.lc.Alloc s) (ay : p.y.lc.Alloc s) (vx : Varies p.x)
    (vy : Varies p.y) (bits : List (CBool F)) (hb : ∀ b ∈ bits, Varies b.num) (hn : bits ≠ []) :
    Adds s (p.mul bits J) (9 * bits.length + 10) := by
  have he : p.mul bits J = CEdwardsPoint.mulVarBase p bits J := by
    unfold CEdwardsPoint.mul CEdwardsPoint.asConst
    rw [vx.asConst]; rfl
  rw [he]
  exact (CEdwardsPoint.takes_mulVarBase C.two_ne_zero (by rw [hJ.a_eq]; exact C.a_ne_zero) (by rw [hJ.b_eq]; exact C.b_ne_zero) hs ax ay vx vy
    hb hn).adds

/-- C92: a scalar multiplication of a constant of the subgroup by `n` independent bits costs about two constraints for each bit
(`constMulCount`), unless the multiples of the constant follow an accidental pattern. -/
theorem C92_mul_const (hJ : J.Valid C) (B : EdPoint C) (hB : InSubgroup J.l B) (hB0 : B ≠ 0) (hs : s.WF) (bits : List (CBool F))
    (hal : ∀ b ∈ bits, b.num.lc.Alloc s) (hi : Independent (bits.map CBool.num)) (h2 : 2 ≤ bits.length)
    (hg : ∀ k, k < bits.length / 3 → Generic (8 ^ k • B)) :
    Adds s ((CEdwardsPoint.fromConst B.affine).mul bits J) (constMulCount bits.length) := by
  have he : (CEdwardsPoint.fromConst B.affine).mul bits J = CEdwardsPoint.mulConstBase B.affine bits J := by
    unfold CEdwardsPoint.mul CEdwardsPoint.asConst CEdwardsPoint.fromConst
    rw [CNum.asConst_fromConst, CNum.asConst_fromConst]; rfl
  rw [he]
  exact (CEdwardsPoint.takes_mulConstBase hJ.d_eq (by rw [hJ.b_eq]; exact C.b_ne_zero) hJ.l_prime hJ.l_large hB hB0 hs hal hi h2 hg).adds

end general

section field

variable {r : Nat} [hr : Fact r.Prime] {s : CS (ZMod r)} {C : EdCurve (ZMod r)} {J : JubJubParams (ZMod r)} [Fact J.l.Prime]

/-- C92: nineteen constraints to decompress a point of the subgroup from its first coordinate. -/
theorem C92_decompress (sqrt : ZMod r → Option (ZMod r)) (hJ : J.Valid C) (hs : s.WF) (x : CNum (ZMod r)) (ax : x.lc.Alloc s) :
    Adds s (CEdwardsPoint.subgroupDecompress sqrt x J) 19 :=
  (CEdwardsPoint.takes_decompress sqrt (by rw [hJ.d_eq]; exact C.d_ne_zero) C.two_ne_zero hs ax).adds

omit [Fact J.l.Prime] in
/-- C92: `n` constraints for a decomposition into `n` bits. -/
theorem C92_bits (h2 : r ≠ 2) (hs : s.WF) (x : CNum (ZMod r)) (ax : x.lc.Alloc s) (vx : Varies x) (n : Nat) :
    Adds s (Bitify.intoBitsLE x n) n :=
  (takes_intoBits h2 hs ax vx).adds

omit [Fact J.l.Prime] in
/-- C92: for the unique decomposition into all bits, one for each bit again and two more. -/
theorem C92_strict (h4 : 4 ≤ r) (hs : s.WF) (x : CNum (ZMod r)) (ax : x.lc.Alloc s) (vx : Varies x) :
    Adds s (Bitify.intoBitsLEStrict x) (2 * numBits r + 2) :=
  (takes_strict h4 (by rintro rfl; omega) hs ax vx).adds

/-- C92: the check of a signature is the sum of its parts: two decompressions, a hash of three inputs, the bits of the hash, a
multiplication by them, the bits of `s`, a multiplication of the generator by them, an addition and a comparison. -/
theorem C92_eddsa (sqrt : ZMod r → Option (ZMod r)) (hJ : J.Valid C) (P : PoseidonParams (ZMod r)) (hm : ∀ row ∈ P.m, ∀ c ∈ row, c ≠ 0)
    (hf : 2 ≤ P.f) (hg : ∀ G : EdPoint C, J.g = G.affine → ∀ k, k < numBits J.l / 3 → Generic (8 ^ k • G)) (h4 : 4 ≤ r) (hs : s.WF)
    (sg rx a m : CNum (ZMod r)) (hal : ∀ x ∈ [sg, rx, a, m], x.lc.Alloc s ∧ Varies x) :
    Adds s (Eddsa.cVerify sqrt J sg rx a m P)
      (2 * 19 + 3 * (3 + (P.f - 1) * P.t + P.p) + (2 * numBits r + 2) + (9 * numBits r + 10) + numBits J.l + constMulCount (numBits J.l)
        + 6 + 3) := by
  have h1 := hal sg (by simp)
  have h2 := hal rx (by simp)
  have h3 := hal a (by simp)
  have h5 := hal m (by simp)
  exact (takes_cVerify sqrt hJ P hm hf hg h4 hs h1.1 h2.1 h3.1 h5.1 h1.2 h2.2 h3.2 h5.2).adds

end field

/-! ## The table of the README -/

section readme

variable {s : CS (ZMod bnR)} {checks : Bool} {tries : Nat} {P : PoseidonParams (ZMod bnR)}

/-- C92, README row "poseidon hash (4, 8, 54)": 255 for three inputs. -/
theorem C92_readme_poseidon (hP : PoseidonParams.new bnR checks tries 4 8 54 = .ok P) (hs : s.WF) (a b c : CNum (ZMod bnR))
    (h : ∀ x ∈ [a, b, c], x.lc.Alloc s ∧ Varies x) : Adds s (CPoseidon.poseidon [a, b, c] P) 255 := by
  obtain ⟨e1, e2, e3⟩ := new_ok hP
  have h1 := C92_poseidon (s := s) P (by rw [bnRM4_eq hP]; exact bnRM4_nonzero) (by omega) [a, b, c] hs (fun x hx => (h x hx).1)
    (fun x hx => Plain.of_varies (h x hx).2) ⟨a, by simp, (h a (by simp)).2.asConst⟩
  rw [show [a, b, c].countP (fun a => a.asConst.isNone) = 3 by
    simp [List.countP_cons, (h a (by simp)).2.asConst, (h b (by simp)).2.asConst, (h c (by simp)).2.asConst], e1, e2, e3] at h1
  exact h1

/-- C92, README row "poseidon merkle proof 32": 7328. -/
theorem C92_readme_merkle (hP : PoseidonParams.new bnR checks tries 3 8 53 = .ok P) (hs : s.WF) (leaf : CNum (ZMod bnR))
    (sibling : List (CNum (ZMod bnR))) (path : List (CBool (ZMod bnR))) (hl : leaf.lc.Alloc s) (hsib : ∀ x ∈ sibling, x.lc.Alloc s)
    (hpath : ∀ b ∈ path, Varies b.num) (h0 : ∀ x ∈ sibling.head?, Varies (CNum.sub x leaf)) (l1 : sibling.length = 32)
    (l2 : path.length = 32) : Adds s (CPoseidon.merkleProofRoot leaf sibling path P) 7328 := by
  obtain ⟨e1, e2, e3⟩ := new_ok hP
  have h1 := C92_merkle (s := s) P (by rw [bnRM3_eq hP]; exact bnRM3_nonzero) (by omega) leaf sibling path hs hl hsib hpath h0
  rw [l1, l2, e1, e2, e3] at h1
  exact h1

/-- C92, README row "jubjub oncurve+subgroup check": 19. -/
theorem C92_readme_decompress [Fact bnParams.l.Prime] (sqrt : ZMod bnR → Option (ZMod bnR)) (hs : s.WF) (x : CNum (ZMod bnR))
    (ax : x.lc.Alloc s) : Adds s (CEdwardsPoint.subgroupDecompress sqrt x bnParams) 19 :=
  C92_decompress sqrt bnParams_valid hs x ax

/-- C92, README row "ecmul_const 254 bits": 513, for the generator. -/
theorem C92_readme_mul_const (hs : s.WF) (bits : List (CBool (ZMod bnR))) (hal : ∀ b ∈ bits, b.num.lc.Alloc s)
    (hi : Independent (bits.map CBool.num)) (hn : bits.length = 254) :
    Adds s ((CEdwardsPoint.fromConst bnParams.g).mul bits bnParams) 513 := by
  obtain ⟨G, hG, hG0, hGl⟩ := bnParams_valid.base
  have h := C92_mul_const bnParams_valid G hGl hG0 hs bits hal hi (by omega) (fun k hk => bn_generic hG k (by omega))
  rw [hn, ← hG] at h
  exact h

/-- C92, README row "ecmul 254 bits": 2296. -/
theorem C92_readme_mul (hs : s.WF) (p : CEdwardsPoint (ZMod bnR)) (ax : p.x.lc.Alloc s) (ay : p.y.lc.Alloc s) (vx : Varies p.x)
    (vy : Varies p.y) (bits : List (CBool (ZMod bnR))) (hb : ∀ b ∈ bits, Varies b.num) (hn : bits.length = 254) :
    Adds s (p.mul bits bnParams) 2296 := by
  have h := C92_mul bnParams_valid hs p ax ay vx vy bits hb (by rintro rfl; cases hn)
  rw [hn] at h
  exact h

/-- C92, README row "poseidon eddsa": 3866, not 3860. -/
theorem C92_readme_eddsa [Fact bnParams.l.Prime] (sqrt : ZMod bnR → Option (ZMod bnR))
    (hP : PoseidonParams.new bnR checks tries 4 8 54 = .ok P) (hs : s.WF) (sg rx a m : CNum (ZMod bnR))
    (hal : ∀ x ∈ [sg, rx, a, m], x.lc.Alloc s ∧ Varies x) : Adds s (Eddsa.cVerify sqrt bnParams sg rx a m P) 3866 := by
  obtain ⟨e1, e2, e3⟩ := new_ok hP
  have hl : numBits bnParams.l = 251 := by decide +kernel
  have hr : numBits bnR = 254 := by decide +kernel
  have h := C92_eddsa sqrt bnParams_valid P (by rw [bnRM4_eq hP]; exact bnRM4_nonzero) (by omega)
    (fun G hG k hk => bn_generic hG k (by rw [hl] at hk; omega)) (by decide +kernel) hs sg rx a m hal
  rw [e1, e2, e3, hl, hr] at h
  exact h

/-- C92: the same check over BLS12-381, where the field has 255 bits and the order of the subgroup 252. -/
theorem C92_bls_eddsa [Fact blsParams.l.Prime] {s : CS (ZMod blsR)} {P : PoseidonParams (ZMod blsR)} (sqrt : ZMod blsR → Option (ZMod blsR))
    (hP : PoseidonParams.new blsR checks tries 4 8 54 = .ok P) (hs : s.WF) (sg rx a m : CNum (ZMod blsR))
    (hal : ∀ x ∈ [sg, rx, a, m], x.lc.Alloc s ∧ Varies x) : Adds s (Eddsa.cVerify sqrt blsParams sg rx a m P) 3880 := by
  obtain ⟨e1, e2, e3⟩ := new_ok hP
  have hl : numBits blsParams.l = 252 := by decide +kernel
  have hr : numBits blsR = 255 := by decide +kernel
  have h := C92_eddsa sqrt blsParams_valid P (by rw [blsRM4_eq hP]; exact blsRM4_nonzero) (by omega)
    (fun G hG k hk => bls_generic hG k (by rw [hl] at hk; omega)) (by decide +kernel) hs sg rx a m hal
  rw [e1, e2, e3, hl, hr] at h
  exact h

end readme

/-! ## Concrete cases -/

section concrete

variable {F : Type} [Field F] [DecidableEq F]

/-- The state after `n` calls of `alloc` in a key generation. -/
def allocated (F : Type) (n : Nat) : CS F := ⟨.setup, 1, n, (List.range n).map fun i => (.aux i, none), []⟩

/-- The signal that the call number `i` returned. -/
def signal (i : Nat) : CNum F := ⟨none, [(.aux i, 1)]⟩

theorem allocated_wf (n : Nat) : (allocated F n).WF where
  pos := le_refl _
  nodup := by
    have : (allocated F n).vars.map Prod.fst = (List.range n).map Index.aux := by simp [allocated, Function.comp_def]
    rw [this]
    exact List.nodup_range.map fun a b h => by injection h
  input_lt := by simp [allocated]
  aux_lt := by simp [allocated]

theorem signal_alloc {i n : Nat} (h : i < n) : (signal i : CNum F).lc.Alloc (allocated F n) := by
  intro k hk
  simp only [signal, LC.keys, List.map_cons, List.map_nil, List.mem_singleton] at hk
  subst hk
  exact Or.inr (by simp [allocated, h])

theorem signals_independent (l : List Nat) (h : l.Nodup) : Independent (l.map (signal (F := F))) := by
  refine Independent.of_vars (ks := l.map Index.aux) ?_ (h.map fun a b h => by injection h) (by simp)
  induction l with
  | nil => exact .nil
  | cons i l ih => exact .cons rfl (ih (List.nodup_cons.1 h).2)

theorem signal_varies (i : Nat) : Varies (signal i : CNum F) :=
  (signals_independent [i] (by simp)).all_varies _ (by simp)

/-- The parameters exist. -/
theorem bn_params_exist : ∃ P, PoseidonParams.new bnR true 20 4 8 54 = .ok P := by
  have := bnRM4_new
  cases h : PoseidonParams.new bnR true 20 4 8 54 with
  | error e => rw [h] at this; cases this
  | ok P => exact ⟨P, rfl⟩

/-- The hypotheses of the signature's row are met by four allocated signals and the parameters of the repository's tests. -/
example [Fact bnParams.l.Prime] (sqrt : ZMod bnR → Option (ZMod bnR)) : ∃ P, PoseidonParams.new bnR true 20 4 8 54 = .ok P ∧
    Adds (allocated (ZMod bnR) 4) (Eddsa.cVerify sqrt bnParams (signal 0) (signal 1) (signal 2) (signal 3) P) 3866 := by
  obtain ⟨P, hP⟩ := bn_params_exist
  refine ⟨P, hP, C92_readme_eddsa sqrt hP (allocated_wf 4) _ _ _ _ fun x hx => ?_⟩
  simp only [List.mem_cons, List.not_mem_nil, or_false] at hx
  rcases hx with rfl | rfl | rfl | rfl <;> exact ⟨signal_alloc (by decide), signal_varies _⟩

/-- Likewise for the multiplication of the generator by 254 allocated bits. -/
example : Adds (allocated (ZMod bnR) 254)
    ((CEdwardsPoint.fromConst bnParams.g).mul ((List.range 254).map fun i => ⟨signal i⟩) bnParams) 513 := by
  refine C92_readme_mul_const (allocated_wf 254) _ ?_ ?_ (by simp)
  · intro b hb
    obtain ⟨i, hi, rfl⟩ := List.mem_map.1 hb
    exact signal_alloc (List.mem_range.1 hi)
  · rw [List.map_map]
    exact signals_independent _ List.nodup_range

/-- Likewise for a Merkle proof of 32 levels. -/
example : ∃ P, PoseidonParams.new bnR true 20 3 8 53 = .ok P ∧ Adds (allocated (ZMod bnR) 65)
    (CPoseidon.merkleProofRoot (signal 64) ((List.range 32).map signal) ((List.range 32).map fun i => ⟨signal (32 + i)⟩) P) 7328 := by
  have := bnRM3_new
  cases h : PoseidonParams.new bnR true 20 3 8 53 with
  | error e => rw [h] at this; cases this
  | ok P =>
    refine ⟨P, rfl, C92_readme_merkle h (allocated_wf 65) _ _ _ (signal_alloc (by decide)) ?_ ?_ ?_ (by simp) (by simp)⟩
    · intro x hx
      obtain ⟨i, hi, rfl⟩ := List.mem_map.1 hx
      exact signal_alloc (by have := List.mem_range.1 hi; omega)
    · intro b hb
      obtain ⟨i, hi, rfl⟩ := List.mem_map.1 hb
      exact signal_varies _
    · intro x hx
      cases (Option.mem_some.1 hx : (signal 0) = x)
      have := signals_independent (F := ZMod bnR) [0, 64] (by decide)
      exact Independent.sub_varies this

/-- The runs counted exist: in a key generation with small parameters a hash of two signals does not panic, and has the number of
constraints that the theorem gives. -/
example : ((CPoseidon.poseidon [signal 0, signal 1]
    (⟨[1, 2, 3], [[1, 2, 3], [4, 5, 6], [7, 8, 1]], 3, 2, 1⟩ : PoseidonParams (ZMod bnR))).run (allocated (ZMod bnR) 2)).toOption.map
      (fun x => x.2.cons.length) = some (3 * (2 + (2 - 1) * 3 + 1)) := by decide +kernel

/-- Likewise the root of a tree of five leaves. -/
example : ((CPoseidon.merkleTreeRoot [signal 0, signal 1, signal 2, signal 3, signal 4]
    (⟨[1, 2, 3], [[1, 2, 3], [4, 5, 6], [7, 8, 1]], 3, 2, 1⟩ : PoseidonParams (ZMod bnR))).run (allocated (ZMod bnR) 5)).toOption.map
      (fun x => x.2.cons.length) = some (treeCount ((2 - 1) * 3 + 1) 3 5) ∧ treeCount ((2 - 1) * 3 + 1) 3 5 = 102 := by decide +kernel

end concrete

end Fawkes.Props
