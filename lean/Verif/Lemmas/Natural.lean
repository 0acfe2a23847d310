import Verif.Model.Poseidon
import Verif.Model.Ecc
import Mathlib.RingTheory.SimpleRing.Basic

/-!
# Lemmas: native functions commute with homomorphisms of fields
-/

namespace Fawkes

/-- The parameters with every constant mapped. -/
def PoseidonParams.map {F K : Type} (f : F → K) (P : PoseidonParams F) : PoseidonParams K :=
  ⟨P.c.map f, P.m.map (List.map f), P.t, P.f, P.p⟩

/-- The point with its coordinates mapped. -/
def EdwardsPoint.map {F K : Type} (f : F → K) (P : EdwardsPoint F) : EdwardsPoint K := ⟨f P.x, f P.y⟩

/-- The point with its coordinates mapped. -/
def EdwardsPointEx.map {F K : Type} (f : F → K) (P : EdwardsPointEx F) : EdwardsPointEx K := ⟨f P.x, f P.y, f P.t, f P.z⟩

/-- The point with its coordinates mapped. -/
def MontgomeryPoint.map {F K : Type} (f : F → K) (P : MontgomeryPoint F) : MontgomeryPoint K := ⟨f P.x, f P.y⟩

/-- The parameters with every element mapped. -/
def JubJubParams.map {F K : Type} (f : F → K) (J : JubJubParams F) : JubJubParams K :=
  ⟨J.l, J.g.map f, f J.d, f J.a, f J.b, f J.u⟩

namespace Natural

variable {F K : Type} [Field F] [DecidableEq F] [Field K] [DecidableEq K] (e : F →+* K)

theorem bind_map {ε α β γ δ : Type} (x : Except ε α) (f : α → Except ε β) (g : β → δ) (h : α → γ) (k : γ → Except ε δ)
    (hk : ∀ a, (f a).map g = k (h a)) : (x >>= f).map g = x.map h >>= k := by
  cases x with
  | error _ => rfl
  | ok a => exact hk a

theorem getIdx_map {α β : Type} (f : α → β) (l : List α) (i : Nat) : (getIdx l i).map f = getIdx (l.map f) i := by
  unfold getIdx
  rw [List.getElem?_map]
  cases l[i]? <;> rfl

theorem ark_map (s : List F) (c : F) : (Poseidon.ark s c).map e = Poseidon.ark (s.map e) (e c) := by
  simp [Poseidon.ark, Function.comp_def]

theorem sigma_map (a : F) : e (Poseidon.sigma a) = Poseidon.sigma (e a) := by simp [Poseidon.sigma]

theorem mixRow_map (s row : List F) (acc : F) :
    (Poseidon.mixRow s row acc).map e = Poseidon.mixRow (s.map e) (row.map e) (e acc) := by
  induction s generalizing row acc with
  | nil => rfl
  | cons x s ih =>
    cases row with
    | nil => rfl
    | cons r row =>
      show (Poseidon.mixRow s row (acc + r * x)).map e = Poseidon.mixRow (s.map e) (row.map e) (e acc + e r * e x)
      rw [ih, map_add, map_mul]

theorem mixRows_map (s : List F) (rows : List (List F)) (n : Nat) :
    (Poseidon.mixRows s rows n).map (List.map e) = Poseidon.mixRows (s.map e) (rows.map (List.map e)) n := by
  induction n generalizing rows with
  | zero => cases rows <;> rfl
  | succ n ih =>
    cases rows with
    | nil => rfl
    | cons row rows =>
      show (Poseidon.mixRow s row 0 >>= fun x => Poseidon.mixRows s rows n >>= fun xs => pure (x :: xs)).map (List.map e) =
        (Poseidon.mixRow (s.map e) (row.map e) 0 >>= fun x => Poseidon.mixRows (s.map e) (rows.map (List.map e)) n >>= fun xs => pure (x :: xs))
      rw [← ih, ← map_zero e, ← mixRow_map]
      exact bind_map _ _ _ _ _ fun a => bind_map _ _ _ _ _ fun b => rfl

theorem mix_map (s : List F) (P : PoseidonParams F) : (Poseidon.mix s P).map (List.map e) = Poseidon.mix (s.map e) (P.map e) := by
  unfold Poseidon.mix
  rw [mixRows_map, List.length_map]
  rfl

theorem layer_map (P : PoseidonParams F) (i : Nat) (s : List F) :
    (Poseidon.layer P i s).map (List.map e) = Poseidon.layer (P.map e) i (s.map e) := by
  show (Poseidon.layer P i s).map (List.map e) = if i < P.f / 2 ∨ P.f / 2 + P.p ≤ i then .ok ((s.map e).map Poseidon.sigma)
  else match s.map e with
    | [] => .error .outOfBounds
    | x :: xs => .ok (Poseidon.sigma x :: xs)
  unfold Poseidon.layer
  split
  · show Except.ok _ = _
    simp [Function.comp_def, sigma_map]
  · cases s with
    | nil => rfl
    | cons x s =>
      show Except.ok _ = Except.ok _
      simp [sigma_map]

theorem rounds_map (P : PoseidonParams F) (n i : Nat) (s : List F) :
    (Poseidon.rounds P n i s).map (List.map e) = Poseidon.rounds (P.map e) n i (s.map e) := by
  induction n generalizing i s with
  | zero => rfl
  | succ n ih =>
    show (getIdx P.c i >>= fun c => Poseidon.layer P i (Poseidon.ark s c) >>= fun s => Poseidon.mix s P >>= fun s =>
      Poseidon.rounds P n (i + 1) s).map (List.map e) = (getIdx (P.c.map e) i >>= fun c =>
        Poseidon.layer (P.map e) i (Poseidon.ark (s.map e) c) >>= fun s => Poseidon.mix s (P.map e) >>= fun s =>
      Poseidon.rounds (P.map e) n (i + 1) s)
    rw [← getIdx_map]
    refine bind_map _ _ _ _ _ fun c => ?_
    rw [← ark_map, ← layer_map]
    refine bind_map _ _ _ _ _ fun s1 => ?_
    rw [← mix_map]
    exact bind_map _ _ _ _ _ fun s2 => ih _ _

theorem poseidon_map (l : List F) (P : PoseidonParams F) :
    (Poseidon.poseidon l P).map e = Poseidon.poseidon (l.map e) (P.map e) := by
  unfold Poseidon.poseidon
  rw [List.length_map]
  show _ = if ¬ l.length ≤ P.t then _ else if ¬ 0 < l.length then _ else
    (Poseidon.rounds (P.map e) (P.f + P.p) 0 (l.map e ++ List.replicate (P.t - l.length) 0) >>= fun s => getIdx s 0)
  split
  · rfl
  · split
    · rfl
    · have h : l.map e ++ List.replicate (P.t - l.length) 0 = (l ++ List.replicate (P.t - l.length) 0).map e := by simp
      rw [h, ← rounds_map]
      exact bind_map _ _ _ _ _ fun s => getIdx_map e s 0

theorem poseidonWithSalt_map (l : List F) (seed : F) (P : PoseidonParams F) :
    (Poseidon.poseidonWithSalt l seed P).map e = Poseidon.poseidonWithSalt (l.map e) (e seed) (P.map e) := by
  unfold Poseidon.poseidonWithSalt
  rw [List.length_map]
  show _ = if ¬ 0 < l.length then _ else if ¬ l.length < P.t then _ else _
  split
  · rfl
  · split
    · rfl
    · rw [poseidon_map, List.map_append]
      rfl

theorem proofLoop_map (P : PoseidonParams F) (root : F) (l : List (Bool × F)) :
    (Poseidon.proofLoop P root l).map e = Poseidon.proofLoop (P.map e) (e root) (l.map fun q => (q.1, e q.2)) := by
  induction l generalizing root with
  | nil => rfl
  | cons q l ih =>
    obtain ⟨b, s⟩ := q
    show (Poseidon.poseidon (if b then [s, root] else [root, s]) P >>= fun root => Poseidon.proofLoop P root l).map e =
      (Poseidon.poseidon (if b then [e s, e root] else [e root, e s]) (P.map e) >>= fun root =>
        Poseidon.proofLoop (P.map e) root (l.map fun q => (q.1, e q.2)))
    have h : (if b then [e s, e root] else [e root, e s]) = (if b then [s, root] else [root, s]).map e := by cases b <;> rfl
    rw [h, ← poseidon_map]
    exact bind_map _ _ _ _ _ fun a => ih a

theorem merkleProofRoot_map (leaf : F) (sibling : List F) (path : List Bool) (P : PoseidonParams F) :
    (Poseidon.merkleProofRoot leaf sibling path P).map e = Poseidon.merkleProofRoot (e leaf) (sibling.map e) path (P.map e) := by
  unfold Poseidon.merkleProofRoot
  rw [proofLoop_map, List.zip_map_right]
  rfl

theorem treeInner_map (P : PoseidonParams F) (n i : Nat) (s : List F) :
    (Poseidon.treeInner P n i s).map (List.map e) = Poseidon.treeInner (P.map e) n i (s.map e) := by
  induction n generalizing i s with
  | zero => rfl
  | succ n ih =>
    show (getIdx s (2 * i) >>= fun a => getIdx s (2 * i + 1) >>= fun b => Poseidon.poseidon [a, b] P >>= fun r =>
        Poseidon.treeInner P n (i + 1) (s.set i r)).map (List.map e) =
      (getIdx (s.map e) (2 * i) >>= fun a => getIdx (s.map e) (2 * i + 1) >>= fun b => Poseidon.poseidon [a, b] (P.map e) >>= fun r =>
        Poseidon.treeInner (P.map e) n (i + 1) ((s.map e).set i r))
    rw [← getIdx_map]
    refine bind_map _ _ _ _ _ fun a => ?_
    rw [← getIdx_map]
    refine bind_map _ _ _ _ _ fun b => ?_
    rw [show [e a, e b] = [a, b].map e from rfl, ← poseidon_map]
    refine bind_map _ _ _ _ _ fun r => ?_
    rw [ih, List.map_set]

theorem treeLevels_map (P : PoseidonParams F) (total n j : Nat) (s : List F) :
    (Poseidon.treeLevels P total n j s).map (List.map e) = Poseidon.treeLevels (P.map e) total n j (s.map e) := by
  induction n generalizing j s with
  | zero => rfl
  | succ n ih =>
    show (Poseidon.treeInner P (total / 2 ^ (j + 1)) 0 s >>= fun s => Poseidon.treeLevels P total n (j + 1) s).map (List.map e) =
      (Poseidon.treeInner (P.map e) (total / 2 ^ (j + 1)) 0 (s.map e) >>= fun s => Poseidon.treeLevels (P.map e) total n (j + 1) s)
    rw [← treeInner_map]
    exact bind_map _ _ _ _ _ fun a => ih _ _

theorem merkleTreeRoot_map (leaf : List F) (P : PoseidonParams F) :
    (Poseidon.merkleTreeRoot leaf P).map e = Poseidon.merkleTreeRoot (leaf.map e) (P.map e) := by
  unfold Poseidon.merkleTreeRoot
  rw [List.length_map]
  split
  · rfl
  · simp only []
    generalize 2 ^ Nat.size (leaf.length - 1) = total
    have h : leaf.map e ++ List.replicate (total - leaf.length) 0 = (leaf ++ List.replicate (total - leaf.length) 0).map e := by simp
    rw [h, ← treeLevels_map]
    exact bind_map _ _ _ _ _ fun s => getIdx_map e s 0

theorem inverse_map (a : F) : (Num.inverse a).map e = Num.inverse (e a) := by
  unfold Num.inverse
  by_cases h : a = 0
  · rw [if_pos h, if_pos (by rw [h, map_zero])]; rfl
  · rw [if_neg h, if_neg (by rwa [map_eq_zero]), ← map_inv₀]; rfl

theorem div_map (a b : F) : (Num.div a b).map e = Num.div (e a) (e b) := by
  unfold Num.div
  rw [← inverse_map]
  exact bind_map _ _ _ _ _ fun i => by show Except.ok _ = Except.ok _; rw [map_mul]

theorem eq_bool (a b : F) : (e a == e b) = (a == b) := by
  rw [Bool.eq_iff_iff, beq_iff_eq, beq_iff_eq]
  exact e.injective.eq_iff

theorem ex_eq_map (p q : EdwardsPointEx F) : EdwardsPointEx.eq (p.map e) (q.map e) = EdwardsPointEx.eq p q := by
  unfold EdwardsPointEx.eq EdwardsPointEx.map
  simp only [← map_mul, eq_bool]

theorem ex_isInCurve_map (p : EdwardsPointEx F) (J : JubJubParams F) :
    (p.map e).isInCurve (J.map e) = p.isInCurve J := by
  unfold EdwardsPointEx.isInCurve EdwardsPointEx.map JubJubParams.map
  simp only [← map_mul, ← map_sub, ← map_add, eq_bool]
  rw [← map_zero e, eq_bool]

theorem ex_isZero_map (p : EdwardsPointEx F) : (p.map e).isZero = p.isZero := by
  unfold EdwardsPointEx.isZero EdwardsPointEx.map
  simp only [eq_bool]
  rw [← map_zero e, eq_bool]

theorem ex_zero_map : (EdwardsPointEx.zero : EdwardsPointEx F).map e = EdwardsPointEx.zero := by
  simp [EdwardsPointEx.zero, EdwardsPointEx.map]

theorem ex_negate_map (p : EdwardsPointEx F) : p.negate.map e = (p.map e).negate := by
  simp [EdwardsPointEx.negate, EdwardsPointEx.map]

theorem ex_double_map (p : EdwardsPointEx F) : p.double.map e = (p.map e).double := by
  simp [EdwardsPointEx.double, EdwardsPointEx.map]

theorem ex_add_map (p q : EdwardsPointEx F) (J : JubJubParams F) : (p.add q J).map e = (p.map e).add (q.map e) (J.map e) := by
  simp [EdwardsPointEx.add, EdwardsPointEx.map, JubJubParams.map]

theorem ex_mulByCofactor_map (p : EdwardsPointEx F) : p.mulByCofactor.map e = (p.map e).mulByCofactor := by
  unfold EdwardsPointEx.mulByCofactor
  rw [ex_double_map, ex_double_map, ex_double_map]

theorem ex_intoAffine_map (p : EdwardsPointEx F) : p.intoAffine.map (EdwardsPoint.map e) = (p.map e).intoAffine := by
  show (Num.inverse p.z >>= fun zinv => pure ⟨p.x * zinv, p.y * zinv⟩).map (EdwardsPoint.map e) =
    (Num.inverse (e p.z) >>= fun zinv => pure ⟨e p.x * zinv, e p.y * zinv⟩)
  rw [← inverse_map]
  exact bind_map _ _ _ _ _ fun i => by show Except.ok _ = Except.ok _; simp [EdwardsPoint.map]

theorem mulBits_map (J : JubJubParams F) (p : EdwardsPointEx F) (bits : List Bool) (res : EdwardsPointEx F) :
    (EdwardsPointEx.mulBits J p bits res).map e = EdwardsPointEx.mulBits (J.map e) (p.map e) bits (res.map e) := by
  induction bits generalizing res with
  | nil => rfl
  | cons b bits ih =>
    unfold EdwardsPointEx.mulBits
    simp only []
    rw [ih]
    congr 1
    cases b
    · exact ex_double_map e res
    · show (res.double.add p J).map e = (res.map e).double.add (p.map e) (J.map e)
      rw [ex_add_map, ex_double_map]

theorem mulRaw_map (p : EdwardsPointEx F) (s : List UInt64) (J : JubJubParams F) :
    (p.mulRaw s J).map e = (p.map e).mulRaw s (J.map e) := by
  unfold EdwardsPointEx.mulRaw
  rw [mulBits_map, ex_zero_map]

theorem isInSubgroup_map (p : EdwardsPointEx F) (J : JubJubParams F) : (p.map e).isInSubgroup (J.map e) = p.isInSubgroup J := by
  unfold EdwardsPointEx.isInSubgroup
  rw [show (J.map e).l = J.l from rfl, ← mulRaw_map, ex_isZero_map]

theorem ex_mul_map (p : EdwardsPointEx F) {l : Nat} [Fact l.Prime] (s : ZMod l) (J : JubJubParams F) :
    (p.mul s J).map e = (p.map e).mul s (J.map e) := mulRaw_map e _ _ _

theorem intoExtended_map (p : EdwardsPoint F) : p.intoExtended.map e = (p.map e).intoExtended := by
  simp [EdwardsPoint.intoExtended, EdwardsPoint.map, EdwardsPointEx.map]

theorem zero_map : (EdwardsPoint.zero : EdwardsPoint F).map e = EdwardsPoint.zero := by
  simp [EdwardsPoint.zero, EdwardsPoint.map]

theorem isZero_map (p : EdwardsPoint F) : (p.map e).isZero = p.isZero := by
  unfold EdwardsPoint.isZero EdwardsPoint.map
  rw [← map_zero e, ← map_one e]
  simp only [eq_bool]

theorem mul_map (p : EdwardsPoint F) {l : Nat} [Fact l.Prime] (s : ZMod l) (J : JubJubParams F) :
    (p.mul s J).map (EdwardsPoint.map e) = (p.map e).mul s (J.map e) := by
  unfold EdwardsPoint.mul
  rw [ex_intoAffine_map, ex_mul_map, intoExtended_map]

theorem add_map (p q : EdwardsPoint F) (J : JubJubParams F) :
    (p.add q J).map (EdwardsPoint.map e) = (p.map e).add (q.map e) (J.map e) := by
  unfold EdwardsPoint.add
  rw [ex_intoAffine_map, ex_add_map, intoExtended_map, intoExtended_map]

theorem double_map (p : EdwardsPoint F) : p.double.map (EdwardsPoint.map e) = (p.map e).double := by
  unfold EdwardsPoint.double
  rw [ex_intoAffine_map, ex_double_map, intoExtended_map]

theorem mulByCofactor_map (p : EdwardsPoint F) : p.mulByCofactor.map (EdwardsPoint.map e) = (p.map e).mulByCofactor := by
  unfold EdwardsPoint.mulByCofactor
  rw [ex_intoAffine_map, ex_mulByCofactor_map, intoExtended_map]

theorem isInCurve_map (p : EdwardsPoint F) (J : JubJubParams F) : (p.map e).isInCurve (J.map e) = p.isInCurve J := by
  unfold EdwardsPoint.isInCurve EdwardsPoint.map JubJubParams.map
  simp only []
  rw [← map_one e]
  simp only [← map_mul, ← map_sub, ← map_add, eq_bool]

theorem intoMontgomery_map (p : EdwardsPoint F) :
    p.intoMontgomery.map (Option.map (MontgomeryPoint.map e)) = (p.map e).intoMontgomery := by
  unfold EdwardsPoint.intoMontgomery
  show _ = if e p.x = 0 then if e p.y = 1 then _ else _ else
    (Num.div (1 + e p.y) (1 - e p.y) >>= fun mx => Num.div mx (e p.x) >>= fun my => pure (some (⟨mx, my⟩ : MontgomeryPoint K)))
  simp only [map_eq_zero, map_eq_one_iff e e.injective]
  split
  · split
    · rfl
    · show Except.ok _ = Except.ok _
      simp [MontgomeryPoint.map]
  · have h1 : 1 + e p.y = e (1 + p.y) := by simp
    have h2 : 1 - e p.y = e (1 - p.y) := by simp
    rw [h1, h2, ← div_map]
    refine bind_map _ _ _ _ _ fun mx => ?_
    rw [← div_map]
    exact bind_map _ _ _ _ _ fun my => rfl

theorem ex_intoMontgomery_map (p : EdwardsPointEx F) :
    p.intoMontgomery.map (Option.map (MontgomeryPoint.map e)) = (p.map e).intoMontgomery := by
  unfold EdwardsPointEx.intoMontgomery
  rw [← ex_intoAffine_map]
  exact bind_map _ _ _ _ _ fun q => intoMontgomery_map e q

theorem mont_intoAffine_map (p : MontgomeryPoint F) : p.intoAffine.map (EdwardsPoint.map e) = (p.map e).intoAffine := by
  unfold MontgomeryPoint.intoAffine
  show _ = if e p.x = 0 then _ else (Num.div (e p.x) (e p.y) >>= fun ex => Num.div (e p.x - 1) (e p.x + 1) >>= fun ey =>
    pure (⟨ex, ey⟩ : EdwardsPoint K))
  simp only [map_eq_zero]
  split
  · show Except.ok _ = Except.ok _
    simp [EdwardsPoint.map]
  · have h1 : e p.x - 1 = e (p.x - 1) := by simp
    have h2 : e p.x + 1 = e (p.x + 1) := by simp
    rw [h1, h2, ← div_map]
    refine bind_map _ _ _ _ _ fun ex => ?_
    rw [← div_map]
    exact bind_map _ _ _ _ _ fun ey => rfl

theorem mont_intoExtended_map (p : MontgomeryPoint F) : p.intoExtended.map (EdwardsPointEx.map e) = (p.map e).intoExtended := by
  unfold MontgomeryPoint.intoExtended
  rw [← mont_intoAffine_map]
  exact bind_map _ _ _ _ _ fun q => by show Except.ok _ = Except.ok _; rw [intoExtended_map]

theorem subgroupDecompress_map (sqrt : F → Option F) (sqrt' : K → Option K) (hs : ∀ a, (sqrt a).map e = sqrt' (e a)) (x : F)
    (J : JubJubParams F) : (EdwardsPoint.subgroupDecompress sqrt x J).map (Option.map (EdwardsPoint.map e)) =
      EdwardsPoint.subgroupDecompress sqrt' (e x) (J.map e) := by
  unfold EdwardsPoint.subgroupDecompress
  simp only []
  have h1 : e x * e x + 1 = e (x * x + 1) := by simp
  have h2 : 1 - (J.map e).d * (e x * e x) = e (1 - J.d * (x * x)) := by simp [JubJubParams.map]
  rw [h1, h2, ← div_map]
  refine bind_map _ _ _ _ _ fun t => ?_
  rw [← hs]
  cases sqrt t with
  | none => rfl
  | some y =>
    simp only [Option.map_some]
    have h3 : ((⟨x, y⟩ : EdwardsPoint F).intoExtended.mulRaw (limbsOf (nLimbs J.l) J.l) J).intoAffine.map (EdwardsPoint.map e) =
        ((⟨e x, e y⟩ : EdwardsPoint K).intoExtended.mulRaw (limbsOf (nLimbs (J.map e).l) (J.map e).l) (J.map e)).intoAffine := by
      rw [ex_intoAffine_map, mulRaw_map, intoExtended_map]
      rfl
    rw [← h3]
    refine bind_map _ _ _ _ _ fun q => ?_
    show _ = if e q.x = 0 then if e q.y = 1 then _ else _ else _
    simp only [map_eq_zero, map_eq_one_iff e e.injective]
    split
    · split
      · rfl
      · show Except.ok _ = Except.ok _
        simp [EdwardsPoint.map]
    · rfl

end Natural

end Fawkes
