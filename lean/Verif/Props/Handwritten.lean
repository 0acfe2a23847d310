import Verif.Props.Algebraic

/-!
# Circuits written without the macros: C85

A client may implement the trait `Circuit` itself: `synthesize` is then any sequence of calls of the library that allocates and publishes
where it likes.  The model is a `Code` that starts without registers.
-/

namespace Fawkes.Props

open Groth16

variable {r : Nat} [Fact r.Prime] {W : Type}

/-- src/core/cs.rs: `Circuit::synthesize` of a circuit written by hand; the data are those of the struct (absent for `Default`). -/
def handwritten (code : Code r W) (w : Option W) : M (ZMod r) (List (CNum (ZMod r))) := code.exec w []

theorem handwritten_shape {code : Code r W} (hw : code.WidthsFit) {w : W} {o : List (CNum (ZMod r))} {s : CS (ZMod r)}
    (h : (handwritten code (some w)).run (CS.new .prove) = .ok (o, s)) :
    ∃ o' s', (handwritten code none).run (CS.new .setup) = .ok (o', s') ∧ s.ninputs = s'.ninputs ∧ s.naux = s'.naux ∧
      s.cons.map Constraint.shape = s'.cons.map Constraint.shape ∧ rows s = rows s' := by
  have hn : (CS.new .prove : CS (ZMod r)).SameShape (CS.new .setup) := ⟨by simp [CS.new], rfl, rfl, rfl, rfl⟩
  have key := sim_setup (some w) code hw (q := []) (q' := []) (by simp [FitsLcs]) true
  obtain ⟨a', s', h', ⟨hs, -, -⟩, -⟩ := key _ _ ⟨hn, rfl, rfl⟩ _ _ h trivial
  exact ⟨a', s', h', hs.ninputs, hs.naux, hs.cons, by unfold rows; rw [hs.cons, hs.ninputs]⟩

theorem handwritten_canonical {code : Code r W} {w : Option W} {b : Backend} {o : List (CNum (ZMod r))} {s : CS (ZMod r)}
    (h : (handwritten code w).run (CS.new b) = .ok (o, s)) : ConsCanonical s := by
  have hf : s.WF := (M.run_ext h).wf (wf_new _)
  obtain ⟨o', t3, g3, st3, f3⟩ := sim_code (X := selfLink false s hf) (w := w) (w' := w) (Or.inr ⟨rfl, fun k => by cases k⟩) code
    (fun h => by cases h) (fun k => by cases k) (selfLink_sees code) (q := []) (q' := []) (by simp [FitsLcs])
    _ _ ⟨rfl, consGood_new false s b⟩ _ _ h (code.ok_of_run h fun b s1 s2 _ e => e.vars)
  have h1 := st3.2
  exact fun c hc => ⟨(h1 c hc).1.canon, (h1 c hc).2.1.canon, (h1 c hc).2.2.1.canon⟩

/-- C85: keys generated from a circuit written by hand without data, and a proof made with data that satisfy it: `prove` returns a
proof and `verify` accepts it with the published values, in the order of publishing, unless the secret point of the key generator is one
of few. -/
theorem C85_accepts {K : TwoAdic (ZMod r)} (hK : LawfulTwoAdic K) (code : Code r W) (hw : code.WidthsFit)
    (o0 : List (CNum (ZMod r))) (s0 : CS (ZMod r)) (hset : (handwritten code none).run (CS.new .setup) = .ok (o0, s0))
    (hone : ConstantOnRight s0) :
    ∃ bad : Finset (ZMod r), bad.card ≤ 2 * (s0.cons.length + s0.ninputs) * (2 * (s0.ninputs + s0.naux) + 1) ∧
      ∀ {G1 G2 T : Type} [AddCommGroup G1] [AddCommGroup G2] [DecidableEq G1] [DecidableEq G2] [CommMonoid T] [DecidableEq T]
        {E : Engine G1 G2 T} {e : G1 → G2 → Tˣ} (_ : PairingEngine E e) (_ : ∀ a b b', e a (b + b') = e a b * e a b')
        (t : Toxic G1 G2 r) (_ : r • t.g1 = 0) (_ : r • t.g2 = 0) (_ : t.g1 ≠ 0) (_ : t.g2 ≠ 0) (_ : t.tau ∉ bad)
        (params : Parameters G1 G2) (_ : generateKeys K t (handwritten code none) = .ok params)
        (w : W) (o : List (CNum (ZMod r))) (s : CS (ZMod r))
        (_ : (handwritten code (some w)).run (CS.new .prove) = .ok (o, s)) (_ : s.Sat s.assign) (x y : ZMod r),
        ∃ proof, prove K params x y (handwritten code (some w)) = .ok proof ∧
          verify E (truncate params.vk) proof (publicInputs s) = .ok (.ok true) := by
  obtain ⟨bad, hcard, hbad⟩ := cleanSetup_few hK (ninputs_pos hset)
  refine ⟨bad, hcard, ?_⟩
  intro G1 G2 T _ _ _ _ _ _ E e hE hr t h1 h2 n1 n2 ht params hk w o s h hs x y
  obtain ⟨o', s', hset', hi, ha, hcons, hrows⟩ := handwritten_shape hw h
  rw [hset] at hset'; injection hset' with hset'; injection hset' with ho hs'; subst ho hs'
  have hk' : generateParameters K t s = .ok params := by
    unfold generateKeys at hk
    rw [hset] at hk
    rw [generateParameters_congr K t hi ha hcons]
    exact hk
  obtain ⟨-, -, -, D, hD, -⟩ := generateParameters_ok hk'
  have hn := ninputs_pos h
  refine ⟨denseProof D (denseKeys D t s) x y s, ?_, proving_accepts hE hr hK t h1 h2 hn hk' hD x y hs⟩
  unfold prove
  rw [h]
  refine (createProof_clean h1 h2 n1 n2 hn (handwritten_canonical h) hk' hD
    (clean_congr hi ha hrows (hbad _ ht _ (by rw [← hrows]; exact hD))) x y).1 ?_
  rwa [balanced_congr hrows, balanced_iff (handwritten_canonical hset)]

/-- C85: if the data do not satisfy the circuit, then `verify` rejects the proof that `prove` returns, with the published values, unless
the secret point of the key generator is one of few. -/
theorem C85_rejects {K : TwoAdic (ZMod r)} (hK : LawfulTwoAdic K) (code : Code r W) (hw : code.WidthsFit) (w : W)
    (o : List (CNum (ZMod r))) (s : CS (ZMod r)) (h : (handwritten code (some w)).run (CS.new .prove) = .ok (o, s))
    (hs : ¬ s.Sat s.assign) :
    ∃ bad : Finset (ZMod r), bad.card ≤ 2 * (s.cons.length + s.ninputs) * (2 * (s.ninputs + s.naux) + 3) ∧
      ∀ {G1 G2 T : Type} [AddCommGroup G1] [AddCommGroup G2] [DecidableEq G1] [DecidableEq G2] [CommMonoid T] [DecidableEq T]
        {E : Engine G1 G2 T} {e : G1 → G2 → Tˣ} (_ : PairingEngine E e) (_ : ∀ a b b', e a (b + b') = e a b * e a b')
        (t : Toxic G1 G2 r) (_ : r • t.g1 = 0) (_ : r • t.g2 = 0) (_ : e t.g1 t.g2 ≠ 1) (_ : t.tau ∉ bad)
        (params : Parameters G1 G2) (_ : generateKeys K t (handwritten code none) = .ok params) (x y : ZMod r)
        (proof : Proof G1 G2) (_ : prove K params x y (handwritten code (some w)) = .ok proof),
        verify E (truncate params.vk) proof (publicInputs s) = .ok (.ok false) := by
  obtain ⟨o0, s0, hset, hi, ha, hcons, hrows⟩ := handwritten_shape hw h
  obtain ⟨bad1, hcard1, hbad1⟩ := cleanSetup_few hK (ninputs_pos hset)
  have hl : s0.cons.length = s.cons.length := by simpa using (congrArg List.length hcons).symm
  rw [hl, ← hi, ← ha] at hcard1
  have hn := ninputs_pos h
  have hkeys : ∀ {G1 G2 : Type} [AddCommGroup G1] [AddCommGroup G2] [DecidableEq G1] [DecidableEq G2] (t : Toxic G1 G2 r)
      (params : Parameters G1 G2), generateKeys K t (handwritten code none) = .ok params →
      generateParameters K t s = .ok params := by
    intro G1 G2 _ _ _ _ t params hk
    unfold generateKeys at hk
    rw [hset] at hk
    rw [generateParameters_congr K t hi ha hcons]
    exact hk
  cases hD : Domain.ofLength K (rows s).length with
  | none =>
    refine ⟨∅, by simp, ?_⟩
    intro G1 G2 T _ _ _ _ _ _ E e hE hr t h1 h2 hne ht params hk
    obtain ⟨-, -, -, D, hD', -⟩ := generateParameters_ok (hkeys t params hk)
    rw [hD] at hD'; cases hD'
  | some D =>
    obtain ⟨bad2, hcard2, hbad2⟩ := proving_rejects hK hn hD hs
    have hlen : (rows s).length = s.cons.length + s.ninputs := by simp [rows]
    have hm : D.m ≤ 2 * (rows s).length := domain_le (by omega) hD
    rw [hlen] at hm
    refine ⟨bad1 ∪ bad2, ?_, ?_⟩
    · refine (Finset.card_union_le _ _).trans ?_
      have : 2 * (s.cons.length + s.ninputs) * (2 * (s.ninputs + s.naux) + 3) =
        2 * (s.cons.length + s.ninputs) * (2 * (s.ninputs + s.naux) + 1) + 4 * (s.cons.length + s.ninputs) := by ring
      rw [this]
      omega
    intro G1 G2 T _ _ _ _ _ _ E e hE hr t h1 h2 hne ht params hk x y proof hproof
    rw [Finset.mem_union, not_or] at ht
    obtain ⟨n1, n2⟩ := generators_ne hE.add_left hr hne
    have hk' := hkeys t params hk
    unfold prove at hproof
    rw [h] at hproof
    obtain ⟨c1, c2⟩ := createProof_clean h1 h2 n1 n2 hn (handwritten_canonical h) hk' hD
      (clean_congr hi ha hrows (hbad1 _ ht.1 _ (by rw [← hrows]; exact hD))) x y
    by_cases hone : OneBalanced s
    · have hp : createProof K params x y s = .ok proof := hproof
      rw [c1 hone] at hp
      injection hp with hp
      rw [← hp]
      exact hbad2 hE hr t h1 h2 hne ht.2 params hk' x y
    · have hp : createProof K params x y s = .ok proof := hproof
      rw [c2 hone] at hp
      cases hp

/-- A circuit written by hand: a product of two secret numbers is allocated, checked and published. -/
def handProduct : Code 97 (ZMod 97 × ZMod 97) :=
  .call (.alloc [] fun w _ => .ok w.1) fun _ =>
  .call (.alloc [] fun w _ => .ok w.2) fun _ =>
  .call (.prim (.mul 0 1)) fun _ =>
  .call (.prim (.inputize 2)) fun _ => .done

/-- It meets the hypotheses of `C85_accepts`, its run without data has 2 constraints, and with 5 and 7 the published value is 35. -/
example : handProduct.WidthsFit ∧
    (match (handwritten handProduct none).run (CS.new .setup) with
      | .ok (_, s) => some (s.cons.length, s.ninputs, s.naux)
      | .error _ => none) = some (2, 2, 3) ∧
    (match (handwritten handProduct (some (5, 7))).run (CS.new .prove) with
      | .ok (_, s) => some (publicInputs s)
      | .error _ => none) = some [35] := by
  refine ⟨by simp [handProduct, Code.WidthsFit, Call.WidthsFit], by decide +kernel, by decide +kernel⟩

end Fawkes.Props
