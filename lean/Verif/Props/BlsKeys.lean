import Verif.Props.BlsPoints

/-!
# What the random points of BLS12-381 say about its keys (C111)
-/

namespace Fawkes.Props

open Groth16 Groth16.Contract Fawkes

attribute [local irreducible] blsCofactor blsCofactor2

section random

variable {sqrt : ZMod blsQ → Option (ZMod blsQ)} {sqrt2 : Fq2 (ZMod blsQ) → Option (Fq2 (ZMod blsQ))}

theorem blsPoint1_reads (hs : IsSqrt sqrt) : Reads (blsPoint1 sqrt) :=
  curvePoint_reads (fqBytes_lawful blsQ) goodBls hs _ (rand_free goodBls.two) rand_consumes

theorem blsPoint2_reads (hs : IsSqrt sqrt2) : Reads (blsPoint2 sqrt2) :=
  curvePoint_reads (fq2Bytes_lawful blsQ) goodBls2 hs _ (randFq2_free goodBls.two) randFq2_consumes

theorem yields_blsQ : Yields (OsRng.rand blsQ) 48 :=
  yields_of (rand_free goodBls.two) (b := List.replicate 48 0) (a := 0) (by decide +kernel)

theorem yields_blsR : Yields (OsRng.rand blsR) 32 :=
  yields_of (rand_free blsR_odd) (b := List.replicate 32 0) (a := 0) (by decide +kernel)

theorem yields_blsFq2 : Yields (randFq2 blsQ) 96 := by
  intro z
  obtain ⟨b, hb, h⟩ := (yields_blsQ.seq yields_blsQ) (z.re, z.im)
  refine ⟨b, hb, fun rest => ?_⟩
  rw [randFq2_eq, h]
  rfl

/-- C111: each point of order `r` of `G1` of BLS12-381 is drawn for some 52 bytes. -/
theorem C111_bls_possible_g1 (hs : IsSqrt sqrt) {P : PointsOf blsB} (h0 : P ≠ 0) (hP : blsR • P = 0) :
    ∃ s : Entropy, s.length = 52 ∧ ∀ rest, blsPoint1 sqrt (s ++ rest) = .ok (P, rest) :=
  yields_curve (fqBytes_lawful blsQ) goodBls hs blsCofactor yields_blsQ rand_consumes h0
    (multiple_of_killed (Fact.out : blsR.Prime).one_lt coprime_blsCofactor P hP)

/-- C111: each point of order `r` of `G2` of BLS12-381 is drawn for some 100 bytes. -/
theorem C111_bls_possible_g2 (hs : IsSqrt sqrt2) {P : PointsOf blsB2} (h0 : P ≠ 0) (hP : blsR • P = 0) :
    ∃ s : Entropy, s.length = 100 ∧ ∀ rest, blsPoint2 sqrt2 (s ++ rest) = .ok (P, rest) :=
  yields_curve (fq2Bytes_lawful blsQ) goodBls2 hs blsCofactor2 yields_blsFq2 randFq2_consumes h0
    (multiple_of_killed (Fact.out : blsR.Prime).one_lt coprime_blsCofactor2 P hP)

/-- C111: each choice of two points of order `r` and five numbers is drawn by the setup over BLS12-381 for some 312 bytes. -/
theorem C111_bls_setup_possible (hs : IsSqrt sqrt) (hs2 : IsSqrt sqrt2) (t : Toxic (PointsOf blsB) (PointsOf blsB2) blsR) (ht : BlsToxic t) :
    ∃ b : Entropy, b.length = 312 ∧ setupCoins blsR (blsPoint1 sqrt) (blsPoint2 sqrt2) b = .ok (t, []) := by
  obtain ⟨b1, hb1, h1⟩ := C111_bls_possible_g1 hs ht.1.1 ht.1.2
  obtain ⟨b2, hb2, h2⟩ := C111_bls_possible_g2 hs2 ht.2.1 ht.2.2
  obtain ⟨b3, hb3, h3⟩ := (yields_blsR.seq (yields_blsR.seq (yields_blsR.seq (yields_blsR.seq yields_blsR))))
    (t.alpha, t.beta, t.gamma, t.delta, t.tau)
  refine ⟨b1 ++ (b2 ++ (b3 ++ [])), by simp only [List.length_append, hb1, hb2, hb3, List.length_nil], ?_⟩
  rw [setupCoins_eq]
  unfold Sampler.seq at h3 ⊢
  rw [h1]
  dsimp only
  rw [h2]
  dsimp only
  rw [h3]
  rfl

/-! ## The keys -/

section keys

variable {T : Type} [CommMonoid T] [DecidableEq T] {K : TwoAdic (ZMod blsR)} {E : Engine (PointsOf blsB) (PointsOf blsB2) T}
  {e : PointsOf blsB → PointsOf blsB2 → Tˣ}

/-- C111: at most the part `2·(constraints + inputs)·(2·variables + 1) / r` of the byte strings of any length with which `setup` gets its
random choices makes keys of BLS12-381 that reject an honest proof. -/
theorem C111_bls_unlucky (hK : LawfulTwoAdic K) (hE : PairingEngine E e) (hadd : ∀ a b b', e a (b + b') = e a b * e a b')
    (hs : IsSqrt sqrt) (hs2 : IsSqrt sqrt2) {W : Type} (P Q : Ty) (code : Code blsR W) (hw : code.WidthsFit) (hc : code.Quiet)
    (a0 : P.S (ZMod blsR)) (s0 : CS (ZMod blsR)) (hset : (generated P Q code none none none).run (CS.new .setup) = .ok (a0, s0))
    (hone : ConstantOnRight s0) (n : Nat) :
    strings n (Unlucky K E (blsPoint1 sqrt) (blsPoint2 sqrt2) P Q code) * blsR ≤
      2 * (s0.cons.length + s0.ninputs) * (2 * (s0.ninputs + s0.naux) + 1) *
        strings n (fun b => ∃ t rest, setupCoins blsR (blsPoint1 sqrt) (blsPoint2 sqrt2) b = .ok (t, rest)) :=
  C82_setup hK blsR_odd hE hadd (blsPoint1_reads hs) (blsPoint2_reads hs2) (fun b g rest => C111_bls_random_g1 b rest g)
    (fun b g rest => C111_bls_random_g2 b rest g) P Q code hw hc a0 s0 hset hone n

/-- C111: at most the part `choices · (4·(constraints + inputs)·(variables + 2) + 8) / r` of them makes keys of BLS12-381 with which one of
the given combinations of the points of the keys is a forgery. -/
theorem C111_bls_entropy (hK : LawfulTwoAdic K) (hE : PairingEngine E e) (hadd : ∀ a b b', e a (b + b') = e a b * e a b')
    (hne : ∀ a b, a ≠ 0 → b ≠ 0 → blsR • a = 0 → blsR • b = 0 → e a b ≠ 1) (hs : IsSqrt sqrt) (hs2 : IsSqrt sqrt2)
    {α : Type} (circuit : M (ZMod blsR) α) (a0 : α) (s0 : CS (ZMod blsR)) (hset : circuit.run (CS.new .setup) = .ok (a0, s0))
    (choices : List (AlgebraicProver blsR × List (ZMod blsR))) (n : Nat) :
    strings n (Forgery K E (blsPoint1 sqrt) (blsPoint2 sqrt2) circuit s0 choices) * blsR ≤
      choices.length * (4 * (s0.cons.length + s0.ninputs) * (s0.ninputs + s0.naux + 2) + 8) *
        strings n (fun b => ∃ t rest, setupCoins blsR (blsPoint1 sqrt) (blsPoint2 sqrt2) b = .ok (t, rest)) :=
  C84_entropy hK blsR_odd hE hadd hne (blsPoint1_reads hs) (blsPoint2_reads hs2)
    (fun b g rest => C111_bls_random_g1 b rest g) (fun b g rest => C111_bls_random_g2 b rest g) circuit a0 s0 hset choices n

/-- C111: and at most the same part lets the program of the command line print "true" for such a forgery. -/
theorem C111_bls_command_line (hK : LawfulTwoAdic K) (hE : PairingEngine E e) (hadd : ∀ a b b', e a (b + b') = e a b * e a b')
    (hne : ∀ a b, a ≠ 0 → b ≠ 0 → blsR • a = 0 → blsR • b = 0 → e a b ≠ 1) (hs : IsSqrt sqrt) (hs2 : IsSqrt sqrt2)
    {W : Type} (pub sec : Serde.Layout) (code : Code blsR W) (u1 : RawCodec (PointsOf blsB)) (u2 : RawCodec (PointsOf blsB2))
    (f : Cli.Format (PointsOf blsB) (PointsOf blsB2) blsR) (hf : ReadsBack f)
    (wit : pub.ty.V (ZMod blsR) → sec.ty.V (ZMod blsR) → W) (a0 : pub.ty.S (ZMod blsR)) (s0 : CS (ZMod blsR))
    (hset : (generated pub.ty sec.ty code none none none).run (CS.new .setup) = .ok (a0, s0)) (hn : s0.ninputs < 2 ^ 32)
    (choices : List (AlgebraicProver blsR × List (ZMod blsR))) (n : Nat) :
    strings n (Fooled (clientProgram K u1 u2 f E pub sec code wit) (blsPoint1 sqrt) (blsPoint2 sqrt2) s0 choices) * blsR ≤
      choices.length * (4 * (s0.cons.length + s0.ninputs) * (s0.ninputs + s0.naux + 2) + 8) *
        strings n (fun b => ∃ t rest, setupCoins blsR (blsPoint1 sqrt) (blsPoint2 sqrt2) b = .ok (t, rest)) :=
  C106_entropy hK blsR_odd hE hadd hne (blsPoint1_reads hs) (blsPoint2_reads hs2)
    (fun b g rest => C111_bls_random_g1 b rest g) (fun b g rest => C111_bls_random_g2 b rest g) pub sec code u1 u2 f hf wit a0 s0 hset hn choices n

end keys

end random

/-- C111: the groups of BLS12-381 do have a pairing as these theorems assume. -/
theorem C111_bls_pairing : ∃ (E : Engine (PointsOf blsB) (PointsOf blsB2) (Multiplicative (ZMod blsR)))
    (e : PointsOf blsB → PointsOf blsB2 → (Multiplicative (ZMod blsR))ˣ), PairingEngine E e ∧
      (∀ a b b', e a (b + b') = e a b * e a b') ∧ ∀ a b, a ≠ 0 → b ≠ 0 → blsR • a = 0 → blsR • b = 0 → e a b ≠ 1 := by
  obtain ⟨f, hf⟩ := hom_of_torsion coprime_blsCofactor killed_bls card_bls_torsion
  obtain ⟨k, hk⟩ := hom_of_torsion coprime_blsCofactor2 killed_bls2 card_bls2_torsion
  let e : PointsOf blsB → PointsOf blsB2 → (Multiplicative (ZMod blsR))ˣ := fun a b => toUnits (Multiplicative.ofAdd (f a * k b))
  refine ⟨⟨fun l => ((l.map fun q => e q.1 q.2).prod : (Multiplicative (ZMod blsR))ˣ), some⟩, e, ⟨fun _ => rfl, fun a a' b => ?_⟩,
    fun a b b' => ?_, fun a b ha hb hra hr h => ?_⟩
  · show toUnits _ = toUnits _ * toUnits _
    rw [← map_mul, ← ofAdd_add, ← add_mul, map_add]
  · show toUnits _ = toUnits _ * toUnits _
    rw [← map_mul, ← ofAdd_add, ← mul_add, map_add]
  · have h : f a * k b = 0 := by
      have h := toUnits.map_eq_one_iff.1 h
      exact Multiplicative.ofAdd.injective h
    exact (mul_ne_zero (hf a ha hra) (hk b hb hr)) h

/-! ### Examples -/

open Fawkes.FieldSqrt in
/-- With the square roots of the base fields there are 312 bytes for which the setup draws the generators and five given numbers. -/
example : ∃ b : Entropy, b.length = 312 ∧
    setupCoins blsR (blsPoint1 sqrt34) (blsPoint2 sqrt2) b = .ok (⟨genBls, genBls2, 1, 2, 3, 4, 5⟩, []) :=
  C111_bls_setup_possible C114_base_fields.2.2.1 C114_base_fields.2.2.2 _
    ⟨⟨WeierstrassCurve.Affine.Point.some_ne_zero _, genBls_killed⟩, WeierstrassCurve.Affine.Point.some_ne_zero _, genBls2_killed⟩

end Fawkes.Props
