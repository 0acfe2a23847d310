import Verif.Props.RandomPoint
import Verif.Props.KeysExist

/-!
# Properties of whole sessions that start from the bytes of the operating system: C112
-/

namespace Fawkes.Props

open Fawkes.Groth16 Fawkes.Cli Fawkes.Cli.Cmd Fawkes.Serde Fawkes.Groth16.Contract

/-! ### Counting -/

section

variable {r : Nat} [Fact r.Prime]

theorem card_family {I J L : Type} [Fintype I] [DecidableEq L] (S : I → Finset J) (f : I → J → L) (k : Nat) (h : ∀ i, (S i).card ≤ k) :
    (Finset.univ.biUnion fun i => (S i).image (f i)).card ≤ Fintype.card I * k :=
  Finset.card_biUnion_le_card_mul _ _ _ fun i _ => Finset.card_image_le.trans (h i)

/-- The secrets that are bad for one of six reasons. -/
theorem card_reasons (bad0 : Finset (ZMod r)) (bad1 : ZMod r → ZMod r → Finset (ZMod r)) (bad2 : Finset (ZMod r × ZMod r × ZMod r)) {N k N2 : Nat}
    (h0 : bad0.card ≤ N) (h1 : ∀ tau alpha, (bad1 tau alpha).card ≤ k) (h2 : bad2.card ≤ N2 * r ^ 2) :
    ∃ bad : Finset (ZMod r × ZMod r × ZMod r × ZMod r × ZMod r), bad.card ≤ (N + k + N2 + 3) * r ^ 4 ∧
      ∀ alpha beta gamma delta tau, (alpha, beta, gamma, delta, tau) ∉ bad → tau ∉ bad0 ∧ alpha ≠ 0 ∧ beta ∉ bad1 tau alpha ∧ gamma ≠ 0 ∧
        delta ≠ 0 ∧ (alpha, beta, tau) ∉ bad2 := by
  let F := ZMod r
  let b0 : Finset (F × F × F × F × F) := Finset.univ.biUnion fun i : F × F × F × F => bad0.image fun tau => (i.1, i.2.1, i.2.2.1, i.2.2.2, tau)
  let b1 : Finset (F × F × F × F × F) := Finset.univ.biUnion fun i : F × F × F × F => ({0} : Finset F).image fun a => (a, i.1, i.2.1, i.2.2.1, i.2.2.2)
  let b2 : Finset (F × F × F × F × F) := Finset.univ.biUnion fun i : F × F × F × F => (bad1 i.2.2.2 i.1).image fun b => (i.1, b, i.2.1, i.2.2.1, i.2.2.2)
  let b3 : Finset (F × F × F × F × F) := Finset.univ.biUnion fun i : F × F × F × F => ({0} : Finset F).image fun c => (i.1, i.2.1, c, i.2.2.1, i.2.2.2)
  let b4 : Finset (F × F × F × F × F) := Finset.univ.biUnion fun i : F × F × F × F => ({0} : Finset F).image fun d => (i.1, i.2.1, i.2.2.1, d, i.2.2.2)
  let b5 : Finset (F × F × F × F × F) := Finset.univ.biUnion fun i : F × F => bad2.image fun z => (z.1, z.2.1, i.1, i.2, z.2.2)
  have c4 : Fintype.card (F × F × F × F) = r ^ 4 := by simp only [Fintype.card_prod, F, ZMod.card]; ring
  have c2 : Fintype.card (F × F) = r ^ 2 := by simp only [Fintype.card_prod, F, ZMod.card]; ring
  have k0 : b0.card ≤ r ^ 4 * N := c4 ▸ card_family _ _ _ fun _ => h0
  have k1 : b1.card ≤ r ^ 4 * 1 := c4 ▸ card_family _ _ _ fun _ => (Finset.card_singleton _).le
  have k2 : b2.card ≤ r ^ 4 * k := c4 ▸ card_family _ _ _ fun i => h1 _ _
  have k3 : b3.card ≤ r ^ 4 * 1 := c4 ▸ card_family _ _ _ fun _ => (Finset.card_singleton _).le
  have k4 : b4.card ≤ r ^ 4 * 1 := c4 ▸ card_family _ _ _ fun _ => (Finset.card_singleton _).le
  have k5 : b5.card ≤ r ^ 2 * (N2 * r ^ 2) := (card_family _ _ _ fun _ => h2).trans (by rw [c2])
  refine ⟨b0 ∪ (b1 ∪ (b2 ∪ (b3 ∪ (b4 ∪ b5)))), ?_, ?_⟩
  · have := Finset.card_union_le b0 (b1 ∪ (b2 ∪ (b3 ∪ (b4 ∪ b5))))
    have := Finset.card_union_le b1 (b2 ∪ (b3 ∪ (b4 ∪ b5)))
    have := Finset.card_union_le b2 (b3 ∪ (b4 ∪ b5))
    have := Finset.card_union_le b3 (b4 ∪ b5)
    have := Finset.card_union_le b4 b5
    have e : (N + k + N2 + 3) * r ^ 4 = r ^ 4 * N + r ^ 4 * 1 + r ^ 4 * k + r ^ 4 * 1 + r ^ 4 * 1 + r ^ 2 * (N2 * r ^ 2) := by ring
    rw [e]
    omega
  · intro alpha beta gamma delta tau h
    simp only [Finset.mem_union, not_or] at h
    obtain ⟨m0, m1, m2, m3, m4, m5⟩ := h
    refine ⟨fun h => m0 ?_, fun h => m1 ?_, fun h => m2 ?_, fun h => m3 ?_, fun h => m4 ?_, fun h => m5 ?_⟩
    · exact Finset.mem_biUnion.2 ⟨(alpha, beta, gamma, delta), Finset.mem_univ _, Finset.mem_image.2 ⟨tau, h, rfl⟩⟩
    · exact Finset.mem_biUnion.2 ⟨(beta, gamma, delta, tau), Finset.mem_univ _, Finset.mem_image.2 ⟨alpha, Finset.mem_singleton.2 h, rfl⟩⟩
    · exact Finset.mem_biUnion.2 ⟨(alpha, gamma, delta, tau), Finset.mem_univ _, Finset.mem_image.2 ⟨beta, h, rfl⟩⟩
    · exact Finset.mem_biUnion.2 ⟨(alpha, beta, delta, tau), Finset.mem_univ _, Finset.mem_image.2 ⟨gamma, Finset.mem_singleton.2 h, rfl⟩⟩
    · exact Finset.mem_biUnion.2 ⟨(alpha, beta, gamma, tau), Finset.mem_univ _, Finset.mem_image.2 ⟨delta, Finset.mem_singleton.2 h, rfl⟩⟩
    · exact Finset.mem_biUnion.2 ⟨(gamma, delta), Finset.mem_univ _, Finset.mem_image.2 ⟨(alpha, beta, tau), h, rfl⟩⟩

/-- The two choices of the prover are bad for few byte strings. -/
theorem few_proofs (h2 : (2 : ZMod r) ≠ 0) (n : Nat) (R : ZMod r → ZMod r → Prop)
    (h : ∃ y0, ∀ y ≠ y0, ∃ bad : Finset (ZMod r), bad.card ≤ 2 ∧ ∀ x ∉ bad, R x y) :
    strings n (fun b => ∃ x y rest, proofCoins r b = .ok ((x, y), rest) ∧ ¬ R x y) * r ≤
      3 * strings n (fun b => ∃ z rest, proofCoins r b = .ok (z, rest)) := by
  obtain ⟨y0, h⟩ := h
  choose! bad hcard hbad using h
  let b0 : Finset (ZMod r × ZMod r) := Finset.univ.biUnion fun x : ZMod r => ({y0} : Finset (ZMod r)).image fun y => (x, y)
  let b1 : Finset (ZMod r × ZMod r) := Finset.univ.biUnion fun y : ZMod r => (if y = y0 then ∅ else bad y).image fun x => (x, y)
  have k0 : b0.card ≤ r * 1 := by
    have := card_family (fun _ : ZMod r => ({y0} : Finset (ZMod r))) (fun x y => (x, y)) 1 fun _ => (Finset.card_singleton _).le
    rwa [ZMod.card] at this
  have k1 : b1.card ≤ r * 2 := by
    have := card_family (fun y : ZMod r => if y = y0 then ∅ else bad y) (fun y x => (x, y)) 2 fun y => by
      by_cases hy : y = y0
      · rw [if_pos hy]; simp
      · rw [if_neg hy]; exact hcard y hy
    rwa [ZMod.card] at this
  have hc := count_free (get := id) (set := fun _ y => y) (fun _ _ => rfl) (g := proofCoins r) (fun π => C82_proof_coins h2 π) n (b0 ∪ b1)
  rw [Fintype.card_prod, ZMod.card] at hc
  have hr : 0 < r := Nat.Prime.pos Fact.out
  refine Nat.le_of_mul_le_mul_right ?_ hr
  calc _ = strings n (fun b => ∃ x y rest, proofCoins r b = .ok ((x, y), rest) ∧ ¬ R x y) * (r * r) := by ring
    _ ≤ strings n (fun b => ∃ a rest, proofCoins r b = .ok (a, rest) ∧ id a ∈ b0 ∪ b1) * (r * r) := Nat.mul_le_mul_right _ (strings_mono ?_)
    _ = _ := hc
    _ ≤ (r * 1 + r * 2) * _ := Nat.mul_le_mul_right _ ((Finset.card_union_le _ _).trans (Nat.add_le_add k0 k1))
    _ = _ := by ring
  rintro b ⟨x, y, rest, hb, hR⟩
  refine ⟨(x, y), rest, hb, ?_⟩
  by_contra hn
  rw [Finset.mem_union, not_or] at hn
  have hy : y ≠ y0 := fun h => hn.1 (Finset.mem_biUnion.2 ⟨x, Finset.mem_univ _, Finset.mem_image.2 ⟨y, Finset.mem_singleton.2 h, rfl⟩⟩)
  exact hR (hbad y hy x fun h => hn.2 (Finset.mem_biUnion.2 ⟨y, Finset.mem_univ _, Finset.mem_image.2 ⟨x, by rw [if_neg hy]; exact h, rfl⟩⟩))

end

/-! ### Sessions -/

section

variable {r : Nat} [Fact r.Prime] {G1 G2 T W : Type} [AddCommGroup G1] [AddCommGroup G2] [DecidableEq G1] [DecidableEq G2] [CommMonoid T]
  [DecidableEq T]

/-- With the bytes `b` for `setup`, some bytes for `prove` make the session of the commands end differently than with the verdict. -/
def Derailed (g : Program G1 G2 T r) (point1 : Sampler G1) (point2 : Sampler G2) (data : g.pub.ty.V (ZMod r) × g.sec.ty.V (ZMod r)) (verdict : Bool)
    (b : Entropy) : Prop :=
  ∃ t rest, setupCoins r point1 point2 b = .ok (t, rest) ∧ ∃ b' x y rest', proofCoins r b' = .ok ((x, y), rest') ∧
    ¬ Completes g t data x y verdict

/-- With the bytes `b` for `setup`, more than the part `3 / r` of the bytes for `prove` of some length make the session of the commands end
differently than with the verdict. -/
def OftenDerailed (g : Program G1 G2 T r) (point1 : Sampler G1) (point2 : Sampler G2) (data : g.pub.ty.V (ZMod r) × g.sec.ty.V (ZMod r))
    (verdict : Bool) (b : Entropy) : Prop :=
  ∃ t rest, setupCoins r point1 point2 b = .ok (t, rest) ∧ ∃ n,
    3 * strings n (fun b' => ∃ z rest, proofCoins r b' = .ok (z, rest)) <
      strings n (fun b' => ∃ x y rest', proofCoins r b' = .ok ((x, y), rest') ∧ ¬ Completes g t data x y verdict) * r

/-- The data satisfy the circuit. -/
def GoodData (pub sec : Layout) (code : Code r W) (wit : pub.ty.V (ZMod r) → sec.ty.V (ZMod r) → W)
    (data : pub.ty.V (ZMod r) × sec.ty.V (ZMod r)) : Prop :=
  pub.ty.okV (ZMod r) data.1 ∧ ∃ a s,
    (generated pub.ty sec.ty code (some (wit data.1 data.2)) (some data.1) (some data.2)).run (CS.new .prove) = .ok (a, s) ∧ s.Sat s.assign

/-- The circuit can be built with the data, but they do not satisfy it. -/
def WrongData (pub sec : Layout) (code : Code r W) (wit : pub.ty.V (ZMod r) → sec.ty.V (ZMod r) → W)
    (data : pub.ty.V (ZMod r) × sec.ty.V (ZMod r)) : Prop :=
  pub.ty.okV (ZMod r) data.1 ∧ ∃ a s,
    (generated pub.ty sec.ty code (some (wit data.1 data.2)) (some data.1) (some data.2)).run (CS.new .prove) = .ok (a, s) ∧ ¬ s.Sat s.assign

variable {K : TwoAdic (ZMod r)} {E : Engine G1 G2 T} {e : G1 → G2 → Tˣ} {point1 : Sampler G1} {point2 : Sampler G2}

/-- From secrets to byte strings. -/
theorem few_setups (hK : LawfulTwoAdic K) (h2 : (2 : ZMod r) ≠ 0) (hp1 : Reads point1) (hp2 : Reads point2)
    (hg1 : ∀ b g rest, point1 b = .ok (g, rest) → g ≠ 0 ∧ r • g = 0) (hg2 : ∀ b g rest, point2 b = .ok (g, rest) → g ≠ 0 ∧ r • g = 0)
    {P Q : Ty} {code : Code r W} {a0 : P.S (ZMod r)} {s0 : CS (ZMod r)}
    (hset : (generated P Q code none none none).run (CS.new .setup) = .ok (a0, s0)) (hused : AllUsed s0)
    (hdomain : s0.cons.length + s0.ninputs ≤ 2 ^ (K.S - 1)) {N k : Nat} (R : Toxic G1 G2 r → Prop)
    (H : ∃ bad : Finset (ZMod r), bad.card ≤ N ∧ ∀ tau ∉ bad, ∀ alpha ≠ 0, ∃ bad' : Finset (ZMod r), bad'.card ≤ k ∧
      ∀ t : Toxic G1 G2 r, t.g1 ≠ 0 → r • t.g1 = 0 → t.g2 ≠ 0 → r • t.g2 = 0 → t.tau = tau → t.alpha = alpha → t.beta ∉ bad' →
        ∀ params, generateKeys K t (generated P Q code none none none) = .ok params → R t) (n : Nat) :
    strings n (fun b => ∃ t rest, setupCoins r point1 point2 b = .ok (t, rest) ∧ ¬ R t) * r ≤
      (N + k + 2 * (s0.cons.length + s0.ninputs) * s0.naux + 3) *
        strings n (fun b => ∃ t rest, setupCoins r point1 point2 b = .ok (t, rest)) := by
  classical
  obtain ⟨bad0, h0, H⟩ := H
  obtain ⟨bad2, hc2, hk⟩ := C88_keys hK P Q code a0 s0 hset hused hdomain
  choose! bad1 h1 H using H
  obtain ⟨bad, hcard, hbad⟩ := card_reasons bad0 (fun tau alpha => if tau ∉ bad0 ∧ alpha ≠ 0 then bad1 tau alpha else ∅) bad2 h0 (k := k)
    (fun tau alpha => by
      by_cases h : tau ∉ bad0 ∧ alpha ≠ 0
      · rw [if_pos h]; exact h1 tau h.1 alpha h.2
      · rw [if_neg h]; simp) hc2
  refine few_strings h2 hp1 hp2 n _ bad hcard _ ?_
  rintro b ⟨t, rest, ht, hR⟩
  refine ⟨t, rest, ht, ?_⟩
  by_contra hn
  obtain ⟨m0, m1, m2, m3, m4, m5⟩ := hbad _ _ _ _ _ hn
  rw [if_pos ⟨m0, m1⟩] at m2
  obtain ⟨⟨n1, o1⟩, ⟨n2, o2⟩⟩ := setupCoins_points hg1 hg2 ht
  obtain ⟨params, hp⟩ := hk t o1 n1 m3 m4 m5
  exact hR (H t.tau m0 t.alpha m1 t n1 o1 n2 o2 rfl rfl m2 params hp)

/-- C112: on a binding whose files lose nothing: at most the part `N / r` of the byte strings of any length with which `setup` gets its random
choices makes some session on data that satisfy the circuit end otherwise than with "true", where
`N = 2·(constraints + inputs)·(2·variables + 1 + secret variables) + inputs + 4`. -/
theorem C112_true (hK : LawfulTwoAdic K) (h2 : (2 : ZMod r) ≠ 0) (hr : Aligned r) (hE : PairingEngine E e)
    (hadd : ∀ a b b', e a (b + b') = e a b * e a b') (hp1 : Reads point1) (hp2 : Reads point2)
    (hg1 : ∀ b g rest, point1 b = .ok (g, rest) → g ≠ 0 ∧ r • g = 0) (hg2 : ∀ b g rest, point2 b = .ok (g, rest) → g ≠ 0 ∧ r • g = 0)
    {u1 : RawCodec G1} {u2 : RawCodec G2} (hu1 : LawfulRawZero u1) (hu2 : LawfulRawZero u2) {f : Format G1 G2 r} (hf : Lossless f)
    (pub sec : Layout) (hpub : Layout.Named pub ∧ Layout.depth pub ≤ 126) (hsec : Layout.Named sec ∧ Layout.depth sec ≤ 126) (code : Code r W)
    (hw : code.WidthsFit) (hc : code.Quiet) (wit : pub.ty.V (ZMod r) → sec.ty.V (ZMod r) → W) (a0 : pub.ty.S (ZMod r)) (s0 : CS (ZMod r))
    (hset : (generated pub.ty sec.ty code none none none).run (CS.new .setup) = .ok (a0, s0)) (hone : ConstantOnRight s0) (hused : AllUsed s0)
    (hdomain : s0.cons.length + s0.ninputs ≤ 2 ^ (K.S - 1))
    (hsize : 2 * (s0.cons.length + s0.ninputs) ≤ 2 ^ 32 ∧ s0.ninputs + s0.naux < 2 ^ 32) (n : Nat) :
    strings n (fun b => ∃ data, GoodData pub sec code wit data ∧
        Derailed (clientProgram K u1 u2 f E pub sec code wit) point1 point2 data true b) * r ≤
      (2 * (s0.cons.length + s0.ninputs) * (2 * (s0.ninputs + s0.naux) + 1 + s0.naux) + s0.ninputs + 4) *
        strings n (fun b => ∃ t rest, setupCoins r point1 point2 b = .ok (t, rest)) := by
  obtain ⟨bad, hcard, H⟩ := C78_true hK hr pub sec hpub hsec code hw hc a0 s0 hset hone hsize
  refine le_trans (Nat.mul_le_mul_right r (strings_mono ?_)) ((few_setups hK h2 hp1 hp2 hg1 hg2 hset hused hdomain (k := s0.ninputs + 1)
    (fun t => ∀ data, GoodData pub sec code wit data → ∀ x y, Completes (clientProgram K u1 u2 f E pub sec code wit) t data x y true)
    ⟨bad, hcard, fun tau ht alpha ha => ?_⟩ n).trans (Nat.le_of_eq (by ring)))
  · rintro b ⟨data, hd, t, rest, ht, b', x, y, rest', -, hno⟩
    exact ⟨t, rest, ht, fun h => hno (h data hd x y)⟩
  · obtain ⟨bad', hcard', H⟩ := H tau ht alpha ha
    refine ⟨bad', hcard', fun t n1 o1 n2 o2 e1 e2 hb params hk data hd => ?_⟩
    obtain ⟨hok, a, s, hrun, hsat⟩ := hd
    exact (H hE hadd hu1 hu2 f wit t o1 o2 n1 n2 e1 e2 hb params hk data hok a s hrun hsat).1 hf

/-- C112: on a binding with compressed points the same holds of the sessions that end so for more than the part `3 / r` of the byte strings of some
length with which `prove` gets its random choices. -/
theorem C112_true_compressed (hK : LawfulTwoAdic K) (h2 : (2 : ZMod r) ≠ 0) (hr : Aligned r) (hE : PairingEngine E e)
    (hadd : ∀ a b b', e a (b + b') = e a b * e a b') (hp1 : Reads point1) (hp2 : Reads point2)
    (hg1 : ∀ b g rest, point1 b = .ok (g, rest) → g ≠ 0 ∧ r • g = 0) (hg2 : ∀ b g rest, point2 b = .ok (g, rest) → g ≠ 0 ∧ r • g = 0)
    {u1 : RawCodec G1} {u2 : RawCodec G2} (hu1 : LawfulRawZero u1) (hu2 : LawfulRawZero u2) {f : Format G1 G2 r} (hf : LosslessFinite f)
    (pub sec : Layout) (hpub : Layout.Named pub ∧ Layout.depth pub ≤ 126) (hsec : Layout.Named sec ∧ Layout.depth sec ≤ 126) (code : Code r W)
    (hw : code.WidthsFit) (hc : code.Quiet) (wit : pub.ty.V (ZMod r) → sec.ty.V (ZMod r) → W) (a0 : pub.ty.S (ZMod r)) (s0 : CS (ZMod r))
    (hset : (generated pub.ty sec.ty code none none none).run (CS.new .setup) = .ok (a0, s0)) (hone : ConstantOnRight s0) (hused : AllUsed s0)
    (hdomain : s0.cons.length + s0.ninputs ≤ 2 ^ (K.S - 1))
    (hsize : 2 * (s0.cons.length + s0.ninputs) ≤ 2 ^ 32 ∧ s0.ninputs + s0.naux < 2 ^ 32) (n : Nat) :
    strings n (fun b => ∃ data, GoodData pub sec code wit data ∧
        OftenDerailed (clientProgram K u1 u2 f E pub sec code wit) point1 point2 data true b) * r ≤
      (2 * (s0.cons.length + s0.ninputs) * (2 * (s0.ninputs + s0.naux) + 1 + s0.naux) + s0.ninputs + 4) *
        strings n (fun b => ∃ t rest, setupCoins r point1 point2 b = .ok (t, rest)) := by
  obtain ⟨bad, hcard, H⟩ := C78_true hK hr pub sec hpub hsec code hw hc a0 s0 hset hone hsize
  refine le_trans (Nat.mul_le_mul_right r (strings_mono ?_)) ((few_setups hK h2 hp1 hp2 hg1 hg2 hset hused hdomain (k := s0.ninputs + 1)
    (fun t => ∀ data, GoodData pub sec code wit data → ∃ y0, ∀ y ≠ y0, ∃ bad : Finset (ZMod r), bad.card ≤ 2 ∧ ∀ x ∉ bad,
      Completes (clientProgram K u1 u2 f E pub sec code wit) t data x y true)
    ⟨bad, hcard, fun tau ht alpha ha => ?_⟩ n).trans (Nat.le_of_eq (by ring)))
  · rintro b ⟨data, hd, t, rest, ht, m, hm⟩
    exact ⟨t, rest, ht, fun h => absurd (few_proofs h2 m _ (h data hd)) (Nat.not_le.2 hm)⟩
  · obtain ⟨bad', hcard', H⟩ := H tau ht alpha ha
    refine ⟨bad', hcard', fun t n1 o1 n2 o2 e1 e2 hb params hk data hd => ?_⟩
    obtain ⟨hok, a, s, hrun, hsat⟩ := hd
    exact (H hE hadd hu1 hu2 f wit t o1 o2 n1 n2 e1 e2 hb params hk data hok a s hrun hsat).2 hf

/-- The secrets for which a session on wrong data ends otherwise than with "false". -/
theorem wrong_setups (hK : LawfulTwoAdic K) (hr : Aligned r) (hE : PairingEngine E e)
    (hadd : ∀ a b b', e a (b + b') = e a b * e a b') (hne : ∀ a b, a ≠ 0 → b ≠ 0 → r • a = 0 → r • b = 0 → e a b ≠ 1)
    {u1 : RawCodec G1} {u2 : RawCodec G2} (hu1 : LawfulRawZero u1) (hu2 : LawfulRawZero u2) (f : Format G1 G2 r)
    (pub sec : Layout) (hpub : Layout.Named pub ∧ Layout.depth pub ≤ 126) (hsec : Layout.Named sec ∧ Layout.depth sec ≤ 126) (code : Code r W)
    (hw : code.WidthsFit) (hc : code.Quiet) (wit : pub.ty.V (ZMod r) → sec.ty.V (ZMod r) → W) (a0 : pub.ty.S (ZMod r)) (s0 : CS (ZMod r))
    (hset : (generated pub.ty sec.ty code none none none).run (CS.new .setup) = .ok (a0, s0)) (hone : ConstantOnRight s0)
    (hsize : 2 * (s0.cons.length + s0.ninputs) ≤ 2 ^ 32 ∧ s0.ninputs + s0.naux < 2 ^ 32)
    (data : pub.ty.V (ZMod r) × sec.ty.V (ZMod r)) (hd : WrongData pub sec code wit data) :
    ∃ bad : Finset (ZMod r), bad.card ≤ 8 * (s0.cons.length + s0.ninputs) * (s0.ninputs + s0.naux + 1) ∧
      ∀ tau ∉ bad, ∀ alpha ≠ 0, ∃ bad' : Finset (ZMod r), bad'.card ≤ s0.ninputs + 1 ∧
      ∀ t : Toxic G1 G2 r, t.g1 ≠ 0 → r • t.g1 = 0 → t.g2 ≠ 0 → r • t.g2 = 0 → t.tau = tau → t.alpha = alpha → t.beta ∉ bad' →
        ∀ params, generateKeys K t (generated pub.ty sec.ty code none none none) = .ok params →
          (Lossless f → ∀ x y, Completes (clientProgram K u1 u2 f E pub sec code wit) t data x y false) ∧
          (LosslessFinite f → ∃ y0, ∀ y ≠ y0, ∃ bad'' : Finset (ZMod r), bad''.card ≤ 2 ∧ ∀ x ∉ bad'',
            Completes (clientProgram K u1 u2 f E pub sec code wit) t data x y false) := by
  obtain ⟨hok, a, s, hrun, hsat⟩ := hd
  obtain ⟨hi, ha', hcons, -⟩ := shape_of_run hw hset hrun
  have hl0 : s.cons.length = s0.cons.length := by simpa using congrArg List.length hcons
  obtain ⟨bad, hcard, H⟩ := C78_false hK hr pub sec hpub hsec code hw hc a0 s0 hset hone hsize wit data hok a s hrun hsat
  rw [hl0, hi, ha'] at hcard
  refine ⟨bad, hcard.trans (Nat.le_of_eq (by ring)), fun tau ht alpha ha => ?_⟩
  obtain ⟨bad', hcard', H⟩ := H tau ht alpha ha
  rw [hi] at hcard'
  exact ⟨bad', hcard', fun t n1 o1 n2 o2 e1 e2 hb params hk => H hE hadd hu1 hu2 f t o1 o2 (hne _ _ n1 n2 o1 o2) e1 e2 hb params hk⟩

/-- C112: on data that do not satisfy the circuit the sessions end with "false", but for the part `N / r` of the byte strings, where
`N = 2·(constraints + inputs)·(4·(variables + 1) + secret variables) + inputs + 4`. -/
theorem C112_false (hK : LawfulTwoAdic K) (h2 : (2 : ZMod r) ≠ 0) (hr : Aligned r) (hE : PairingEngine E e)
    (hadd : ∀ a b b', e a (b + b') = e a b * e a b') (hne : ∀ a b, a ≠ 0 → b ≠ 0 → r • a = 0 → r • b = 0 → e a b ≠ 1)
    (hp1 : Reads point1) (hp2 : Reads point2)
    (hg1 : ∀ b g rest, point1 b = .ok (g, rest) → g ≠ 0 ∧ r • g = 0) (hg2 : ∀ b g rest, point2 b = .ok (g, rest) → g ≠ 0 ∧ r • g = 0)
    {u1 : RawCodec G1} {u2 : RawCodec G2} (hu1 : LawfulRawZero u1) (hu2 : LawfulRawZero u2) {f : Format G1 G2 r}
    (pub sec : Layout) (hpub : Layout.Named pub ∧ Layout.depth pub ≤ 126) (hsec : Layout.Named sec ∧ Layout.depth sec ≤ 126) (code : Code r W)
    (hw : code.WidthsFit) (hc : code.Quiet) (wit : pub.ty.V (ZMod r) → sec.ty.V (ZMod r) → W) (a0 : pub.ty.S (ZMod r)) (s0 : CS (ZMod r))
    (hset : (generated pub.ty sec.ty code none none none).run (CS.new .setup) = .ok (a0, s0)) (hone : ConstantOnRight s0) (hused : AllUsed s0)
    (hdomain : s0.cons.length + s0.ninputs ≤ 2 ^ (K.S - 1))
    (hsize : 2 * (s0.cons.length + s0.ninputs) ≤ 2 ^ 32 ∧ s0.ninputs + s0.naux < 2 ^ 32)
    (data : pub.ty.V (ZMod r) × sec.ty.V (ZMod r)) (hd : WrongData pub sec code wit data) (n : Nat) :
    (Lossless f → strings n (Derailed (clientProgram K u1 u2 f E pub sec code wit) point1 point2 data false) * r ≤
      (2 * (s0.cons.length + s0.ninputs) * (4 * (s0.ninputs + s0.naux + 1) + s0.naux) + s0.ninputs + 4) *
        strings n (fun b => ∃ t rest, setupCoins r point1 point2 b = .ok (t, rest))) ∧
    (LosslessFinite f → strings n (OftenDerailed (clientProgram K u1 u2 f E pub sec code wit) point1 point2 data false) * r ≤
      (2 * (s0.cons.length + s0.ninputs) * (4 * (s0.ninputs + s0.naux + 1) + s0.naux) + s0.ninputs + 4) *
        strings n (fun b => ∃ t rest, setupCoins r point1 point2 b = .ok (t, rest))) := by
  have H := wrong_setups hK hr hE hadd hne hu1 hu2 f pub sec hpub hsec code hw hc wit a0 s0 hset hone hsize data hd
  have key := few_setups hK h2 hp1 hp2 hg1 hg2 hset hused hdomain _ H n
  constructor
  · intro hf
    refine le_trans (Nat.mul_le_mul_right r (strings_mono ?_)) (key.trans (Nat.le_of_eq (by ring)))
    rintro b ⟨t, rest, ht, b', x, y, rest', -, hno⟩
    exact ⟨t, rest, ht, fun h => hno (h.1 hf x y)⟩
  · intro hf
    refine le_trans (Nat.mul_le_mul_right r (strings_mono ?_)) (key.trans (Nat.le_of_eq (by ring)))
    rintro b ⟨t, rest, ht, m, hm⟩
    exact ⟨t, rest, ht, fun h => absurd (few_proofs h2 m _ (h.2 hf)) (Nat.not_le.2 hm)⟩

end

/-! ## BN256 -/

section bn256

/-- An encoding of the points of a whole group. -/
def wholeRaw {G : Type} [AddCommGroup G] (u : RawCodec (⊤ : AddSubgroup G)) : RawCodec G where
  size := u.size
  encode g := u.encode ⟨g, trivial⟩
  decode bs := (u.decode bs).map Subtype.val
  decodeUnchecked bs := (u.decodeUnchecked bs).map Subtype.val
  isZero g := u.isZero ⟨g, trivial⟩

theorem wholeRaw_lawful {G : Type} [AddCommGroup G] {u : RawCodec (⊤ : AddSubgroup G)} (h : LawfulRawZero u) : LawfulRawZero (wholeRaw u) where
  length_encode g := h.length_encode _
  decode_encode g := by
    show (u.decode (u.encode _)).map _ = _
    rw [h.decode_encode]; rfl
  unchecked_encode g := by
    show (u.decodeUnchecked (u.encode _)).map _ = _
    rw [h.unchecked_encode]; rfl
  zero g hz := congrArg Subtype.val (h.zero ⟨g, trivial⟩ hz)

/-- An encoding of the points of a whole group. -/
def wholeCodec {G : Type} [AddCommGroup G] (c : Codec (⊤ : AddSubgroup G)) : Codec G where
  size := c.size
  encode g := c.encode ⟨g, trivial⟩
  decode bs := (c.decode bs).map Subtype.val
  isZero g := c.isZero ⟨g, trivial⟩

theorem wholeCodec_lawful {G : Type} [AddCommGroup G] {c : Codec (⊤ : AddSubgroup G)} (h : LawfulCodec c) : LawfulCodec (wholeCodec c) where
  size_pos := h.size_pos
  length_encode g := h.length_encode _
  decode_encode g := by
    show (c.decode (c.encode _)).map _ = _
    rw [h.decode_encode]; rfl

/-- The files of the Waves binding, with compressed points of BN256. -/
noncomputable def bnWaves (sqrt : ZMod bnQ → Option (ZMod bnQ)) (sqrt2 : Fq2 (ZMod bnQ) → Option (Fq2 (ZMod bnQ))) :
    Format (PointsOf bnB) (PointsOf bnB2) bnR :=
  wavesFormat (wholeCodec (bnCodec (fqBytes bnQ) sqrt bnB ⊤)) (wholeCodec (bnCodec (fq2Bytes bnQ) sqrt2 bnB2 ⊤)) bnR

variable {sqrt : ZMod bnQ → Option (ZMod bnQ)} {sqrt2 : Fq2 (ZMod bnQ) → Option (Fq2 (ZMod bnQ))}

theorem bnWaves_lossless (hs : IsSqrt sqrt) (hs2 : IsSqrt sqrt2) : LosslessFinite (bnWaves sqrt sqrt2) :=
  C78_waves_format (wholeCodec_lawful (exact_bn1 hs ⊤).toLawfulCodec) (wholeCodec_lawful (exact_bn2 hs2 ⊤).toLawfulCodec)
    (fun g hz => congrArg Subtype.val (((exact_bn1 hs ⊤).isZero ⟨g, trivial⟩).1 hz))
    fun g hz => congrArg Subtype.val (((exact_bn2 hs2 ⊤).isZero ⟨g, trivial⟩).1 hz)

/-- A program over BN256, with its points drawn, written and read as the libraries do. -/
noncomputable def bnProgram {T W : Type} (K : TwoAdic (ZMod bnR)) (E : Engine (PointsOf bnB) (PointsOf bnB2) T) (f : Format (PointsOf bnB) (PointsOf bnB2) bnR)
    (pub sec : Layout) (code : Code bnR W) (wit : pub.ty.V (ZMod bnR) → sec.ty.V (ZMod bnR) → W) : Program (PointsOf bnB) (PointsOf bnB2) T bnR :=
  clientProgram K (wholeRaw (bnRaw (fqBytes bnQ) bnB ⊤)) (wholeRaw (bnRaw (fq2Bytes bnQ) bnB2 ⊤)) f E pub sec code wit

variable {T W : Type} [CommMonoid T] [DecidableEq T] {K : TwoAdic (ZMod bnR)} {E : Engine (PointsOf bnB) (PointsOf bnB2) T}
  {e : PointsOf bnB → PointsOf bnB2 → Tˣ}

/-- C112: BN256, data that satisfy the circuit: the bindings for Ethereum and NEAR, and that for Waves. -/
theorem C112_bn256_true (hK : LawfulTwoAdic K) (hE : PairingEngine E e) (hadd : ∀ a b b', e a (b + b') = e a b * e a b')
    (hs : IsSqrt sqrt) (hs2 : IsSqrt sqrt2)
    (pub sec : Layout) (hpub : Layout.Named pub ∧ Layout.depth pub ≤ 126) (hsec : Layout.Named sec ∧ Layout.depth sec ≤ 126) (code : Code bnR W)
    (hw : code.WidthsFit) (hc : code.Quiet) (wit : pub.ty.V (ZMod bnR) → sec.ty.V (ZMod bnR) → W) (a0 : pub.ty.S (ZMod bnR)) (s0 : CS (ZMod bnR))
    (hset : (generated pub.ty sec.ty code none none none).run (CS.new .setup) = .ok (a0, s0)) (hone : ConstantOnRight s0) (hused : AllUsed s0)
    (hdomain : s0.cons.length + s0.ninputs ≤ 2 ^ (K.S - 1))
    (hsize : 2 * (s0.cons.length + s0.ninputs) ≤ 2 ^ 32 ∧ s0.ninputs + s0.naux < 2 ^ 32) (n : Nat) :
    (∀ f ∈ [jsonFormat bnCoords bnR, nearFormat bnCoords bnR],
      strings n (fun b => ∃ data, GoodData pub sec code wit data ∧
          Derailed (bnProgram K E f pub sec code wit) (bnPoint1 sqrt) (bnPoint2 sqrt2) data true b) * bnR ≤
        (2 * (s0.cons.length + s0.ninputs) * (2 * (s0.ninputs + s0.naux) + 1 + s0.naux) + s0.ninputs + 4) *
          strings n (fun b => ∃ t rest, setupCoins bnR (bnPoint1 sqrt) (bnPoint2 sqrt2) b = .ok (t, rest))) ∧
    strings n (fun b => ∃ data, GoodData pub sec code wit data ∧
        OftenDerailed (bnProgram K E (bnWaves sqrt sqrt2) pub sec code wit) (bnPoint1 sqrt) (bnPoint2 sqrt2) data true b) * bnR ≤
      (2 * (s0.cons.length + s0.ninputs) * (2 * (s0.ninputs + s0.naux) + 1 + s0.naux) + s0.ninputs + 4) *
        strings n (fun b => ∃ t rest, setupCoins bnR (bnPoint1 sqrt) (bnPoint2 sqrt2) b = .ok (t, rest)) := by
  obtain ⟨u1, u2, -, -⟩ := C110_raw_lawful ⊤ ⊤ ⊥ ⊥
  refine ⟨fun f hf => C112_true hK bnR_odd aligned_bnR hE hadd (bnPoint1_reads hs) (bnPoint2_reads hs2) (fun b g rest => C111_random_g1 b rest g)
      (fun b g rest => C111_random_g2 b rest g) (wholeRaw_lawful u1) (wholeRaw_lawful u2) ?_ pub sec hpub hsec code hw hc wit a0 s0 hset hone
      hused hdomain hsize n,
    C112_true_compressed hK bnR_odd aligned_bnR hE hadd (bnPoint1_reads hs) (bnPoint2_reads hs2) (fun b g rest => C111_random_g1 b rest g)
      (fun b g rest => C111_random_g2 b rest g) (wholeRaw_lawful u1) (wholeRaw_lawful u2) (bnWaves_lossless hs hs2) pub sec hpub hsec code hw hc
      wit a0 s0 hset hone hused hdomain hsize n⟩
  rcases List.mem_cons.1 hf with rfl | hf
  · exact C78_ethereum_format C78_bn256_coords aligned_bnQ aligned_bnR
  · rw [List.mem_singleton.1 hf]
    exact C78_near_format C78_bn256_coords

/-- C112: BN256, data that do not satisfy the circuit. -/
theorem C112_bn256_false (hK : LawfulTwoAdic K) (hE : PairingEngine E e) (hadd : ∀ a b b', e a (b + b') = e a b * e a b')
    (hne : ∀ a b, a ≠ 0 → b ≠ 0 → bnR • b = 0 → e a b ≠ 1) (hs : IsSqrt sqrt) (hs2 : IsSqrt sqrt2)
    (pub sec : Layout) (hpub : Layout.Named pub ∧ Layout.depth pub ≤ 126) (hsec : Layout.Named sec ∧ Layout.depth sec ≤ 126) (code : Code bnR W)
    (hw : code.WidthsFit) (hc : code.Quiet) (wit : pub.ty.V (ZMod bnR) → sec.ty.V (ZMod bnR) → W) (a0 : pub.ty.S (ZMod bnR)) (s0 : CS (ZMod bnR))
    (hset : (generated pub.ty sec.ty code none none none).run (CS.new .setup) = .ok (a0, s0)) (hone : ConstantOnRight s0) (hused : AllUsed s0)
    (hdomain : s0.cons.length + s0.ninputs ≤ 2 ^ (K.S - 1))
    (hsize : 2 * (s0.cons.length + s0.ninputs) ≤ 2 ^ 32 ∧ s0.ninputs + s0.naux < 2 ^ 32)
    (data : pub.ty.V (ZMod bnR) × sec.ty.V (ZMod bnR)) (hd : WrongData pub sec code wit data) (n : Nat) :
    (∀ f ∈ [jsonFormat bnCoords bnR, nearFormat bnCoords bnR],
      strings n (Derailed (bnProgram K E f pub sec code wit) (bnPoint1 sqrt) (bnPoint2 sqrt2) data false) * bnR ≤
        (2 * (s0.cons.length + s0.ninputs) * (4 * (s0.ninputs + s0.naux + 1) + s0.naux) + s0.ninputs + 4) *
          strings n (fun b => ∃ t rest, setupCoins bnR (bnPoint1 sqrt) (bnPoint2 sqrt2) b = .ok (t, rest))) ∧
    strings n (OftenDerailed (bnProgram K E (bnWaves sqrt sqrt2) pub sec code wit) (bnPoint1 sqrt) (bnPoint2 sqrt2) data false) * bnR ≤
      (2 * (s0.cons.length + s0.ninputs) * (4 * (s0.ninputs + s0.naux + 1) + s0.naux) + s0.ninputs + 4) *
        strings n (fun b => ∃ t rest, setupCoins bnR (bnPoint1 sqrt) (bnPoint2 sqrt2) b = .ok (t, rest)) := by
  obtain ⟨u1, u2, -, -⟩ := C110_raw_lawful ⊤ ⊤ ⊥ ⊥
  have key : ∀ f, _ := fun f => C112_false (f := f) hK bnR_odd aligned_bnR hE hadd (fun a b ha hb _ hr => hne a b ha hb hr) (bnPoint1_reads hs)
    (bnPoint2_reads hs2) (fun b g rest => C111_random_g1 b rest g) (fun b g rest => C111_random_g2 b rest g) (wholeRaw_lawful u1)
    (wholeRaw_lawful u2) pub sec hpub hsec code hw hc wit a0 s0 hset hone hused hdomain hsize data hd n
  refine ⟨fun f hf => (key f).1 ?_, (key _).2 (bnWaves_lossless hs hs2)⟩
  rcases List.mem_cons.1 hf with rfl | hf
  · exact C78_ethereum_format C78_bn256_coords aligned_bnQ aligned_bnR
  · rw [List.mem_singleton.1 hf]
    exact C78_near_format C78_bn256_coords

end bn256

/-! ### Example: two factors of 35 -/

theorem finalState_of_ok {F α : Type} {m : M F α} {s : CS F} (h : (m.run s).isOk = true) : ∃ a, m.run s = .ok (a, finalState m s) := by
  unfold finalState
  rcases e : m.run s with k | ⟨a, s'⟩
  · rw [e] at h; cases h
  · exact ⟨a, rfl⟩

theorem demo_good : GoodData demoPub demoSec demoCode (fun _ _ => ()) (demoData 5 7) := by
  obtain ⟨a, h⟩ := finalState_of_ok (m := generated demoPub.ty demoSec.ty demoCode (some ()) (some (demoData 5 7).1) (some (demoData 5 7).2))
    (s := CS.new .prove) (by decide +kernel)
  refine ⟨trivial, a, _, h, ?_⟩
  unfold CS.Sat Constraint.Sat
  decide +kernel

theorem demo_wrong : WrongData demoPub demoSec demoCode (fun _ _ => ()) (demoData 5 8) := by
  obtain ⟨a, h⟩ := finalState_of_ok (m := generated demoPub.ty demoSec.ty demoCode (some ()) (some (demoData 5 8).1) (some (demoData 5 8).2))
    (s := CS.new .prove) (by decide +kernel)
  refine ⟨trivial, a, _, h, ?_⟩
  unfold CS.Sat Constraint.Sat
  decide +kernel

/-- All hypotheses hold of a program for the factors of a number: some byte strings of length 264 give keys, and but for the part `326 / r` of the
byte strings of each length all bindings print "true" for 5 and 7 and "false" for 5 and 8. -/
example : ∃ (E : Engine (PointsOf bnB) (PointsOf bnB2) (Multiplicative (ZMod bnR))) (sqrt : ZMod bnQ → Option (ZMod bnQ))
    (sqrt2 : Fq2 (ZMod bnQ) → Option (Fq2 (ZMod bnQ))),
    0 < strings 264 (fun b => ∃ t rest, setupCoins bnR (bnPoint1 sqrt) (bnPoint2 sqrt2) b = .ok (t, rest)) ∧
    ∀ n, ∀ f ∈ [jsonFormat bnCoords bnR, nearFormat bnCoords bnR],
      strings n (Derailed (bnProgram demoK E f demoPub demoSec demoCode fun _ _ => ()) (bnPoint1 sqrt) (bnPoint2 sqrt2) (demoData 5 7) true) * bnR ≤
        176 * strings n (fun b => ∃ t rest, setupCoins bnR (bnPoint1 sqrt) (bnPoint2 sqrt2) b = .ok (t, rest)) ∧
      strings n (Derailed (bnProgram demoK E f demoPub demoSec demoCode fun _ _ => ()) (bnPoint1 sqrt) (bnPoint2 sqrt2) (demoData 5 8) false) * bnR ≤
        326 * strings n (fun b => ∃ t rest, setupCoins bnR (bnPoint1 sqrt) (bnPoint2 sqrt2) b = .ok (t, rest)) := by
  obtain ⟨E, e, hE, hadd, hne⟩ := C111_pairing
  obtain ⟨s1, h1⟩ := exists_isSqrt (ZMod bnQ)
  obtain ⟨s2, h2⟩ := exists_isSqrt (Fq2 (ZMod bnQ))
  obtain ⟨a0, hset⟩ := finalState_of_ok (m := generated demoPub.ty demoSec.ty demoCode none none none) (s := CS.new .setup) (by decide +kernel)
  have hl : (finalState (generated demoPub.ty demoSec.ty demoCode none none none) (CS.new .setup)).cons.length = 3 := by decide +kernel
  have hi : (finalState (generated demoPub.ty demoSec.ty demoCode none none none) (CS.new .setup)).ninputs = 2 := by decide +kernel
  have ha : (finalState (generated demoPub.ty demoSec.ty demoCode none none none) (CS.new .setup)).naux = 4 := by decide +kernel
  have hused : AllUsed (finalState (generated demoPub.ty demoSec.ty demoCode none none none) (CS.new .setup)) := by
    unfold AllUsed; decide +kernel
  have hone := constantOnRight_of_public demoCode_fits.2 (by decide) (by simp) hset
  have hS : demoK.S = 5 := rfl
  refine ⟨E, s1, s2, ?_, fun n f hf => ⟨?_, ?_⟩⟩
  · obtain ⟨b, hb, h⟩ := C111_setup_possible h1 h2 ⟨genBn, genBn2, 1, 2, 3, 4, 5⟩
      ⟨WeierstrassCurve.Affine.Point.some_ne_zero _, WeierstrassCurve.Affine.Point.some_ne_zero _, genBn2_killed⟩
    exact (Set.ncard_pos (finite_strings _ _)).2 ⟨b, hb, _, _, h⟩
  · have := (C112_bn256_true demoK_lawful hE hadd h1 h2 demoPub demoSec demoLayouts.1 demoLayouts.2 demoCode demoCode_fits.1 demoCode_fits.2
      (fun _ _ => ()) a0 _ hset hone hused (by rw [hl, hi, hS]; decide) (by rw [hl, hi, ha]; decide) n).1 f hf
    rw [hl, hi, ha] at this
    exact le_trans (Nat.mul_le_mul_right _ (strings_mono fun b h => ⟨_, demo_good, h⟩)) this
  · have := (C112_bn256_false demoK_lawful hE hadd hne h1 h2 demoPub demoSec demoLayouts.1 demoLayouts.2 demoCode demoCode_fits.1 demoCode_fits.2
      (fun _ _ => ()) a0 _ hset hone hused (by rw [hl, hi, hS]; decide) (by rw [hl, hi, ha]; decide) _ demo_wrong n).1 f hf
    rw [hl, hi, ha] at this
    exact this

end Fawkes.Props
