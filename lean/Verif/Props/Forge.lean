import Verif.Props.OsRng
import Verif.Props.Stranger

/-!
# C84, C106: how often the random bytes of the operating system allow a forgery
-/

namespace Fawkes.Props

open Fawkes.Groth16 Fawkes.Cli Fawkes.Cli.Cmd Fawkes.Serde

section

variable {r : Nat} [Fact r.Prime] {G1 G2 : Type} [AddCommGroup G1] [AddCommGroup G2] [DecidableEq G1] [DecidableEq G2]

/-- The secrets of the key generator fall into a given set for the corresponding part of the byte strings. -/
theorem count_secrets (h2 : (2 : ZMod r) ≠ 0) {point1 : Sampler G1} {point2 : Sampler G2} (hp1 : Reads point1) (hp2 : Reads point2)
    (n : Nat) (bad : Finset (ZMod r × ZMod r × ZMod r × ZMod r × ZMod r)) :
    strings n (fun b => ∃ t rest, setupCoins r point1 point2 b = .ok (t, rest) ∧ (t.alpha, t.beta, t.gamma, t.delta, t.tau) ∈ bad) * r ^ 5 =
      bad.card * strings n (fun b => ∃ t rest, setupCoins r point1 point2 b = .ok (t, rest)) := by
  have h := count_free (get := fun t : Toxic G1 G2 r => secrets t) (set := withSecrets) (fun _ _ => rfl)
    (g := setupCoins r point1 point2) (fun π => C82_setup_coins h2 hp1 hp2 π) n bad
  have hc : Fintype.card (ZMod r × ZMod r × ZMod r × ZMod r × ZMod r) = r ^ 5 := by
    simp only [Fintype.card_prod, ZMod.card]; ring
  rw [hc] at h
  exact h

theorem few_strings (h2 : (2 : ZMod r) ≠ 0) {point1 : Sampler G1} {point2 : Sampler G2} (hp1 : Reads point1) (hp2 : Reads point2)
    (n N : Nat) (bad : Finset (ZMod r × ZMod r × ZMod r × ZMod r × ZMod r)) (hbad : bad.card ≤ N * r ^ 4) (Q : Entropy → Prop)
    (hQ : ∀ b, Q b → ∃ t rest, setupCoins r point1 point2 b = .ok (t, rest) ∧ (t.alpha, t.beta, t.gamma, t.delta, t.tau) ∈ bad) :
    strings n Q * r ≤ N * strings n (fun b => ∃ t rest, setupCoins r point1 point2 b = .ok (t, rest)) := by
  have hr : 0 < r ^ 4 := pow_pos (Nat.Prime.pos Fact.out) 4
  refine Nat.le_of_mul_le_mul_right ?_ hr
  calc strings n Q * r * r ^ 4 = strings n Q * r ^ 5 := by ring
    _ ≤ _ := Nat.mul_le_mul_right _ (strings_mono hQ)
    _ = _ := count_secrets h2 hp1 hp2 n bad
    _ ≤ _ := Nat.mul_le_mul_right _ hbad
    _ = _ := by ring

theorem setupCoins_points {point1 : Sampler G1} {point2 : Sampler G2}
    (hg1 : ∀ b g rest, point1 b = .ok (g, rest) → g ≠ 0 ∧ r • g = 0) (hg2 : ∀ b g rest, point2 b = .ok (g, rest) → g ≠ 0 ∧ r • g = 0)
    {b rest : Entropy} {t : Toxic G1 G2 r} (ht : setupCoins r point1 point2 b = .ok (t, rest)) :
    (t.g1 ≠ 0 ∧ r • t.g1 = 0) ∧ t.g2 ≠ 0 ∧ r • t.g2 = 0 := by
  rw [setupCoins_eq] at ht
  rcases hq : Sampler.seq point1 (Sampler.seq point2 (Sampler.seq (OsRng.rand r) (Sampler.seq (OsRng.rand r)
    (Sampler.seq (OsRng.rand r) (Sampler.seq (OsRng.rand r) (OsRng.rand r)))))) b with err | ⟨⟨g1, g2, z⟩, rest'⟩
  · rw [hq] at ht; cases ht
  · rw [hq] at ht
    cases ht
    obtain ⟨s1, e1, e2⟩ := Sampler.seq_ok hq
    obtain ⟨s2, e3, -⟩ := Sampler.seq_ok e2
    exact ⟨hg1 _ _ _ e1, hg2 _ _ _ e3⟩

end

section

variable {r : Nat} [Fact r.Prime] {G1 G2 T : Type} [AddCommGroup G1] [AddCommGroup G2] [DecidableEq G1] [DecidableEq G2] [CommMonoid T]
  [DecidableEq T]

/-- With the keys that `generate_keys` makes from the bytes `b`, one of the given ways to combine the points of the keys gives a proof that
`verify` accepts for its inputs, but the values read off the coefficients do not satisfy the circuit for these inputs. -/
def Forgery (K : TwoAdic (ZMod r)) (E : Engine G1 G2 T) (point1 : Sampler G1) (point2 : Sampler G2) {α : Type} (circuit : M (ZMod r) α)
    (s0 : CS (ZMod r)) (choices : List (AlgebraicProver r × List (ZMod r))) (b : Entropy) : Prop :=
  ∃ t rest params, setupCoins r point1 point2 b = .ok (t, rest) ∧ generateKeys K t circuit = .ok params ∧ ∃ c ∈ choices,
    verify E (truncate params.vk) (c.1.proof t.g1 t.g2 params) c.2 = .ok (.ok true) ∧
    ¬ (c.2.length + 1 = s0.ninputs ∧ s0.Sat (c.1.witness c.2))

/-- C84: of all byte strings of any length with which `generate_keys` gets its random choices, at most the part
`choices · (4·(constraints + inputs)·(variables + 2) + 8) / r` leads to keys with which one of the choices is a forgery. -/
theorem C84_entropy {K : TwoAdic (ZMod r)} (hK : LawfulTwoAdic K) (h2 : (2 : ZMod r) ≠ 0) {E : Engine G1 G2 T} {e : G1 → G2 → Tˣ}
    (hE : PairingEngine E e) (hadd : ∀ a b b', e a (b + b') = e a b * e a b')
    (hne : ∀ a b, a ≠ 0 → b ≠ 0 → r • a = 0 → r • b = 0 → e a b ≠ 1)
    {point1 : Sampler G1} {point2 : Sampler G2} (hp1 : Reads point1) (hp2 : Reads point2)
    (hg1 : ∀ b g rest, point1 b = .ok (g, rest) → g ≠ 0 ∧ r • g = 0) (hg2 : ∀ b g rest, point2 b = .ok (g, rest) → g ≠ 0 ∧ r • g = 0)
    {α : Type} (circuit : M (ZMod r) α) (a0 : α) (s0 : CS (ZMod r)) (hset : circuit.run (CS.new .setup) = .ok (a0, s0))
    (choices : List (AlgebraicProver r × List (ZMod r))) (n : Nat) :
    strings n (Forgery K E point1 point2 circuit s0 choices) * r ≤
      choices.length * (4 * (s0.cons.length + s0.ninputs) * (s0.ninputs + s0.naux + 2) + 8) *
        strings n (fun b => ∃ t rest, setupCoins r point1 point2 b = .ok (t, rest)) := by
  obtain ⟨bad, hcard, hbad⟩ := C84_adaptive_count hK circuit a0 s0 hset choices
  refine few_strings h2 hp1 hp2 n _ bad (hcard.trans ((Nat.mul_assoc _ _ _).ge)) _ ?_
  rintro b ⟨t, rest, params, ht, hk, c, hc, hv, hno⟩
  refine ⟨t, rest, ht, ?_⟩
  by_contra hb
  obtain ⟨⟨n1, o1⟩, ⟨n2, o2⟩⟩ := setupCoins_points hg1 hg2 ht
  exact hno (hbad hE hadd t o1 o2 (hne _ _ n1 n2 o1 o2) hb params hk c hc hv)

/-- `setup` has run with the bytes `b`, the file with the verifying key has not changed, and `verify` prints "true" for a proof that is one of
the given combinations of the points of the keys and its inputs, although the values read off the coefficients do not satisfy the circuit. -/
def Fooled (g : Program G1 G2 T r) (point1 : Sampler G1) (point2 : Sampler G2) (s0 : CS (ZMod r))
    (choices : List (AlgebraicProver r × List (ZMod r))) (b : Entropy) : Prop :=
  ∃ t rest, setupCoins r point1 point2 b = .ok (t, rest) ∧
    ∃ (o : Files) (setup : Cmd Unit) (w w' : Cli.World), o.params ≠ o.vk ∧ (setup = setupEthereum g t o ∨ setup = setupText g t o) ∧
      (setup.run w).1 = .ok () ∧ w'.files o.vk = (setup.run w).2.files o.vk ∧
      ((verifyCmd g o).run w').2.printed = w'.printed ++ [verdictLine true] ∧
      ∃ c ∈ choices, (∃ params, generateKeys g.field t (g.circuit none none) = .ok params ∧
          ProofFiles g.format o w' (c.1.proof t.g1 t.g2 params) c.2) ∧
        ¬ (c.2.length + 1 = s0.ninputs ∧ s0.Sat (c.1.witness c.2))

/-- C106: so this happens for at most the part `choices · (4·(constraints + inputs)·(variables + 2) + 8) / r` of the byte strings of any
length with which `setup` gets its random choices. -/
theorem C106_entropy {K : TwoAdic (ZMod r)} (hK : LawfulTwoAdic K) (h2 : (2 : ZMod r) ≠ 0) {E : Engine G1 G2 T} {e : G1 → G2 → Tˣ}
    (hE : PairingEngine E e) (hadd : ∀ a b b', e a (b + b') = e a b * e a b')
    (hne : ∀ a b, a ≠ 0 → b ≠ 0 → r • a = 0 → r • b = 0 → e a b ≠ 1)
    {point1 : Sampler G1} {point2 : Sampler G2} (hp1 : Reads point1) (hp2 : Reads point2)
    (hg1 : ∀ b g rest, point1 b = .ok (g, rest) → g ≠ 0 ∧ r • g = 0) (hg2 : ∀ b g rest, point2 b = .ok (g, rest) → g ≠ 0 ∧ r • g = 0)
    {W : Type} (pub sec : Layout) (code : Code r W) (u1 : RawCodec G1) (u2 : RawCodec G2) (f : Format G1 G2 r) (hf : ReadsBack f)
    (wit : pub.ty.V (ZMod r) → sec.ty.V (ZMod r) → W) (a0 : pub.ty.S (ZMod r)) (s0 : CS (ZMod r))
    (hset : (generated pub.ty sec.ty code none none none).run (CS.new .setup) = .ok (a0, s0)) (hn : s0.ninputs < 2 ^ 32)
    (choices : List (AlgebraicProver r × List (ZMod r))) (n : Nat) :
    strings n (Fooled (clientProgram K u1 u2 f E pub sec code wit) point1 point2 s0 choices) * r ≤
      choices.length * (4 * (s0.cons.length + s0.ninputs) * (s0.ninputs + s0.naux + 2) + 8) *
        strings n (fun b => ∃ t rest, setupCoins r point1 point2 b = .ok (t, rest)) := by
  refine le_trans (Nat.mul_le_mul_right r (strings_mono ?_))
    (C84_entropy hK h2 hE hadd hne hp1 hp2 hg1 hg2 (generated pub.ty sec.ty code none none none) a0 s0 hset choices n)
  rintro b ⟨t, rest, ht, o, setup, w, w', ho, hs, hok, hvk, hv, c, hc, ⟨params, hk, t1, t2, x1, x2, y1, y2⟩, hno⟩
  obtain ⟨params', proof, inputs, hk', ⟨t1', t2', x1', x2', y1', y2'⟩, hver⟩ :=
    verdict_of_setup (g := clientProgram K u1 u2 f E pub sec code wit) hE hf hset hn t o ho setup hs w w' hok hvk hv
  rw [hk] at hk'; injection hk' with hk'; subst hk'
  have same : ∀ {p : Path} {a b : List Char}, textAt w' p a → textAt w' p b → a = b := by
    rintro p a b ⟨u, h1, h2⟩ ⟨v, h3, h4⟩
    rw [h1] at h3; injection h3 with h3; subst h3
    rw [h2] at h4; injection h4
  have e1 := same x1 x1'
  have e2 := same x2 x2'
  subst e1 e2
  rw [y1] at y1'; injection y1' with y1'; subst y1'
  rw [y2] at y2'; injection y2' with y2'; subst y2'
  exact ⟨t, rest, params, ht, hk, c, hc, hver, hno⟩

end

/-! ### Examples -/

/-- The hypotheses of `C84_entropy` hold of the product circuit over the field of 97 elements. -/
example (a0 : Ty.num.S (ZMod 97)) (s0 : CS (ZMod 97))
    (hset : (generated .num (.pair .num .num) productCode none none none).run (CS.new .setup) = .ok (a0, s0))
    (choices : List (AlgebraicProver 97 × List (ZMod 97))) (n : Nat) :
    strings n (Forgery smallK smallEngine byteSampler byteSampler (generated .num (.pair .num .num) productCode none none none) s0 choices) * 97 ≤
      choices.length * (4 * (s0.cons.length + s0.ninputs) * (s0.ninputs + s0.naux + 2) + 8) *
        strings n (fun b => ∃ t rest, setupCoins 97 byteSampler byteSampler b = .ok (t, rest)) :=
  C84_entropy smallK_lawful (by decide) smallEngine_computes smallPairing_right (fun a b ha hb _ _ => by
    revert a b; decide +kernel) byteSampler_reads byteSampler_reads byteSampler_points byteSampler_points _ a0 s0 hset choices n

/-- A point of the made-up group of Props/Session, from one byte. -/
def demoSampler : Sampler Demo
  | [] => .error .unwrap
  | x :: rest => .ok (⟨((x.toNat + 1 : Nat) : ZMod bnR)⟩, rest)

theorem demoSampler_reads : Reads demoSampler := by
  intro b a rest h
  cases b with
  | nil => cases h
  | cons x b =>
    cases h
    exact ⟨[x], rfl, fun _ => rfl⟩

theorem demo_order (g : Demo) : bnR • g = 0 := by
  refine congrArg Demo.mk ?_
  show ((bnR : Nat) : ZMod bnR) * g.val = 0
  rw [ZMod.natCast_self, zero_mul]

theorem demoSampler_points (b : Entropy) (g : Demo) (rest : Entropy) (h : demoSampler b = .ok (g, rest)) : g ≠ 0 ∧ bnR • g = 0 := by
  refine ⟨?_, demo_order g⟩
  cases b with
  | nil => cases h
  | cons x b =>
    cases h
    intro h
    have h : ((x.toNat + 1 : Nat) : ZMod bnR) = 0 := congrArg Demo.val h
    rw [ZMod.natCast_eq_zero_iff] at h
    have h1 := Nat.le_of_dvd (Nat.succ_pos _) h
    have h2 := x.toNat_lt
    have h3 : 256 < bnR := by decide +kernel
    omega

theorem demoPairing_ne (a b : Demo) (ha : a ≠ 0) (hb : b ≠ 0) : demoPairing a b ≠ 1 := by
  intro h
  have h : Multiplicative.ofAdd (a.val * b.val) = 1 := (toUnits (G := Multiplicative (ZMod bnR))).injective (h.trans (map_one _).symm)
  have h : a.val * b.val = 0 := h
  rcases mul_eq_zero.1 h with h | h
  · exact ha (demo_injective h)
  · exact hb (demo_injective h)

/-- The hypotheses of `C106_entropy` hold of the program of Props/Session, in all bindings. -/
example (a0 : demoPub.ty.S (ZMod bnR)) (s0 : CS (ZMod bnR))
    (hset : (generated demoPub.ty demoSec.ty demoCode none none none).run (CS.new .setup) = .ok (a0, s0)) (hn : s0.ninputs < 2 ^ 32)
    (choices : List (AlgebraicProver bnR × List (ZMod bnR))) (n : Nat) :
    ∀ f ∈ [jsonFormat demoCoords bnR, nearFormat demoCoords bnR, wavesFormat demoCodec demoCodec bnR],
      strings n (Fooled (demoProgram f) demoSampler demoSampler s0 choices) * bnR ≤
        choices.length * (4 * (s0.cons.length + s0.ninputs) * (s0.ninputs + s0.naux + 2) + 8) *
          strings n (fun b => ∃ t rest, setupCoins bnR demoSampler demoSampler b = .ok (t, rest)) := by
  have key : ∀ f, ReadsBack f → _ := fun f hf =>
    C106_entropy demoK_lawful (by decide +kernel) demoEngine_computes demoPairing_right (fun a b ha hb _ _ => demoPairing_ne a b ha hb)
      demoSampler_reads demoSampler_reads demoSampler_points demoSampler_points demoPub demoSec demoCode demoRaw demoRaw f hf (fun _ _ => ())
      a0 s0 hset hn choices n
  simp only [List.forall_mem_cons, List.not_mem_nil, false_imp_iff, implies_true, and_true]
  exact ⟨key _ (C106_ethereum_format demoCoords_lawful aligned_bnQ), key _ (C106_near_format demoCoords_lawful),
    key _ (C106_waves_format demoCodec_lawful demoCodec_lawful)⟩

end Fawkes.Props
