import Verif.Lemmas.Knowledge
import Verif.Lemmas.CostGadgets

/-!
# Circuits of the macros prove knowledge of the secret data: C87
-/

namespace Fawkes.Props

open Groth16

variable {r : Nat} [Fact r.Prime]

/-- The values of the signals of a generated circuit under a satisfying assignment. -/
theorem synthesize_values (P Q : Ty) (main : P.S (ZMod r) → Q.S (ZMod r) → M (ZMod r) Unit) (p : Option (P.V (ZMod r)))
    (q : Option (Q.V (ZMod r)))
    (hmain : ∀ a b s s', (main a b).run s = .ok ((), s') → s.backend ≠ .test → s'.ninputs = s.ninputs)
    {be : Backend} (hbe : be ≠ .test) {a : P.S (ZMod r)} {s' : CS (ZMod r)}
    (h : (synthesize P Q main p q).run (CS.new be) = .ok (a, s')) :
    s'.ninputs = 1 + P.width ∧ ∃ b s2 s3, P.ok (ZMod r) a ∧ Q.ok (ZMod r) b ∧ s2.WF ∧
      (∀ x ∈ P.linearize a ++ Q.linearize b, x.lc.Alloc s2 ∧ Varies x) ∧ (main a b).run s2 = .ok ((), s3) ∧
      ∀ w, IsAssignment w → s'.Sat w → s3.Sat w ∧ P.evals w a = (List.range P.width).map (fun i => w (.input (1 + i))) ∧
        Q.evals w b = (List.range Q.width).map (fun i => w (.aux (P.width + i))) := by
  obtain ⟨s1, b, s2, s3, h1, h2, h3, h4⟩ := synthesize_ok h
  obtain ⟨hok, hk1⟩ := P.post_alloc p _ _ _ h1
  obtain ⟨hok2, hk2⟩ := Q.post_alloc q _ _ _ h2
  have hb1 : s1.backend ≠ .test := by rw [(M.run_ext h1).backend]; exact hbe
  have hb2 : s2.backend ≠ .test := by rw [(M.run_ext h2).backend]; exact hb1
  have hn : s3.ninputs = 1 := by
    rw [hmain _ _ _ _ h3 hb2, (hk1.trans _ _ _ hk2).2 hbe]; rfl
  have hn' : s'.ninputs = 1 + P.width := by
    rw [width_publish P a hok s3 _ _ h4, hn]
  obtain ⟨n1, -⟩ := P.post_alloc_next p (CS.new be) hbe _ _ h1
  obtain ⟨-, e2⟩ := Q.post_alloc_next q s1 hb1 _ _ h2
  have w0 : (CS.new be : CS (ZMod r)).WF := ⟨le_refl _, by simp [CS.new], by simp [CS.new], by simp [CS.new]⟩
  have w1 := (M.run_ext h1).wf w0
  have hvars : ∀ x ∈ P.linearize a ++ Q.linearize b, x.lc.Alloc s2 ∧ Varies x := by
    intro x hx
    rcases List.mem_append.1 hx with hx | hx
    · have := P.post_alloc_vars p _ w0 _ _ h1 x hx
      exact ⟨this.1.mono (M.run_ext h2), this.2⟩
    · exact Q.post_alloc_vars q _ w1 _ _ h2 x hx
  refine ⟨hn', b, s2, s3, hok, hok2, (M.run_ext h2).wf w1, hvars, h3, fun w hw hs => ⟨(M.run_ext h4).sat hs, ?_, ?_⟩⟩
  · have := (C58_inputize_sound P a hok s3 s' h4 w hw hs).2
    rw [hn] at this
    exact this.symm
  · rw [e2 w, n1]
    simp [CS.new]

/-- C87: in a circuit of the macros let the client's code publish nothing itself and be such that its constraints hold only if the public
and the secret data are in the relation `R`.  Then whoever makes an accepted proof by combining the points of the keys knows secret data
that are in the relation `R` to the public inputs (that the code starts with all data in variables may be used): they are the coefficients `S.secrets` - except for few secrets of the key generator. -/
theorem C87_knowledge {K : TwoAdic (ZMod r)} (hK : LawfulTwoAdic K) (P Q : Ty)
    (main : P.S (ZMod r) → Q.S (ZMod r) → M (ZMod r) Unit)
    (hmain : ∀ a b s s', (main a b).run s = .ok ((), s') → s.backend ≠ .test → s'.ninputs = s.ninputs)
    (R : List (ZMod r) → List (ZMod r) → Prop)
    (hR : ∀ a b s s' w, P.ok (ZMod r) a → Q.ok (ZMod r) b → s.WF →
      (∀ x ∈ P.linearize a ++ Q.linearize b, x.lc.Alloc s ∧ Varies x) → IsAssignment w → (main a b).run s = .ok ((), s') → s'.Sat w →
      R (P.evals w a) (Q.evals w b))
    (a0 : P.S (ZMod r)) (s0 : CS (ZMod r)) (hset : (synthesize P Q main none none).run (CS.new .setup) = .ok (a0, s0))
    (S : AlgebraicProver r) (inputs : List (ZMod r)) :
    ∃ bad : Finset (ZMod r × ZMod r × ZMod r × ZMod r × ZMod r),
      bad.card ≤ (4 * (s0.cons.length + P.width + 1) * (P.width + s0.naux + 3) + 8) * r ^ 4 ∧
      ∀ {G1 G2 T : Type} [AddCommGroup G1] [AddCommGroup G2] [DecidableEq G1] [DecidableEq G2] [CommMonoid T] [DecidableEq T]
        {E : Engine G1 G2 T} {e : G1 → G2 → Tˣ} (_ : PairingEngine E e) (_ : ∀ a b b', e a (b + b') = e a b * e a b')
        (t : Toxic G1 G2 r) (_ : r • t.g1 = 0) (_ : r • t.g2 = 0) (_ : e t.g1 t.g2 ≠ 1)
        (_ : (t.alpha, t.beta, t.gamma, t.delta, t.tau) ∉ bad) (params : Parameters G1 G2)
        (_ : generateKeys K t (synthesize P Q main none none) = .ok params),
        verify E (truncate params.vk) (S.proof t.g1 t.g2 params) inputs = .ok (.ok true) →
          inputs.length = P.width ∧ R inputs (S.secrets P Q) := by
  obtain ⟨hn, b, s2, s3, hok, hok2, hwf, hvars, hrun, hval⟩ := synthesize_values P Q main none none hmain (by simp) hset
  obtain ⟨bad, hcard, hbad⟩ := C84_knowledge hK _ a0 s0 hset S inputs
  rw [hn, show s0.cons.length + (1 + P.width) = s0.cons.length + P.width + 1 by omega,
    show 1 + P.width + s0.naux + 2 = P.width + s0.naux + 3 by omega] at hcard
  refine ⟨bad, hcard, ?_⟩
  intro G1 G2 T _ _ _ _ _ _ E e hE hr t h1 h2 hne ht params hk hv
  obtain ⟨hl, hs⟩ := hbad hE hr t h1 h2 hne ht params hk hv
  have hl' : inputs.length = P.width := by omega
  obtain ⟨hs3, hP, hQ⟩ := hval _ (show IsAssignment (S.witness inputs) from rfl) hs
  have := hR _ _ _ _ _ hok hok2 hwf hvars (show IsAssignment (S.witness inputs) from rfl) hrun hs3
  rw [hP, hQ] at this
  refine ⟨hl', ?_⟩
  have e1 : (List.range P.width).map (fun i => S.witness inputs (.input (1 + i))) = inputs := by
    refine List.ext_getElem (by simp [hl']) fun i hi hi' => ?_
    simp only [List.getElem_map, List.getElem_range]
    rw [Nat.add_comm]
    show inputs.getD i 0 = _
    rw [List.getD_eq_getElem _ _ hi']
  rw [e1] at this
  exact this

/-- C87: for public inputs that are in the relation `R` to no secret data, `verify` returns `false`. -/
theorem C87_sound {K : TwoAdic (ZMod r)} (hK : LawfulTwoAdic K) (P Q : Ty)
    (main : P.S (ZMod r) → Q.S (ZMod r) → M (ZMod r) Unit)
    (hmain : ∀ a b s s', (main a b).run s = .ok ((), s') → s.backend ≠ .test → s'.ninputs = s.ninputs)
    (R : List (ZMod r) → List (ZMod r) → Prop)
    (hR : ∀ a b s s' w, P.ok (ZMod r) a → Q.ok (ZMod r) b → s.WF →
      (∀ x ∈ P.linearize a ++ Q.linearize b, x.lc.Alloc s ∧ Varies x) → IsAssignment w → (main a b).run s = .ok ((), s') → s'.Sat w →
      R (P.evals w a) (Q.evals w b))
    (a0 : P.S (ZMod r)) (s0 : CS (ZMod r)) (hset : (synthesize P Q main none none).run (CS.new .setup) = .ok (a0, s0))
    (inputs : List (ZMod r)) (hlen : inputs.length = P.width) (hno : ∀ q, ¬ R inputs q) (S : AlgebraicProver r) :
    ∃ bad : Finset (ZMod r × ZMod r × ZMod r × ZMod r × ZMod r),
      bad.card ≤ (4 * (s0.cons.length + P.width + 1) * (P.width + s0.naux + 3) + 8) * r ^ 4 ∧
      ∀ {G1 G2 T : Type} [AddCommGroup G1] [AddCommGroup G2] [DecidableEq G1] [DecidableEq G2] [CommMonoid T] [DecidableEq T]
        {E : Engine G1 G2 T} {e : G1 → G2 → Tˣ} (_ : PairingEngine E e) (_ : ∀ a b b', e a (b + b') = e a b * e a b')
        (t : Toxic G1 G2 r) (_ : r • t.g1 = 0) (_ : r • t.g2 = 0) (_ : e t.g1 t.g2 ≠ 1)
        (_ : (t.alpha, t.beta, t.gamma, t.delta, t.tau) ∉ bad) (params : Parameters G1 G2)
        (_ : generateKeys K t (synthesize P Q main none none) = .ok params),
        verify E (truncate params.vk) (S.proof t.g1 t.g2 params) inputs = .ok (.ok false) := by
  obtain ⟨hn, b, s2, s3, hok, hok2, hwf, hvars, hrun, hval⟩ := synthesize_values P Q main none none hmain (by simp) hset
  obtain ⟨bad, hcard, hbad⟩ := C84_sound hK _ a0 s0 hset inputs (fun w hw hi hs => by
    obtain ⟨hs3, hP, -⟩ := hval w hw hs
    have := hR _ _ _ _ _ hok hok2 hwf hvars hw hrun hs3
    rw [hP] at this
    refine hno (Q.evals w b) ?_
    convert this using 1
    refine List.ext_getElem (by simp [hlen]) fun i h3 h4 => ?_
    simp only [List.getElem_map, List.getElem_range]
    rw [Nat.add_comm, hi i h3, List.getD_eq_getElem _ _ h3]) S
  rw [hn, show s0.cons.length + (1 + P.width) = s0.cons.length + P.width + 1 by omega,
    show 1 + P.width + s0.naux + 2 = P.width + s0.naux + 3 by omega] at hcard
  refine ⟨bad, hcard, ?_⟩
  intro G1 G2 T _ _ _ _ _ _ E e hE hr t h1 h2 hne ht params hk
  rw [hbad hE hr t h1 h2 hne ht params hk, if_pos (by omega)]

/-- A client that checks a product: public is a number, secret are two factors. -/
def productMain (a : CNum (ZMod r)) (b : CNum (ZMod r) × CNum (ZMod r)) : M (ZMod r) Unit := do
  let c ← CNum.mul b.1 b.2
  CNum.assertEq a c

/-- It meets the hypotheses, with the relation "is the product of". -/
example : (∀ a b (s s' : CS (ZMod r)), (productMain a b).run s = .ok ((), s') → s.backend ≠ .test → s'.ninputs = s.ninputs) ∧
    (∀ (a : Ty.num.S (ZMod r)) (b : (Ty.pair .num .num).S (ZMod r)) s s' w, Ty.num.ok (ZMod r) a → (Ty.pair .num .num).ok (ZMod r) b →
      s.WF → (∀ x ∈ Ty.num.linearize a ++ (Ty.pair .num .num).linearize b, x.lc.Alloc s ∧ Varies x) → IsAssignment w → (productMain a b).run s = .ok ((), s') → s'.Sat w →
      ∃ n x y, Ty.num.evals w a = [n] ∧ (Ty.pair .num .num).evals w b = [x, y] ∧ n = x * y) := by
  constructor
  · intro a b s s' h hs
    exact ((Cost.bind (cost_mul _ _) fun _ => cost_assertZero _ : Cost (productMain a b) (1 + 1)) s () s' h).2 rfl hs
  · intro a b s s' w _ _ _ _ hw h hs
    have key : Spec w s (productMain a b) (fun _ _ => a.eval w = b.1.eval w * b.2.eval w) :=
      Spec.bind (spec_mul hw _ _) fun c s1 _ hc => (spec_assertEq hw _ _).mono fun _ _ _ h => by rw [h, hc]
    exact ⟨_, _, _, rfl, rfl, key _ _ h hs⟩

example : (match (synthesize .num (.pair .num .num) (productMain (r := 97)) none none).run (CS.new .setup) with
    | .ok (_, s) => some (s.cons.length, s.ninputs, s.naux)
    | .error _ => none) = some (3, 2, 4) := by
  decide +kernel

end Fawkes.Props
