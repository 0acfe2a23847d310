import Verif.Props.Handwritten
import Verif.Props.Poseidon
import Verif.Lemmas.Knowledge
import Verif.Lemmas.CostGadgets
import Verif.Model.Preimage

/-!
# The example circuit of the crate, from keys to verdict: C86
-/

namespace Fawkes.Props

open Groth16

variable {r : Nat} [Fact r.Prime]

/-- The circuit with its data, or without. -/
def preimageOf (w : Option (ZMod r × ZMod r)) : CheckPreimage (ZMod r) := ⟨w.map Prod.fst, w.map Prod.snd⟩

theorem hintValue_const {W : Type} (f : W → ZMod r) (w : Option W) :
    hintValue (fun w _ => .ok (f w)) w [] = .ok (w.map f) := by
  cases w <;> rfl

theorem reg_ok {F : Type} [Field F] [DecidableEq F] {q : List (CNum F)} {i : Nat} {x : CNum F} (h : q[i]? = some x) :
    reg q i = (pure x : M F (CNum F)) := by
  unfold reg
  rw [h]

theorem lift_ok {F α : Type} (a : α) : (M.lift (.ok a) : M F α) = pure a := rfl

/-- The client is the circuit. -/
theorem handwritten_preimage (P : PoseidonParams (ZMod r)) (w : Option (ZMod r × ZMod r)) :
    (handwritten (CheckPreimage.code P) w >>= fun _ => pure ()) = (preimageOf w).synthesize P := by
  unfold handwritten CheckPreimage.code CheckPreimage.synthesize preimageOf
  simp only [Code.exec, Call.exec, Op.exec, regs, hintValue_const, List.map_nil, bind_assoc, pure_bind, lift_ok,
    reg, List.getElem?_cons_zero, List.getElem?_cons_succ,
    List.nil_append, List.cons_append, bind_pure_unit]
  rfl

theorem generateKeys_unit {α : Type} {G1 G2 : Type} [AddCommGroup G1] [AddCommGroup G2] [DecidableEq G1] [DecidableEq G2]
    (K : TwoAdic (ZMod r)) (t : Toxic G1 G2 r) (m : M (ZMod r) α) :
    generateKeys K t (m >>= fun _ => pure ()) = generateKeys K t m := by
  unfold generateKeys
  cases h : m.run (CS.new .setup) with
  | error e => rw [M.run_bind, h]
  | ok q => obtain ⟨a, s⟩ := q; rw [M.run_bind, h]; rfl

theorem prove_unit {α : Type} {G1 G2 : Type} [AddCommGroup G1] [AddCommGroup G2] [DecidableEq G1] [DecidableEq G2]
    (K : TwoAdic (ZMod r)) (params : Parameters G1 G2) (x y : ZMod r) (m : M (ZMod r) α) :
    prove K params x y (m >>= fun _ => pure ()) = prove K params x y m := by
  unfold prove
  cases h : m.run (CS.new .prove) with
  | error e => rw [M.run_bind, h]
  | ok q => obtain ⟨a, s⟩ := q; rw [M.run_bind, h]; rfl

/-- What the constraints of the circuit say. -/
theorem preimage_sound {P : PoseidonParams (ZMod r)} {c : CheckPreimage (ZMod r)} {b : Backend} (hb : b ≠ .test) {s : CS (ZMod r)}
    (h : (c.synthesize P).run (CS.new b) = .ok ((), s)) :
    s.ninputs = 2 ∧ ∀ w, IsAssignment w → s.Sat w → Poseidon.poseidon [w (.aux 1)] P = .ok (w (.input 1)) := by
  obtain ⟨x, s1, h1, h⟩ := M.bind_ok h
  obtain ⟨_, s2, h2, h⟩ := M.bind_ok h
  obtain ⟨y, s3, h3, h⟩ := M.bind_ok h
  obtain ⟨z, s4, h4, h5⟩ := M.bind_ok h
  have b1 : s1.backend ≠ .test := by rw [(M.run_ext h1).backend]; exact hb
  have b2 : s2.backend ≠ .test := by rw [(M.run_ext h2).backend]; exact b1
  have b3 : s3.backend ≠ .test := by rw [(M.run_ext h3).backend]; exact b2
  have b4 : s4.backend ≠ .test := by rw [(M.run_ext h4).backend]; exact b3
  obtain ⟨n1, e1⟩ := post_alloc_next _ _ hb _ _ h1
  obtain ⟨n3, e3⟩ := post_alloc_next _ _ b2 _ _ h3
  have i1 : s1.ninputs = 1 := (post_alloc_keep _ _ _ _ h1).2 hb
  have i2 : s2.ninputs = 2 := by rw [width_inputize _ _ _ _ h2, i1]
  have i3 : s3.ninputs = 2 := by rw [(post_alloc_keep _ _ _ _ h3).2 b2, i2]
  have i4 : s4.ninputs = 2 := by rw [(CPoseidon.cost_poseidon _ _ _ _ _ h4).2 rfl b3, i3]
  have i5 : s.ninputs = 2 := by rw [(cost_assertZero _ _ _ _ h5).2 rfl b4, i4]
  refine ⟨i5, fun w hw hs => ?_⟩
  have t4 := (M.run_ext h5).sat hs
  have t3 := (M.run_ext h4).sat t4
  have t2 := (M.run_ext h3).sat t3
  obtain ⟨-, n2, v2⟩ := spec_inputize hw _ _ _ _ h2 t2
  have v2 := v2 0 (by simp)
  have v4 := CPoseidon.spec_poseidon hw _ _ _ _ _ h4 t4
  have v5 := spec_assertZero hw _ _ _ h5 hs
  simp only [CPoseidon.evs, List.map_cons, List.map_nil] at v4
  rw [CNum.eval_sub, sub_eq_zero] at v5
  rw [i1] at v2
  simp only [List.getElem_cons_zero, Nat.add_zero] at v2
  rw [n2, n1] at e3
  rw [v2]
  have ey : y.eval w = w (.aux 1) := e3 w
  rw [← ey, v4, ← v5]

/-- The run with a preimage and its image. -/
theorem preimage_runs {P : PoseidonParams (ZMod r)} {x v : ZMod r} (hv : Poseidon.poseidon [x] P = .ok v) (b : Backend) :
    ∃ s, ((⟨some v, some x⟩ : CheckPreimage (ZMod r)).synthesize P).run (CS.new b) = .ok ((), s) ∧ s.Honest := by
  have key : Runs (CS.new b) ((⟨some v, some x⟩ : CheckPreimage (ZMod r)).synthesize P) (fun _ _ => True) := by
    refine Runs.bind (runs_alloc (CS.honest_new b) v) fun i s1 e1 h1 hi => ?_
    refine Runs.bind (runs_inputize h1 hi.1) fun _ s2 e2 h2 _ => ?_
    refine Runs.bind (runs_alloc h2 x) fun p s3 e3 h3 hp => ?_
    refine Runs.bind (CPoseidon.runs_poseidon P h3 (.cons hp.1 .nil) hv) fun z s4 e4 h4 hz => ?_
    refine runs_assertZero h4 ?_
    have := has_sub (hi.1.mono (e2.trans (e3.trans e4))) hz
    rwa [sub_self] at this
  obtain ⟨_, s, h, -, hs, -⟩ := key
  exact ⟨s, h, hs⟩

theorem preimage_handwritten {P : PoseidonParams (ZMod r)} {w : Option (ZMod r × ZMod r)} {b : Backend} {s : CS (ZMod r)}
    (h : ((preimageOf w).synthesize P).run (CS.new b) = .ok ((), s)) :
    ∃ o, (handwritten (CheckPreimage.code P) w).run (CS.new b) = .ok (o, s) := by
  rw [← handwritten_preimage] at h
  obtain ⟨o, s1, h1, h2⟩ := M.bind_ok h
  rw [M.run_pure] at h2; injection h2 with h2; injection h2 with _ h2; subst h2
  exact ⟨o, h1⟩

theorem preimage_fits (P : PoseidonParams (ZMod r)) : (CheckPreimage.code P).WidthsFit := by
  simp [CheckPreimage.code, Code.WidthsFit, Call.WidthsFit]

theorem preimage_one {P : PoseidonParams (ZMod r)} {c : CheckPreimage (ZMod r)} {b : Backend} {s : CS (ZMod r)}
    (h : (c.synthesize P).run (CS.new b) = .ok ((), s)) : ConstantOnRight s := by
  intro _
  obtain ⟨x, s1, h1, h⟩ := M.bind_ok h
  obtain ⟨_, s2, h2, h⟩ := M.bind_ok h
  obtain ⟨c, hc, hone⟩ := one_inputize _ _ _ _ h2
  exact ⟨c, (M.run_ext h).cons.subset hc, 1, one_ne_zero, by rw [hone]; exact List.mem_cons_self⟩

/-- Whatever the values: the published value is the image. -/
theorem preimage_inputs {P : PoseidonParams (ZMod r)} {v x : ZMod r} {s : CS (ZMod r)}
    (h : ((⟨some v, some x⟩ : CheckPreimage (ZMod r)).synthesize P).run (CS.new .prove) = .ok ((), s)) : publicInputs s = [v] := by
  have hn := (preimage_sound (by simp) h).1
  obtain ⟨i, s1, h1, h⟩ := M.bind_ok h
  obtain ⟨_, s2, h2, h⟩ := M.bind_ok h
  obtain ⟨i', s1', h1', -, hs1, hi, -⟩ := runs_alloc (CS.honest_new (F := ZMod r) .prove) v
  have h1'' : (CNum.alloc (some v)).run (CS.new .prove) = .ok (i, s1) := h1
  rw [h1''] at h1'; injection h1' with h1'; injection h1' with e1 e2; subst e1 e2
  have hrec := recorded_inputize hs1.wf hi h2
  obtain ⟨hm, hv⟩ := hrec.2 0 (by simp)
  have i1 : s1.ninputs = 1 := (post_alloc_keep _ _ _ _ h1).2 (by simp [CS.new])
  rw [i1] at hm hv
  unfold publicInputs
  rw [hn]
  have := ((M.run_ext h).assign (.inr hm)).trans hv
  simpa using this

/-- C86: the circuit has a run without data: keys can be generated from it. -/
theorem C86_setup (P : PoseidonParams (ZMod r)) (hP : PoseidonSpec.Shaped P) (ht : 0 < P.t) :
    ∃ s0, ((CheckPreimage.default : CheckPreimage (ZMod r)).synthesize P).run (CS.new .setup) = .ok ((), s0) ∧ s0.ninputs = 2 ∧
      s0.cons.length ≤ 2 + hashCount P := by
  obtain ⟨s, h, -⟩ := preimage_runs (C64_hades P hP [0] (by simp) ht) .prove
  obtain ⟨o, h'⟩ := preimage_handwritten (w := some (_, _)) h
  obtain ⟨o0, s0, hset, -⟩ := handwritten_shape (preimage_fits P) h'
  have : ((CheckPreimage.default : CheckPreimage (ZMod r)).synthesize P).run (CS.new .setup) = .ok ((), s0) := by
    have := handwritten_preimage P none
    show ((preimageOf none).synthesize P).run _ = _
    rw [← this, M.run_bind, hset]; rfl
  refine ⟨s0, this, (preimage_sound (by simp) this).1, ?_⟩
  have hc : Cost ((CheckPreimage.default : CheckPreimage (ZMod r)).synthesize P) (0 + (1 + (0 + (hashCount P + 1)))) true :=
    Cost.bind (cost_alloc _).weak fun _ => Cost.bind (cost_inputize _) fun _ => Cost.bind (cost_alloc _).weak fun _ =>
      Cost.bind (CPoseidon.cost_poseidon _ _).weak fun _ => (cost_assertZero _).weak
  have := (hc _ _ _ this).1
  simp only [CS.new, List.length_nil] at this
  omega

/-- C86 (the crate's own test, for every preimage and all random choices): keys from the circuit without data, a proof made with a preimage
and its image: `prove` returns a proof, and `verify` accepts it with what `get_inputs` returns, the image, unless the secret point of the
key generator is one of few. -/
theorem C86_accepts {K : TwoAdic (ZMod r)} (hK : LawfulTwoAdic K) (P : PoseidonParams (ZMod r)) (s0 : CS (ZMod r))
    (hset : ((CheckPreimage.default : CheckPreimage (ZMod r)).synthesize P).run (CS.new .setup) = .ok ((), s0)) :
    ∃ bad : Finset (ZMod r), bad.card ≤ 2 * (s0.cons.length + 2) * (2 * (2 + s0.naux) + 1) ∧
      ∀ {G1 G2 T : Type} [AddCommGroup G1] [AddCommGroup G2] [DecidableEq G1] [DecidableEq G2] [CommMonoid T] [DecidableEq T]
        {E : Engine G1 G2 T} {e : G1 → G2 → Tˣ} (_ : PairingEngine E e) (_ : ∀ a b b', e a (b + b') = e a b * e a b')
        (t : Toxic G1 G2 r) (_ : r • t.g1 = 0) (_ : r • t.g2 = 0) (_ : t.g1 ≠ 0) (_ : t.g2 ≠ 0) (_ : t.tau ∉ bad)
        (params : Parameters G1 G2) (_ : generateKeys K t ((CheckPreimage.default : CheckPreimage (ZMod r)).synthesize P) = .ok params)
        (preimage image : ZMod r) (_ : Poseidon.poseidon [preimage] P = .ok image) (x y : ZMod r),
        ∃ proof, prove K params x y ((⟨some image, some preimage⟩ : CheckPreimage (ZMod r)).synthesize P) = .ok proof ∧
          (⟨some image, some preimage⟩ : CheckPreimage (ZMod r)).getInputs = .ok (some [image]) ∧
          verify E (truncate params.vk) proof [image] = .ok (.ok true) := by
  have hn := (preimage_sound (by simp) hset).1
  obtain ⟨o0, hset'⟩ := preimage_handwritten (w := none) hset
  obtain ⟨bad, hcard, hbad⟩ := C85_accepts hK (CheckPreimage.code P) (preimage_fits P) o0 s0 hset' (preimage_one hset)
  rw [hn] at hcard
  refine ⟨bad, hcard, ?_⟩
  intro G1 G2 T _ _ _ _ _ _ E e hE hr t h1 h2 n1 n2 ht params hk preimage image him x y
  obtain ⟨s, h, hs⟩ := preimage_runs him .prove
  obtain ⟨o, h'⟩ := preimage_handwritten (w := some (image, preimage)) h
  have hk' : generateKeys K t (handwritten (CheckPreimage.code P) none) = .ok params := by
    rw [← generateKeys_unit, handwritten_preimage]; exact hk
  obtain ⟨proof, hp, hv⟩ := hbad hE hr t h1 h2 n1 n2 ht params hk' (image, preimage) o s h' hs.sat x y
  rw [preimage_inputs h] at hv
  rw [← prove_unit, handwritten_preimage] at hp
  refine ⟨proof, hp, ?_, hv⟩
  obtain ⟨i, s1, h1', -, -, hi, -⟩ := runs_alloc (CS.honest_new (F := ZMod r) .test) image
  unfold CheckPreimage.getInputs
  rw [h1']
  simp [hi.value]

/-- C86: whoever makes an accepted proof by combining the points of the keys knows a preimage: it is their coefficient of the second
point of the query `l` in the third point of the proof.  Except for few secrets of the key generator. -/
theorem C86_knowledge {K : TwoAdic (ZMod r)} (hK : LawfulTwoAdic K) (P : PoseidonParams (ZMod r)) (s0 : CS (ZMod r))
    (hset : ((CheckPreimage.default : CheckPreimage (ZMod r)).synthesize P).run (CS.new .setup) = .ok ((), s0))
    (S : AlgebraicProver r) (inputs : List (ZMod r)) :
    ∃ bad : Finset (ZMod r × ZMod r × ZMod r × ZMod r × ZMod r),
      bad.card ≤ (4 * (s0.cons.length + 2) * (2 + s0.naux + 2) + 8) * r ^ 4 ∧
      ∀ {G1 G2 T : Type} [AddCommGroup G1] [AddCommGroup G2] [DecidableEq G1] [DecidableEq G2] [CommMonoid T] [DecidableEq T]
        {E : Engine G1 G2 T} {e : G1 → G2 → Tˣ} (_ : PairingEngine E e) (_ : ∀ a b b', e a (b + b') = e a b * e a b')
        (t : Toxic G1 G2 r) (_ : r • t.g1 = 0) (_ : r • t.g2 = 0) (_ : e t.g1 t.g2 ≠ 1)
        (_ : (t.alpha, t.beta, t.gamma, t.delta, t.tau) ∉ bad) (params : Parameters G1 G2)
        (_ : generateKeys K t ((CheckPreimage.default : CheckPreimage (ZMod r)).synthesize P) = .ok params),
        verify E (truncate params.vk) (S.proof t.g1 t.g2 params) inputs = .ok (.ok true) →
          ∃ image, inputs = [image] ∧ Poseidon.poseidon [S.c.l.getD 1 0] P = .ok image := by
  obtain ⟨hn, hsound⟩ := preimage_sound (by simp) hset
  obtain ⟨bad, hcard, hbad⟩ := C84_knowledge hK _ () s0 hset S inputs
  rw [hn] at hcard
  refine ⟨bad, hcard, ?_⟩
  intro G1 G2 T _ _ _ _ _ _ E e hE hr t h1 h2 hne ht params hk hv
  obtain ⟨hl, hs⟩ := hbad hE hr t h1 h2 hne ht params hk hv
  match inputs, hl with
  | [], hl => simp at hl; omega
  | [image], hl => exact ⟨image, rfl, hsound (S.witness [image]) rfl hs⟩
  | _ :: _ :: _, hl => simp at hl; omega

/-- C86: no proof is accepted for a number that is not an image, except for few secrets of the key generator. -/
theorem C86_sound {K : TwoAdic (ZMod r)} (hK : LawfulTwoAdic K) (P : PoseidonParams (ZMod r)) (s0 : CS (ZMod r))
    (hset : ((CheckPreimage.default : CheckPreimage (ZMod r)).synthesize P).run (CS.new .setup) = .ok ((), s0))
    (image : ZMod r) (hno : ∀ x, Poseidon.poseidon [x] P ≠ .ok image) (S : AlgebraicProver r) :
    ∃ bad : Finset (ZMod r × ZMod r × ZMod r × ZMod r × ZMod r),
      bad.card ≤ (4 * (s0.cons.length + 2) * (2 + s0.naux + 2) + 8) * r ^ 4 ∧
      ∀ {G1 G2 T : Type} [AddCommGroup G1] [AddCommGroup G2] [DecidableEq G1] [DecidableEq G2] [CommMonoid T] [DecidableEq T]
        {E : Engine G1 G2 T} {e : G1 → G2 → Tˣ} (_ : PairingEngine E e) (_ : ∀ a b b', e a (b + b') = e a b * e a b')
        (t : Toxic G1 G2 r) (_ : r • t.g1 = 0) (_ : r • t.g2 = 0) (_ : e t.g1 t.g2 ≠ 1)
        (_ : (t.alpha, t.beta, t.gamma, t.delta, t.tau) ∉ bad) (params : Parameters G1 G2)
        (_ : generateKeys K t ((CheckPreimage.default : CheckPreimage (ZMod r)).synthesize P) = .ok params),
        verify E (truncate params.vk) (S.proof t.g1 t.g2 params) [image] = .ok (.ok false) := by
  obtain ⟨hn, hsound⟩ := preimage_sound (by simp) hset
  obtain ⟨bad, hcard, hbad⟩ := C84_sound hK _ () s0 hset [image] (fun w hw hi hs => by
    have := hsound w hw hs
    rw [hi 0 (by simp)] at this
    exact hno _ this) S
  rw [hn] at hcard
  refine ⟨bad, hcard, ?_⟩
  intro G1 G2 T _ _ _ _ _ _ E e hE hr t h1 h2 hne ht params hk
  rw [hbad hE hr t h1 h2 hne ht params hk, if_pos (by simp [hn])]

/-! ### A small instance -/

/-- Parameters of width 1 with one round: the hash of `x` is `(x + 3)^5`. -/
def smallPoseidon : PoseidonParams (ZMod 97) := ⟨[3], [[1]], 1, 1, 0⟩

example : PoseidonSpec.Shaped smallPoseidon ∧ 0 < smallPoseidon.t := ⟨⟨rfl, rfl, by decide⟩, by decide⟩

/-- 9 is hashed to 27; keys are generated, the proof with 9 is accepted for 27 and not for another number, and a proof with a wrong
preimage is not accepted. -/
example : Poseidon.poseidon [9] smallPoseidon = .ok 27 ∧
    (do let params ← (generateKeys smallK smallToxic (CheckPreimage.default.synthesize smallPoseidon)).toOption
        let proof ← (prove smallK params 11 12 ((⟨some 27, some 9⟩ : CheckPreimage (ZMod 97)).synthesize smallPoseidon)).toOption
        let wrong ← (prove smallK params 11 12 ((⟨some 27, some 10⟩ : CheckPreimage (ZMod 97)).synthesize smallPoseidon)).toOption
        let b1 ← (verify smallEngine (truncate params.vk) proof [(27 : ZMod 97)]).toOption
        let b2 ← (verify smallEngine (truncate params.vk) proof [(28 : ZMod 97)]).toOption
        let b3 ← (verify smallEngine (truncate params.vk) wrong [(27 : ZMod 97)]).toOption
        pure (b1.toOption, b2.toOption, b3.toOption)) = some (some true, some false, some false) := by
  decide +kernel

end Fawkes.Props
