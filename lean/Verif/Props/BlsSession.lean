import Verif.Props.BlsKeys

/-!
# C112 for the Waves binding over BLS12-381 (src/macros.rs:447-683)

The elements of the groups are the points that `r` kills: `pairing` draws only those (C111) and refuses the bytes of others (C110).
-/

namespace Fawkes.Props

open Fawkes.Groth16 Fawkes.Cli Fawkes.Cli.Cmd Fawkes.Serde Fawkes.Groth16.Contract

attribute [local irreducible] blsCofactor blsCofactor2

/-- The points of a curve that `r` kills. -/
def killedBy {G : Type} [AddCommGroup G] (r : Nat) : AddSubgroup G := (nsmulAddMonoidHom r : G →+ G).ker

/-- A sampler of elements of a subgroup, seen as one of that group. -/
def Sampler.within {G : Type} [AddCommGroup G] (H : AddSubgroup G) (g : Sampler G) (h : ∀ b x rest, g b = .ok (x, rest) → x ∈ H) : Sampler H :=
  fun b => match e : g b with
    | .error err => .error err
    | .ok (x, rest) => .ok (⟨x, h b x rest e⟩, rest)

theorem within_iff {G : Type} [AddCommGroup G] {H : AddSubgroup G} {g : Sampler G} {h : ∀ b x rest, g b = .ok (x, rest) → x ∈ H} {b rest : Entropy}
    {x : H} : Sampler.within H g h b = .ok (x, rest) ↔ g b = .ok (x.1, rest) := by
  unfold Sampler.within
  split
  · next e => simp [e]
  · next y rest' e =>
    rw [show (g b = .ok (x.1, rest)) = ((.ok (y, rest') : Except Panic (G × Entropy)) = .ok (x.1, rest)) from congrArg (· = _) e]
    simp only [Except.ok.injEq, Prod.mk.injEq, Subtype.ext_iff]

theorem within_map {G : Type} [AddCommGroup G] {H : AddSubgroup G} {g : Sampler G} (h : ∀ b x rest, g b = .ok (x, rest) → x ∈ H) (b : Entropy) :
    g b = (Sampler.within H g h b).map fun q => (q.1.1, q.2) := by
  rcases e : Sampler.within H g h b with err | ⟨x, rest⟩
  · unfold Sampler.within at e
    split at e
    · next e' => rw [e']; injection e with e; rw [e]; rfl
    · cases e
  · exact within_iff.1 e

theorem within_reads {G : Type} [AddCommGroup G] {H : AddSubgroup G} {g : Sampler G} (h : ∀ b x rest, g b = .ok (x, rest) → x ∈ H) (hg : Reads g) :
    Reads (Sampler.within H g h) := by
  intro b a rest e
  obtain ⟨pre, hb, hp⟩ := hg b a.1 rest (within_iff.1 e)
  exact ⟨pre, hb, fun rest' => within_iff.2 (hp rest')⟩

theorem within_good {G : Type} [AddCommGroup G] {r : Nat} {g : Sampler G} (h : ∀ b x rest, g b = .ok (x, rest) → x ∈ killedBy r)
    (hg : ∀ b x rest, g b = .ok (x, rest) → x ≠ 0 ∧ r • x = 0) (b : Entropy) (x : killedBy (G := G) r) (rest : Entropy)
    (e : Sampler.within (killedBy r) g h b = .ok (x, rest)) : x ≠ 0 ∧ r • x = 0 := by
  obtain ⟨h1, h2⟩ := hg b x.1 rest (within_iff.1 e)
  exact ⟨fun h => h1 (congrArg Subtype.val h), Subtype.ext h2⟩

/-- The groups of BLS12-381. -/
abbrev BlsG1 : Type := killedBy (G := PointsOf blsB) blsR
abbrev BlsG2 : Type := killedBy (G := PointsOf blsB2) blsR

/-- The random points of the setup, as elements of the groups. -/
noncomputable def blsDraw1 (sqrt : ZMod blsQ → Option (ZMod blsQ)) : Sampler BlsG1 :=
  Sampler.within _ (blsPoint1 sqrt) fun b x rest h => (C111_bls_random_g1 b rest x h).2

noncomputable def blsDraw2 (sqrt2 : Fq2 (ZMod blsQ) → Option (Fq2 (ZMod blsQ))) : Sampler BlsG2 :=
  Sampler.within _ (blsPoint2 sqrt2) fun b x rest h => (C111_bls_random_g2 b rest x h).2

/-- C112: as elements of the groups the setup draws the same as C111 says, and from the same bytes. -/
theorem C112_bls_draws (sqrt : ZMod blsQ → Option (ZMod blsQ)) (sqrt2 : Fq2 (ZMod blsQ) → Option (Fq2 (ZMod blsQ))) (b rest : Entropy)
    (t : Toxic (PointsOf blsB) (PointsOf blsB2) blsR) :
    setupCoins blsR (blsPoint1 sqrt) (blsPoint2 sqrt2) b = .ok (t, rest) ↔ ∃ t' : Toxic BlsG1 BlsG2 blsR,
      setupCoins blsR (blsDraw1 sqrt) (blsDraw2 sqrt2) b = .ok (t', rest) ∧
        t = ⟨t'.g1.1, t'.g2.1, t'.alpha, t'.beta, t'.gamma, t'.delta, t'.tau⟩ := by
  rw [setupCoins_map (g0 := blsDraw1 sqrt) (f := Subtype.val) (h0 := blsDraw2 sqrt2) (k := Subtype.val) (within_map _) (within_map _) b,
    setupCoins_eq (blsDraw1 sqrt) (blsDraw2 sqrt2) b]
  generalize Sampler.seq (blsDraw1 sqrt) _ b = u
  rcases u with err | ⟨⟨x, y, z⟩, rest'⟩
  · simp [Except.map]
  · simp only [Except.map, Except.ok.injEq, Prod.mk.injEq]
    constructor
    · rintro ⟨rfl, rfl⟩
      exact ⟨_, ⟨rfl, rfl⟩, rfl⟩
    · rintro ⟨t', ⟨rfl, rfl⟩, rfl⟩
      exact ⟨rfl, rfl⟩

/-- The files of the Waves binding, with compressed points of BLS12-381. -/
noncomputable def blsWaves (sqrt : ZMod blsQ → Option (ZMod blsQ)) (sqrt2 : Fq2 (ZMod blsQ) → Option (Fq2 (ZMod blsQ))) :
    Format BlsG1 BlsG2 blsR :=
  wavesFormat (blsCodec (fqBytes blsQ) sqrt blsB _) (blsCodec (fq2Bytes blsQ) sqrt2 blsB2 _) blsR

/-- A program made by `groth16_waves_bindings!`, with its points drawn, written and read as the libraries do. -/
noncomputable def blsProgram {T W : Type} (K : TwoAdic (ZMod blsR)) (E : Engine BlsG1 BlsG2 T) (f : Format BlsG1 BlsG2 blsR)
    (pub sec : Layout) (code : Code blsR W) (wit : pub.ty.V (ZMod blsR) → sec.ty.V (ZMod blsR) → W) : Program BlsG1 BlsG2 T blsR :=
  clientProgram K (blsRawPoints (fqBytes blsQ) blsB _) (blsRawPoints (fq2Bytes blsQ) blsB2 _) f E pub sec code wit

section

variable {sqrt : ZMod blsQ → Option (ZMod blsQ)} {sqrt2 : Fq2 (ZMod blsQ) → Option (Fq2 (ZMod blsQ))}

theorem blsWaves_lossless (hs : IsSqrt sqrt) (hs2 : IsSqrt sqrt2) : LosslessFinite (blsWaves sqrt sqrt2) :=
  C78_waves_format (exact_bls1 hs _).toLawfulCodec (exact_bls2 hs2 _).toLawfulCodec
    (fun g hz => ((exact_bls1 hs _).isZero g).1 hz) fun g hz => ((exact_bls2 hs2 _).isZero g).1 hz

variable {T W : Type} [CommMonoid T] [DecidableEq T] {K : TwoAdic (ZMod blsR)} {E : Engine BlsG1 BlsG2 T} {e : BlsG1 → BlsG2 → Tˣ}

/-- C112: the Waves binding over BLS12-381, data that satisfy the circuit. -/
theorem C112_bls_true (hK : LawfulTwoAdic K) (hE : PairingEngine E e) (hadd : ∀ a b b', e a (b + b') = e a b * e a b')
    (hs : IsSqrt sqrt) (hs2 : IsSqrt sqrt2)
    (pub sec : Layout) (hpub : Layout.Named pub ∧ Layout.depth pub ≤ 126) (hsec : Layout.Named sec ∧ Layout.depth sec ≤ 126) (code : Code blsR W)
    (hw : code.WidthsFit) (hc : code.Quiet) (wit : pub.ty.V (ZMod blsR) → sec.ty.V (ZMod blsR) → W) (a0 : pub.ty.S (ZMod blsR)) (s0 : CS (ZMod blsR))
    (hset : (generated pub.ty sec.ty code none none none).run (CS.new .setup) = .ok (a0, s0)) (hone : ConstantOnRight s0) (hused : AllUsed s0)
    (hdomain : s0.cons.length + s0.ninputs ≤ 2 ^ (K.S - 1))
    (hsize : 2 * (s0.cons.length + s0.ninputs) ≤ 2 ^ 32 ∧ s0.ninputs + s0.naux < 2 ^ 32) (n : Nat) :
    strings n (fun b => ∃ data, GoodData pub sec code wit data ∧
        OftenDerailed (blsProgram K E (blsWaves sqrt sqrt2) pub sec code wit) (blsDraw1 sqrt) (blsDraw2 sqrt2) data true b) * blsR ≤
      (2 * (s0.cons.length + s0.ninputs) * (2 * (s0.ninputs + s0.naux) + 1 + s0.naux) + s0.ninputs + 4) *
        strings n (fun b => ∃ t rest, setupCoins blsR (blsDraw1 sqrt) (blsDraw2 sqrt2) b = .ok (t, rest)) := by
  obtain ⟨-, -, u1, u2⟩ := C110_raw_lawful ⊤ ⊤ (killedBy blsR) (killedBy blsR)
  exact C112_true_compressed hK blsR_odd aligned_blsR hE hadd (within_reads _ (blsPoint1_reads hs)) (within_reads _ (blsPoint2_reads hs2))
    (within_good _ fun b x rest => C111_bls_random_g1 b rest x) (within_good _ fun b x rest => C111_bls_random_g2 b rest x) u1 u2
    (blsWaves_lossless hs hs2) pub sec hpub hsec code hw hc wit a0 s0 hset hone hused hdomain hsize n

/-- C112: the Waves binding over BLS12-381, data that do not satisfy the circuit. -/
theorem C112_bls_false (hK : LawfulTwoAdic K) (hE : PairingEngine E e) (hadd : ∀ a b b', e a (b + b') = e a b * e a b')
    (hne : ∀ a b, a ≠ 0 → b ≠ 0 → e a b ≠ 1) (hs : IsSqrt sqrt) (hs2 : IsSqrt sqrt2)
    (pub sec : Layout) (hpub : Layout.Named pub ∧ Layout.depth pub ≤ 126) (hsec : Layout.Named sec ∧ Layout.depth sec ≤ 126) (code : Code blsR W)
    (hw : code.WidthsFit) (hc : code.Quiet) (wit : pub.ty.V (ZMod blsR) → sec.ty.V (ZMod blsR) → W) (a0 : pub.ty.S (ZMod blsR)) (s0 : CS (ZMod blsR))
    (hset : (generated pub.ty sec.ty code none none none).run (CS.new .setup) = .ok (a0, s0)) (hone : ConstantOnRight s0) (hused : AllUsed s0)
    (hdomain : s0.cons.length + s0.ninputs ≤ 2 ^ (K.S - 1))
    (hsize : 2 * (s0.cons.length + s0.ninputs) ≤ 2 ^ 32 ∧ s0.ninputs + s0.naux < 2 ^ 32)
    (data : pub.ty.V (ZMod blsR) × sec.ty.V (ZMod blsR)) (hd : WrongData pub sec code wit data) (n : Nat) :
    strings n (OftenDerailed (blsProgram K E (blsWaves sqrt sqrt2) pub sec code wit) (blsDraw1 sqrt) (blsDraw2 sqrt2) data false) * blsR ≤
      (2 * (s0.cons.length + s0.ninputs) * (4 * (s0.ninputs + s0.naux + 1) + s0.naux) + s0.ninputs + 4) *
        strings n (fun b => ∃ t rest, setupCoins blsR (blsDraw1 sqrt) (blsDraw2 sqrt2) b = .ok (t, rest)) := by
  obtain ⟨-, -, u1, u2⟩ := C110_raw_lawful ⊤ ⊤ (killedBy blsR) (killedBy blsR)
  exact (C112_false hK blsR_odd aligned_blsR hE hadd (fun a b ha hb _ _ => hne a b ha hb) (within_reads _ (blsPoint1_reads hs))
    (within_reads _ (blsPoint2_reads hs2)) (within_good _ fun b x rest => C111_bls_random_g1 b rest x)
    (within_good _ fun b x rest => C111_bls_random_g2 b rest x) u1 u2 pub sec hpub hsec code hw hc wit a0 s0 hset hone hused hdomain hsize
    data hd n).2 (blsWaves_lossless hs hs2)

end

/-! ## With the constants and the square roots of the libraries -/

/-- The constants of the transforms over BLS12-381: the generator 7 and its power of order `2^32`. -/
def blsTwoAdic : TwoAdic (ZMod blsR) := ⟨32, ((7 : Nat) : ZMod blsR) ^ ((blsR - 1) / 2 ^ 32), ((7 : Nat) : ZMod blsR)⟩

theorem blsTwoAdic_lawful : LawfulTwoAdic blsTwoAdic :=
  lawful_of_cert 32 7 256 (by decide) (by decide +kernel) (by decide +kernel) (by decide +kernel) (by decide +kernel)
    (by decide +kernel) (by decide +kernel) (by decide +kernel)

section

open Fawkes.FieldSqrt

variable {T W : Type} [CommMonoid T] [DecidableEq T] {E : Engine BlsG1 BlsG2 T} {e : BlsG1 → BlsG2 → Tˣ}

/-- C114 (Waves sessions over BLS12-381): of C112 only the pairing remains a hypothesis. -/
theorem C114_bls_session (hE : PairingEngine E e) (hadd : ∀ a b b', e a (b + b') = e a b * e a b')
    (hne : ∀ a b, a ≠ 0 → b ≠ 0 → e a b ≠ 1)
    (pub sec : Layout) (hpub : Layout.Named pub ∧ Layout.depth pub ≤ 126) (hsec : Layout.Named sec ∧ Layout.depth sec ≤ 126) (code : Code blsR W)
    (hw : code.WidthsFit) (hc : code.Quiet) (wit : pub.ty.V (ZMod blsR) → sec.ty.V (ZMod blsR) → W) (a0 : pub.ty.S (ZMod blsR)) (s0 : CS (ZMod blsR))
    (hset : (generated pub.ty sec.ty code none none none).run (CS.new .setup) = .ok (a0, s0)) (hone : ConstantOnRight s0) (hused : AllUsed s0)
    (hdomain : s0.cons.length + s0.ninputs ≤ 2 ^ 31) (hsize : s0.ninputs + s0.naux < 2 ^ 32) (n : Nat) :
    strings n (fun b => ∃ data, GoodData pub sec code wit data ∧
        OftenDerailed (blsProgram blsTwoAdic E (blsWaves sqrt34 sqrt2) pub sec code wit) (blsDraw1 sqrt34) (blsDraw2 sqrt2) data true b) * blsR ≤
      (2 * (s0.cons.length + s0.ninputs) * (2 * (s0.ninputs + s0.naux) + 1 + s0.naux) + s0.ninputs + 4) *
        strings n (fun b => ∃ t rest, setupCoins blsR (blsDraw1 sqrt34) (blsDraw2 sqrt2) b = .ok (t, rest)) ∧
    ∀ data, WrongData pub sec code wit data →
      strings n (OftenDerailed (blsProgram blsTwoAdic E (blsWaves sqrt34 sqrt2) pub sec code wit) (blsDraw1 sqrt34) (blsDraw2 sqrt2) data false) * blsR ≤
        (2 * (s0.cons.length + s0.ninputs) * (4 * (s0.ninputs + s0.naux + 1) + s0.naux) + s0.ninputs + 4) *
          strings n (fun b => ∃ t rest, setupCoins blsR (blsDraw1 sqrt34) (blsDraw2 sqrt2) b = .ok (t, rest)) :=
  ⟨C112_bls_true blsTwoAdic_lawful hE hadd C114_base_fields.2.2.1 C114_base_fields.2.2.2 pub sec hpub hsec code hw hc wit a0 s0 hset hone hused
      hdomain ⟨by omega, hsize⟩ n,
    fun data hd => C112_bls_false blsTwoAdic_lawful hE hadd hne C114_base_fields.2.2.1 C114_base_fields.2.2.2 pub sec hpub hsec code hw hc wit a0 s0
      hset hone hused hdomain ⟨by omega, hsize⟩ data hd n⟩

end

/-! ### Example: two factors of 35 -/

/-- The groups have a pairing as the theorems assume. -/
theorem bls_pairing_within : ∃ (E : Engine BlsG1 BlsG2 (Multiplicative (ZMod blsR))) (e : BlsG1 → BlsG2 → (Multiplicative (ZMod blsR))ˣ),
    PairingEngine E e ∧ (∀ a b b', e a (b + b') = e a b * e a b') ∧ ∀ a b, a ≠ 0 → b ≠ 0 → e a b ≠ 1 := by
  obtain ⟨E, e, hE, hadd, hne⟩ := C111_bls_pairing
  refine ⟨⟨fun l => ((l.map fun q => e q.1.1 q.2.1).prod : (Multiplicative (ZMod blsR))ˣ), some⟩, fun a b => e a.1 b.1,
    ⟨fun _ => rfl, fun a a' b => hE.add_left _ _ _⟩, fun a b b' => hadd _ _ _, fun a b ha hb => hne _ _ ?_ ?_ a.2 b.2⟩
  · exact fun h => ha (Subtype.ext h)
  · exact fun h => hb (Subtype.ext h)

def blsDemoCode : Code blsR Unit :=
  .call (.prim (.mul 1 2)) fun _ => .call (.prim (.assertEq 0 3)) fun _ => .done

theorem blsDemoCode_fits : blsDemoCode.WidthsFit ∧ blsDemoCode.Quiet := by
  constructor
  · simp [blsDemoCode, Code.WidthsFit, Call.WidthsFit]
  · simp [blsDemoCode, Code.Quiet, Call.publishes, Op.publishes]

def blsDemoData (q1 q2 : Nat) : demoPub.ty.V (ZMod blsR) × demoSec.ty.V (ZMod blsR) := ((35 : ZMod blsR), ((q1 : ZMod blsR), (q2 : ZMod blsR)))

theorem blsDemo_good : GoodData demoPub demoSec blsDemoCode (fun _ _ => ()) (blsDemoData 5 7) := by
  obtain ⟨a, h⟩ := finalState_of_ok (m := generated demoPub.ty demoSec.ty blsDemoCode (some ()) (some (blsDemoData 5 7).1) (some (blsDemoData 5 7).2))
    (s := CS.new .prove) (by decide +kernel)
  refine ⟨trivial, a, _, h, ?_⟩
  unfold CS.Sat Constraint.Sat
  decide +kernel

theorem blsDemo_wrong : WrongData demoPub demoSec blsDemoCode (fun _ _ => ()) (blsDemoData 5 8) := by
  obtain ⟨a, h⟩ := finalState_of_ok (m := generated demoPub.ty demoSec.ty blsDemoCode (some ()) (some (blsDemoData 5 8).1) (some (blsDemoData 5 8).2))
    (s := CS.new .prove) (by decide +kernel)
  refine ⟨trivial, a, _, h, ?_⟩
  unfold CS.Sat Constraint.Sat
  decide +kernel

open Fawkes.FieldSqrt in
/-- All hypotheses hold of a program for the factors of a number: some byte strings of length 312 give keys, and but for the part `326 / r` of
the byte strings of each length the Waves binding prints "true" for 5 and 7 and "false" for 5 and 8, for almost all coins of the prover. -/
example : ∃ E : Engine BlsG1 BlsG2 (Multiplicative (ZMod blsR)),
    0 < strings 312 (fun b => ∃ t rest, setupCoins blsR (blsDraw1 sqrt34) (blsDraw2 sqrt2) b = .ok (t, rest)) ∧ ∀ n,
      strings n (OftenDerailed (blsProgram blsTwoAdic E (blsWaves sqrt34 sqrt2) demoPub demoSec blsDemoCode fun _ _ => ()) (blsDraw1 sqrt34)
          (blsDraw2 sqrt2) (blsDemoData 5 7) true) * blsR ≤
        176 * strings n (fun b => ∃ t rest, setupCoins blsR (blsDraw1 sqrt34) (blsDraw2 sqrt2) b = .ok (t, rest)) ∧
      strings n (OftenDerailed (blsProgram blsTwoAdic E (blsWaves sqrt34 sqrt2) demoPub demoSec blsDemoCode fun _ _ => ()) (blsDraw1 sqrt34)
          (blsDraw2 sqrt2) (blsDemoData 5 8) false) * blsR ≤
        326 * strings n (fun b => ∃ t rest, setupCoins blsR (blsDraw1 sqrt34) (blsDraw2 sqrt2) b = .ok (t, rest)) := by
  obtain ⟨E, e, hE, hadd, hne⟩ := bls_pairing_within
  obtain ⟨a0, hset⟩ := finalState_of_ok (m := generated demoPub.ty demoSec.ty blsDemoCode none none none) (s := CS.new .setup) (by decide +kernel)
  have hl : (finalState (generated demoPub.ty demoSec.ty blsDemoCode none none none) (CS.new .setup)).cons.length = 3 := by decide +kernel
  have hi : (finalState (generated demoPub.ty demoSec.ty blsDemoCode none none none) (CS.new .setup)).ninputs = 2 := by decide +kernel
  have ha : (finalState (generated demoPub.ty demoSec.ty blsDemoCode none none none) (CS.new .setup)).naux = 4 := by decide +kernel
  have hused : AllUsed (finalState (generated demoPub.ty demoSec.ty blsDemoCode none none none) (CS.new .setup)) := by
    unfold AllUsed; decide +kernel
  have hone := constantOnRight_of_public blsDemoCode_fits.2 (by decide) (by simp) hset
  have key := fun n => C114_bls_session hE hadd hne demoPub demoSec demoLayouts.1 demoLayouts.2 blsDemoCode blsDemoCode_fits.1 blsDemoCode_fits.2
      (fun _ _ => ()) a0 _ hset hone hused (by rw [hl, hi]; decide) (by rw [hi, ha]; decide) n
  rw [hl, hi, ha] at key
  refine ⟨E, ?_, fun n => ⟨?_, (key n).2 _ blsDemo_wrong⟩⟩
  · obtain ⟨b, hb, h⟩ := C111_bls_setup_possible (sqrt := sqrt34) (sqrt2 := sqrt2) C114_base_fields.2.2.1 C114_base_fields.2.2.2
      ⟨genBls, genBls2, 1, 2, 3, 4, 5⟩
      ⟨⟨WeierstrassCurve.Affine.Point.some_ne_zero _, genBls_killed⟩, WeierstrassCurve.Affine.Point.some_ne_zero _, genBls2_killed⟩
    obtain ⟨t', h', -⟩ := (C112_bls_draws _ _ _ _ _).1 h
    exact (Set.ncard_pos (finite_strings _ _)).2 ⟨b, hb, _, _, h'⟩
  · exact le_trans (Nat.mul_le_mul_right _ (strings_mono fun b h => ⟨_, blsDemo_good, h⟩)) (key n).1

end Fawkes.Props
