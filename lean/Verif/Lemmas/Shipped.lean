import Verif.Lemmas.Params
import Verif.Props.NumConv

/-!
# Certificates for the two shipped curves

Generated numbers; everything is checked by the kernel.
-/

namespace Fawkes

/-- The curve of src/native/bn256.rs: `d = -168696/168700`. -/
def bnCurve : EdCurve (ZMod bnR) :=
  EdCurve.ofCert bnR 12181644023421730124874158521699555681764249180949974110617291017600649128846
    21888242871839275217838484774961031246007050428528088939761107053157389710902 256
    (by decide +kernel) (by decide +kernel) (by decide +kernel) (by decide +kernel)

theorem bnCurve_d_nat : bnCurve.d =
    ((12181644023421730124874158521699555681764249180949974110617291017600649128846 : Nat) : ZMod bnR) := rfl

theorem bnCurve_d : bnCurve.d = -168696 / 168700 := by
  have h : (((12181644023421730124874158521699555681764249180949974110617291017600649128846 : Nat) * 168700 + 168696 : Nat) : ZMod bnR) = ((0 : Nat) : ZMod bnR) :=
    natCast_eq_of (by decide +kernel)
  have hne : ((168700 : Nat) : ZMod bnR) ≠ 0 := by
    rw [Ne, ZMod.natCast_eq_zero_iff]; decide +kernel
  push_cast at h hne
  rw [bnCurve_d_nat, eq_div_iff hne]
  push_cast
  linear_combination h

theorem bn_groupCert : groupCert bnR bnL 256
    12181644023421730124874158521699555681764249180949974110617291017600649128846
    21449313544428428285896623807777999089618640778178766447151795324822652860828
    17061719626832259898845741003733890968968767993363194771977168648564009544074
    3136769009115878734591535780061023271603672807505340687898033796924625038576
    9219167653453464779020540250694647714630525780448598382451117487063353539706
    506632425002738952991815535944779401232935754467793257327975327921342270009 = true := by decide +kernel

theorem bn_baseCert : baseCert bnR 256
    12181644023421730124874158521699555681764249180949974110617291017600649128846
    168698
    21888242871839275222246405745257275088548364400416034343698204186575808326917
    337401
    12274975407417223920461215710249435871537310625285749444388916913720917809587
    3136769009115878734591535780061023271603672807505340687898033796924625038576
    9219167653453464779020540250694647714630525780448598382451117487063353539706
    190458084235214931820203629099237016439077764288439160231677790318824063531
    19331052173422433004849820308447872662081013414183565725096844825026563990729
    2560895982333864692726098474393764356651973048555055124961780146033575750335
    4996525478852479275553136979909825782483623793259069544596798778615215490379
    5420419481904760932676070340500202011341193741823844179763849527574615334219
    6540697467786742986920347195263186199250193003928728990839504271203367557020 = true := by decide +kernel

theorem bn_seed : Num.fromSeed bnR seedEdwardsG =
    .ok ((12274975407417223920461215710249435871537310625285749444388916913720917809587 : Nat) : ZMod bnR) := by
  rw [fromSeed_ok Props.aligned_bnR (by decide +kernel)]
  exact congrArg Except.ok (natCast_eq_of (by decide +kernel))

/-- The value of `JubJubBN256::new()`. -/
def bnParams : JubJubParams (ZMod bnR) where
  l := bnL
  g := ⟨((3136769009115878734591535780061023271603672807505340687898033796924625038576 : Nat) : ZMod bnR),
    ((9219167653453464779020540250694647714630525780448598382451117487063353539706 : Nat) : ZMod bnR)⟩
  d := bnCurve.d
  a := bnCurve.a
  b := bnCurve.b
  u := ((337401 : Nat) : ZMod bnR)

theorem bnParams_valid : bnParams.Valid bnCurve where
  d_eq := rfl
  a_eq := rfl
  b_eq := rfl
  u_nonsquare := (coeffs_of_cert bnCurve_d_nat bn_baseCert).2.2
  l_prime := bnL_prime
  l_large := by show 7 < bnL; norm_num
  exponent := (exponent_of_cert bnL_prime bnCurve_d_nat bn_groupCert).1
  base := by
    obtain ⟨G, h1, h2, h3⟩ := (exponent_of_cert bnL_prime bnCurve_d_nat bn_groupCert).2
    exact ⟨G, h1.symm, h2, h3⟩

theorem bn_new {sqrt : ZMod bnR → Option (ZMod bnR)} (hs : IsSqrt sqrt) :
    jubjubBN256 sqrt = .ok bnParams := by
  have hne : (168700 : ZMod bnR) ≠ 0 := by
    have : ((168700 : Nat) : ZMod bnR) ≠ 0 := by
      rw [Ne, ZMod.natCast_eq_zero_iff]; decide +kernel
    exact_mod_cast this
  have hbase := base_of_cert bnCurve_d_nat bn_baseCert hs
  unfold jubjubBN256 JubJubParams.build
  simp only [bind, Except.bind]
  rw [Num.div_ok hne, ← bnCurve_d]
  simp only []
  rw [Num.div_ok bnCurve.one_add_d_ne, Num.div_ok bnCurve.one_add_d_ne, bn_seed]
  simp only []
  unfold EdCurve.a EdCurve.b at hbase
  rw [show (337401 : ZMod bnR) = ((337401 : Nat) : ZMod bnR) by norm_num, hbase]
  rfl

/-- The curve of src/native/bls12_381.rs: `d = -10240/10241`. -/
def blsCurve : EdCurve (ZMod blsR) :=
  EdCurve.ofCert blsR 19257038036680949359750312669786877991949435402254120286184196891950884077233
    52435875175126190475982595682112313518914282969839895044333406231173219221505 256
    (by decide +kernel) (by decide +kernel) (by decide +kernel) (by decide +kernel)

theorem blsCurve_d_nat : blsCurve.d =
    ((19257038036680949359750312669786877991949435402254120286184196891950884077233 : Nat) : ZMod blsR) := rfl

theorem blsCurve_d : blsCurve.d = -10240 / 10241 := by
  have h : (((19257038036680949359750312669786877991949435402254120286184196891950884077233 : Nat) * 10241 + 10240 : Nat) : ZMod blsR) = ((0 : Nat) : ZMod blsR) :=
    natCast_eq_of (by decide +kernel)
  have hne : ((10241 : Nat) : ZMod blsR) ≠ 0 := by
    rw [Ne, ZMod.natCast_eq_zero_iff]; decide +kernel
  push_cast at h hne
  rw [blsCurve_d_nat, eq_div_iff hne]
  push_cast
  linear_combination h

theorem bls_groupCert : groupCert blsR blsL 256
    19257038036680949359750312669786877991949435402254120286184196891950884077233
    51487464086487745867707624970564403863932192230710361188278096157071779040579
    33175629719884006543435607313513638533300198751199617432860030069151083304669
    44712518387605426644504699667580005941754982390059929374970847015217361777390
    46846510589459161038357857118145854213068421404599278795502517840024729615816
    17628623623145568345340008637302442646378501019378162885830470769167399355157 = true := by decide +kernel

theorem bls_baseCert : baseCert blsR 256
    19257038036680949359750312669786877991949435402254120286184196891950884077233
    40962
    52435875175126190479447740508185965837690552500527637822603658699938581143549
    81929
    34163218279256499142707621455506710960085675025701783788087121100296726305204
    44712518387605426644504699667580005941754982390059929374970847015217361777390
    46846510589459161038357857118145854213068421404599278795502517840024729615816
    25190052920514367722877112308696586088632982933578459664312717705064382860386
    43315554366299749741178464727734977290975072885178858727533219929950614832694
    37282480825197205425060250877136123831586963761609940707914268143776411286463
    47627663054826825035443867316128127312970315388864147795417867946246591071240
    28700032734529317515502274402646242871703645686605390272748176612308693763727
    35965337279797800182221432915860595234191932740294115995230730873261363019164 = true := by decide +kernel

theorem bls_seed : Num.fromSeed blsR seedEdwardsG =
    .ok ((34163218279256499142707621455506710960085675025701783788087121100296726305204 : Nat) : ZMod blsR) := by
  rw [fromSeed_ok Props.aligned_blsR (by decide +kernel)]
  exact congrArg Except.ok (natCast_eq_of (by decide +kernel))

/-- The value of `JubJubBLS12_381::new()`. -/
def blsParams : JubJubParams (ZMod blsR) where
  l := blsL
  g := ⟨((44712518387605426644504699667580005941754982390059929374970847015217361777390 : Nat) : ZMod blsR),
    ((46846510589459161038357857118145854213068421404599278795502517840024729615816 : Nat) : ZMod blsR)⟩
  d := blsCurve.d
  a := blsCurve.a
  b := blsCurve.b
  u := ((81929 : Nat) : ZMod blsR)

theorem blsParams_valid : blsParams.Valid blsCurve where
  d_eq := rfl
  a_eq := rfl
  b_eq := rfl
  u_nonsquare := (coeffs_of_cert blsCurve_d_nat bls_baseCert).2.2
  l_prime := blsL_prime
  l_large := by show 7 < blsL; norm_num
  exponent := (exponent_of_cert blsL_prime blsCurve_d_nat bls_groupCert).1
  base := by
    obtain ⟨G, h1, h2, h3⟩ := (exponent_of_cert blsL_prime blsCurve_d_nat bls_groupCert).2
    exact ⟨G, h1.symm, h2, h3⟩

theorem bls_new {sqrt : ZMod blsR → Option (ZMod blsR)} (hs : IsSqrt sqrt) :
    jubjubBLS12_381 sqrt = .ok blsParams := by
  have hne : (10241 : ZMod blsR) ≠ 0 := by
    have : ((10241 : Nat) : ZMod blsR) ≠ 0 := by
      rw [Ne, ZMod.natCast_eq_zero_iff]; decide +kernel
    exact_mod_cast this
  have hbase := base_of_cert blsCurve_d_nat bls_baseCert hs
  unfold jubjubBLS12_381 JubJubParams.build
  simp only [bind, Except.bind]
  rw [Num.div_ok hne, ← blsCurve_d]
  simp only []
  rw [Num.div_ok blsCurve.one_add_d_ne, Num.div_ok blsCurve.one_add_d_ne, bls_seed]
  simp only []
  unfold EdCurve.a EdCurve.b at hbase
  rw [show (81929 : ZMod blsR) = ((81929 : Nat) : ZMod blsR) by norm_num, hbase]
  rfl

end Fawkes
