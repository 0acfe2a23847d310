import Verif.Lemmas.Primes
import Verif.Lemmas.PrimesQ
import Verif.Lemmas.PrimesTwist

/-!
# The prime factors of the orders of the curves of BLS12-381
-/

namespace Fawkes

set_option maxRecDepth 4000

theorem prime_113 : Nat.Prime 113 := by norm_num

theorem prime_2713 : Nat.Prime 2713 :=
  prime_of_cert 2713 5 12 [2, 2, 2, 3, 113] (by decide +kernel)
    (by simp only [List.forall_mem_cons]; exact ⟨prime_2, prime_2, prime_2, prime_3, prime_113, List.forall_mem_nil _⟩)

theorem prime_11953 : Nat.Prime 11953 :=
  prime_of_cert 11953 5 14 [2, 2, 2, 2, 3, 3, 83] (by decide +kernel)
    (by simp only [List.forall_mem_cons]; exact ⟨prime_2, prime_2, prime_2, prime_2, prime_3, prime_3, prime_83, List.forall_mem_nil _⟩)

theorem prime_21839 : Nat.Prime 21839 :=
  prime_of_cert 21839 11 15 [2, 61, 179] (by decide +kernel)
    (by simp only [List.forall_mem_cons]; exact ⟨prime_2, prime_61, prime_179, List.forall_mem_nil _⟩)

theorem prime_262069 : Nat.Prime 262069 :=
  prime_of_cert 262069 6 18 [2, 2, 3, 21839] (by decide +kernel)
    (by simp only [List.forall_mem_cons]; exact ⟨prime_2, prime_2, prime_3, prime_21839, List.forall_mem_nil _⟩)

theorem prime_631 : Nat.Prime 631 := by norm_num

theorem prime_1373 : Nat.Prime 1373 :=
  prime_of_cert 1373 2 11 [2, 2, 7, 7, 7] (by decide +kernel)
    (by simp only [List.forall_mem_cons]; exact ⟨prime_2, prime_2, prime_7, prime_7, prime_7, List.forall_mem_nil _⟩)

theorem prime_4920833 : Nat.Prime 4920833 :=
  prime_of_cert 4920833 3 23 [2, 2, 2, 2, 2, 2, 2, 2, 2, 7, 1373] (by decide +kernel)
    (by simp only [List.forall_mem_cons]; exact ⟨prime_2, prime_2, prime_2, prime_2, prime_2, prime_2, prime_2, prime_2, prime_2, prime_7, prime_1373, List.forall_mem_nil _⟩)

theorem prime_3539 : Nat.Prime 3539 :=
  prime_of_cert 3539 2 12 [2, 29, 61] (by decide +kernel)
    (by simp only [List.forall_mem_cons]; exact ⟨prime_2, prime_29, prime_61, List.forall_mem_nil _⟩)

theorem prime_52872661 : Nat.Prime 52872661 :=
  prime_of_cert 52872661 2 26 [2, 2, 3, 3, 5, 83, 3539] (by decide +kernel)
    (by simp only [List.forall_mem_cons]; exact ⟨prime_2, prime_2, prime_3, prime_3, prime_5, prime_83, prime_3539, List.forall_mem_nil _⟩)

theorem prime_373 : Nat.Prime 373 := by norm_num

theorem prime_347 : Nat.Prime 347 := by norm_num

theorem prime_8329 : Nat.Prime 8329 :=
  prime_of_cert 8329 7 14 [2, 2, 2, 3, 347] (by decide +kernel)
    (by simp only [List.forall_mem_cons]; exact ⟨prime_2, prime_2, prime_2, prime_3, prime_347, List.forall_mem_nil _⟩)

theorem prime_37501 : Nat.Prime 37501 :=
  prime_of_cert 37501 2 16 [2, 2, 3, 5, 5, 5, 5, 5] (by decide +kernel)
    (by simp only [List.forall_mem_cons]; exact ⟨prime_2, prime_2, prime_3, prime_5, prime_5, prime_5, prime_5, prime_5, List.forall_mem_nil _⟩)

theorem prime_383 : Nat.Prime 383 := by norm_num

theorem prime_13789 : Nat.Prime 13789 :=
  prime_of_cert 13789 7 14 [2, 2, 3, 3, 383] (by decide +kernel)
    (by simp only [List.forall_mem_cons]; exact ⟨prime_2, prime_2, prime_3, prime_3, prime_383, List.forall_mem_nil _⟩)

theorem prime_661873 : Nat.Prime 661873 :=
  prime_of_cert 661873 5 20 [2, 2, 2, 2, 3, 13789] (by decide +kernel)
    (by simp only [List.forall_mem_cons]; exact ⟨prime_2, prime_2, prime_2, prime_2, prime_3, prime_13789, List.forall_mem_nil _⟩)

theorem prime_103 : Nat.Prime 103 := by norm_num

theorem prime_19759 : Nat.Prime 19759 :=
  prime_of_cert 19759 3 15 [2, 3, 37, 89] (by decide +kernel)
    (by simp only [List.forall_mem_cons]; exact ⟨prime_2, prime_3, prime_37, prime_89, List.forall_mem_nil _⟩)

theorem prime_12211063 : Nat.Prime 12211063 :=
  prime_of_cert 12211063 5 24 [2, 3, 103, 19759] (by decide +kernel)
    (by simp only [List.forall_mem_cons]; exact ⟨prime_2, prime_3, prime_103, prime_19759, List.forall_mem_nil _⟩)

theorem prime_653 : Nat.Prime 653 := by norm_num

theorem prime_1307 : Nat.Prime 1307 :=
  prime_of_cert 1307 2 11 [2, 653] (by decide +kernel)
    (by simp only [List.forall_mem_cons]; exact ⟨prime_2, prime_653, List.forall_mem_nil _⟩)

theorem prime_479 : Nat.Prime 479 := by norm_num

theorem prime_3833 : Nat.Prime 3833 :=
  prime_of_cert 3833 3 12 [2, 2, 2, 479] (by decide +kernel)
    (by simp only [List.forall_mem_cons]; exact ⟨prime_2, prime_2, prime_2, prime_479, List.forall_mem_nil _⟩)

theorem prime_1402724681 : Nat.Prime 1402724681 :=
  prime_of_cert 1402724681 3 31 [2, 2, 2, 5, 7, 1307, 3833] (by decide +kernel)
    (by simp only [List.forall_mem_cons]; exact ⟨prime_2, prime_2, prime_2, prime_5, prime_7, prime_1307, prime_3833, List.forall_mem_nil _⟩)

theorem prime_68059 : Nat.Prime 68059 :=
  prime_of_cert 68059 2 17 [2, 3, 3, 19, 199] (by decide +kernel)
    (by simp only [List.forall_mem_cons]; exact ⟨prime_2, prime_3, prime_3, prime_19, prime_199, List.forall_mem_nil _⟩)

theorem prime_10267 : Nat.Prime 10267 :=
  prime_of_cert 10267 2 14 [2, 3, 29, 59] (by decide +kernel)
    (by simp only [List.forall_mem_cons]; exact ⟨prime_2, prime_3, prime_29, prime_59, List.forall_mem_nil _⟩)

theorem prime_349079 : Nat.Prime 349079 :=
  prime_of_cert 349079 11 19 [2, 17, 10267] (by decide +kernel)
    (by simp only [List.forall_mem_cons]; exact ⟨prime_2, prime_17, prime_10267, List.forall_mem_nil _⟩)

theorem prime_16297965815447 : Nat.Prime 16297965815447 :=
  prime_of_cert 16297965815447 5 44 [2, 7, 7, 7, 68059, 349079] (by decide +kernel)
    (by simp only [List.forall_mem_cons]; exact ⟨prime_2, prime_7, prime_7, prime_7, prime_68059, prime_349079, List.forall_mem_nil _⟩)

theorem prime_225493 : Nat.Prime 225493 :=
  prime_of_cert 225493 2 18 [2, 2, 3, 19, 23, 43] (by decide +kernel)
    (by simp only [List.forall_mem_cons]; exact ⟨prime_2, prime_2, prime_3, prime_19, prime_23, prime_43, List.forall_mem_nil _⟩)

theorem prime_151 : Nat.Prime 151 := by norm_num

theorem prime_2011 : Nat.Prime 2011 :=
  prime_of_cert 2011 3 11 [2, 3, 5, 67] (by decide +kernel)
    (by simp only [List.forall_mem_cons]; exact ⟨prime_2, prime_3, prime_5, prime_67, List.forall_mem_nil _⟩)

theorem prime_810774871 : Nat.Prime 810774871 :=
  prime_of_cert 810774871 11 30 [2, 3, 5, 89, 151, 2011] (by decide +kernel)
    (by simp only [List.forall_mem_cons]; exact ⟨prime_2, prime_3, prime_5, prime_89, prime_151, prime_2011, List.forall_mem_nil _⟩)

theorem prime_63240439939 : Nat.Prime 63240439939 :=
  prime_of_cert 63240439939 3 36 [2, 3, 13, 810774871] (by decide +kernel)
    (by simp only [List.forall_mem_cons]; exact ⟨prime_2, prime_3, prime_13, prime_810774871, List.forall_mem_nil _⟩)

theorem prime_1770732318293 : Nat.Prime 1770732318293 :=
  prime_of_cert 1770732318293 2 41 [2, 2, 7, 63240439939] (by decide +kernel)
    (by simp only [List.forall_mem_cons]; exact ⟨prime_2, prime_2, prime_7, prime_63240439939, List.forall_mem_nil _⟩)

theorem prime_21561538103037546247 : Nat.Prime 21561538103037546247 :=
  prime_of_cert 21561538103037546247 5 65 [2, 3, 3, 3, 225493, 1770732318293] (by decide +kernel)
    (by simp only [List.forall_mem_cons]; exact ⟨prime_2, prime_3, prime_3, prime_3, prime_225493, prime_1770732318293, List.forall_mem_nil _⟩)

theorem prime_86246152412150184989 : Nat.Prime 86246152412150184989 :=
  prime_of_cert 86246152412150184989 2 67 [2, 2, 21561538103037546247] (by decide +kernel)
    (by simp only [List.forall_mem_cons]; exact ⟨prime_2, prime_2, prime_21561538103037546247, List.forall_mem_nil _⟩)

theorem prime_2731 : Nat.Prime 2731 :=
  prime_of_cert 2731 3 12 [2, 3, 5, 7, 13] (by decide +kernel)
    (by simp only [List.forall_mem_cons]; exact ⟨prime_2, prime_3, prime_5, prime_7, prime_13, List.forall_mem_nil _⟩)

theorem prime_601 : Nat.Prime 601 := by norm_num

theorem prime_57697 : Nat.Prime 57697 :=
  prime_of_cert 57697 5 16 [2, 2, 2, 2, 2, 3, 601] (by decide +kernel)
    (by simp only [List.forall_mem_cons]; exact ⟨prime_2, prime_2, prime_2, prime_2, prime_2, prime_3, prime_601, List.forall_mem_nil _⟩)

theorem prime_2969 : Nat.Prime 2969 :=
  prime_of_cert 2969 3 12 [2, 2, 2, 7, 53] (by decide +kernel)
    (by simp only [List.forall_mem_cons]; exact ⟨prime_2, prime_2, prime_2, prime_7, prime_53, List.forall_mem_nil _⟩)

theorem prime_197539 : Nat.Prime 197539 :=
  prime_of_cert 197539 2 18 [2, 3, 11, 41, 73] (by decide +kernel)
    (by simp only [List.forall_mem_cons]; exact ⟨prime_2, prime_3, prime_11, prime_41, prime_73, List.forall_mem_nil _⟩)

theorem prime_6716327 : Nat.Prime 6716327 :=
  prime_of_cert 6716327 5 23 [2, 17, 197539] (by decide +kernel)
    (by simp only [List.forall_mem_cons]; exact ⟨prime_2, prime_17, prime_197539, List.forall_mem_nil _⟩)

theorem prime_40297963 : Nat.Prime 40297963 :=
  prime_of_cert 40297963 2 26 [2, 3, 6716327] (by decide +kernel)
    (by simp only [List.forall_mem_cons]; exact ⟨prime_2, prime_3, prime_6716327, List.forall_mem_nil _⟩)

theorem prime_241787779 : Nat.Prime 241787779 :=
  prime_of_cert 241787779 2 28 [2, 3, 40297963] (by decide +kernel)
    (by simp only [List.forall_mem_cons]; exact ⟨prime_2, prime_3, prime_40297963, List.forall_mem_nil _⟩)

theorem prime_1435735831703 : Nat.Prime 1435735831703 :=
  prime_of_cert 1435735831703 5 41 [2, 2969, 241787779] (by decide +kernel)
    (by simp only [List.forall_mem_cons]; exact ⟨prime_2, prime_2969, prime_241787779, List.forall_mem_nil _⟩)

theorem prime_907 : Nat.Prime 907 := by norm_num

theorem prime_541 : Nat.Prime 541 := by norm_num

theorem prime_587 : Nat.Prime 587 := by norm_num

theorem prime_1367711 : Nat.Prime 1367711 :=
  prime_of_cert 1367711 7 21 [2, 5, 233, 587] (by decide +kernel)
    (by simp only [List.forall_mem_cons]; exact ⟨prime_2, prime_5, prime_233, prime_587, List.forall_mem_nil _⟩)

theorem prime_12192593745179 : Nat.Prime 12192593745179 :=
  prime_of_cert 12192593745179 2 44 [2, 7, 11, 107, 541, 1367711] (by decide +kernel)
    (by simp only [List.forall_mem_cons]; exact ⟨prime_2, prime_7, prime_11, prime_107, prime_541, prime_1367711, List.forall_mem_nil _⟩)

theorem prime_512088937297519 : Nat.Prime 512088937297519 :=
  prime_of_cert 512088937297519 6 49 [2, 3, 7, 12192593745179] (by decide +kernel)
    (by simp only [List.forall_mem_cons]; exact ⟨prime_2, prime_3, prime_7, prime_12192593745179, List.forall_mem_nil _⟩)

theorem prime_1857858664515398933 : Nat.Prime 1857858664515398933 :=
  prime_of_cert 1857858664515398933 2 61 [2, 2, 907, 512088937297519] (by decide +kernel)
    (by simp only [List.forall_mem_cons]; exact ⟨prime_2, prime_2, prime_907, prime_512088937297519, List.forall_mem_nil _⟩)

theorem prime_22294303974184787197 : Nat.Prime 22294303974184787197 :=
  prime_of_cert 22294303974184787197 14 65 [2, 2, 3, 1857858664515398933] (by decide +kernel)
    (by simp only [List.forall_mem_cons]; exact ⟨prime_2, prime_2, prime_3, prime_1857858664515398933, List.forall_mem_nil _⟩)

theorem prime_19931107752921199754119 : Nat.Prime 19931107752921199754119 :=
  prime_of_cert 19931107752921199754119 3 75 [2, 3, 149, 22294303974184787197] (by decide +kernel)
    (by simp only [List.forall_mem_cons]; exact ⟨prime_2, prime_3, prime_149, prime_22294303974184787197, List.forall_mem_nil _⟩)

theorem prime_81162125843606155545104998607900118769099783 : Nat.Prime 81162125843606155545104998607900118769099783 :=
  prime_of_cert 81162125843606155545104998607900118769099783 5 146 [2, 3, 3, 2731, 57697, 1435735831703, 19931107752921199754119] (by decide +kernel)
    (by simp only [List.forall_mem_cons]; exact ⟨prime_2, prime_3, prime_3, prime_2731, prime_57697, prime_1435735831703, prime_19931107752921199754119, List.forall_mem_nil _⟩)

theorem prime_26935696298915610574513298451669528361624243820491956655650666425177 : Nat.Prime 26935696298915610574513298451669528361624243820491956655650666425177 :=
  prime_of_cert 26935696298915610574513298451669528361624243820491956655650666425177 3 224 [2, 2, 2, 13, 37, 86246152412150184989, 81162125843606155545104998607900118769099783] (by decide +kernel)
    (by simp only [List.forall_mem_cons]; exact ⟨prime_2, prime_2, prime_2, prime_13, prime_37, prime_86246152412150184989, prime_81162125843606155545104998607900118769099783, List.forall_mem_nil _⟩)

theorem prime_4638704574076146691498289350639807119782054683906549022985642612861209609656189848749536921852444848596916990932297 : Nat.Prime 4638704574076146691498289350639807119782054683906549022985642612861209609656189848749536921852444848596916990932297 :=
  prime_of_cert 4638704574076146691498289350639807119782054683906549022985642612861209609656189848749536921852444848596916990932297 3 381 [2, 2, 2, 373, 8329, 37501, 661873, 12211063, 1402724681, 16297965815447, 26935696298915610574513298451669528361624243820491956655650666425177] (by decide +kernel)
    (by simp only [List.forall_mem_cons]; exact ⟨prime_2, prime_2, prime_2, prime_373, prime_8329, prime_37501, prime_661873, prime_12211063, prime_1402724681, prime_16297965815447, prime_26935696298915610574513298451669528361624243820491956655650666425177, List.forall_mem_nil _⟩)

theorem prime_402096035359507321594726366720466575392706800671181159425656785868777272553337714697862511267018014931937703598282857976535744623203249 : Nat.Prime 402096035359507321594726366720466575392706800671181159425656785868777272553337714697862511267018014931937703598282857976535744623203249 :=
  prime_of_cert 402096035359507321594726366720466575392706800671181159425656785868777272553337714697862511267018014931937703598282857976535744623203249 13 448 [2, 2, 2, 2, 3, 11, 631, 4920833, 52872661, 4638704574076146691498289350639807119782054683906549022985642612861209609656189848749536921852444848596916990932297] (by decide +kernel)
    (by simp only [List.forall_mem_cons]; exact ⟨prime_2, prime_2, prime_2, prime_2, prime_3, prime_11, prime_631, prime_4920833, prime_52872661, prime_4638704574076146691498289350639807119782054683906549022985642612861209609656189848749536921852444848596916990932297, List.forall_mem_nil _⟩)

end Fawkes
