import Verif.Lemmas.PrimesQ

/-!
# The prime factors of the cofactor of the twist of BN256

Generated certificates, as in `Verif.Lemmas.Primes`.
-/

namespace Fawkes

theorem prime_839 : Nat.Prime 839 := by norm_num

theorem prime_10069 : Nat.Prime 10069 :=
  prime_of_cert 10069 2 14 [2, 2, 3, 839] (by decide +kernel)
    (by simp only [List.forall_mem_cons]; exact ⟨prime_2, prime_2, prime_3, prime_839, List.forall_mem_nil _⟩)

theorem prime_181 : Nat.Prime 181 := by norm_num

theorem prime_5864401 : Nat.Prime 5864401 :=
  prime_of_cert 5864401 38 23 [2, 2, 2, 2, 3, 3, 3, 3, 5, 5, 181] (by decide +kernel)
    (by simp only [List.forall_mem_cons]; exact ⟨prime_2, prime_2, prime_2, prime_2, prime_3, prime_3, prime_3, prime_3, prime_5, prime_5, prime_181, List.forall_mem_nil _⟩)

theorem prime_199 : Nat.Prime 199 := by norm_num

theorem prime_1511 : Nat.Prime 1511 := by norm_num

theorem prime_601379 : Nat.Prime 601379 :=
  prime_of_cert 601379 2 20 [2, 199, 1511] (by decide +kernel)
    (by simp only [List.forall_mem_cons]; exact ⟨prime_2, prime_199, prime_1511, List.forall_mem_nil _⟩)

theorem prime_17367825521 : Nat.Prime 17367825521 :=
  prime_of_cert 17367825521 3 35 [2, 2, 2, 2, 5, 19, 19, 601379] (by decide +kernel)
    (by simp only [List.forall_mem_cons]; exact ⟨prime_2, prime_2, prime_2, prime_2, prime_5, prime_19, prime_19, prime_601379, List.forall_mem_nil _⟩)

theorem prime_1875725156269 : Nat.Prime 1875725156269 :=
  prime_of_cert 1875725156269 2 41 [2, 2, 3, 3, 3, 17367825521] (by decide +kernel)
    (by simp only [List.forall_mem_cons]; exact ⟨prime_2, prime_2, prime_3, prime_3, prime_3, prime_17367825521, List.forall_mem_nil _⟩)

theorem prime_727 : Nat.Prime 727 := by norm_num

theorem prime_133769 : Nat.Prime 133769 :=
  prime_of_cert 133769 3 18 [2, 2, 2, 23, 727] (by decide +kernel)
    (by simp only [List.forall_mem_cons]; exact ⟨prime_2, prime_2, prime_2, prime_23, prime_727, List.forall_mem_nil _⟩)

theorem prime_149 : Nat.Prime 149 := by norm_num

theorem prime_5835139 : Nat.Prime 5835139 :=
  prime_of_cert 5835139 3 23 [2, 3, 61, 107, 149] (by decide +kernel)
    (by simp only [List.forall_mem_cons]; exact ⟨prime_2, prime_3, prime_61, prime_107, prime_149, List.forall_mem_nil _⟩)

theorem prime_758568071 : Nat.Prime 758568071 :=
  prime_of_cert 758568071 14 30 [2, 5, 13, 5835139] (by decide +kernel)
    (by simp only [List.forall_mem_cons]; exact ⟨prime_2, prime_5, prime_13, prime_5835139, List.forall_mem_nil _⟩)

theorem prime_1309000310535827101 : Nat.Prime 1309000310535827101 :=
  prime_of_cert 1309000310535827101 2 61 [2, 2, 3, 5, 5, 43, 133769, 758568071] (by decide +kernel)
    (by simp only [List.forall_mem_cons]; exact ⟨prime_2, prime_2, prime_3, prime_5, prime_5, prime_43, prime_133769, prime_758568071, List.forall_mem_nil _⟩)

theorem prime_1233079 : Nat.Prime 1233079 :=
  prime_of_cert 1233079 11 21 [2, 3, 7, 11, 17, 157] (by decide +kernel)
    (by simp only [List.forall_mem_cons]; exact ⟨prime_2, prime_3, prime_7, prime_11, prime_17, prime_157, List.forall_mem_nil _⟩)

theorem prime_1031 : Nat.Prime 1031 := by norm_num

theorem prime_1381 : Nat.Prime 1381 := by norm_num

theorem prime_38669 : Nat.Prime 38669 :=
  prime_of_cert 38669 2 16 [2, 2, 7, 1381] (by decide +kernel)
    (by simp only [List.forall_mem_cons]; exact ⟨prime_2, prime_2, prime_7, prime_1381, List.forall_mem_nil _⟩)

theorem prime_77339 : Nat.Prime 77339 :=
  prime_of_cert 77339 2 17 [2, 38669] (by decide +kernel)
    (by simp only [List.forall_mem_cons]; exact ⟨prime_2, prime_38669, List.forall_mem_nil _⟩)

theorem prime_3359 : Nat.Prime 3359 :=
  prime_of_cert 3359 11 12 [2, 23, 73] (by decide +kernel)
    (by simp only [List.forall_mem_cons]; exact ⟨prime_2, prime_23, prime_73, List.forall_mem_nil _⟩)

theorem prime_268721 : Nat.Prime 268721 :=
  prime_of_cert 268721 3 19 [2, 2, 2, 2, 5, 3359] (by decide +kernel)
    (by simp only [List.forall_mem_cons]; exact ⟨prime_2, prime_2, prime_2, prime_2, prime_5, prime_3359, List.forall_mem_nil _⟩)

theorem prime_1612327 : Nat.Prime 1612327 :=
  prime_of_cert 1612327 5 21 [2, 3, 268721] (by decide +kernel)
    (by simp only [List.forall_mem_cons]; exact ⟨prime_2, prime_3, prime_268721, List.forall_mem_nil _⟩)

theorem prime_677736056450657 : Nat.Prime 677736056450657 :=
  prime_of_cert 677736056450657 3 50 [2, 2, 2, 2, 2, 7, 23, 83, 983, 1612327] (by decide +kernel)
    (by simp only [List.forall_mem_cons]; exact ⟨prime_2, prime_2, prime_2, prime_2, prime_2, prime_7, prime_23, prime_83, prime_983, prime_1612327, List.forall_mem_nil _⟩)

theorem prime_209661715479349446893 : Nat.Prime 209661715479349446893 :=
  prime_of_cert 209661715479349446893 2 68 [2, 2, 77339, 677736056450657] (by decide +kernel)
    (by simp only [List.forall_mem_cons]; exact ⟨prime_2, prime_2, prime_77339, prime_677736056450657, List.forall_mem_nil _⟩)

theorem prime_3458579658547348475946929 : Nat.Prime 3458579658547348475946929 :=
  prime_of_cert 3458579658547348475946929 3 82 [2, 2, 2, 2, 1031, 209661715479349446893] (by decide +kernel)
    (by simp only [List.forall_mem_cons]; exact ⟨prime_2, prime_2, prime_2, prime_2, prime_1031, prime_209661715479349446893, List.forall_mem_nil _⟩)

theorem prime_213235097339095295568608163219551 : Nat.Prime 213235097339095295568608163219551 :=
  prime_of_cert 213235097339095295568608163219551 31 108 [2, 5, 5, 1233079, 3458579658547348475946929] (by decide +kernel)
    (by simp only [List.forall_mem_cons]; exact ⟨prime_2, prime_5, prime_5, prime_1233079, prime_3458579658547348475946929, List.forall_mem_nil _⟩)

theorem prime_197620364512881247228717050342013327560683201906968909 : Nat.Prime 197620364512881247228717050342013327560683201906968909 :=
  prime_of_cert 197620364512881247228717050342013327560683201906968909 2 178 [2, 2, 3, 59, 1309000310535827101, 213235097339095295568608163219551] (by decide +kernel)
    (by simp only [List.forall_mem_cons]; exact ⟨prime_2, prime_2, prime_3, prime_59, prime_1309000310535827101, prime_213235097339095295568608163219551, List.forall_mem_nil _⟩)

end Fawkes
