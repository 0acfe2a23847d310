import Verif.Lemmas.Pratt

/-!
# The primes of the shipped curves

Generated certificates: the scalar field moduli of BN256 and BLS12-381 (the fields of the two embedded
curves) and the orders of their prime subgroups.
-/

namespace Fawkes

theorem prime_2 : Nat.Prime 2 := by norm_num

theorem prime_3 : Nat.Prime 3 := by norm_num

theorem prime_13 : Nat.Prime 13 := by norm_num

theorem prime_29 : Nat.Prime 29 := by norm_num

theorem prime_983 : Nat.Prime 983 := by norm_num

theorem prime_5 : Nat.Prime 5 := by norm_num

theorem prime_11 : Nat.Prime 11 := by norm_num

theorem prime_5501 : Nat.Prime 5501 :=
  prime_of_cert 5501 2 13 [2, 2, 5, 5, 5, 11] (by decide +kernel)
    (by simp only [List.forall_mem_cons]; exact ⟨prime_2, prime_2, prime_5, prime_5, prime_5, prime_11, List.forall_mem_nil _⟩)

theorem prime_11003 : Nat.Prime 11003 :=
  prime_of_cert 11003 2 14 [2, 5501] (by decide +kernel)
    (by simp only [List.forall_mem_cons]; exact ⟨prime_2, prime_5501, List.forall_mem_nil _⟩)

theorem prime_449 : Nat.Prime 449 := by norm_num

theorem prime_237073 : Nat.Prime 237073 :=
  prime_of_cert 237073 15 18 [2, 2, 2, 2, 3, 11, 449] (by decide +kernel)
    (by simp only [List.forall_mem_cons]; exact ⟨prime_2, prime_2, prime_2, prime_2, prime_3, prime_11, prime_449, List.forall_mem_nil _⟩)

theorem prime_41 : Nat.Prime 41 := by norm_num

theorem prime_3691 : Nat.Prime 3691 :=
  prime_of_cert 3691 2 12 [2, 3, 3, 5, 41] (by decide +kernel)
    (by simp only [List.forall_mem_cons]; exact ⟨prime_2, prime_3, prime_3, prime_5, prime_41, List.forall_mem_nil _⟩)

theorem prime_7 : Nat.Prime 7 := by norm_num

theorem prime_17 : Nat.Prime 17 := by norm_num

theorem prime_4999 : Nat.Prime 4999 :=
  prime_of_cert 4999 3 13 [2, 3, 7, 7, 17] (by decide +kernel)
    (by simp only [List.forall_mem_cons]; exact ⟨prime_2, prime_3, prime_7, prime_7, prime_17, List.forall_mem_nil _⟩)

theorem prime_405928799 : Nat.Prime 405928799 :=
  prime_of_cert 405928799 22 29 [2, 11, 3691, 4999] (by decide +kernel)
    (by simp only [List.forall_mem_cons]; exact ⟨prime_2, prime_11, prime_3691, prime_4999, List.forall_mem_nil _⟩)

theorem prime_107 : Nat.Prime 107 := by norm_num

theorem prime_661 : Nat.Prime 661 := by norm_num

theorem prime_31 : Nat.Prime 31 := by norm_num

theorem prime_93001 : Nat.Prime 93001 :=
  prime_of_cert 93001 14 17 [2, 2, 2, 3, 5, 5, 5, 31] (by decide +kernel)
    (by simp only [List.forall_mem_cons]; exact ⟨prime_2, prime_2, prime_2, prime_3, prime_5, prime_5, prime_5, prime_31, List.forall_mem_nil _⟩)

theorem prime_12048837557 : Nat.Prime 12048837557 :=
  prime_of_cert 12048837557 2 34 [2, 2, 7, 7, 661, 93001] (by decide +kernel)
    (by simp only [List.forall_mem_cons]; exact ⟨prime_2, prime_2, prime_7, prime_7, prime_661, prime_93001, List.forall_mem_nil _⟩)

theorem prime_5156902474397 : Nat.Prime 5156902474397 :=
  prime_of_cert 5156902474397 2 43 [2, 2, 107, 12048837557] (by decide +kernel)
    (by simp only [List.forall_mem_cons]; exact ⟨prime_2, prime_2, prime_107, prime_12048837557, List.forall_mem_nil _⟩)

theorem prime_1670836401704629 : Nat.Prime 1670836401704629 :=
  prime_of_cert 1670836401704629 2 51 [2, 2, 3, 3, 3, 3, 5156902474397] (by decide +kernel)
    (by simp only [List.forall_mem_cons]; exact ⟨prime_2, prime_2, prime_3, prime_3, prime_3, prime_3, prime_5156902474397, List.forall_mem_nil _⟩)

theorem prime_823 : Nat.Prime 823 := by norm_num

theorem prime_19 : Nat.Prime 19 := by norm_num

theorem prime_47 : Nat.Prime 47 := by norm_num

theorem prime_223 : Nat.Prime 223 := by norm_num

theorem prime_20963 : Nat.Prime 20963 :=
  prime_of_cert 20963 2 15 [2, 47, 223] (by decide +kernel)
    (by simp only [List.forall_mem_cons]; exact ⟨prime_2, prime_47, prime_223, List.forall_mem_nil _⟩)

theorem prime_41927 : Nat.Prime 41927 :=
  prime_of_cert 41927 5 16 [2, 20963] (by decide +kernel)
    (by simp only [List.forall_mem_cons]; exact ⟨prime_2, prime_20963, List.forall_mem_nil _⟩)

theorem prime_1593227 : Nat.Prime 1593227 :=
  prime_of_cert 1593227 2 21 [2, 19, 41927] (by decide +kernel)
    (by simp only [List.forall_mem_cons]; exact ⟨prime_2, prime_19, prime_41927, List.forall_mem_nil _⟩)

theorem prime_83 : Nat.Prime 83 := by norm_num

theorem prime_379 : Nat.Prime 379 := by norm_num

theorem prime_409 : Nat.Prime 409 := by norm_num

theorem prime_1637 : Nat.Prime 1637 :=
  prime_of_cert 1637 2 11 [2, 2, 409] (by decide +kernel)
    (by simp only [List.forall_mem_cons]; exact ⟨prime_2, prime_2, prime_409, List.forall_mem_nil _⟩)

theorem prime_229 : Nat.Prime 229 := by norm_num

theorem prime_853 : Nat.Prime 853 := by norm_num

theorem prime_639533339 : Nat.Prime 639533339 :=
  prime_of_cert 639533339 2 30 [2, 229, 853, 1637] (by decide +kernel)
    (by simp only [List.forall_mem_cons]; exact ⟨prime_2, prime_229, prime_853, prime_1637, List.forall_mem_nil _⟩)

theorem prime_65865678001877903 : Nat.Prime 65865678001877903 :=
  prime_of_cert 65865678001877903 5 56 [2, 83, 379, 1637, 639533339] (by decide +kernel)
    (by simp only [List.forall_mem_cons]; exact ⟨prime_2, prime_83, prime_379, prime_1637, prime_639533339, List.forall_mem_nil _⟩)

theorem prime_13818364434197438864469338081 : Nat.Prime 13818364434197438864469338081 :=
  prime_of_cert 13818364434197438864469338081 3 94 [2, 2, 2, 2, 2, 5, 823, 1593227, 65865678001877903] (by decide +kernel)
    (by simp only [List.forall_mem_cons]; exact ⟨prime_2, prime_2, prime_2, prime_2, prime_2, prime_5, prime_823, prime_1593227, prime_65865678001877903, List.forall_mem_nil _⟩)

theorem prime_21888242871839275222246405745257275088548364400416034343698204186575808495617 : Nat.Prime 21888242871839275222246405745257275088548364400416034343698204186575808495617 :=
  prime_of_cert 21888242871839275222246405745257275088548364400416034343698204186575808495617 5 254 [2, 2, 2, 2, 2, 2, 2, 2, 2, 2, 2, 2, 2, 2, 2, 2, 2, 2, 2, 2, 2, 2, 2, 2, 2, 2, 2, 2, 3, 3, 13, 29, 983, 11003, 237073, 405928799, 1670836401704629, 13818364434197438864469338081] (by decide +kernel)
    (by simp only [List.forall_mem_cons]; exact ⟨prime_2, prime_2, prime_2, prime_2, prime_2, prime_2, prime_2, prime_2, prime_2, prime_2, prime_2, prime_2, prime_2, prime_2, prime_2, prime_2, prime_2, prime_2, prime_2, prime_2, prime_2, prime_2, prime_2, prime_2, prime_2, prime_2, prime_2, prime_2, prime_3, prime_3, prime_13, prime_29, prime_983, prime_11003, prime_237073, prime_405928799, prime_1670836401704629, prime_13818364434197438864469338081, List.forall_mem_nil _⟩)

theorem prime_967 : Nat.Prime 967 := by norm_num

theorem prime_2069 : Nat.Prime 2069 :=
  prime_of_cert 2069 2 12 [2, 2, 11, 47] (by decide +kernel)
    (by simp only [List.forall_mem_cons]; exact ⟨prime_2, prime_2, prime_11, prime_47, List.forall_mem_nil _⟩)

theorem prime_4139 : Nat.Prime 4139 :=
  prime_of_cert 4139 2 13 [2, 2069] (by decide +kernel)
    (by simp only [List.forall_mem_cons]; exact ⟨prime_2, prime_2069, List.forall_mem_nil _⟩)

theorem prime_349 : Nat.Prime 349 := by norm_num

theorem prime_59 : Nat.Prime 59 := by norm_num

theorem prime_61 : Nat.Prime 61 := by norm_num

theorem prime_43189 : Nat.Prime 43189 :=
  prime_of_cert 43189 2 16 [2, 2, 3, 59, 61] (by decide +kernel)
    (by simp only [List.forall_mem_cons]; exact ⟨prime_2, prime_2, prime_3, prime_59, prime_61, List.forall_mem_nil _⟩)

theorem prime_709 : Nat.Prime 709 := by norm_num

theorem prime_2837 : Nat.Prime 2837 :=
  prime_of_cert 2837 2 12 [2, 2, 709] (by decide +kernel)
    (by simp only [List.forall_mem_cons]; exact ⟨prime_2, prime_2, prime_709, List.forall_mem_nil _⟩)

theorem prime_295049 : Nat.Prime 295049 :=
  prime_of_cert 295049 3 19 [2, 2, 2, 13, 2837] (by decide +kernel)
    (by simp only [List.forall_mem_cons]; exact ⟨prime_2, prime_2, prime_2, prime_13, prime_2837, List.forall_mem_nil _⟩)

theorem prime_25485742523 : Nat.Prime 25485742523 :=
  prime_of_cert 25485742523 2 35 [2, 43189, 295049] (by decide +kernel)
    (by simp only [List.forall_mem_cons]; exact ⟨prime_2, prime_43189, prime_295049, List.forall_mem_nil _⟩)

theorem prime_202795150404015601 : Nat.Prime 202795150404015601 :=
  prime_of_cert 202795150404015601 7 58 [2, 2, 2, 2, 3, 5, 5, 19, 349, 25485742523] (by decide +kernel)
    (by simp only [List.forall_mem_cons]; exact ⟨prime_2, prime_2, prime_2, prime_2, prime_3, prime_5, prime_5, prime_19, prime_349, prime_25485742523, List.forall_mem_nil _⟩)

theorem prime_431548080059745198929 : Nat.Prime 431548080059745198929 :=
  prime_of_cert 431548080059745198929 3 69 [2, 2, 2, 2, 7, 19, 202795150404015601] (by decide +kernel)
    (by simp only [List.forall_mem_cons]; exact ⟨prime_2, prime_2, prime_2, prime_2, prime_7, prime_19, prime_202795150404015601, List.forall_mem_nil _⟩)

theorem prime_32151195060611136810608359 : Nat.Prime 32151195060611136810608359 :=
  prime_of_cert 32151195060611136810608359 3 85 [2, 3, 3, 4139, 431548080059745198929] (by decide +kernel)
    (by simp only [List.forall_mem_cons]; exact ⟨prime_2, prime_3, prime_3, prime_4139, prime_431548080059745198929, List.forall_mem_nil _⟩)

theorem prime_109 : Nat.Prime 109 := by norm_num

theorem prime_6323 : Nat.Prime 6323 :=
  prime_of_cert 6323 2 13 [2, 29, 109] (by decide +kernel)
    (by simp only [List.forall_mem_cons]; exact ⟨prime_2, prime_29, prime_109, List.forall_mem_nil _⟩)

theorem prime_257 : Nat.Prime 257 := by norm_num

theorem prime_336157 : Nat.Prime 336157 :=
  prime_of_cert 336157 2 19 [2, 2, 3, 109, 257] (by decide +kernel)
    (by simp only [List.forall_mem_cons]; exact ⟨prime_2, prime_2, prime_3, prime_109, prime_257, List.forall_mem_nil _⟩)

theorem prime_33409 : Nat.Prime 33409 :=
  prime_of_cert 33409 7 16 [2, 2, 2, 2, 2, 2, 2, 3, 3, 29] (by decide +kernel)
    (by simp only [List.forall_mem_cons]; exact ⟨prime_2, prime_2, prime_2, prime_2, prime_2, prime_2, prime_2, prime_3, prime_3, prime_29, List.forall_mem_nil _⟩)

theorem prime_23 : Nat.Prime 23 := by norm_num

theorem prime_521 : Nat.Prime 521 := by norm_num

theorem prime_97 : Nat.Prime 97 := by norm_num

theorem prime_27743 : Nat.Prime 27743 :=
  prime_of_cert 27743 5 15 [2, 11, 13, 97] (by decide +kernel)
    (by simp only [List.forall_mem_cons]; exact ⟨prime_2, prime_11, prime_13, prime_97, List.forall_mem_nil _⟩)

theorem prime_139 : Nat.Prime 139 := by norm_num

theorem prime_128437 : Nat.Prime 128437 :=
  prime_of_cert 128437 5 17 [2, 2, 3, 7, 11, 139] (by decide +kernel)
    (by simp only [List.forall_mem_cons]; exact ⟨prime_2, prime_2, prime_3, prime_7, prime_11, prime_139, List.forall_mem_nil _⟩)

theorem prime_513749 : Nat.Prime 513749 :=
  prime_of_cert 513749 2 19 [2, 2, 128437] (by decide +kernel)
    (by simp only [List.forall_mem_cons]; exact ⟨prime_2, prime_2, prime_128437, List.forall_mem_nil _⟩)

theorem prime_37 : Nat.Prime 37 := by norm_num

theorem prime_53 : Nat.Prime 53 := by norm_num

theorem prime_1061 : Nat.Prime 1061 :=
  prime_of_cert 1061 2 11 [2, 2, 5, 53] (by decide +kernel)
    (by simp only [List.forall_mem_cons]; exact ⟨prime_2, prime_2, prime_5, prime_53, List.forall_mem_nil _⟩)

theorem prime_10206821 : Nat.Prime 10206821 :=
  prime_of_cert 10206821 2 24 [2, 2, 5, 13, 37, 1061] (by decide +kernel)
    (by simp only [List.forall_mem_cons]; exact ⟨prime_2, prime_2, prime_5, prime_13, prime_37, prime_1061, List.forall_mem_nil _⟩)

theorem prime_81654569 : Nat.Prime 81654569 :=
  prime_of_cert 81654569 3 27 [2, 2, 2, 10206821] (by decide +kernel)
    (by simp only [List.forall_mem_cons]; exact ⟨prime_2, prime_2, prime_2, prime_10206821, List.forall_mem_nil _⟩)

theorem prime_27892051421815855583579 : Nat.Prime 27892051421815855583579 :=
  prime_of_cert 27892051421815855583579 2 75 [2, 23, 521, 27743, 513749, 81654569] (by decide +kernel)
    (by simp only [List.forall_mem_cons]; exact ⟨prime_2, prime_23, prime_521, prime_27743, prime_513749, prime_81654569, List.forall_mem_nil _⟩)

theorem prime_1863691091902891838383581623 : Nat.Prime 1863691091902891838383581623 :=
  prime_of_cert 1863691091902891838383581623 5 91 [2, 33409, 27892051421815855583579] (by decide +kernel)
    (by simp only [List.forall_mem_cons]; exact ⟨prime_2, prime_33409, prime_27892051421815855583579, List.forall_mem_nil _⟩)

theorem prime_178259130663561045147472537592047227885001 : Nat.Prime 178259130663561045147472537592047227885001 :=
  prime_of_cert 178259130663561045147472537592047227885001 14 138 [2, 2, 2, 3, 3, 5, 5, 5, 5, 6323, 336157, 1863691091902891838383581623] (by decide +kernel)
    (by simp only [List.forall_mem_cons]; exact ⟨prime_2, prime_2, prime_2, prime_3, prime_3, prime_5, prime_5, prime_5, prime_5, prime_6323, prime_336157, prime_1863691091902891838383581623, List.forall_mem_nil _⟩)

theorem prime_2736030358979909402780800718157159386076813972158567259200215660948447373041 : Nat.Prime 2736030358979909402780800718157159386076813972158567259200215660948447373041 :=
  prime_of_cert 2736030358979909402780800718157159386076813972158567259200215660948447373041 31 251 [2, 2, 2, 2, 3, 5, 11, 11, 17, 967, 32151195060611136810608359, 178259130663561045147472537592047227885001] (by decide +kernel)
    (by simp only [List.forall_mem_cons]; exact ⟨prime_2, prime_2, prime_2, prime_2, prime_3, prime_5, prime_11, prime_11, prime_17, prime_967, prime_32151195060611136810608359, prime_178259130663561045147472537592047227885001, List.forall_mem_nil _⟩)

theorem prime_10177 : Nat.Prime 10177 :=
  prime_of_cert 10177 7 14 [2, 2, 2, 2, 2, 2, 3, 53] (by decide +kernel)
    (by simp only [List.forall_mem_cons]; exact ⟨prime_2, prime_2, prime_2, prime_2, prime_2, prime_2, prime_3, prime_53, List.forall_mem_nil _⟩)

theorem prime_523 : Nat.Prime 523 := by norm_num

theorem prime_20921 : Nat.Prime 20921 :=
  prime_of_cert 20921 3 15 [2, 2, 2, 5, 523] (by decide +kernel)
    (by simp only [List.forall_mem_cons]; exact ⟨prime_2, prime_2, prime_2, prime_5, prime_523, List.forall_mem_nil _⟩)

theorem prime_125527 : Nat.Prime 125527 :=
  prime_of_cert 125527 5 17 [2, 3, 20921] (by decide +kernel)
    (by simp only [List.forall_mem_cons]; exact ⟨prime_2, prime_3, prime_20921, List.forall_mem_nil _⟩)

theorem prime_47737 : Nat.Prime 47737 :=
  prime_of_cert 47737 5 16 [2, 2, 2, 3, 3, 3, 13, 17] (by decide +kernel)
    (by simp only [List.forall_mem_cons]; exact ⟨prime_2, prime_2, prime_2, prime_3, prime_3, prime_3, prime_13, prime_17, List.forall_mem_nil _⟩)

theorem prime_859267 : Nat.Prime 859267 :=
  prime_of_cert 859267 2 20 [2, 3, 3, 47737] (by decide +kernel)
    (by simp only [List.forall_mem_cons]; exact ⟨prime_2, prime_3, prime_3, prime_47737, List.forall_mem_nil _⟩)

theorem prime_73 : Nat.Prime 73 := by norm_num

theorem prime_1607 : Nat.Prime 1607 :=
  prime_of_cert 1607 5 11 [2, 11, 73] (by decide +kernel)
    (by simp only [List.forall_mem_cons]; exact ⟨prime_2, prime_11, prime_73, List.forall_mem_nil _⟩)

theorem prime_906349 : Nat.Prime 906349 :=
  prime_of_cert 906349 2 20 [2, 2, 3, 47, 1607] (by decide +kernel)
    (by simp only [List.forall_mem_cons]; exact ⟨prime_2, prime_2, prime_3, prime_47, prime_1607, List.forall_mem_nil _⟩)

theorem prime_79 : Nat.Prime 79 := by norm_num

theorem prime_2508409 : Nat.Prime 2508409 :=
  prime_of_cert 2508409 11 22 [2, 2, 2, 3, 3, 3, 3, 7, 7, 79] (by decide +kernel)
    (by simp only [List.forall_mem_cons]; exact ⟨prime_2, prime_2, prime_2, prime_3, prime_3, prime_3, prime_3, prime_7, prime_7, prime_79, List.forall_mem_nil _⟩)

theorem prime_18329 : Nat.Prime 18329 :=
  prime_of_cert 18329 3 15 [2, 2, 2, 29, 79] (by decide +kernel)
    (by simp only [List.forall_mem_cons]; exact ⟨prime_2, prime_2, prime_2, prime_29, prime_79, List.forall_mem_nil _⟩)

theorem prime_2529403 : Nat.Prime 2529403 :=
  prime_of_cert 2529403 2 22 [2, 3, 23, 18329] (by decide +kernel)
    (by simp only [List.forall_mem_cons]; exact ⟨prime_2, prime_3, prime_23, prime_18329, List.forall_mem_nil _⟩)

theorem prime_43 : Nat.Prime 43 := by norm_num

theorem prime_609743 : Nat.Prime 609743 :=
  prime_of_cert 609743 5 20 [2, 7, 97, 449] (by decide +kernel)
    (by simp only [List.forall_mem_cons]; exact ⟨prime_2, prime_7, prime_97, prime_449, List.forall_mem_nil _⟩)

theorem prime_52437899 : Nat.Prime 52437899 :=
  prime_of_cert 52437899 2 26 [2, 43, 609743] (by decide +kernel)
    (by simp only [List.forall_mem_cons]; exact ⟨prime_2, prime_43, prime_609743, List.forall_mem_nil _⟩)

theorem prime_359 : Nat.Prime 359 := by norm_num

theorem prime_110573 : Nat.Prime 110573 :=
  prime_of_cert 110573 3 17 [2, 2, 7, 11, 359] (by decide +kernel)
    (by simp only [List.forall_mem_cons]; exact ⟨prime_2, prime_2, prime_7, prime_11, prime_359, List.forall_mem_nil _⟩)

theorem prime_2653753 : Nat.Prime 2653753 :=
  prime_of_cert 2653753 5 22 [2, 2, 2, 3, 110573] (by decide +kernel)
    (by simp only [List.forall_mem_cons]; exact ⟨prime_2, prime_2, prime_2, prime_3, prime_110573, List.forall_mem_nil _⟩)

theorem prime_63690073 : Nat.Prime 63690073 :=
  prime_of_cert 63690073 7 26 [2, 2, 2, 3, 2653753] (by decide +kernel)
    (by simp only [List.forall_mem_cons]; exact ⟨prime_2, prime_2, prime_2, prime_3, prime_2653753, List.forall_mem_nil _⟩)

theorem prime_254760293 : Nat.Prime 254760293 :=
  prime_of_cert 254760293 2 28 [2, 2, 63690073] (by decide +kernel)
    (by simp only [List.forall_mem_cons]; exact ⟨prime_2, prime_2, prime_63690073, List.forall_mem_nil _⟩)

theorem prime_52435875175126190479447740508185965837690552500527637822603658699938581184513 : Nat.Prime 52435875175126190479447740508185965837690552500527637822603658699938581184513 :=
  prime_of_cert 52435875175126190479447740508185965837690552500527637822603658699938581184513 7 255 [2, 2, 2, 2, 2, 2, 2, 2, 2, 2, 2, 2, 2, 2, 2, 2, 2, 2, 2, 2, 2, 2, 2, 2, 2, 2, 2, 2, 2, 2, 2, 2, 3, 11, 19, 10177, 125527, 859267, 906349, 906349, 2508409, 2529403, 52437899, 254760293, 254760293] (by decide +kernel)
    (by simp only [List.forall_mem_cons]; exact ⟨prime_2, prime_2, prime_2, prime_2, prime_2, prime_2, prime_2, prime_2, prime_2, prime_2, prime_2, prime_2, prime_2, prime_2, prime_2, prime_2, prime_2, prime_2, prime_2, prime_2, prime_2, prime_2, prime_2, prime_2, prime_2, prime_2, prime_2, prime_2, prime_2, prime_2, prime_2, prime_2, prime_3, prime_11, prime_19, prime_10177, prime_125527, prime_859267, prime_906349, prime_906349, prime_2508409, prime_2529403, prime_52437899, prime_254760293, prime_254760293, List.forall_mem_nil _⟩)

theorem prime_307 : Nat.Prime 307 := by norm_num

theorem prime_12281 : Nat.Prime 12281 :=
  prime_of_cert 12281 3 14 [2, 2, 2, 5, 307] (by decide +kernel)
    (by simp only [List.forall_mem_cons]; exact ⟨prime_2, prime_2, prime_2, prime_5, prime_307, List.forall_mem_nil _⟩)

theorem prime_283 : Nat.Prime 283 := by norm_num

theorem prime_1699 : Nat.Prime 1699 :=
  prime_of_cert 1699 3 11 [2, 3, 283] (by decide +kernel)
    (by simp only [List.forall_mem_cons]; exact ⟨prime_2, prime_3, prime_283, List.forall_mem_nil _⟩)

theorem prime_499 : Nat.Prime 499 := by norm_num

theorem prime_167 : Nat.Prime 167 := by norm_num

theorem prime_74149 : Nat.Prime 74149 :=
  prime_of_cert 74149 2 17 [2, 2, 3, 37, 167] (by decide +kernel)
    (by simp only [List.forall_mem_cons]; exact ⟨prime_2, prime_2, prime_3, prime_37, prime_167, List.forall_mem_nil _⟩)

theorem prime_1036009829 : Nat.Prime 1036009829 :=
  prime_of_cert 1036009829 2 30 [2, 2, 7, 499, 74149] (by decide +kernel)
    (by simp only [List.forall_mem_cons]; exact ⟨prime_2, prime_2, prime_7, prime_499, prime_74149, List.forall_mem_nil _⟩)

theorem prime_35203613989421 : Nat.Prime 35203613989421 :=
  prime_of_cert 35203613989421 2 46 [2, 2, 5, 1699, 1036009829] (by decide +kernel)
    (by simp only [List.forall_mem_cons]; exact ⟨prime_2, prime_2, prime_5, prime_1699, prime_1036009829, List.forall_mem_nil _⟩)

theorem prime_12954929948106929 : Nat.Prime 12954929948106929 :=
  prime_of_cert 12954929948106929 3 54 [2, 2, 2, 2, 23, 35203613989421] (by decide +kernel)
    (by simp only [List.forall_mem_cons]; exact ⟨prime_2, prime_2, prime_2, prime_2, prime_23, prime_35203613989421, List.forall_mem_nil _⟩)

theorem prime_1710050753150114629 : Nat.Prime 1710050753150114629 :=
  prime_of_cert 1710050753150114629 6 61 [2, 2, 3, 11, 12954929948106929] (by decide +kernel)
    (by simp only [List.forall_mem_cons]; exact ⟨prime_2, prime_2, prime_3, prime_11, prime_12954929948106929, List.forall_mem_nil _⟩)

theorem prime_44371 : Nat.Prime 44371 :=
  prime_of_cert 44371 2 16 [2, 3, 3, 5, 17, 29] (by decide +kernel)
    (by simp only [List.forall_mem_cons]; exact ⟨prime_2, prime_3, prime_3, prime_5, prime_17, prime_29, List.forall_mem_nil _⟩)

theorem prime_6566909 : Nat.Prime 6566909 :=
  prime_of_cert 6566909 2 23 [2, 2, 37, 44371] (by decide +kernel)
    (by simp only [List.forall_mem_cons]; exact ⟨prime_2, prime_2, prime_37, prime_44371, List.forall_mem_nil _⟩)

theorem prime_457 : Nat.Prime 457 := by norm_num

theorem prime_157 : Nat.Prime 157 := by norm_num

theorem prime_1571 : Nat.Prime 1571 :=
  prime_of_cert 1571 2 11 [2, 5, 157] (by decide +kernel)
    (by simp only [List.forall_mem_cons]; exact ⟨prime_2, prime_5, prime_157, List.forall_mem_nil _⟩)

theorem prime_2837227 : Nat.Prime 2837227 :=
  prime_of_cert 2837227 2 22 [2, 3, 7, 43, 1571] (by decide +kernel)
    (by simp only [List.forall_mem_cons]; exact ⟨prime_2, prime_3, prime_7, prime_43, prime_1571, List.forall_mem_nil _⟩)

theorem prime_187256983 : Nat.Prime 187256983 :=
  prime_of_cert 187256983 5 28 [2, 3, 11, 2837227] (by decide +kernel)
    (by simp only [List.forall_mem_cons]; exact ⟨prime_2, prime_3, prime_11, prime_2837227, List.forall_mem_nil _⟩)

theorem prime_2567293236931 : Nat.Prime 2567293236931 :=
  prime_of_cert 2567293236931 2 42 [2, 3, 5, 457, 187256983] (by decide +kernel)
    (by simp only [List.forall_mem_cons]; exact ⟨prime_2, prime_3, prime_5, prime_457, prime_187256983, List.forall_mem_nil _⟩)

theorem prime_431305263804409 : Nat.Prime 431305263804409 :=
  prime_of_cert 431305263804409 13 49 [2, 2, 2, 3, 7, 2567293236931] (by decide +kernel)
    (by simp only [List.forall_mem_cons]; exact ⟨prime_2, prime_2, prime_2, prime_3, prime_7, prime_2567293236931, List.forall_mem_nil _⟩)

theorem prime_203928654140967434528233 : Nat.Prime 203928654140967434528233 :=
  prime_of_cert 203928654140967434528233 5 78 [2, 2, 2, 3, 3, 6566909, 431305263804409] (by decide +kernel)
    (by simp only [List.forall_mem_cons]; exact ⟨prime_2, prime_2, prime_2, prime_3, prime_3, prime_6566909, prime_431305263804409, List.forall_mem_nil _⟩)

theorem prime_311 : Nat.Prime 311 := by norm_num

theorem prime_5521 : Nat.Prime 5521 :=
  prime_of_cert 5521 11 13 [2, 2, 2, 2, 3, 5, 23] (by decide +kernel)
    (by simp only [List.forall_mem_cons]; exact ⟨prime_2, prime_2, prime_2, prime_2, prime_3, prime_5, prime_23, List.forall_mem_nil _⟩)

theorem prime_331 : Nat.Prime 331 := by norm_num

theorem prime_19861 : Nat.Prime 19861 :=
  prime_of_cert 19861 11 15 [2, 2, 3, 5, 331] (by decide +kernel)
    (by simp only [List.forall_mem_cons]; exact ⟨prime_2, prime_2, prime_3, prime_5, prime_331, List.forall_mem_nil _⟩)

theorem prime_1361 : Nat.Prime 1361 :=
  prime_of_cert 1361 3 11 [2, 2, 2, 2, 5, 17] (by decide +kernel)
    (by simp only [List.forall_mem_cons]; exact ⟨prime_2, prime_2, prime_2, prime_2, prime_5, prime_17, List.forall_mem_nil _⟩)

theorem prime_62701 : Nat.Prime 62701 :=
  prime_of_cert 62701 2 16 [2, 2, 3, 5, 5, 11, 19] (by decide +kernel)
    (by simp only [List.forall_mem_cons]; exact ⟨prime_2, prime_2, prime_3, prime_5, prime_5, prime_11, prime_19, List.forall_mem_nil _⟩)

theorem prime_179 : Nat.Prime 179 := by norm_num

theorem prime_23629 : Nat.Prime 23629 :=
  prime_of_cert 23629 2 15 [2, 2, 3, 11, 179] (by decide +kernel)
    (by simp only [List.forall_mem_cons]; exact ⟨prime_2, prime_2, prime_3, prime_11, prime_179, List.forall_mem_nil _⟩)

theorem prime_567097 : Nat.Prime 567097 :=
  prime_of_cert 567097 7 20 [2, 2, 2, 3, 23629] (by decide +kernel)
    (by simp only [List.forall_mem_cons]; exact ⟨prime_2, prime_2, prime_2, prime_3, prime_23629, List.forall_mem_nil _⟩)

theorem prime_16356472538621 : Nat.Prime 16356472538621 :=
  prime_of_cert 16356472538621 2 44 [2, 2, 5, 23, 62701, 567097] (by decide +kernel)
    (by simp only [List.forall_mem_cons]; exact ⟨prime_2, prime_2, prime_5, prime_23, prime_62701, prime_567097, List.forall_mem_nil _⟩)

theorem prime_623312455501769069 : Nat.Prime 623312455501769069 :=
  prime_of_cert 623312455501769069 2 60 [2, 2, 7, 1361, 16356472538621] (by decide +kernel)
    (by simp only [List.forall_mem_cons]; exact ⟨prime_2, prime_2, prime_7, prime_1361, prime_16356472538621, List.forall_mem_nil _⟩)

theorem prime_255074062430788457494141376149 : Nat.Prime 255074062430788457494141376149 :=
  prime_of_cert 255074062430788457494141376149 2 98 [2, 2, 3, 311, 5521, 19861, 623312455501769069] (by decide +kernel)
    (by simp only [List.forall_mem_cons]; exact ⟨prime_2, prime_2, prime_3, prime_311, prime_5521, prime_19861, prime_623312455501769069, List.forall_mem_nil _⟩)

theorem prime_6554484396890773809930967563523245729705921265872317281365359162392183254199 : Nat.Prime 6554484396890773809930967563523245729705921265872317281365359162392183254199 :=
  prime_of_cert 6554484396890773809930967563523245729705921265872317281365359162392183254199 6 252 [2, 3, 12281, 1710050753150114629, 203928654140967434528233, 255074062430788457494141376149] (by decide +kernel)
    (by simp only [List.forall_mem_cons]; exact ⟨prime_2, prime_3, prime_12281, prime_1710050753150114629, prime_203928654140967434528233, prime_255074062430788457494141376149, List.forall_mem_nil _⟩)

/-- The modulus of `bn256::Fr` (pairing_ce). -/
abbrev bnR : Nat := 21888242871839275222246405745257275088548364400416034343698204186575808495617
/-- The order of the prime subgroup of the curve in src/native/bn256.rs (modulus of its `Fs`). -/
abbrev bnL : Nat := 2736030358979909402780800718157159386076813972158567259200215660948447373041
/-- The modulus of `bls12_381::Fr` (pairing_ce). -/
abbrev blsR : Nat := 52435875175126190479447740508185965837690552500527637822603658699938581184513
/-- The order of the prime subgroup of the curve in src/native/bls12_381.rs (modulus of its `Fs`). -/
abbrev blsL : Nat := 6554484396890773809930967563523245729705921265872317281365359162392183254199

theorem bnR_prime : bnR.Prime := prime_21888242871839275222246405745257275088548364400416034343698204186575808495617
theorem bnL_prime : bnL.Prime := prime_2736030358979909402780800718157159386076813972158567259200215660948447373041
theorem blsR_prime : blsR.Prime := prime_52435875175126190479447740508185965837690552500527637822603658699938581184513
theorem blsL_prime : blsL.Prime := prime_6554484396890773809930967563523245729705921265872317281365359162392183254199

instance : Fact bnR.Prime := ⟨bnR_prime⟩
instance : Fact bnL.Prime := ⟨bnL_prime⟩
instance : Fact blsR.Prime := ⟨blsR_prime⟩
instance : Fact blsL.Prime := ⟨blsL_prime⟩

end Fawkes
