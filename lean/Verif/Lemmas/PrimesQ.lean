import Verif.Lemmas.Primes
import Verif.Model.Groth16

/-!
# The base field modulus of BN256 is prime

Generated certificates, as in `Verif.Lemmas.Primes`.
-/

namespace Fawkes

theorem prime_67 : Nat.Prime 67 := by norm_num

theorem prime_233 : Nat.Prime 233 := by norm_num

theorem prime_327599 : Nat.Prime 327599 :=
  prime_of_cert 327599 19 19 [2, 19, 37, 233] (by decide +kernel)
    (by simp only [List.forall_mem_cons]; exact ⟨prime_2, prime_19, prime_37, prime_233, List.forall_mem_nil _⟩)

theorem prime_11465965001 : Nat.Prime 11465965001 :=
  prime_of_cert 11465965001 3 34 [2, 2, 2, 5, 5, 5, 5, 7, 327599] (by decide +kernel)
    (by simp only [List.forall_mem_cons]; exact ⟨prime_2, prime_2, prime_2, prime_5, prime_5, prime_5, prime_5, prime_7, prime_327599, List.forall_mem_nil _⟩)

theorem prime_271 : Nat.Prime 271 := by norm_num

theorem prime_1853641 : Nat.Prime 1853641 :=
  prime_of_cert 1853641 17 21 [2, 2, 2, 3, 3, 5, 19, 271] (by decide +kernel)
    (by simp only [List.forall_mem_cons]; exact ⟨prime_2, prime_2, prime_2, prime_3, prime_3, prime_5, prime_19, prime_271, List.forall_mem_nil _⟩)

theorem prime_1231 : Nat.Prime 1231 :=
  prime_of_cert 1231 3 11 [2, 3, 5, 41] (by decide +kernel)
    (by simp only [List.forall_mem_cons]; exact ⟨prime_2, prime_3, prime_5, prime_41, List.forall_mem_nil _⟩)

theorem prime_4562087 : Nat.Prime 4562087 :=
  prime_of_cert 4562087 5 23 [2, 17, 109, 1231] (by decide +kernel)
    (by simp only [List.forall_mem_cons]; exact ⟨prime_2, prime_17, prime_109, prime_1231, List.forall_mem_nil _⟩)

theorem prime_89 : Nat.Prime 89 := by norm_num

theorem prime_2221 : Nat.Prime 2221 :=
  prime_of_cert 2221 2 12 [2, 2, 3, 5, 37] (by decide +kernel)
    (by simp only [List.forall_mem_cons]; exact ⟨prime_2, prime_2, prime_3, prime_5, prime_37, List.forall_mem_nil _⟩)

theorem prime_13327 : Nat.Prime 13327 :=
  prime_of_cert 13327 3 14 [2, 3, 2221] (by decide +kernel)
    (by simp only [List.forall_mem_cons]; exact ⟨prime_2, prime_3, prime_2221, List.forall_mem_nil _⟩)

theorem prime_173171039 : Nat.Prime 173171039 :=
  prime_of_cert 173171039 13 28 [2, 73, 89, 13327] (by decide +kernel)
    (by simp only [List.forall_mem_cons]; exact ⟨prime_2, prime_73, prime_89, prime_13327, List.forall_mem_nil _⟩)

theorem prime_911 : Nat.Prime 911 := by norm_num

theorem prime_127 : Nat.Prime 127 := by norm_num

theorem prime_3557 : Nat.Prime 3557 :=
  prime_of_cert 3557 2 12 [2, 2, 7, 127] (by decide +kernel)
    (by simp only [List.forall_mem_cons]; exact ⟨prime_2, prime_2, prime_7, prime_127, List.forall_mem_nil _⟩)

theorem prime_1263766531 : Nat.Prime 1263766531 :=
  prime_of_cert 1263766531 10 31 [2, 3, 5, 13, 911, 3557] (by decide +kernel)
    (by simp only [List.forall_mem_cons]; exact ⟨prime_2, prime_3, prime_5, prime_13, prime_911, prime_3557, List.forall_mem_nil _⟩)

theorem prime_35385462869 : Nat.Prime 35385462869 :=
  prime_of_cert 35385462869 2 36 [2, 2, 7, 1263766531] (by decide +kernel)
    (by simp only [List.forall_mem_cons]; exact ⟨prime_2, prime_2, prime_7, prime_1263766531, List.forall_mem_nil _⟩)

theorem prime_2480874801745591 : Nat.Prime 2480874801745591 :=
  prime_of_cert 2480874801745591 6 52 [2, 3, 3, 5, 19, 41, 35385462869] (by decide +kernel)
    (by simp only [List.forall_mem_cons]; exact ⟨prime_2, prime_3, prime_3, prime_5, prime_19, prime_41, prime_35385462869, List.forall_mem_nil _⟩)

theorem prime_13427688667394608761327070753331941386769 : Nat.Prime 13427688667394608761327070753331941386769 :=
  prime_of_cert 13427688667394608761327070753331941386769 17 134 [2, 2, 2, 2, 3, 7, 11, 1853641, 4562087, 173171039, 2480874801745591] (by decide +kernel)
    (by simp only [List.forall_mem_cons]; exact ⟨prime_2, prime_2, prime_2, prime_2, prime_3, prime_7, prime_11, prime_1853641, prime_4562087, prime_173171039, prime_2480874801745591, List.forall_mem_nil _⟩)

theorem prime_21888242871839275222246405745257275088696311157297823662689037894645226208583 : Nat.Prime 21888242871839275222246405745257275088696311157297823662689037894645226208583 :=
  prime_of_cert 21888242871839275222246405745257275088696311157297823662689037894645226208583 3 254 [2, 3, 3, 13, 29, 67, 229, 311, 983, 11003, 405928799, 11465965001, 13427688667394608761327070753331941386769] (by decide +kernel)
    (by simp only [List.forall_mem_cons]; exact ⟨prime_2, prime_3, prime_3, prime_13, prime_29, prime_67, prime_229, prime_311, prime_983, prime_11003, prime_405928799, prime_11465965001, prime_13427688667394608761327070753331941386769, List.forall_mem_nil _⟩)

theorem bnQ_prime : Groth16.bnQ.Prime :=
  prime_21888242871839275222246405745257275088696311157297823662689037894645226208583

instance : Fact Groth16.bnQ.Prime := ⟨bnQ_prime⟩

end Fawkes
