import Verif.Lemmas.Blake2Stream
import Verif.Props.SignatureKeys
import Verif.Props.Seedbox

/-!
# Digests are RFC 7693's, whatever pieces they are fed: C113
-/

namespace Fawkes.Props

open Fawkes.Blake2s

/-- C113 (the hash): for every digest length, personalisation and message of any length, the hash the rest of the model
uses is BLAKE2s of RFC 7693. -/
theorem C113_digest (nn : Nat) (hnn : nn ≤ 32) (personal msg : List UInt8) :
    Blake2s.hash nn personal msg = Rfc7693.digest nn personal msg := hash_eq_digest nn hnn personal msg

/-- C113 (pieces): a context fed any list of pieces, empty ones among them, ends with the RFC's digest of the pieces joined,
and no step of it panics. -/
theorem C113_pieces (nn : Nat) (h1 : 1 ≤ nn) (h2 : nn ≤ 32) (personal : List UInt8) (h3 : personal.length ≤ 8)
    (pieces : List (List UInt8)) (hl : pieces.flatten.length < 2 ^ 64) :
    hashPieces nn personal pieces = .ok (Rfc7693.digest nn personal pieces.flatten) := by
  obtain ⟨c, e, f⟩ := fed_start h1 h2 h3
  obtain ⟨c', e', f'⟩ := fed_pieces pieces [] c f (by simpa using hl)
  unfold hashPieces
  rw [e]
  show (pieces.foldlM Ctx.update c).bind _ = _
  rw [e']
  show Except.ok c'.finalize = _
  rw [fed_finalize h2 f', List.nil_append]

/-- C113 (cuts do not matter): two ways to cut the same bytes give one digest. -/
theorem C113_cuts (nn : Nat) (h1 : 1 ≤ nn) (h2 : nn ≤ 32) (personal : List UInt8) (h3 : personal.length ≤ 8)
    (a b : List (List UInt8)) (hab : a.flatten = b.flatten) (hl : a.flatten.length < 2 ^ 64) :
    hashPieces nn personal a = hashPieces nn personal b := by
  rw [C113_pieces nn h1 h2 personal h3 a hl, C113_pieces nn h1 h2 personal h3 b (hab ▸ hl), hab]

/-- C113 (refusals): a digest longer than 32 bytes, or of no bytes, and a personalisation longer than 8 bytes panic. -/
theorem C113_refused (nn : Nat) (personal : List UInt8) (pieces : List (List UInt8))
    (h : nn = 0 ∨ 32 < nn ∨ 8 < personal.length) : hashPieces nn personal pieces = .error .assertion := by
  unfold hashPieces Ctx.withParams
  rw [if_neg (by omega)]
  rfl

theorem numBytes_pos (p : Nat) (hp : 0 < p) : 1 ≤ numBytes p := by
  unfold numBytes numBits
  have : 0 < Nat.size p := Nat.size_pos.mpr hp
  split_ifs <;> omega

/-- C113 (`from_seed`): the calls as they are written give what the model of `from_seed` gives, in every field, refusals
included. -/
theorem C113_from_seed (p : Nat) [Fact p.Prime] (blob : List UInt8) (hl : blob.length < 2 ^ 64) :
    fromSeedFed p blob = Num.fromSeed p blob := by
  unfold fromSeedFed Num.fromSeed
  split_ifs with h
  · rw [C113_pieces (numBytes p) (numBytes_pos p (Fact.out : p.Prime).pos) h personalization (by decide) [blob]
      (by simpa using hl), C113_digest _ h, List.flatten_singleton]
    rfl
  · rw [C113_refused _ _ _ (by omega)]
    rfl

/-- C113 (`from_seed`, the value): the element is the RFC digest of the seed, personalised with the library's name and as
long as an element, read as a big-endian number and reduced. -/
theorem C113_from_seed_value (p : Nat) [Fact p.Prime] (ha : Aligned p) (hb : numBytes p ≤ 32) (blob : List UInt8) :
    Num.fromSeed p blob = .ok (beNat (Rfc7693.digest (numBytes p) "__fawkes".toUTF8.toList blob) : ZMod p) := by
  rw [show "__fawkes".toUTF8.toList = personalization by decide +kernel, ← C113_digest _ hb]
  unfold Num.fromSeed
  rw [if_pos hb]
  exact C46_from_binary_be ha _

/-- C113 (`hash_r`): the two calls of `update` in the signature nonce are one hash of the joined bytes. -/
theorem C113_hash_r {r l : Nat} [Fact r.Prime] [Fact l.Prime] (har : Aligned r) (hal : Aligned l) (sr : Nat.size r ≤ 2 ^ 60)
    (sl : Nat.size l ≤ 2 ^ 60) (sk : ZMod l) (m : ZMod r) :
    hashRFed sk m = Eddsa.hashR sk m ∧
      ∃ k e, Num.intoBinaryBE sk = .ok k ∧ Num.intoBinaryBE m = .ok e ∧ beNat k = sk.val ∧ beNat e = m.val ∧
        hashRFed sk m = .ok (beNat (Rfc7693.digest 32 "__fawkes".toUTF8.toList (k ++ e)) : ZMod l) := by
  obtain ⟨k, k1, kl, kv⟩ := C46_into_binary_be hal sk
  obtain ⟨e, e1, el, ev⟩ := C46_into_binary_be har m
  have hp := C113_pieces 32 (by omega) le_rfl personalization (by decide) [k, e]
    (by simp only [List.flatten_cons, List.flatten_nil, List.append_nil, List.length_append, kl, el]; omega)
  rw [List.flatten_cons, List.flatten_singleton] at hp
  have h1 : hashRFed sk m = Num.fromBinaryBE l (Rfc7693.digest 32 personalization (k ++ e)) := by
    unfold hashRFed
    rw [k1]; simp only [bind, Except.bind]
    rw [e1]; simp only []
    rw [hp]
  have h2 : Eddsa.hashR sk m = Num.fromBinaryBE l (Rfc7693.digest 32 personalization (k ++ e)) := by
    unfold Eddsa.hashR
    rw [k1]; simp only [bind, Except.bind]
    rw [e1]; simp only []
    rw [C113_digest 32 le_rfl]
  refine ⟨h1.trans h2.symm, k, e, k1, e1, kv, ev, ?_⟩
  rw [h1, show "__fawkes".toUTF8.toList = personalization by decide +kernel]
  exact C46_from_binary_be hal _

/-- C113 (the seedbox): the calls that hash the salt and the counter give the bytes the seedbox of the model holds. -/
theorem C113_seedbox (salt : List UInt8) (hs : salt.length < 2 ^ 64) :
    ∃ h, saltFed salt = .ok h ∧ (SeedboxBlake2.newWithSalt salt).salt = some h ∧
      ∀ (checks : Bool) (s s' : SeedboxBlake2) (x : Nat), (s.salt = none ∨ s.salt = some h) → s.nLimb = 8 →
        s.nextU32 checks = .ok (x, s') → blockFed s.salt s.nIter = .ok s'.buff := by
  refine ⟨Rfc7693.digest 32 [] salt, ?_, ?_, ?_⟩
  · unfold saltFed
    rw [C113_pieces 32 (by omega) le_rfl [] (by simp) [salt] (by simpa using hs), List.flatten_singleton]
  · show some (Blake2s.hash 32 [] salt) = _
    rw [C113_digest 32 le_rfl]
  · intro checks s s' x hor h8 hx
    have h8l : (le64 s.nIter).length = 8 := by simp [le64]
    have hlen : (Rfc7693.digest 32 [] salt).length = 32 := by simp [Rfc7693.digest]
    have hb : s'.buff = Blake2s.hash 32 personalization (le64 s.nIter ++ SeedboxBlake2.saltBytes s.salt) := by
      unfold SeedboxBlake2.nextU32 at hx
      rw [if_pos h8] at hx
      split_ifs at hx with hc
      · simp [bind, Except.bind] at hx
      · simp only [pure, Except.pure, bind, Except.bind] at hx
        split_ifs at hx with hd
        · simp only [Except.ok.injEq, Prod.mk.injEq] at hx
          rw [← hx.2]
    rw [hb, C113_digest 32 le_rfl]
    unfold blockFed
    rcases hor with h | h <;> rw [h]
    · rw [C113_pieces 32 (by omega) le_rfl personalization (by decide) _ (by simp [h8l])]
      simp [SeedboxBlake2.saltBytes]
    · rw [C113_pieces 32 (by omega) le_rfl personalization (by decide) _ (by simp [h8l, hlen])]
      simp [SeedboxBlake2.saltBytes]

/-- C113 (the stream): number `n` of a salted seedbox is word `n % 8` of the RFC digest of the counter `n / 8` and the
RFC digest of the salt. -/
theorem C113_stream (checks : Bool) (salt : List UInt8) (k : Nat) (hk : k + 7 < 8 * 2 ^ 64) :
    ∃ s', (SeedboxBlake2.newWithSalt salt).take checks k =
      .ok ((List.range k).map (fun n => word32 (Rfc7693.digest 32 "__fawkes".toUTF8.toList
        ((List.range 8).map (fun i => UInt8.ofNat (n / 8 / 256 ^ i)) ++ Rfc7693.digest 32 [] salt)) (n % 8)), s') := by
  obtain ⟨s', h⟩ := C59_stream_salted checks salt k hk
  refine ⟨s', h.trans ?_⟩
  unfold seedBlock
  simp only [C113_digest 32 le_rfl, show "__fawkes".toUTF8.toList = personalization by decide +kernel]

/-- The specification on the RFC's own example, "abc" (Appendix B). -/
example : Rfc7693.digest 32 [] "abc".toUTF8.toList =
    [0x50, 0x8C, 0x5E, 0x8C, 0x32, 0x7C, 0x14, 0xE2, 0xE1, 0xA7, 0x2B, 0xA3, 0x4E, 0xEB, 0x45, 0x2F,
     0x37, 0x45, 0x8B, 0x20, 0x9E, 0xD6, 0x3A, 0x29, 0x4D, 0x99, 0x9B, 0x4C, 0x86, 0x67, 0x59, 0x82] := by
  rw [← C113_digest 32 le_rfl]
  decide +kernel

/-- Three blocks with the library's personalisation; the digest was computed with another implementation. -/
example : Rfc7693.digest 32 "__fawkes".toUTF8.toList ((List.range 150).map UInt8.ofNat) =
    [0x61, 0x30, 0x88, 0x18, 0x44, 0x86, 0xE4, 0x15, 0x42, 0x21, 0x29, 0x95, 0x03, 0xD8, 0xDE, 0xA2, 0x7C, 0x01, 0xF0, 0xDD, 0x96, 0x03, 0x26, 0x67, 0xDE, 0x5A, 0xFB, 0x5E, 0xAE, 0x2F, 0x3B, 0x5F] := by
  rw [← C113_digest 32 le_rfl]
  decide +kernel

/-- Two whole blocks, a shorter digest, fed in pieces of 1, 0, 63, 40 and 24 bytes. -/
example : hashPieces 20 [] (([[0], [], List.range' 1 63, List.range' 64 40, List.range' 104 24] : List (List Nat)).map
      (List.map UInt8.ofNat)) =
    .ok [0xFB, 0x7B, 0x50, 0xDB, 0x11, 0xA7, 0xA2, 0xAC, 0xEC, 0xF5, 0x7A, 0xA0, 0x86, 0x36, 0xDF, 0x85, 0xEE, 0xAA, 0xC7, 0x36] := by
  rw [C113_pieces 20 (by omega) (by omega) [] (by simp) _ (by decide +kernel), ← C113_digest 20 (by omega)]
  decide +kernel

example : hashPieces 33 [] [] = .error .assertion := C113_refused 33 [] [] (by omega)

/-- The seeds of the two generators of BN256, and a nonce, are such digests. -/
example : fromSeedFed bnR seedEdwardsG =
    .ok (beNat (Rfc7693.digest 32 "__fawkes".toUTF8.toList "edwards_g".toUTF8.toList) : ZMod bnR) := by
  rw [C113_from_seed bnR _ (by decide), C113_from_seed_value bnR aligned_bnR (by decide +kernel),
    show numBytes bnR = 32 by decide +kernel, show "edwards_g".toUTF8.toList = seedEdwardsG by decide +kernel]

example (sk : ZMod bnL) (m : ZMod bnR) : hashRFed sk m = Eddsa.hashR sk m :=
  (C113_hash_r aligned_bnR aligned_bnL (by decide +kernel) (by decide +kernel) sk m).1

end Fawkes.Props
