import Verif.Lemmas.Bitify
import Verif.Lemmas.Primes
import Verif.Props.Num

/-!
# Properties C14–C18 and part of C61: bits, comparison, recomposition, multiplexer

Conventions as in `Verif.Props.Num`.  Additionally `SpellsBits w bits bs` says that under the assignment
`w` the signals `bits` are (as 0/1) the booleans `bs`; `CarriesBits s bits bs` says so for the witness values
in state `s`; `bitsNat bs` is the integer with binary digits `bs` (least significant first) and `lowBits n x`
are the `n` low binary digits of `x`.  `64 * nLimbs p` is the number of digits the code's bit iterator yields
for a field element: 256 for both shipped fields.
-/

set_option linter.unusedSectionVars false

namespace Fawkes.Props

open Fawkes Bitify

variable {p : Nat} [Fact p.Prime]

/-! ## C14 -/

/-- C14 (sound): in every satisfying assignment the `n` outputs are bits and sum to `x` in the field. -/
theorem C14_sound (x : CNum (ZMod p)) (n : Nat) (s s' : CS (ZMod p)) (bits : List (CBool (ZMod p)))
    (w : Index → ZMod p) (hw : IsAssignment w) (h : (intoBitsLE x n).run s = .ok (bits, s')) (hs : s'.Sat w) :
    ∃ bs : List Bool, bs.length = n ∧ SpellsBits w bits bs ∧ x.lc.eval w = (bitsNat bs : ZMod p) :=
  spec_intoBits hw x n s bits s' h hs

/-- C14 (unique): if `2^n ≤ p` the outputs are the `n` low bits of the integer `x`, which is below `2^n`; in
particular a value `≥ 2^n` has no satisfying assignment at all. -/
theorem C14_unique (x : CNum (ZMod p)) (n : Nat) (hn : 2 ^ n ≤ p) (s s' : CS (ZMod p))
    (bits : List (CBool (ZMod p))) (w : Index → ZMod p) (hw : IsAssignment w)
    (h : (intoBitsLE x n).run s = .ok (bits, s')) (hs : s'.Sat w) :
    (x.lc.eval w).val < 2 ^ n ∧ SpellsBits w bits (lowBits n (x.lc.eval w).val) := by
  obtain ⟨bs, h1, h2, h3⟩ := C14_sound x n s s' bits w hw h hs
  have hlt := bitsNat_lt bs
  rw [h1] at hlt
  have hv : (x.lc.eval w).val = bitsNat bs := by
    rw [h3, ZMod.val_natCast_of_lt (by omega)]
  rw [hv, ← h1, lowBits_bitsNat, h1]
  exact ⟨hlt, h2⟩

/-- C14 (complete): the honest prover with a value below `2^n` succeeds and gets the binary digits. -/
theorem C14_complete (x : CNum (ZMod p)) (n : Nat) (h1 : 1 ≤ n) (h2 : n ≤ 64 * nLimbs p) (s : CS (ZMod p))
    (hs : s.Honest) (v : ZMod p) (hx : Has s x v) (hv : v.val < 2 ^ n) :
    ∃ bits s', (intoBitsLE x n).run s = .ok (bits, s') ∧ s'.Honest ∧
      CarriesBits s' bits (lowBits n v.val) := by
  obtain ⟨bits, s', hr, _, hh, hb⟩ := runs_intoBits hs hx n h1 h2 hv
  exact ⟨bits, s', hr, hh, hb⟩

/-- C14 (exactly): on the checking back end decomposition of a signal with value `v` succeeds iff `v < 2^n`. -/
theorem C14_succeeds_iff (x : CNum (ZMod p)) (n : Nat) (h1 : 1 ≤ n) (h2 : n ≤ 64 * nLimbs p) (s : CS (ZMod p))
    (hs : s.Honest) (hb : s.backend = .test) (v : ZMod p) (hx : Has s x v) :
    (∃ r, (intoBitsLE x n).run s = .ok r) ↔ v.val < 2 ^ n := by
  constructor
  · rintro ⟨⟨bits, s'⟩, hr⟩
    obtain ⟨hh, -⟩ := acc_intoBits hx n hb hs bits s' hr
    by_contra hcon
    have hle : 2 ^ n ≤ p := (not_lt.1 hcon).trans (ZMod.val_lt v).le
    have := (C14_unique x n hle s s' bits _ (CS.assign_isAssignment s') hr hh.sat).1
    rw [(hx.mono (M.run_ext hr)).eval] at this
    exact hcon this
  · intro hv
    obtain ⟨bits, s', hr, _⟩ := C14_complete x n h1 h2 s hs v hx hv
    exact ⟨_, hr⟩

/-- C14 (constants): a constant is decomposed without constraints, and panics iff it is `≥ 2^n`, on every
back end and in every state. -/
theorem C14_const (x : CNum (ZMod p)) (c : ZMod p) (hc : x.asConst = some c) (n : Nat)
    (h2 : n ≤ 64 * nLimbs p) (s : CS (ZMod p)) :
    (c.val < 2 ^ n → (intoBitsLE x n).run s = .ok ((lowBits n c.val).map CBool.fromConst, s)) ∧
    (2 ^ n ≤ c.val → (intoBitsLE x n).run s = .error .assertion) := by
  have hrun : (intoBitsLE x n).run s = if c.val < 2 ^ n then
      .ok ((lowBits n c.val).map CBool.fromConst, s) else .error .assertion := by
    unfold intoBitsLE
    rw [hc]
    simp only
    rw [M.run_bind, M.run_lift, iterbitLE_lowBits, constLoop_ok _ n 0 1 c (by rw [lowBits_length]; omega)]
    simp only [List.drop_zero, take_lowBits h2]
    rw [M.run_bind, M.run_assert, bitsNat_lowBits, one_mul]
    have key : (c - ((c.val % 2 ^ n : ℕ) : ZMod p) = 0) ↔ c.val < 2 ^ n := by
      rw [sub_eq_zero]
      constructor
      · intro h
        have := congrArg ZMod.val h
        rw [ZMod.val_natCast_of_lt ((Nat.mod_le _ _).trans_lt (ZMod.val_lt c))] at this
        rw [this]; exact Nat.mod_lt _ (by positivity)
      · intro h
        rw [Nat.mod_eq_of_lt h, ZMod.natCast_zmod_val]
    by_cases h : c.val < 2 ^ n
    · rw [if_pos h, decide_eq_true (key.2 h)]; rfl
    · rw [if_neg h, decide_eq_false (fun h' => h (key.1 h'))]; rfl
  refine ⟨fun h => by rw [hrun, if_pos h], fun h => by rw [hrun, if_neg (by omega)]⟩

/-- C14 (limits of the code): width 0 panics for every non-constant signal, and more digits than the bit
iterator yields panics for every constant. -/
theorem C14_panics (x : CNum (ZMod p)) (s : CS (ZMod p)) :
    (x.asConst = none → ∀ r, (intoBitsLE x 0).run s ≠ .ok r) ∧
    (∀ c n, x.asConst = some c → 64 * nLimbs p < n → (intoBitsLE x n).run s = .error .outOfBounds) := by
  refine ⟨fun hx r hr => ?_, fun c n hx hn => ?_⟩
  · unfold intoBitsLE at hr
    rw [hx] at hr
    obtain ⟨_, _, _, hr⟩ := M.bind_ok hr
    obtain ⟨_, _, _, hr⟩ := M.bind_ok hr
    simp only [if_true] at hr
    rw [M.run_panic] at hr; cases hr
  · unfold intoBitsLE
    rw [hx]
    simp only
    rw [M.run_bind, M.run_lift, constLoop_err _ n 0 1 c (by rw [iterbitLE_length]; omega) (by omega)]

/-- Concrete: 5 in the field of order 7 fits 3 bits, 2 bits are too few; its three bits determine it, although
`2^3 > 7`. -/
example : ((do let x ← CNum.alloc (some 5); intoBitsLE x 3 : M (ZMod 7) _).run (CS.new .test)).map
    (fun r => (r.1.map fun b => b.num.value, r.2.cons.length)) = .ok ([some 1, some 0, some 1], 3) := by
  decide +kernel
example : ((do let x ← CNum.alloc (some 5); intoBitsLE x 2 : M (ZMod 7) _).run (CS.new .test)).isOk = false := by
  decide +kernel
/-- The hypotheses of `C14_complete` at the shipped field. -/
example : ∃ (s : CS (ZMod bnR)) (x : CNum (ZMod bnR)), s.Honest ∧ Has s x ((12345 : ℕ) : ZMod bnR) ∧
    x.asConst = none := by
  obtain ⟨x, s, _, _, hs, hx, hf⟩ := runs_alloc (CS.honest_new (F := ZMod bnR) .test) ((12345 : ℕ) : ZMod bnR)
  exact ⟨s, x, hs, hx, hf.asConst⟩

/-! ## C15 -/

/-- C15: if the constant fits in the compared width `2⌈n/2⌉` and `2^(⌈n/2⌉+1) ≤ p`, then in every satisfying
assignment in which the inputs are bits the result is 1 iff their integer is greater than the constant, else 0. -/
theorem C15_compare (sig : List (CBool (ZMod p))) (c : ZMod p) (hc : c.val < 2 ^ (2 * ((sig.length + 1) / 2)))
    (hp : 2 ^ ((sig.length + 1) / 2 + 1) ≤ p) (s s' : CS (ZMod p)) (r : CBool (ZMod p)) (w : Index → ZMod p)
    (hw : IsAssignment w) (bs : List Bool) (hb : SpellsBits w sig bs)
    (h : (compConstant sig c).run s = .ok (r, s')) (hs : s'.Sat w) :
    r.num.lc.eval w = if c.val < bitsNat bs then 1 else 0 := by
  have := spec_compConstant hw sig bs hb c hp s r s' h hs
  rw [Nat.mod_eq_of_lt hc] at this
  exact this

/-- C15: a constant that does not fit is silently truncated to the compared width. -/
theorem C15_truncates (sig : List (CBool (ZMod p))) (c : ZMod p)
    (hp : 2 ^ ((sig.length + 1) / 2 + 1) ≤ p) (s s' : CS (ZMod p)) (r : CBool (ZMod p)) (w : Index → ZMod p)
    (hw : IsAssignment w) (bs : List Bool) (hb : SpellsBits w sig bs)
    (h : (compConstant sig c).run s = .ok (r, s')) (hs : s'.Sat w) :
    r.num.lc.eval w = if c.val % 2 ^ (2 * ((sig.length + 1) / 2)) < bitsNat bs then 1 else 0 :=
  spec_compConstant hw sig bs hb c hp s r s' h hs

/-- C15: the honest prover succeeds on every non-empty bit vector the bit iterator covers. -/
theorem C15_complete (sig : List (CBool (ZMod p))) (c : ZMod p) (hc : c.val < 2 ^ (2 * ((sig.length + 1) / 2)))
    (hp : 2 ^ ((sig.length + 1) / 2 + 1) ≤ p) (hn : 0 < sig.length) (hl : sig.length ≤ 64 * nLimbs p)
    (s : CS (ZMod p)) (hs : s.Honest) (bs : List Bool) (hb : CarriesBits s sig bs) :
    ∃ r s', (compConstant sig c).run s = .ok (r, s') ∧ s'.Honest ∧
      Has s' r.num (if c.val < bitsNat bs then 1 else 0) := by
  obtain ⟨r, s', hr, _, hh, hb⟩ := runs_compConstant hs sig bs hb hn hl c hp
  rw [Nat.mod_eq_of_lt hc] at hb
  exact ⟨r, s', hr, hh, hb⟩

/-- C15: an empty bit vector panics. -/
theorem C15_empty (c : ZMod p) (s : CS (ZMod p)) : (compConstant [] c).run s = .error .assertion := rfl

/-- Concrete (field of order 17): the five allocated bits of 11 compared with 10 and with 11. -/
instance : Fact (Nat.Prime 17) := ⟨by norm_num⟩
example : ((do
    let x ← CNum.alloc (some 11); let b ← intoBitsLE x 4; let c ← compConstant b 10; let d ← compConstant b 11
    pure (c.num.value, d.num.value) : M (ZMod 17) _).run (CS.new .test)).map (·.1) = .ok (some 1, some 0) := by
  decide +kernel
example : 2 ^ ((254 + 1) / 2 + 1) ≤ bnR ∧ (-1 : ZMod bnR).val < 2 ^ (2 * ((254 + 1) / 2)) := by
  rw [val_neg_one_prime]; unfold bnR; norm_num

/-! ## C16 -/

/-- C16: in every satisfying assignment the strict decomposition yields exactly the binary digits of the canonical
integer of `x`; an alias `x + p` is impossible. -/
theorem C16_canonical (hp : 8 ≤ p) (x : CNum (ZMod p)) (s s' : CS (ZMod p)) (bits : List (CBool (ZMod p)))
    (w : Index → ZMod p) (hw : IsAssignment w) (h : (intoBitsLEStrict x).run s = .ok (bits, s')) (hs : s'.Sat w) :
    SpellsBits w bits (lowBits (numBits p) (x.lc.eval w).val) :=
  spec_strict hw hp x s bits s' h hs

/-- C16: the digits determine the value: they sum to the canonical integer. -/
theorem C16_digits_sum (x : ZMod p) : bitsNat (lowBits (numBits p) x.val) = x.val := by
  rw [bitsNat_lowBits, Nat.mod_eq_of_lt ((ZMod.val_lt x).trans (lt_two_pow_numBits p))]

/-- C16: the honest prover always succeeds. -/
theorem C16_complete (hp : 8 ≤ p) (x : CNum (ZMod p)) (s : CS (ZMod p)) (hs : s.Honest) (v : ZMod p)
    (hx : Has s x v) : ∃ bits s', (intoBitsLEStrict x).run s = .ok (bits, s') ∧ s'.Honest ∧
      CarriesBits s' bits (lowBits (numBits p) v.val) := by
  obtain ⟨bits, s', hr, _, hh, hb⟩ := runs_strict hs hp hx
  exact ⟨bits, s', hr, hh, hb⟩

example : 8 ≤ bnR ∧ 8 ≤ blsR ∧ numBits bnR = 254 ∧ numBits blsR = 255 := by decide +kernel
example : ((do
    let x ← CNum.alloc (some 1); let b ← intoBitsLEStrict x
    pure (b.map fun b => b.num.value) : M (ZMod 17) _).run (CS.new .test)).map (·.1) =
      .ok [some 1, some 0, some 0, some 0, some 0] := by decide +kernel

/-! ## C17 -/

/-- C17: recomposition is the weighted sum under every assignment, and adds no constraints. -/
theorem C17_sum (bits : List (CBool (ZMod p))) (s s' : CS (ZMod p)) (r : CNum (ZMod p)) (w : Index → ZMod p)
    (hw : IsAssignment w) (h : (fromBitsLE bits).run s = .ok (r, s')) :
    s' = s ∧ r.lc.eval w = weighted (bits.map fun b => b.num.lc.eval w) := by
  unfold fromBitsLE at h
  cases bits with
  | nil => rw [M.run_panic] at h; cases h
  | cons b bs =>
    rw [M.run_pure] at h
    injection h with h; injection h with h1 h2
    refine ⟨h2.symm, ?_⟩
    rw [← h1]
    have := eval_fromLoop hw bs 1 b.num
    rw [show weighted ((b :: bs).map fun b => b.num.lc.eval w) = b.num.lc.eval w +
      2 * weighted (bs.map fun b => b.num.lc.eval w) from rfl]
    rw [mul_one] at this
    exact this

/-- C17: it panics exactly on the empty vector. -/
theorem C17_panics_iff (bits : List (CBool (ZMod p))) (s : CS (ZMod p)) :
    (∃ r, (fromBitsLE bits).run s = .ok r) ↔ bits ≠ [] := by
  cases bits with
  | nil => simp [fromBitsLE, M.run_panic]
  | cons b bs => simp [fromBitsLE, M.run_pure]

/-- C17: composing with a decomposition of any width returns the original value. -/
theorem C17_inverse (x : CNum (ZMod p)) (n : Nat) (s s' : CS (ZMod p)) (y : CNum (ZMod p)) (w : Index → ZMod p)
    (hw : IsAssignment w) (h : (do let b ← intoBitsLE x n; fromBitsLE b : M (ZMod p) _).run s = .ok (y, s'))
    (hs : s'.Sat w) : y.lc.eval w = x.lc.eval w := by
  obtain ⟨bits, s1, h1, h2⟩ := M.bind_ok h
  obtain ⟨rfl, hy⟩ := C17_sum bits s1 s' y w hw h2
  obtain ⟨bs, -, hb, hx⟩ := C14_sound x n s s' bits w hw h1 hs
  rw [hy, hx]; exact hb.weighted_eq

/-- C17: and so does composing with the strict decomposition. -/
theorem C17_inverse_strict (hp : 8 ≤ p) (x : CNum (ZMod p)) (s s' : CS (ZMod p)) (y : CNum (ZMod p))
    (w : Index → ZMod p) (hw : IsAssignment w)
    (h : (do let b ← intoBitsLEStrict x; fromBitsLE b : M (ZMod p) _).run s = .ok (y, s'))
    (hs : s'.Sat w) : y.lc.eval w = x.lc.eval w := by
  obtain ⟨bits, s1, h1, h2⟩ := M.bind_ok h
  obtain ⟨rfl, hy⟩ := C17_sum bits s1 s' y w hw h2
  have hb := C16_canonical hp x s s' bits w hw h1 hs
  have hx : ((x.lc.eval w).val : ZMod p) = x.lc.eval w := ZMod.natCast_zmod_val _
  rw [hy, ← hx, ← C16_digits_sum (x.lc.eval w)]
  exact hb.weighted_eq

/-- C17: the honest value. -/
theorem C17_complete (bits : List (CBool (ZMod p))) (hne : bits ≠ []) (s : CS (ZMod p)) (hs : s.Honest)
    (bs : List Bool) (hb : CarriesBits s bits bs) :
    ∃ r s', (fromBitsLE bits).run s = .ok (r, s') ∧ s'.Honest ∧ Has s' r (bitsNat bs : ZMod p) := by
  obtain ⟨r, s', hr, _, hh, hv⟩ := runs_fromBits hs hne hb.values
  exact ⟨r, s', hr, hh, by rw [weighted_bits] at hv; exact hv⟩

example : ((do
    let x ← CNum.alloc (some 13); let b ← intoBitsLEStrict x; let y ← fromBitsLE b
    pure y.value : M (ZMod 17) _).run (CS.new .test)).map (·.1) = .ok (some 13) := by decide +kernel

/-! ## C18 -/

section
variable {K : Type} [Field K] [DecidableEq K]
open Mux

/-- C18: for boolean selectors every output column is the addressed table entry in every satisfying assignment. -/
theorem C18_select (sb : List (CBool K)) (c : List (List K)) (s s' : CS K) (r : List (CNum K)) (w : Index → K)
    (hw : IsAssignment w) (b0 b1 b2 : Bool) (hb : SpellsBits w sb [b0, b1, b2])
    (h : (mux3 sb c).run s = .ok (r, s')) (hs : s'.Sat w) :
    List.Forall₂ (fun x col => some (x.lc.eval w) = col[b0.toNat + 2 * b1.toNat + 4 * b2.toNat]?) r c :=
  spec_mux3 hw hb c s r s' h hs

/-- C18: the honest prover succeeds when there are three boolean selectors and eight entries in each column. -/
theorem C18_complete (sb : List (CBool K)) (c : List (List K)) (hc : ∀ col ∈ c, col.length = 8) (s : CS K)
    (hs : s.Honest) (b0 b1 b2 : Bool) (hb : CarriesBits s sb [b0, b1, b2]) :
    ∃ r s', (mux3 sb c).run s = .ok (r, s') ∧ s'.Honest ∧ List.Forall₂ (fun x col => ∃ v, Has s' x v ∧
      some v = col[b0.toNat + 2 * b1.toNat + 4 * b2.toNat]?) r c := by
  obtain ⟨r, s', hr, _, hh, h⟩ := runs_mux3 hs hb c hc
  exact ⟨r, s', hr, hh, h⟩

/-- C18: any other shape of the arguments panics. -/
theorem C18_shapes (sb : List (CBool K)) (c : List (List K)) (s : CS K)
    (h : sb.length ≠ 3 ∨ ∃ col ∈ c, col.length ≠ 8) : (mux3 sb c).run s = .error .assertion := by
  unfold mux3
  rw [M.run_bind, M.run_assert]
  by_cases h3 : sb.length = 3
  · rw [decide_eq_true h3]
    simp only [if_true]
    rw [M.run_bind, M.run_assert]
    have hall : c.all (fun col => decide (col.length = 8)) = false := by
      rcases h with h | ⟨col, hc, hl⟩
      · exact absurd h3 h
      · rw [List.all_eq_false]; exact ⟨col, hc, by simpa using hl⟩
    rw [hall]; rfl
  · rw [decide_eq_false h3]; rfl

end

example : ((do
    let x ← CNum.alloc (some 6); let b ← intoBitsLE x 3; let y ← Mux.mux3 b [[0, 1, 2, 3, 4, 5, 6, 7], [1, 1, 1, 1, 1, 1, 9, 1]]
    pure (y.map CNum.value) : M (ZMod 17) _).run (CS.new .test)).map (·.1) = .ok [some 6, some 9] := by
  decide +kernel

/-! ## C61 -/

/-- C61: a non-constant bit decomposition of width `n` adds exactly `n` constraints, on every back end. -/
theorem C61_bits_count (h2 : p ≠ 2) (x : CNum (ZMod p)) (n : Nat) (s s' : CS (ZMod p)) (hs : s.WF)
    (hxa : x.lc.Alloc s) (hx : x.asConst = none) (bits : List (CBool (ZMod p)))
    (h : (intoBitsLE x n).run s = .ok (bits, s')) :
    s'.cons.length = s.cons.length + n ∧ bits.length = n :=
  post_intoBits_count h2 hs hxa hx bits s' h

end Fawkes.Props
