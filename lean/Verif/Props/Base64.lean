import Verif.Model.Base64
import Verif.Spec.Base64
import Mathlib.Tactic.Ring
import Mathlib.Tactic.Linarith
import Mathlib.Data.List.Induction

/-!
# C72: base64 texts
-/

open Fawkes Fawkes.Base64

namespace Fawkes.Props

theorem value_symbol (n : Nat) (h : n < 64) : value (symbol n) = some n := by
  have : ∀ n : Fin 64, value (symbol n) = some n.val := by decide +kernel
  exact this ⟨n, h⟩

theorem symbol_ne (n : Nat) (h : n < 64) : symbol n ≠ '=' := by
  have : ∀ n : Fin 64, symbol n ≠ '=' := by decide +kernel
  exact this ⟨n, h⟩

theorem symbol_rfc (n : Nat) (h : n < 64) : symbol n = rfcSymbol n := by
  have : ∀ n : Fin 64, symbol n = rfcSymbol n := by decide +kernel
  exact this ⟨n, h⟩

theorem value_some {c : Char} {n : Nat} (h : value c = some n) : n < 64 ∧ c = symbol n := by
  unfold value at h
  rw [List.idxOf?_eq_some_iff] at h
  obtain ⟨hn, h1, -⟩ := h
  refine ⟨hn, ?_⟩
  unfold symbol
  rw [List.getD_eq_getElem?_getD, List.getElem?_eq_getElem hn]
  simpa using h1.symm

theorem value_pad : value '=' = none := by decide +kernel

/-- Bytes of the model of a complete group. -/
theorem group_some {a b c d : Char} {bs : List UInt8} :
    group a b c d = some bs ↔ ∃ x y z : UInt8, bs = [x, y, z] ∧ a = symbol (x.toNat / 4) ∧
      b = symbol (x.toNat % 4 * 16 + y.toNat / 16) ∧ c = symbol (y.toNat % 16 * 4 + z.toNat / 64) ∧ d = symbol (z.toNat % 64) := by
  constructor
  · intro h
    unfold group at h
    cases ha : value a with
    | none => simp [ha] at h
    | some x =>
    cases hb : value b with
    | none => simp [ha, hb] at h
    | some y =>
    cases hc : value c with
    | none => simp [ha, hb, hc] at h
    | some z =>
    cases hd : value d with
    | none => simp [ha, hb, hc, hd] at h
    | some u =>
    simp only [ha, hb, hc, hd, Option.bind_eq_bind, Option.bind_some, Option.some.injEq] at h
    obtain ⟨hx, rfl⟩ := value_some ha
    obtain ⟨hy, rfl⟩ := value_some hb
    obtain ⟨hz, rfl⟩ := value_some hc
    obtain ⟨hu, rfl⟩ := value_some hd
    refine ⟨_, _, _, h.symm, ?_, ?_, ?_, ?_⟩ <;> congr 1 <;> simp only [UInt8.toNat_ofNat'] <;> omega
  · rintro ⟨x, y, z, rfl, rfl, rfl, rfl, rfl⟩
    have hx := x.toNat_lt
    have hy := y.toNat_lt
    have hz := z.toNat_lt
    unfold group
    rw [value_symbol _ (by omega), value_symbol _ (by omega), value_symbol _ (by omega), value_symbol _ (by omega)]
    simp only [Option.bind_eq_bind, Option.bind_some, Option.some.injEq, List.cons.injEq, and_true]
    refine ⟨?_, ?_, ?_⟩ <;> apply UInt8.toNat_inj.1 <;> simp only [UInt8.toNat_ofNat'] <;> omega

theorem last2_some {a b : Char} {bs : List UInt8} :
    last2 a b = some bs ↔ ∃ x : UInt8, bs = [x] ∧ a = symbol (x.toNat / 4) ∧ b = symbol (x.toNat % 4 * 16) := by
  constructor
  · intro h
    unfold last2 at h
    cases ha : value a with
    | none => simp [ha] at h
    | some x =>
    cases hb : value b with
    | none => simp [ha, hb] at h
    | some y =>
    simp only [ha, hb, Option.bind_eq_bind, Option.bind_some] at h
    obtain ⟨hx, rfl⟩ := value_some ha
    obtain ⟨hy, rfl⟩ := value_some hb
    split at h
    · injection h with h
      refine ⟨_, h.symm, ?_, ?_⟩ <;> congr 1 <;> simp only [UInt8.toNat_ofNat'] <;> omega
    · cases h
  · rintro ⟨x, rfl, rfl, rfl⟩
    have hx := x.toNat_lt
    unfold last2
    rw [value_symbol _ (by omega), value_symbol _ (by omega)]
    simp only [Option.bind_eq_bind, Option.bind_some]
    rw [if_pos (by omega)]
    simp only [Option.some.injEq, List.cons.injEq, and_true]
    apply UInt8.toNat_inj.1; simp only [UInt8.toNat_ofNat']; omega

theorem last3_some {a b c : Char} {bs : List UInt8} :
    last3 a b c = some bs ↔ ∃ x y : UInt8, bs = [x, y] ∧ a = symbol (x.toNat / 4) ∧
      b = symbol (x.toNat % 4 * 16 + y.toNat / 16) ∧ c = symbol (y.toNat % 16 * 4) := by
  constructor
  · intro h
    unfold last3 at h
    cases ha : value a with
    | none => simp [ha] at h
    | some x =>
    cases hb : value b with
    | none => simp [ha, hb] at h
    | some y =>
    cases hc : value c with
    | none => simp [ha, hb, hc] at h
    | some z =>
    simp only [ha, hb, hc, Option.bind_eq_bind, Option.bind_some] at h
    obtain ⟨hx, rfl⟩ := value_some ha
    obtain ⟨hy, rfl⟩ := value_some hb
    obtain ⟨hz, rfl⟩ := value_some hc
    split at h
    · injection h with h
      refine ⟨_, _, h.symm, ?_, ?_, ?_⟩ <;> congr 1 <;> simp only [UInt8.toNat_ofNat'] <;> omega
    · cases h
  · rintro ⟨x, y, rfl, rfl, rfl, rfl⟩
    have hx := x.toNat_lt
    have hy := y.toNat_lt
    unfold last3
    rw [value_symbol _ (by omega), value_symbol _ (by omega), value_symbol _ (by omega)]
    simp only [Option.bind_eq_bind, Option.bind_some]
    rw [if_pos (by omega)]
    simp only [Option.some.injEq, List.cons.injEq, and_true]
    refine ⟨?_, ?_⟩ <;> apply UInt8.toNat_inj.1 <;> simp only [UInt8.toNat_ofNat'] <;> omega

theorem encode_cons3 (a b c : UInt8) (rest : List UInt8) : encode (a :: b :: c :: rest) =
    symbol (a.toNat / 4) :: symbol (a.toNat % 4 * 16 + b.toNat / 16) :: symbol (b.toNat % 16 * 4 + c.toNat / 64) ::
      symbol (c.toNat % 64) :: encode rest := by
  rw [encode]

/-- Decoding undoes encoding. -/
theorem decode_encode (bs : List UInt8) : decode (encode bs) = some bs := by
  fun_induction encode bs with
  | case1 => rfl
  | case2 a =>
    unfold decode
    rw [if_pos rfl, if_pos rfl]
    exact last2_some.2 ⟨a, rfl, rfl, rfl⟩
  | case3 a b =>
    unfold decode
    rw [if_pos rfl, if_neg (symbol_ne _ (by have := b.toNat_lt; omega))]
    exact last3_some.2 ⟨a, b, rfl, rfl, rfl, rfl⟩
  | case4 a b c rest ih =>
    have hg := group_some.2 ⟨a, b, c, rfl, rfl, rfl, rfl, rfl⟩
    cases hr : encode rest with
    | nil =>
      rw [hr] at ih
      unfold decode
      rw [if_neg (symbol_ne _ (by omega)), hg]
      injection ih with ih
      rw [ih]
    | cons d ds =>
      rw [hr] at ih
      rw [decode.eq_6 _ _ _ _ _ (by simp), hg, ih]
      rfl

/-- A text that decodes is the encoding of the result with some of the padding removed. -/
theorem encode_of_decode (t : List Char) (bs : List UInt8) (h : decode t = some bs) :
    ∃ k, t ++ List.replicate k '=' = encode bs := by
  fun_induction decode t generalizing bs with
  | case1 => injection h with h; subst h; exact ⟨0, rfl⟩
  | case2 => cases h
  | case3 a b =>
    obtain ⟨x, rfl, rfl, rfl⟩ := last2_some.1 h
    exact ⟨2, rfl⟩
  | case4 a b =>
    obtain ⟨x, rfl, rfl, rfl⟩ := last2_some.1 h
    exact ⟨1, rfl⟩
  | case5 a b c hc =>
    obtain ⟨x, y, rfl, rfl, rfl, rfl⟩ := last3_some.1 h
    exact ⟨1, rfl⟩
  | case6 a b =>
    obtain ⟨x, rfl, rfl, rfl⟩ := last2_some.1 h
    exact ⟨0, rfl⟩
  | case7 a b c hc =>
    obtain ⟨x, y, rfl, rfl, rfl, rfl⟩ := last3_some.1 h
    exact ⟨0, rfl⟩
  | case8 a b c d hd =>
    obtain ⟨x, y, z, rfl, rfl, rfl, rfl, rfl⟩ := group_some.1 h
    exact ⟨0, rfl⟩
  | case9 a b c d rest hr ih =>
    cases hg : group a b c d with
    | none => rw [hg] at h; cases h
    | some g =>
      cases hd : decode rest with
      | none => rw [hg, hd] at h; cases h
      | some gs =>
        rw [hg, hd] at h
        injection h with h
        subst h
        obtain ⟨k, hk⟩ := ih gs hd
        obtain ⟨x, y, z, rfl, rfl, rfl, rfl, rfl⟩ := group_some.1 hg
        refine ⟨k, ?_⟩
        simp only [List.cons_append, List.nil_append]
        rw [encode_cons3, hk]

theorem append_pad {t : List Char} {k : Nat} {c : Char} {s : List Char} (h : t ++ List.replicate k '=' = s ++ [c]) :
    (k = 0 ∧ t = s ++ [c]) ∨ (∃ k', k = k' + 1 ∧ c = '=' ∧ t ++ List.replicate k' '=' = s) := by
  cases k with
  | zero => exact .inl ⟨rfl, by simpa using h⟩
  | succ k =>
    rw [List.replicate_succ', ← List.append_assoc] at h
    obtain ⟨h1, h2⟩ := List.append_inj' h rfl
    injection h2 with h2
    exact .inr ⟨k, rfl, h2.symm, h1⟩

theorem decode_group {a b c d : Char} {rest : List Char} {g gs : List UInt8} (hg : group a b c d = some g)
    (hd : decode rest = some gs) : decode (a :: b :: c :: d :: rest) = some (g ++ gs) := by
  cases rest with
  | nil =>
    injection hd with hd
    subst hd
    have : d ≠ '=' := by
      rintro rfl
      obtain ⟨x, y, z, -, -, -, -, h⟩ := group_some.1 hg
      exact symbol_ne _ (by omega) h.symm
    unfold decode
    rw [if_neg this, hg, List.append_nil]
  | cons e es => rw [decode.eq_6 _ _ _ _ _ (by simp), hg, hd]; rfl

/-- Padding may be missing. -/
theorem decode_stripped (bs : List UInt8) (t : List Char) (k : Nat) (h : t ++ List.replicate k '=' = encode bs) :
    decode t = some bs := by
  fun_induction encode bs generalizing t with
  | case1 =>
    rw [List.append_eq_nil_iff] at h
    rw [h.1]; rfl
  | case2 a =>
    have ha := a.toNat_lt
    rcases append_pad (s := [_, _, _]) h with ⟨rfl, rfl⟩ | ⟨k, rfl, -, h⟩
    · exact decode_encode [a]
    rcases append_pad (s := [_, _]) h with ⟨rfl, rfl⟩ | ⟨k, rfl, -, h⟩
    · show decode [_, _, _] = _
      unfold decode
      rw [if_pos rfl]
      exact last2_some.2 ⟨a, rfl, rfl, rfl⟩
    rcases append_pad (s := [_]) h with ⟨rfl, rfl⟩ | ⟨k, rfl, h', h⟩
    · exact last2_some.2 ⟨a, rfl, rfl, rfl⟩
    · exact absurd h' (symbol_ne _ (by omega))
  | case3 a b =>
    have hb := b.toNat_lt
    rcases append_pad (s := [_, _, _]) h with ⟨rfl, rfl⟩ | ⟨k, rfl, -, h⟩
    · exact decode_encode [a, b]
    rcases append_pad (s := [_, _]) h with ⟨rfl, rfl⟩ | ⟨k, rfl, h', h⟩
    · show decode [_, _, _] = _
      unfold decode
      rw [if_neg (symbol_ne _ (by omega))]
      exact last3_some.2 ⟨a, b, rfl, rfl, rfl, rfl⟩
    · exact absurd h' (symbol_ne _ (by omega))
  | case4 a b c rest ih =>
    have ha := a.toNat_lt
    have hb := b.toNat_lt
    have hc := c.toNat_lt
    have hg := group_some.2 ⟨a, b, c, rfl, rfl, rfl, rfl, rfl⟩
    match t, h with
    | [], h =>
      cases k with
      | zero => cases h
      | succ k =>
        injection (show '=' :: List.replicate k '=' = _ from h) with h
        exact absurd h.symm (symbol_ne _ (by omega))
    | [_], h =>
      injection h with h1 h
      cases k with
      | zero => cases h
      | succ k =>
        injection (show '=' :: List.replicate k '=' = _ from h) with h
        exact absurd h.symm (symbol_ne _ (by omega))
    | [_, _], h =>
      injection h with h1 h
      injection h with h2 h
      cases k with
      | zero => cases h
      | succ k =>
        injection (show '=' :: List.replicate k '=' = _ from h) with h
        exact absurd h.symm (symbol_ne _ (by omega))
    | [_, _, _], h =>
      injection h with h1 h
      injection h with h2 h
      injection h with h3 h
      cases k with
      | zero => cases h
      | succ k =>
        injection (show '=' :: List.replicate k '=' = _ from h) with h
        exact absurd h.symm (symbol_ne _ (by omega))
    | x :: y :: z :: u :: t, h =>
      injection h with h1 h
      injection h with h2 h
      injection h with h3 h
      injection h with h4 h
      subst h1 h2 h3 h4
      exact decode_group hg (ih t h)

/-! ### The encoding is the one of the specification -/

theorem foldl_number (b : Nat) (ds : List Nat) (n : Nat) :
    ds.foldl (fun n d => n * b + d) n = n * b ^ ds.length + number b ds := by
  unfold number
  induction ds generalizing n with
  | nil => simp
  | cons d ds ih =>
    rw [List.foldl_cons, List.foldl_cons, ih, ih (0 * b + d), List.length_cons]
    ring

theorem number_append (b : Nat) (xs ys : List Nat) : number b (xs ++ ys) = number b xs * b ^ ys.length + number b ys := by
  rw [number, List.foldl_append]
  exact foldl_number b ys _

theorem number_lt {b : Nat} (ds : List Nat) (h : ∀ d ∈ ds, d < b) : number b ds < b ^ ds.length := by
  induction ds using List.reverseRecOn with
  | nil => simp [number]
  | append_singleton ds d ih =>
    have h1 := ih fun d hd => h d (by simp [hd])
    have h2 := h d (by simp)
    rw [number_append, List.length_append, List.length_singleton, pow_one, pow_succ]
    have : number b [d] = d := by simp [number]
    rw [this]
    calc number b ds * b + d < number b ds * b + b := by omega
      _ = (number b ds + 1) * b := by ring
      _ ≤ _ := Nat.mul_le_mul_right _ h1

theorem number_inj {b : Nat} (xs ys : List Nat) (hx : ∀ d ∈ xs, d < b) (hy : ∀ d ∈ ys, d < b) (hl : xs.length = ys.length)
    (h : number b xs = number b ys) : xs = ys := by
  induction xs using List.reverseRecOn generalizing ys with
  | nil => symm; exact List.length_eq_zero_iff.1 hl.symm
  | append_singleton xs d ih =>
    rcases List.eq_nil_or_concat ys with rfl | ⟨ys, e, rfl⟩
    · simp at hl
    rw [List.concat_eq_append] at *
    rw [number_append, number_append] at h
    have hd := hx d (by simp)
    have he := hy e (by simp)
    have e1 : number b [d] = d := by simp [number]
    have e2 : number b [e] = e := by simp [number]
    rw [e1, e2, List.length_singleton, List.length_singleton, pow_one] at h
    have hm : d = e := by
      have := congrArg (· % b) h
      simpa [Nat.mul_add_mod', Nat.mod_eq_of_lt hd, Nat.mod_eq_of_lt he] using this
    subst hm
    have hq : number b xs = number b ys := Nat.eq_of_mul_eq_mul_right (by omega) (Nat.add_right_cancel h)
    rw [ih ys (fun v hv => hx v (by simp [hv])) (fun v hv => hy v (by simp [hv])) (by simpa using hl) hq]

theorem encode_isBase64 (bs : List UInt8) : IsBase64 (encode bs) bs := by
  fun_induction encode bs with
  | case1 => exact ⟨[], 0, 0, rfl, by simp, rfl, by omega, rfl, rfl, by omega⟩
  | case2 a =>
    have ha := a.toNat_lt
    refine ⟨[a.toNat / 4, a.toNat % 4 * 16], 4, 2, ?_, ?_, rfl, by omega, ?_, by simp, by omega⟩
    · simp only [List.map_cons, List.map_nil]
      rw [← symbol_rfc _ (by omega), ← symbol_rfc _ (by omega)]; rfl
    · simp only [List.forall_mem_cons, List.not_mem_nil, false_implies, implies_true, and_true]; omega
    · simp only [number, List.map_cons, List.map_nil, List.foldl_cons, List.foldl_nil]; omega
  | case3 a b =>
    have ha := a.toNat_lt
    have hb := b.toNat_lt
    refine ⟨[a.toNat / 4, a.toNat % 4 * 16 + b.toNat / 16, b.toNat % 16 * 4], 2, 1, ?_, ?_, rfl, by omega, ?_, by simp, by omega⟩
    · simp only [List.map_cons, List.map_nil]
      rw [← symbol_rfc _ (by omega), ← symbol_rfc _ (by omega), ← symbol_rfc _ (by omega)]; rfl
    · simp only [List.forall_mem_cons, List.not_mem_nil, false_implies, implies_true, and_true]; omega
    · simp only [number, List.map_cons, List.map_nil, List.foldl_cons, List.foldl_nil]; omega
  | case4 a b c rest ih =>
    have ha := a.toNat_lt
    have hb := b.toNat_lt
    have hc := c.toNat_lt
    obtain ⟨vs, z, k, h1, h2, h3, h4, h5, h6, h7⟩ := ih
    refine ⟨[a.toNat / 4, a.toNat % 4 * 16 + b.toNat / 16, b.toNat % 16 * 4 + c.toNat / 64, c.toNat % 64] ++ vs, z, k, ?_, ?_, ?_,
      h4, ?_, ?_, h7⟩
    · rw [h1]
      simp only [List.map_append, List.map_cons, List.map_nil]
      rw [← symbol_rfc _ (by omega), ← symbol_rfc _ (by omega), ← symbol_rfc _ (by omega), ← symbol_rfc _ (by omega)]; rfl
    · intro v hv
      rw [List.mem_append] at hv
      rcases hv with hv | hv
      · revert v; simp only [List.forall_mem_cons, List.not_mem_nil, false_implies, implies_true, and_true]; omega
      · exact h2 v hv
    · simp only [List.length_append, List.length_cons, List.length_nil]; omega
    · have : (a :: b :: c :: rest).map UInt8.toNat = [a.toNat, b.toNat, c.toNat] ++ rest.map UInt8.toNat := rfl
      rw [this, number_append, number_append, h5]
      have e1 : number 64 [a.toNat / 4, a.toNat % 4 * 16 + b.toNat / 16, b.toNat % 16 * 4 + c.toNat / 64, c.toNat % 64] =
          number 256 [a.toNat, b.toNat, c.toNat] := by
        simp only [number, List.foldl_cons, List.foldl_nil]; omega
      have e2 : (64 : Nat) ^ vs.length = 256 ^ (rest.map UInt8.toNat).length * 2 ^ z := by
        rw [List.length_map, show (64 : Nat) = 2 ^ 6 from rfl, show (256 : Nat) = 2 ^ 8 from rfl, ← pow_mul, ← pow_mul, ← pow_add, h3]
      rw [e1, e2]; ring
    · simp only [List.length_append, List.length_cons, List.length_nil]; omega

/-- C72: `base64::encode` produces the encoding of RFC 4648, and there is only one. -/
theorem C72_base64_encode (t : List Char) (bs : List UInt8) : t = encode bs ↔ IsBase64 t bs := by
  constructor
  · rintro rfl; exact encode_isBase64 bs
  · rintro ⟨vs, z, k, rfl, h2, h3, h4, h5, h6, h7⟩
    obtain ⟨vs', z', k', h1', h2', h3', h4', h5', h6', h7'⟩ := encode_isBase64 bs
    have hz : z = z' := by omega
    have hl : vs.length = vs'.length := by omega
    have hk : k = k' := by omega
    subst hz hk
    rw [h1', number_inj vs vs' h2 h2' hl (h5.trans h5'.symm)]

/-- C72: `base64::decode` accepts exactly the encodings of RFC 4648 and those with some or all of the padding removed, and
returns the encoded bytes. -/
theorem C72_base64_decode (t : List Char) (bs : List UInt8) :
    decode t = some bs ↔ ∃ k, IsBase64 (t ++ List.replicate k '=') bs := by
  constructor
  · intro h
    obtain ⟨k, hk⟩ := encode_of_decode t bs h
    exact ⟨k, (C72_base64_encode _ _).1 hk⟩
  · rintro ⟨k, hk⟩
    exact decode_stripped bs t k ((C72_base64_encode _ _).2 hk)

/-- C72: what has been encoded is decoded to the same bytes; different bytes have different encodings. -/
theorem C72_base64_round_trip (bs : List UInt8) : decode (encode bs) = some bs := decode_encode bs

example : encode [72, 101, 108, 108, 111] = ['S', 'G', 'V', 's', 'b', 'G', '8', '='] := by decide +kernel

example : decode ['S', 'G', 'V', 's', 'b', 'G', '8'] = some [72, 101, 108, 108, 111] := by decide +kernel

example : decode ['S', 'G', 'V', 's', 'b', 'G', '9', '='] = none := by decide +kernel

example : decode ['S', 'G', 'V', 's', '\n'] = none := by decide +kernel

end Fawkes.Props
