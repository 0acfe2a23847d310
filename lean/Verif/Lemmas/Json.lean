import Verif.Spec.Json
import Mathlib.Tactic.Linarith

/-!
# Reading what has been written as JSON
-/

open Fawkes Fawkes.Json

namespace Fawkes.Json

theorem skip_replicate (n : Nat) (t : List Char) : skip (List.replicate n ' ' ++ t) = skip t := by
  induction n with
  | zero => rfl
  | succ n ih => rw [List.replicate_succ, List.cons_append, skip, if_pos (Or.inl rfl), ih]

theorem skip_indent (i : Nat) (t : List Char) : skip (indent i ++ t) = skip t := skip_replicate _ t

theorem hex4_control (c : Char) (h : c.toNat < 32) : hex4 '0' '0' (hexDigit (c.toNat / 16)) (hexDigit (c.toNat % 16)) = some c.toNat := by
  have : ∀ n : Fin 32, hex4 '0' '0' (hexDigit (n.val / 16)) (hexDigit (n.val % 16)) = some n.val := by decide +kernel
  exact this ⟨_, h⟩

theorem parseString_escape (c : Char) (t : List Char) :
    parseString (escape c ++ t) = (parseString t).map fun r => (c :: r.1, r.2) := by
  unfold escape
  split_ifs with h1 h2 h3 h4 h5 h6 h7 h8
  · subst h1; simp [parseString, simpleEscape]; cases parseString t <;> rfl
  · subst h2; simp [parseString, simpleEscape]; cases parseString t <;> rfl
  · subst h3; simp [parseString, simpleEscape]; cases parseString t <;> rfl
  · subst h4; simp [parseString, simpleEscape]; cases parseString t <;> rfl
  · subst h5; simp [parseString, simpleEscape]; cases parseString t <;> rfl
  · subst h6; simp [parseString, simpleEscape]; cases parseString t <;> rfl
  · subst h7; simp [parseString, simpleEscape]; cases parseString t <;> rfl
  · simp only [List.cons_append, List.nil_append]
    conv_lhs => rw [parseString, hex4_control c h8]
    simp only
    rw [if_neg (by omega), if_neg (by omega), Char.ofNat_toNat]
    cases parseString t <;> rfl
  · rw [List.singleton_append, parseString.eq_5 _ _ (by exact h1) (by rintro _ _ _ _ _ rfl; exact absurd rfl h2) (by rintro _ _ rfl; exact absurd rfl h2)]
    rw [if_neg (by tauto)]
    cases parseString t <;> rfl

theorem parseString_quote (s rest : List Char) : parseString (s.flatMap escape ++ '"' :: rest) = some (s, rest) := by
  induction s with
  | nil => simp [parseString]
  | cons c s ih => rw [List.flatMap_cons, List.append_assoc, parseString_escape, ih]; rfl

mutual

/-- Enough fuel for a value. -/
def cost : Json → Nat
  | .arr l => 1 + costItems l
  | .obj l => 1 + costFields l
  | _ => 1

def costItems : List Json → Nat
  | [] => 1
  | x :: xs => 1 + cost x + costItems xs

def costFields : List (List Char × Json) → Nat
  | [] => 1
  | (_, x) :: xs => 2 + cost x + costFields xs

end

/-- The first characters of values. -/
def Opening (c : Char) : Prop := c = 'n' ∨ c = 't' ∨ c = 'f' ∨ c = '"' ∨ c = '[' ∨ c = '{'

theorem Opening.skip {c : Char} (h : Opening c) (t : List Char) : skip (c :: t) = c :: t := by
  rcases h with rfl | rfl | rfl | rfl | rfl | rfl <;> simp [Json.skip]

theorem Opening.ne {c : Char} (h : Opening c) : c ≠ ']' ∧ c ≠ ',' ∧ c ≠ '}' := by
  rcases h with rfl | rfl | rfl | rfl | rfl | rfl <;> decide

theorem opening_pretty (i : Nat) (j : Json) (h : NoNumber j) : ∃ c t, pretty i j = c :: t ∧ Opening c := by
  unfold Opening
  match j, h with
  | .null, _ => exact ⟨_, _, by rw [pretty], by simp⟩
  | .bool true, _ => exact ⟨_, _, by rw [pretty], by simp⟩
  | .bool false, _ => exact ⟨_, _, by rw [pretty], by simp⟩
  | .str s, _ => exact ⟨_, _, by rw [pretty, quote], by simp⟩
  | .arr [], _ => exact ⟨_, _, by rw [pretty], by simp⟩
  | .arr (x :: xs), _ => exact ⟨_, _, by rw [pretty], by simp⟩
  | .obj [], _ => exact ⟨_, _, by rw [pretty], by simp⟩
  | .obj ((k, x) :: xs), _ => exact ⟨_, _, by rw [pretty], by simp⟩

theorem skip_pretty (i : Nat) (j : Json) (h : NoNumber j) (rest : List Char) :
    skip (pretty i j ++ rest) = pretty i j ++ rest := by
  obtain ⟨c, t, hp, ho⟩ := opening_pretty i j h
  rw [hp, List.cons_append, ho.skip]

theorem parseItems_first {n d : Nat} {t : List Char} {c : Char} {u : List Char} (h : skip t = c :: u) (ho : Opening c)
    {x : Json} {t1 : List Char} (h1 : parseValue n d (c :: u) = some (x, t1)) {xs : List Json} {t2 : List Char}
    (h2 : parseItems n d false t1 = some (xs, t2)) : parseItems (n + 1) d true t = some (x :: xs, t2) := by
  rw [parseItems, h]
  have := ho.ne
  split
  · rename_i e; injection e with e; exact absurd e this.1
  · rename_i e; injection e with e; exact absurd e this.2.1
  · rw [if_pos rfl, h1]; simp only [Option.bind_eq_bind, Option.bind_some]; rw [h2]; rfl

theorem parseItems_next {n d : Nat} {t : List Char} {c : Char} {u : List Char} (h : skip t = c :: u) (ho : Opening c)
    {x : Json} {t1 : List Char} (h1 : parseValue n d (c :: u) = some (x, t1)) {xs : List Json} {t2 : List Char}
    (h2 : parseItems n d false t1 = some (xs, t2)) : parseItems (n + 1) d false (',' :: t) = some (x :: xs, t2) := by
  rw [parseItems, show skip (',' :: t) = ',' :: t by simp [skip]]
  simp only [Bool.false_eq_true, if_false]
  rw [h]
  have := ho.ne
  split
  · rename_i e; injection e with e; exact absurd e this.1
  · rw [h1]; simp only [Option.bind_eq_bind, Option.bind_some]; rw [h2]; rfl

theorem parseItems_end {n d i : Nat} (rest : List Char) :
    parseItems (n + 1) d false ('\n' :: (indent i ++ ']' :: rest)) = some ([], rest) := by
  rw [parseItems, show skip ('\n' :: (indent i ++ ']' :: rest)) = skip (indent i ++ ']' :: rest) by simp [skip], skip_indent,
    show skip (']' :: rest) = ']' :: rest by simp [skip]]
  rfl

theorem parseField_ok {n d : Nat} {k t : List Char} {x : Json} {t1 : List Char}
    (h1 : parseValue n d (' ' :: t) = some (x, t1)) {xs : List (List Char × Json)} {t2 : List Char}
    (h2 : parseFields n d false t1 = some (xs, t2)) :
    parseField (n + 1) d (k.flatMap escape ++ '"' :: (':' :: ' ' :: t)) = some ((k, x) :: xs, t2) := by
  rw [parseField, parseString_quote]
  simp only [Option.bind_eq_bind, Option.bind_some]
  rw [show skip (':' :: ' ' :: t) = ':' :: ' ' :: t by simp [skip]]
  simp only
  rw [h1]; simp only [Option.bind_some]; rw [h2]; rfl

theorem parseFields_end {n d i : Nat} (rest : List Char) :
    parseFields (n + 1) d false ('\n' :: (indent i ++ '}' :: rest)) = some ([], rest) := by
  rw [parseFields, show skip ('\n' :: (indent i ++ '}' :: rest)) = skip (indent i ++ '}' :: rest) by simp [skip], skip_indent,
    show skip ('}' :: rest) = '}' :: rest by simp [skip]]
  rfl

theorem parseValue_skip {n d : Nat} {t t' : List Char} (h : skip t = skip t') : parseValue n d t = parseValue n d t' := by
  cases n with
  | zero => rw [parseValue, parseValue]
  | succ n => rw [parseValue, parseValue, h]

theorem cost_pos (j : Json) : 1 ≤ cost j := by cases j <;> simp [cost]

theorem skip_line {c : Char} {u t : List Char} (h : t = c :: u) (ho : Opening c) (i : Nat) (rest : List Char) :
    skip ('\n' :: (indent i ++ (t ++ rest))) = c :: (u ++ rest) := by
  rw [show ∀ t, skip ('\n' :: t) = skip t from fun t => by simp [skip], skip_indent, h, List.cons_append, ho.skip]

mutual

theorem parseValue_pretty (j : Json) (h : NoNumber j) (i n d : Nat) (hn : cost j ≤ n) (hd : depth j < d) (rest : List Char) :
    parseValue n d (pretty i j ++ rest) = some (j, rest) := by
  obtain ⟨n, rfl⟩ : ∃ m, n = m + 1 := ⟨n - 1, by have := cost_pos j; omega⟩
  rw [parseValue, skip_pretty i j h]
  match j, h, hn, hd with
  | .null, _, _, _ => rw [pretty]; rfl
  | .bool true, _, _, _ => rw [pretty]; rfl
  | .bool false, _, _, _ => rw [pretty]; rfl
  | .str s, _, _, _ =>
    rw [pretty, quote]
    simp only [List.cons_append, List.append_assoc, List.nil_append]
    rw [parseString_quote]; rfl
  | .arr [], _, hn, hd =>
    rw [depth] at hd
    rw [cost, costItems] at hn
    obtain ⟨n, rfl⟩ : ∃ m, n = m + 1 := ⟨n - 1, by omega⟩
    rw [pretty]
    simp only [List.cons_append, List.nil_append]
    rw [if_neg (by omega), parseItems, show skip (']' :: rest) = ']' :: rest by simp [skip]]
    rfl
  | .arr (x :: xs), h, hn, hd =>
    rw [depth, depthItems] at hd
    rw [cost, costItems] at hn
    rw [NoNumber, NoNumberItems] at h
    obtain ⟨n, rfl⟩ : ∃ m, n = m + 1 := ⟨n - 1, by omega⟩
    obtain ⟨c, u, hc, ho⟩ := opening_pretty (i + 1) x h.1
    rw [pretty]
    simp only [List.cons_append, List.append_assoc, List.nil_append]
    have h1 := parseValue_pretty x h.1 (i + 1) n (d - 1) (by omega) (by omega)
      (prettyItems (i + 1) xs ++ '\n' :: (indent i ++ ']' :: rest))
    have h2 := parseItems_pretty xs h.2 (i + 1) n (d - 1) (by omega) (by omega) i rest
    have hs : skip ('\n' :: (indent (i + 1) ++ (pretty (i + 1) x ++ (prettyItems (i + 1) xs ++ '\n' :: (indent i ++ ']' :: rest))))) =
        c :: (u ++ (prettyItems (i + 1) xs ++ '\n' :: (indent i ++ ']' :: rest))) := by
      exact skip_line hc ho _ _
    rw [if_neg (by omega), parseItems_first hs ho (by rwa [hc] at h1) h2]
    rfl
  | .obj [], _, hn, hd =>
    rw [depth] at hd
    rw [cost, costFields] at hn
    obtain ⟨n, rfl⟩ : ∃ m, n = m + 1 := ⟨n - 1, by omega⟩
    rw [pretty]
    simp only [List.cons_append, List.nil_append]
    rw [if_neg (by omega), parseFields, show skip ('}' :: rest) = '}' :: rest by simp [skip]]
    rfl
  | .obj ((k, x) :: xs), h, hn, hd =>
    rw [depth, depthFields] at hd
    rw [cost, costFields] at hn
    rw [NoNumber, NoNumberFields] at h
    obtain ⟨n, rfl⟩ : ∃ m, n = m + 2 := ⟨n - 2, by omega⟩
    rw [pretty, quote]
    simp only [List.cons_append, List.append_assoc, List.nil_append]
    have h1 := parseValue_pretty x h.1 (i + 1) n (d - 1) (by omega) (by omega)
      (prettyFields (i + 1) xs ++ '\n' :: (indent i ++ '}' :: rest))
    have h2 := parseFields_pretty xs h.2 (i + 1) n (d - 1) (by omega) (by omega) i rest
    rw [if_neg (by omega), parseFields, show skip ('\n' :: (indent (i + 1) ++ '"' :: (k.flatMap escape ++
      '"' :: ':' :: ' ' :: (pretty (i + 1) x ++ (prettyFields (i + 1) xs ++ '\n' :: (indent i ++ '}' :: rest)))))) =
        skip (indent (i + 1) ++ '"' :: (k.flatMap escape ++
      '"' :: ':' :: ' ' :: (pretty (i + 1) x ++ (prettyFields (i + 1) xs ++ '\n' :: (indent i ++ '}' :: rest))))) by simp [skip],
      skip_indent, Opening.skip (by simp [Opening])]
    simp only [if_true]
    rw [parseField_ok ((parseValue_skip (by simp [skip])).trans h1) h2]
    rfl

theorem parseItems_pretty (xs : List Json) (h : NoNumberItems xs) (i n d : Nat) (hn : costItems xs ≤ n) (hd : depthItems xs < d)
    (i' : Nat) (rest : List Char) :
    parseItems n d false (prettyItems i xs ++ '\n' :: (indent i' ++ ']' :: rest)) = some (xs, rest) := by
  match xs, h, hn, hd with
  | [], _, hn, _ =>
    rw [costItems] at hn
    obtain ⟨n, rfl⟩ : ∃ m, n = m + 1 := ⟨n - 1, by omega⟩
    rw [prettyItems]
    exact parseItems_end rest
  | x :: xs, h, hn, hd =>
    rw [costItems] at hn
    rw [depthItems] at hd
    rw [NoNumberItems] at h
    obtain ⟨n, rfl⟩ : ∃ m, n = m + 1 := ⟨n - 1, by omega⟩
    obtain ⟨c, u, hc, ho⟩ := opening_pretty i x h.1
    rw [prettyItems]
    simp only [List.cons_append, List.append_assoc]
    have h1 := parseValue_pretty x h.1 i n d (by omega) (by omega) (prettyItems i xs ++ '\n' :: (indent i' ++ ']' :: rest))
    have h2 := parseItems_pretty xs h.2 i n d (by omega) (by omega) i' rest
    have hs : skip ('\n' :: (indent i ++ (pretty i x ++ (prettyItems i xs ++ '\n' :: (indent i' ++ ']' :: rest))))) =
        c :: (u ++ (prettyItems i xs ++ '\n' :: (indent i' ++ ']' :: rest))) := by
      exact skip_line hc ho _ _
    exact parseItems_next hs ho (by rwa [hc] at h1) h2

theorem parseFields_pretty (xs : List (List Char × Json)) (h : NoNumberFields xs) (i n d : Nat) (hn : costFields xs ≤ n)
    (hd : depthFields xs < d) (i' : Nat) (rest : List Char) :
    parseFields n d false (prettyFields i xs ++ '\n' :: (indent i' ++ '}' :: rest)) = some (xs, rest) := by
  match xs, h, hn, hd with
  | [], _, hn, _ =>
    rw [costFields] at hn
    obtain ⟨n, rfl⟩ : ∃ m, n = m + 1 := ⟨n - 1, by omega⟩
    rw [prettyFields]
    exact parseFields_end rest
  | (k, x) :: xs, h, hn, hd =>
    rw [costFields] at hn
    rw [depthFields] at hd
    rw [NoNumberFields] at h
    obtain ⟨n, rfl⟩ : ∃ m, n = m + 2 := ⟨n - 2, by omega⟩
    rw [prettyFields, quote]
    simp only [List.cons_append, List.append_assoc, List.nil_append]
    have h1 := parseValue_pretty x h.1 i n d (by omega) (by omega) (prettyFields i xs ++ '\n' :: (indent i' ++ '}' :: rest))
    have h2 := parseFields_pretty xs h.2 i n d (by omega) (by omega) i' rest
    rw [parseFields, show ∀ t, skip (',' :: t) = ',' :: t from fun t => by simp [skip]]
    simp only [Bool.false_eq_true, if_false]
    rw [show ∀ t, skip ('\n' :: t) = skip t from fun t => by simp [skip], skip_indent, Opening.skip (by simp [Opening])]
    simp only
    exact parseField_ok ((parseValue_skip (by simp [skip])).trans h1) h2

end

mutual

theorem cost_le (i : Nat) (j : Json) (h : NoNumber j) : cost j ≤ 2 * (pretty i j).length := by
  match j, h with
  | .null, _ => simp [cost, pretty]
  | .bool true, _ => simp [cost, pretty]
  | .bool false, _ => simp [cost, pretty]
  | .str s, _ => simp only [cost, pretty, quote, List.length_cons]; omega
  | .arr [], _ => rw [cost, costItems, pretty]; simp
  | .arr (x :: xs), h =>
    rw [NoNumber, NoNumberItems] at h
    have h1 := cost_le (i + 1) x h.1
    have h2 := costItems_le (i + 1) xs h.2
    rw [cost, costItems, pretty]
    simp only [List.length_cons, List.length_append, List.length_nil]
    omega
  | .obj [], _ => rw [cost, costFields, pretty]; simp
  | .obj ((k, x) :: xs), h =>
    rw [NoNumber, NoNumberFields] at h
    have h1 := cost_le (i + 1) x h.1
    have h2 := costFields_le (i + 1) xs h.2
    rw [cost, costFields, pretty]
    simp only [List.length_cons, List.length_append, List.length_nil]
    omega

theorem costItems_le (i : Nat) (xs : List Json) (h : NoNumberItems xs) : costItems xs ≤ 2 * (prettyItems i xs).length + 1 := by
  match xs, h with
  | [], _ => rw [costItems]; omega
  | x :: xs, h =>
    rw [NoNumberItems] at h
    have h1 := cost_le i x h.1
    have h2 := costItems_le i xs h.2
    rw [costItems, prettyItems]
    simp only [List.length_cons, List.length_append]
    omega

theorem costFields_le (i : Nat) (xs : List (List Char × Json)) (h : NoNumberFields xs) :
    costFields xs ≤ 2 * (prettyFields i xs).length + 1 := by
  match xs, h with
  | [], _ => rw [costFields]; omega
  | (k, x) :: xs, h =>
    rw [NoNumberFields] at h
    have h1 := cost_le i x h.1
    have h2 := costFields_le i xs h.2
    rw [costFields, prettyFields]
    simp only [List.length_cons, List.length_append]
    omega

end

theorem parse_pretty (j : Json) (h : NoNumber j) (hd : depth j ≤ 127) : parse (pretty 0 j) = some j := by
  have := parseValue_pretty j h 0 (2 * (pretty 0 j).length + 2) 128 (by have := cost_le 0 j h; omega) (by omega) []
  rw [List.append_nil] at this
  unfold parse
  rw [this]
  rfl

/-! ### Too deep -/

theorem parseItems_first_none {n d : Nat} {t : List Char} {c : Char} {u : List Char} (h : skip t = c :: u) (ho : Opening c)
    (h1 : parseValue n d (c :: u) = none ∨ ∃ x t1, parseValue n d (c :: u) = some (x, t1) ∧ parseItems n d false t1 = none) :
    parseItems (n + 1) d true t = none := by
  rw [parseItems, h]
  have := ho.ne
  split
  · rename_i e; injection e with e; exact absurd e this.1
  · rename_i e; injection e with e; exact absurd e this.2.1
  · rw [if_pos rfl]
    rcases h1 with h1 | ⟨x, t1, h1, h2⟩
    · rw [h1]; rfl
    · rw [h1]; simp only [Option.bind_eq_bind, Option.bind_some]; rw [h2]; rfl

theorem parseItems_next_none {n d : Nat} {t : List Char} {c : Char} {u : List Char} (h : skip t = c :: u) (ho : Opening c)
    (h1 : parseValue n d (c :: u) = none ∨ ∃ x t1, parseValue n d (c :: u) = some (x, t1) ∧ parseItems n d false t1 = none) :
    parseItems (n + 1) d false (',' :: t) = none := by
  rw [parseItems, show skip (',' :: t) = ',' :: t by simp [skip]]
  simp only [Bool.false_eq_true, if_false]
  rw [h]
  have := ho.ne
  split
  · rfl
  · rcases h1 with h1 | ⟨x, t1, h1, h2⟩
    · rw [h1]; rfl
    · rw [h1]; simp only [Option.bind_eq_bind, Option.bind_some]; rw [h2]; rfl

theorem parseField_none {n d : Nat} {k t : List Char}
    (h1 : parseValue n d (' ' :: t) = none ∨ ∃ x t1, parseValue n d (' ' :: t) = some (x, t1) ∧ parseFields n d false t1 = none) :
    parseField (n + 1) d (k.flatMap escape ++ '"' :: (':' :: ' ' :: t)) = none := by
  rw [parseField, parseString_quote]
  simp only [Option.bind_eq_bind, Option.bind_some]
  rw [show skip (':' :: ' ' :: t) = ':' :: ' ' :: t by simp [skip]]
  simp only
  rcases h1 with h1 | ⟨x, t1, h1, h2⟩
  · rw [h1]; rfl
  · rw [h1]; simp only [Option.bind_some]; rw [h2]; rfl

mutual

theorem parseValue_deep (j : Json) (h : NoNumber j) (i n d : Nat) (hn : cost j ≤ n) (hd : d ≤ depth j) (h0 : 1 ≤ d)
    (rest : List Char) : parseValue n d (pretty i j ++ rest) = none := by
  obtain ⟨n, rfl⟩ : ∃ m, n = m + 1 := ⟨n - 1, by have := cost_pos j; omega⟩
  rw [parseValue, skip_pretty i j h]
  match j, h, hn, hd with
  | .null, _, _, hd => simp [depth] at hd; omega
  | .bool true, _, _, hd => simp [depth] at hd; omega
  | .bool false, _, _, hd => simp [depth] at hd; omega
  | .str s, _, _, hd => simp [depth] at hd; omega
  | .arr [], _, hn, hd =>
    rw [depth, depthItems] at hd
    rw [pretty]
    simp only [List.cons_append, List.nil_append]
    rw [if_pos (by omega)]
  | .arr (x :: xs), h, hn, hd =>
    rw [depth, depthItems] at hd
    rw [cost, costItems] at hn
    rw [NoNumber, NoNumberItems] at h
    obtain ⟨n, rfl⟩ : ∃ m, n = m + 1 := ⟨n - 1, by omega⟩
    obtain ⟨c, u, hc, ho⟩ := opening_pretty (i + 1) x h.1
    rw [pretty]
    simp only [List.cons_append, List.append_assoc, List.nil_append]
    by_cases h1 : d ≤ 1
    · rw [if_pos h1]
    rw [if_neg h1, parseItems_first_none (skip_line hc ho _ _) ho]
    · rfl
    rw [← List.cons_append, ← hc]
    by_cases hx : d - 1 ≤ depth x
    · exact .inl (parseValue_deep x h.1 (i + 1) n (d - 1) (by omega) hx (by omega) _)
    · exact .inr ⟨_, _, parseValue_pretty x h.1 (i + 1) n (d - 1) (by omega) (by omega) _,
        parseItems_deep xs h.2 (i + 1) n (d - 1) (by omega) (by omega) (by omega) i rest⟩
  | .obj [], _, hn, hd =>
    rw [depth, depthFields] at hd
    rw [pretty]
    simp only [List.cons_append, List.nil_append]
    rw [if_pos (by omega)]
  | .obj ((k, x) :: xs), h, hn, hd =>
    rw [depth, depthFields] at hd
    rw [cost, costFields] at hn
    rw [NoNumber, NoNumberFields] at h
    obtain ⟨n, rfl⟩ : ∃ m, n = m + 2 := ⟨n - 2, by omega⟩
    rw [pretty, quote]
    simp only [List.cons_append, List.append_assoc, List.nil_append]
    by_cases h1 : d ≤ 1
    · rw [if_pos h1]
    rw [if_neg h1, parseFields, show ∀ t, skip ('\n' :: t) = skip t from fun t => by simp [skip], skip_indent,
      Opening.skip (by simp [Opening])]
    simp only [if_true]
    rw [parseField_none]
    · rfl
    rw [parseValue_skip (t' := pretty (i + 1) x ++ (prettyFields (i + 1) xs ++ '\n' :: (indent i ++ '}' :: rest))) (by simp [skip])]
    by_cases hx : d - 1 ≤ depth x
    · exact .inl (parseValue_deep x h.1 (i + 1) n (d - 1) (by omega) hx (by omega) _)
    · exact .inr ⟨_, _, parseValue_pretty x h.1 (i + 1) n (d - 1) (by omega) (by omega) _,
        parseFields_deep xs h.2 (i + 1) n (d - 1) (by omega) (by omega) (by omega) i rest⟩

theorem parseItems_deep (xs : List Json) (h : NoNumberItems xs) (i n d : Nat) (hn : costItems xs ≤ n) (hd : d ≤ depthItems xs)
    (h0 : 1 ≤ d) (i' : Nat) (rest : List Char) :
    parseItems n d false (prettyItems i xs ++ '\n' :: (indent i' ++ ']' :: rest)) = none := by
  match xs, h, hn, hd with
  | [], _, hn, hd => rw [depthItems] at hd; omega
  | x :: xs, h, hn, hd =>
    rw [costItems] at hn
    rw [depthItems] at hd
    rw [NoNumberItems] at h
    obtain ⟨n, rfl⟩ : ∃ m, n = m + 1 := ⟨n - 1, by omega⟩
    obtain ⟨c, u, hc, ho⟩ := opening_pretty i x h.1
    rw [prettyItems]
    simp only [List.cons_append, List.append_assoc]
    apply parseItems_next_none (skip_line hc ho _ _) ho
    rw [← List.cons_append, ← hc]
    by_cases hx : d ≤ depth x
    · exact .inl (parseValue_deep x h.1 i n d (by omega) hx h0 _)
    · exact .inr ⟨_, _, parseValue_pretty x h.1 i n d (by omega) (by omega) _,
        parseItems_deep xs h.2 i n d (by omega) (by omega) h0 i' rest⟩

theorem parseFields_deep (xs : List (List Char × Json)) (h : NoNumberFields xs) (i n d : Nat) (hn : costFields xs ≤ n)
    (hd : d ≤ depthFields xs) (h0 : 1 ≤ d) (i' : Nat) (rest : List Char) :
    parseFields n d false (prettyFields i xs ++ '\n' :: (indent i' ++ '}' :: rest)) = none := by
  match xs, h, hn, hd with
  | [], _, hn, hd => rw [depthFields] at hd; omega
  | (k, x) :: xs, h, hn, hd =>
    rw [costFields] at hn
    rw [depthFields] at hd
    rw [NoNumberFields] at h
    obtain ⟨n, rfl⟩ : ∃ m, n = m + 2 := ⟨n - 2, by omega⟩
    rw [prettyFields, quote]
    simp only [List.cons_append, List.append_assoc, List.nil_append]
    rw [parseFields, show ∀ t, skip (',' :: t) = ',' :: t from fun t => by simp [skip]]
    simp only [Bool.false_eq_true, if_false]
    rw [show ∀ t, skip ('\n' :: t) = skip t from fun t => by simp [skip], skip_indent, Opening.skip (by simp [Opening])]
    simp only
    apply parseField_none
    rw [parseValue_skip (t' := pretty i x ++ (prettyFields i xs ++ '\n' :: (indent i' ++ '}' :: rest))) (by simp [skip])]
    by_cases hx : d ≤ depth x
    · exact .inl (parseValue_deep x h.1 i n d (by omega) hx h0 _)
    · exact .inr ⟨_, _, parseValue_pretty x h.1 i n d (by omega) (by omega) _,
        parseFields_deep xs h.2 i n d (by omega) (by omega) h0 i' rest⟩

end

theorem parse_deep (j : Json) (h : NoNumber j) (hd : 128 ≤ depth j) : parse (pretty 0 j) = none := by
  have := parseValue_deep j h 0 (2 * (pretty 0 j).length + 2) 128 (by have := cost_le 0 j h; omega) hd (by omega) []
  rw [List.append_nil] at this
  unfold parse
  rw [this]

end Fawkes.Json
