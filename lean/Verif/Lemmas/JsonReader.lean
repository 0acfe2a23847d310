import Verif.Lemmas.JsonGrammar

/-!
# The reader accepts exactly the JSON grammar: values
-/

namespace Fawkes.Json.Grammar

/-- The first character of a value. -/
def Start (c : Char) : Prop :=
  c = '"' ∨ c = '[' ∨ c = '{' ∨ c = 'n' ∨ c = 't' ∨ c = 'f' ∨ c = '-' ∨ Digit c

theorem Start.ne {c : Char} (h : Start c) :
    c ≠ ' ' ∧ c ≠ '\n' ∧ c ≠ '\t' ∧ c ≠ '\r' ∧ c ≠ ']' ∧ c ≠ ',' ∧ c ≠ '}' := by
  rcases h with rfl | rfl | rfl | rfl | rfl | rfl | rfl | h <;> try decide
  refine ⟨?_, ?_, ?_, ?_, ?_, ?_, ?_⟩ <;> rintro rfl <;> revert h <;> unfold Digit <;> decide

theorem isNumber_start {t : List Char} (h : IsNumber t) : ∃ c u, t = c :: u ∧ (c = '-' ∨ Digit c) := by
  obtain ⟨sign, a, b, c, hs, ha, -, -, rfl⟩ := h
  rcases hs with rfl | rfl
  · rcases ha with rfl | ⟨d, u, rfl, hd, -⟩
    · exact ⟨'0', _, rfl, .inr (by unfold Digit; decide)⟩
    · exact ⟨d, _, rfl, .inr hd⟩
  · exact ⟨'-', _, rfl, .inl rfl⟩

theorem spells_start {v : List Char} {j : Json} (h : Spells v j) : ∃ c u, v = c :: u ∧ Start c := by
  cases h with
  | num h =>
    obtain ⟨c, u, e, h⟩ := isNumber_start h
    exact ⟨c, u, e, by unfold Start; tauto⟩
  | _ => exact ⟨_, _, rfl, by simp [Start]⟩

theorem skip_start {c : Char} (h : Start c) (u : List Char) : skip (c :: u) = c :: u := by
  obtain ⟨h1, h2, h3, h4, -⟩ := h.ne
  rw [skip, if_neg (by tauto)]

theorem skip_spells {w v : List Char} {j : Json} (hw : Ws w) (h : Spells v j) (rest : List Char) : skip (w ++ (v ++ rest)) = v ++ rest := by
  obtain ⟨c, u, rfl, hc⟩ := spells_start h
  rw [skip_ws hw, List.cons_append, skip_start hc]

theorem parseValue_skip' {n d : Nat} {t t' : List Char} (h : skip t = skip t') : parseValue n d t = parseValue n d t' := by
  cases n with
  | zero => rw [parseValue, parseValue]
  | succ n => rw [parseValue, parseValue, h]

theorem parseValue_ws {n d : Nat} {w : List Char} (hw : Ws w) (t : List Char) : parseValue n d (w ++ t) = parseValue n d t :=
  parseValue_skip' (skip_ws hw t)

theorem follow_ws {w : List Char} (hw : Ws w) {t : List Char} (ht : Follow t) : Follow (w ++ t) := by
  cases w with
  | nil => exact ht
  | cons c w =>
    refine .inr ⟨c, w ++ t, rfl, ?_⟩
    rcases hw c (by simp) with h | h | h | h <;> simp [h]

theorem follow_cons {c : Char} (h : c = ',' ∨ c = ']' ∨ c = '}') (t : List Char) : Follow (c :: t) :=
  .inr ⟨c, t, rfl, by tauto⟩

/-! ### Every text of the grammar is read -/

/-- Reading the first element, after white space. -/
theorem parseItems_first' {n d : Nat} {t : List Char} {c : Char} {u : List Char} (h : skip t = c :: u) (hc : Start c) :
    parseItems (n + 1) d true t = (do
      let (x, t) ← parseValue n d (c :: u)
      let (xs, t) ← parseItems n d false t
      some (x :: xs, t)) := by
  obtain ⟨-, -, -, -, h1, h2, -⟩ := hc.ne
  rw [parseItems, h]
  split
  · next e => injection e with e _; exact absurd e h1
  · next e => injection e with e _; exact absurd e h2
  · rfl

theorem parseItems_next' {n d : Nat} {w t : List Char} (hw : Ws w) {c : Char} {u : List Char} (h : skip t = c :: u) (hc : Start c) :
    parseItems (n + 1) d false (w ++ ',' :: t) = (do
      let (x, t) ← parseValue n d (c :: u)
      let (xs, t) ← parseItems n d false t
      some (x :: xs, t)) := by
  obtain ⟨-, -, -, -, h1, h2, -⟩ := hc.ne
  rw [parseItems, skip_ws hw, skip, if_neg (by decide)]
  simp only [Bool.false_eq_true, if_false]
  rw [h]
  split
  · next e => injection e with e _; exact absurd e h1
  · rfl

theorem parseItems_end' {n d : Nat} {w : List Char} (hw : Ws w) (first : Bool) (rest : List Char) :
    parseItems (n + 1) d first (w ++ ']' :: rest) = some ([], rest) := by
  rw [parseItems, skip_ws hw, skip, if_neg (by decide)]
  rfl

theorem parseFields_end' {n d : Nat} {w : List Char} (hw : Ws w) (first : Bool) (rest : List Char) :
    parseFields (n + 1) d first (w ++ '}' :: rest) = some ([], rest) := by
  rw [parseFields, skip_ws hw, skip, if_neg (by decide)]
  rfl

theorem parseFields_first' {n d : Nat} {w : List Char} (hw : Ws w) (t : List Char) :
    parseFields (n + 1) d true (w ++ '"' :: t) = parseField n d t := by
  rw [parseFields, skip_ws hw, skip, if_neg (by decide)]
  simp

theorem parseFields_next' {n d : Nat} {w w' : List Char} (hw : Ws w) (hw' : Ws w') (t : List Char) :
    parseFields (n + 1) d false (w ++ ',' :: (w' ++ '"' :: t)) = parseField n d t := by
  rw [parseFields, skip_ws hw, skip, if_neg (by decide)]
  simp only [Bool.false_eq_true, if_false]
  rw [skip_ws hw', skip, if_neg (by decide)]
  rfl

mutual

theorem read_value {v : List Char} {j : Json} (h : Spells v j) (n d : Nat) (hn : 2 * v.length ≤ n) (hd : depth j < d) (rest : List Char)
    (hr : Follow rest) : parseValue n d (v ++ rest) = some (j, rest) := by
  obtain ⟨m, rfl⟩ : ∃ m, n = m + 1 := by
    obtain ⟨c, u, rfl, -⟩ := spells_start h
    exact ⟨n - 1, by simp only [List.length_cons] at hn; omega⟩
  match h with
  | .null => rw [parseValue]; simp [skip]
  | .yes => rw [parseValue]; simp [skip]
  | .no => rw [parseValue]; simp [skip]
  | .num h =>
    obtain ⟨c, u, e, hc⟩ := isNumber_start h
    have hp := parseNumber_append h hr
    rw [parseValue]
    rw [e, List.cons_append] at hp ⊢
    rw [skip_start (by unfold Start; tauto)]
    have hne : c ≠ '"' ∧ c ≠ '[' ∧ c ≠ '{' ∧ c ≠ 'n' ∧ c ≠ 't' ∧ c ≠ 'f' := by
      rcases hc with rfl | hc
      · decide
      · refine ⟨?_, ?_, ?_, ?_, ?_, ?_⟩ <;> rintro rfl <;> revert hc <;> unfold Digit <;> decide
    obtain ⟨h1, h2, h3, h4, h5, h6⟩ := hne
    split
    · next e => injection e with e _; exact absurd e h1
    · next e => injection e with e _; exact absurd e h2
    · next e => injection e with e _; exact absurd e h3
    · next e => injection e with e _; exact absurd e h4
    · next e => injection e with e _; exact absurd e h5
    · next e => injection e with e _; exact absurd e h6
    · rw [hp]; rfl
  | .str (t := t) h =>
    rw [parseValue, List.cons_append, skip, if_neg (by decide)]
    simp only
    rw [List.append_assoc, List.singleton_append, parseString_spells h]
    rfl
  | .arrEmpty (w := w) hw =>
    simp only [depth, depthItems] at hd
    rw [parseValue, List.cons_append, skip, if_neg (by decide)]
    simp only
    rw [if_neg (by omega), List.append_assoc, List.singleton_append]
    obtain ⟨m', rfl⟩ : ∃ m', m = m' + 1 := ⟨m - 1, by simp at hn; omega⟩
    rw [parseItems_end' hw]
    rfl
  | .arr (t := t) (l := l) ht =>
    simp only [depth] at hd
    rw [parseValue, List.cons_append, skip, if_neg (by decide)]
    simp only
    rw [if_neg (by omega), List.append_assoc, List.singleton_append,
      (read_items ht m (d - 1) (by simp at hn; omega) (by omega) rest).1]
    rfl
  | .objEmpty (w := w) hw =>
    simp only [depth, depthFields] at hd
    rw [parseValue, List.cons_append, skip, if_neg (by decide)]
    simp only
    rw [if_neg (by omega), List.append_assoc, List.singleton_append]
    obtain ⟨m', rfl⟩ : ∃ m', m = m' + 1 := ⟨m - 1, by simp at hn; omega⟩
    rw [parseFields_end' hw]
    rfl
  | .obj (t := t) (l := l) ht =>
    simp only [depth] at hd
    rw [parseValue, List.cons_append, skip, if_neg (by decide)]
    simp only
    rw [if_neg (by omega), List.append_assoc, List.singleton_append,
      (read_fields ht m (d - 1) (by simp at hn; omega) (by omega) rest).1]
    rfl

theorem read_items {t : List Char} {l : List Json} (h : SpellsItems t l) (n d : Nat) (hn : 2 * t.length + 1 ≤ n)
    (hd : depthItems l < d) (rest : List Char) :
    parseItems n d true (t ++ ']' :: rest) = some (l, rest) ∧
    ∀ w, Ws w → parseItems n d false (w ++ ',' :: (t ++ ']' :: rest)) = some (l, rest) := by
  obtain ⟨m, rfl⟩ : ∃ m, n = m + 1 := ⟨n - 1, by omega⟩
  match h with
  | .one (w := w) (v := v) (w' := w') (x := x) hw hv hw' =>
    simp only [depthItems] at hd
    simp only [List.length_append] at hn
    obtain ⟨c, u, e, hc⟩ := spells_start hv
    have hl : 1 ≤ v.length := by rw [e]; simp
    obtain ⟨m', rfl⟩ : ∃ m', m = m' + 1 := ⟨m - 1, by omega⟩
    have h1 := read_value hv (m' + 1) d (by omega) (by omega) (w' ++ ']' :: rest) (follow_ws hw' (follow_cons (by simp) _))
    have hs := skip_spells hw hv (w' ++ ']' :: rest)
    have e2 : w ++ (v ++ w') ++ ']' :: rest = w ++ (v ++ (w' ++ ']' :: rest)) := by simp
    rw [e2]
    rw [show v ++ (w' ++ ']' :: rest) = c :: (u ++ (w' ++ ']' :: rest)) by rw [e]; rfl] at hs h1 ⊢
    constructor
    · rw [parseItems_first' hs hc, h1]
      simp only [Option.bind_eq_bind, Option.bind_some]
      rw [parseItems_end' hw']; rfl
    · intro w0 hw0
      rw [parseItems_next' hw0 hs hc, h1]
      simp only [Option.bind_eq_bind, Option.bind_some]
      rw [parseItems_end' hw']; rfl
  | .more (w := w) (v := v) (w' := w') (t := t') (x := x) (l := l') hw hv hw' ht =>
    simp only [depthItems] at hd
    simp only [List.length_append, List.length_cons] at hn
    obtain ⟨c, u, e, hc⟩ := spells_start hv
    have hl : 1 ≤ v.length := by rw [e]; simp
    have h1 := read_value hv m d (by omega) (by omega) (w' ++ ',' :: (t' ++ ']' :: rest)) (follow_ws hw' (follow_cons (by simp) _))
    have h2 := (read_items ht m d (by omega) (by omega) rest).2 w' hw'
    have hs := skip_spells hw hv (w' ++ ',' :: (t' ++ ']' :: rest))
    have e2 : w ++ (v ++ (w' ++ ',' :: t')) ++ ']' :: rest = w ++ (v ++ (w' ++ ',' :: (t' ++ ']' :: rest))) := by simp
    rw [e2]
    rw [show v ++ (w' ++ ',' :: (t' ++ ']' :: rest)) = c :: (u ++ (w' ++ ',' :: (t' ++ ']' :: rest))) by rw [e]; rfl] at hs h1 ⊢
    constructor
    · rw [parseItems_first' hs hc, h1]
      simp only [Option.bind_eq_bind, Option.bind_some]
      rw [h2]; rfl
    · intro w0 hw0
      rw [parseItems_next' hw0 hs hc, h1]
      simp only [Option.bind_eq_bind, Option.bind_some]
      rw [h2]; rfl

theorem read_fields {t : List Char} {l : List (List Char × Json)} (h : SpellsFields t l) (n d : Nat) (hn : 2 * t.length + 1 ≤ n)
    (hd : depthFields l < d) (rest : List Char) :
    parseFields n d true (t ++ '}' :: rest) = some (l, rest) ∧
    ∀ w, Ws w → parseFields n d false (w ++ ',' :: (t ++ '}' :: rest)) = some (l, rest) := by
  match h with
  | .one (w := w) (k := k) (w1 := w1) (w2 := w2) (v := v) (w' := w') (s := s) (x := x) hw hk hw1 hw2 hv hw' =>
    simp only [depthFields] at hd
    simp only [List.length_append, List.length_cons] at hn
    obtain ⟨m, rfl⟩ : ∃ m, n = m + 3 := ⟨n - 3, by omega⟩
    have h1 := read_value hv (m + 1) d (by omega) (by omega) (w' ++ '}' :: rest) (follow_ws hw' (follow_cons (by simp) _))
    have e2 : w ++ '"' :: (k ++ '"' :: (w1 ++ ':' :: (w2 ++ (v ++ w')))) ++ '}' :: rest =
        w ++ '"' :: (k ++ '"' :: (w1 ++ ':' :: (w2 ++ (v ++ (w' ++ '}' :: rest))))) := by simp
    rw [e2]
    have key : parseField (m + 2) d (k ++ '"' :: (w1 ++ ':' :: (w2 ++ (v ++ (w' ++ '}' :: rest))))) = some ([(s, x)], rest) := by
      rw [parseField, parseString_spells hk]
      simp only [Option.bind_eq_bind, Option.bind_some]
      rw [skip_ws hw1, skip, if_neg (by decide)]
      simp only
      rw [parseValue_ws hw2, h1]
      simp only [Option.bind_some]
      rw [parseFields_end' hw']; rfl
    exact ⟨by rw [parseFields_first' hw, key], fun w0 hw0 => by rw [parseFields_next' hw0 hw, key]⟩
  | .more (w := w) (k := k) (w1 := w1) (w2 := w2) (v := v) (w' := w') (s := s) (t := t') (x := x) (l := l') hw hk hw1 hw2 hv hw' ht =>
    simp only [depthFields] at hd
    simp only [List.length_append, List.length_cons] at hn
    obtain ⟨m, rfl⟩ : ∃ m, n = m + 3 := ⟨n - 3, by omega⟩
    have h1 := read_value hv (m + 1) d (by omega) (by omega) (w' ++ ',' :: (t' ++ '}' :: rest)) (follow_ws hw' (follow_cons (by simp) _))
    have h2 := (read_fields ht (m + 1) d (by omega) (by omega) rest).2 w' hw'
    have e2 : w ++ '"' :: (k ++ '"' :: (w1 ++ ':' :: (w2 ++ (v ++ (w' ++ ',' :: t'))))) ++ '}' :: rest =
        w ++ '"' :: (k ++ '"' :: (w1 ++ ':' :: (w2 ++ (v ++ (w' ++ ',' :: (t' ++ '}' :: rest)))))) := by simp
    rw [e2]
    have key : parseField (m + 2) d (k ++ '"' :: (w1 ++ ':' :: (w2 ++ (v ++ (w' ++ ',' :: (t' ++ '}' :: rest)))))) =
        some ((s, x) :: l', rest) := by
      rw [parseField, parseString_spells hk]
      simp only [Option.bind_eq_bind, Option.bind_some]
      rw [skip_ws hw1, skip, if_neg (by decide)]
      simp only
      rw [parseValue_ws hw2, h1]
      simp only [Option.bind_some]
      rw [h2]; rfl
    exact ⟨by rw [parseFields_first' hw, key], fun w0 hw0 => by rw [parseFields_next' hw0 hw, key]⟩

end

/-! ### What is read is in the grammar -/

theorem SpellsItems.ws {t : List Char} {l : List Json} (h : SpellsItems t l) {w : List Char} (hw : Ws w) : SpellsItems (w ++ t) l := by
  cases h with
  | one hw0 hv hw' => rw [← List.append_assoc]; exact .one (hw.append hw0) hv hw'
  | more hw0 hv hw' ht => rw [← List.append_assoc]; exact .more (hw.append hw0) hv hw' ht

theorem SpellsFields.ws {t : List Char} {l : List (List Char × Json)} (h : SpellsFields t l) {w : List Char} (hw : Ws w) :
    SpellsFields (w ++ t) l := by
  cases h with
  | one hw0 hk h1 h2 hv hw' => rw [← List.append_assoc]; exact .one (hw.append hw0) hk h1 h2 hv hw'
  | more hw0 hk h1 h2 hv hw' ht => rw [← List.append_assoc]; exact .more (hw.append hw0) hk h1 h2 hv hw' ht

/-- What has been read of an array: nothing but white space, or elements; after the first element with a comma before them. -/
def ItemsRead (first : Bool) (t : List Char) (l : List Json) (rest : List Char) : Prop :=
  (∃ w, Ws w ∧ l = [] ∧ t = w ++ ']' :: rest) ∨
  if first then ∃ u, SpellsItems u l ∧ t = u ++ ']' :: rest
  else ∃ w u, Ws w ∧ SpellsItems u l ∧ t = w ++ ',' :: (u ++ ']' :: rest)

/-- The same for objects. -/
def FieldsRead (first : Bool) (t : List Char) (l : List (List Char × Json)) (rest : List Char) : Prop :=
  (∃ w, Ws w ∧ l = [] ∧ t = w ++ '}' :: rest) ∨
  if first then ∃ u, SpellsFields u l ∧ t = u ++ '}' :: rest
  else ∃ w u, Ws w ∧ SpellsFields u l ∧ t = w ++ ',' :: (u ++ '}' :: rest)

/-- An element and what comes after it. -/
theorem items_cons {w v t' : List Char} {x : Json} {l : List Json} {rest : List Char} (hw : Ws w) (hv : Spells v x)
    (h : ItemsRead false t' l rest) : ∃ u, SpellsItems u (x :: l) ∧ w ++ (v ++ t') = u ++ ']' :: rest := by
  rcases h with ⟨w', hw', rfl, rfl⟩ | h
  · exact ⟨_, .one hw hv hw', by simp⟩
  · simp only [Bool.false_eq_true, if_false] at h
    obtain ⟨w', u, hw', hu, rfl⟩ := h
    exact ⟨_, .more hw hv hw' hu, by simp⟩

theorem fields_cons {k w1 w2 v t' s : List Char} {x : Json} {l : List (List Char × Json)} {rest : List Char} (hk : SpellsString k s)
    (h1 : Ws w1) (h2 : Ws w2) (hv : Spells v x) (h : FieldsRead false t' l rest) :
    ∃ u, SpellsFields u ((s, x) :: l) ∧ '"' :: (k ++ '"' :: (w1 ++ ':' :: (w2 ++ (v ++ t')))) = u ++ '}' :: rest := by
  rcases h with ⟨w', hw', rfl, rfl⟩ | h
  · exact ⟨_, .one (w := []) ws_nil hk h1 h2 hv hw', by simp⟩
  · simp only [Bool.false_eq_true, if_false] at h
    obtain ⟨w', u, hw', hu, rfl⟩ := h
    exact ⟨_, .more (w := []) ws_nil hk h1 h2 hv hw' hu, by simp⟩

theorem read_sound (n : Nat) :
    (∀ (d : Nat) (t : List Char) (j : Json) (rest : List Char), 1 ≤ d → parseValue n d t = some (j, rest) →
      ∃ w v, Ws w ∧ Spells v j ∧ t = w ++ (v ++ rest) ∧ depth j < d) ∧
    (∀ (d : Nat) (first : Bool) (t : List Char) (l : List Json) (rest : List Char), 1 ≤ d → parseItems n d first t = some (l, rest) →
      ItemsRead first t l rest ∧ depthItems l < d) ∧
    (∀ (d : Nat) (first : Bool) (t : List Char) (l : List (List Char × Json)) (rest : List Char), 1 ≤ d →
      parseFields n d first t = some (l, rest) → FieldsRead first t l rest ∧ depthFields l < d) ∧
    (∀ (d : Nat) (t : List Char) (l : List (List Char × Json)) (rest : List Char), 1 ≤ d → parseField n d t = some (l, rest) →
      (∃ u, SpellsFields u l ∧ '"' :: t = u ++ '}' :: rest) ∧ depthFields l < d) := by
  induction n with
  | zero =>
    refine ⟨?_, ?_, ?_, ?_⟩
    · intro d t j rest _ h; rw [parseValue] at h; cases h
    · intro d f t l rest _ h; rw [parseItems] at h; cases h
    · intro d f t l rest _ h; rw [parseFields] at h; cases h
    · intro d t l rest _ h; rw [parseField] at h; cases h
  | succ n ih =>
    obtain ⟨ihv, ihi, ihf, ihm⟩ := ih
    -- an element and the elements after it
    have hitems : ∀ (d : Nat) (t : List Char) (l : List Json) (rest : List Char), 1 ≤ d →
        (do let (x, t) ← parseValue n d t
            let (xs, t) ← parseItems n d false t
            some (x :: xs, t)) = some (l, rest) →
        (∃ u, SpellsItems u l ∧ t = u ++ ']' :: rest) ∧ depthItems l < d := by
      intro d t l rest hd h
      simp only [Option.bind_eq_bind, Option.bind_eq_some_iff, Prod.exists] at h
      obtain ⟨x, t1, h1, xs, t2, h2, h⟩ := h
      injection h with h; injection h with e1 e2; subst e1 e2
      obtain ⟨w, v, hw, hv, rfl, hdx⟩ := ihv d _ _ _ hd h1
      obtain ⟨hi, hdi⟩ := ihi d _ _ _ _ hd h2
      exact ⟨items_cons hw hv hi, by simp only [depthItems]; omega⟩
    refine ⟨?_, ?_, ?_, ?_⟩
    · intro d t j rest hd h
      obtain ⟨w, hw, ht⟩ := skip_spec t
      rw [parseValue] at h
      have key : ∀ v, Spells v j → skip t = v ++ rest → depth j < d → ∃ w v, Ws w ∧ Spells v j ∧ t = w ++ (v ++ rest) ∧ depth j < d :=
        fun v hv e hdj => ⟨w, v, hw, hv, by rw [← e]; exact ht, hdj⟩
      split at h
      · next t' e =>
        simp only [Option.bind_eq_bind, Option.bind_eq_some_iff, Prod.exists] at h
        obtain ⟨s, t1, h1, h⟩ := h
        injection h with h; injection h with e1 e2; subst e1 e2
        obtain ⟨u, hu, rfl⟩ := spells_parseString _ _ _ _ le_rfl h1
        exact key _ (.str hu) (by rw [e]; simp) (by simp only [depth]; omega)
      · next t' e =>
        split at h
        · cases h
        · simp only [Option.bind_eq_bind, Option.bind_eq_some_iff, Prod.exists] at h
          obtain ⟨l, t1, h1, h⟩ := h
          injection h with h; injection h with e1 e2; subst e1 e2
          obtain ⟨hi, hdi⟩ := ihi (d - 1) _ _ _ _ (by omega) h1
          rcases hi with ⟨w', hw', rfl, rfl⟩ | hi
          · exact key _ (.arrEmpty hw') (by rw [e]; simp) (by simp only [depth, depthItems]; omega)
          · simp only [if_true] at hi
            obtain ⟨u, hu, rfl⟩ := hi
            exact key _ (.arr hu) (by rw [e]; simp) (by simp only [depth]; omega)
      · next t' e =>
        split at h
        · cases h
        · simp only [Option.bind_eq_bind, Option.bind_eq_some_iff, Prod.exists] at h
          obtain ⟨l, t1, h1, h⟩ := h
          injection h with h; injection h with e1 e2; subst e1 e2
          obtain ⟨hi, hdi⟩ := ihf (d - 1) _ _ _ _ (by omega) h1
          rcases hi with ⟨w', hw', rfl, rfl⟩ | hi
          · exact key _ (.objEmpty hw') (by rw [e]; simp) (by simp only [depth, depthFields]; omega)
          · simp only [if_true] at hi
            obtain ⟨u, hu, rfl⟩ := hi
            exact key _ (.obj hu) (by rw [e]; simp) (by simp only [depth]; omega)
      · next t' e =>
        injection h with h; injection h with e1 e2; subst e1 e2
        exact key _ .null e (by simp only [depth]; omega)
      · next t' e =>
        injection h with h; injection h with e1 e2; subst e1 e2
        exact key _ .yes e (by simp only [depth]; omega)
      · next t' e =>
        injection h with h; injection h with e1 e2; subst e1 e2
        exact key _ .no e (by simp only [depth]; omega)
      · simp only [Option.bind_eq_bind, Option.bind_eq_some_iff, Prod.exists] at h
        obtain ⟨m, t1, h1, h⟩ := h
        injection h with h; injection h with e1 e2; subst e1 e2
        obtain ⟨e, hm⟩ := parseNumber_spec h1
        exact key _ (.num hm) e (by simp only [depth]; omega)
    · intro d first t l rest hd h
      obtain ⟨w, hw, ht⟩ := skip_spec t
      rw [parseItems] at h
      split at h
      · next t' e =>
        injection h with h; injection h with e1 e2; subst e1 e2
        exact ⟨.inl ⟨w, hw, rfl, by rw [← e]; exact ht⟩, by simp only [depthItems]; omega⟩
      · next t' e =>
        split at h
        · cases h
        · next hf =>
          have hf : first = false := by simpa using hf
          subst hf
          obtain ⟨w', hw', ht'⟩ := skip_spec t'
          split at h
          · cases h
          · obtain ⟨⟨u, hu, e'⟩, hdl⟩ := hitems d _ l rest hd h
            refine ⟨.inr ?_, hdl⟩
            simp only [Bool.false_eq_true, if_false]
            refine ⟨w, w' ++ u, hw, hu.ws hw', ?_⟩
            rw [ht, e, ht', e']; simp
      · split at h
        · next hf =>
          subst hf
          obtain ⟨⟨u, hu, e'⟩, hdl⟩ := hitems d _ l rest hd h
          refine ⟨.inr ?_, hdl⟩
          simp only [if_true]
          exact ⟨w ++ u, hu.ws hw, by rw [ht, e']; simp⟩
        · cases h
    · intro d first t l rest hd h
      obtain ⟨w, hw, ht⟩ := skip_spec t
      rw [parseFields] at h
      split at h
      · next t' e =>
        injection h with h; injection h with e1 e2; subst e1 e2
        exact ⟨.inl ⟨w, hw, rfl, by rw [← e]; exact ht⟩, by simp only [depthFields]; omega⟩
      · next t' e =>
        split at h
        · cases h
        · next hf =>
          have hf : first = false := by simpa using hf
          subst hf
          obtain ⟨w', hw', ht'⟩ := skip_spec t'
          split at h
          · next t'' e'' =>
            obtain ⟨⟨u, hu, e'⟩, hdl⟩ := ihm d _ l rest hd h
            refine ⟨.inr ?_, hdl⟩
            simp only [Bool.false_eq_true, if_false]
            refine ⟨w, w' ++ u, hw, hu.ws hw', ?_⟩
            rw [ht, e, ht', e'', e']; simp
          · cases h
      · next t' e =>
        split at h
        · next hf =>
          subst hf
          obtain ⟨⟨u, hu, e'⟩, hdl⟩ := ihm d _ l rest hd h
          refine ⟨.inr ?_, hdl⟩
          simp only [if_true]
          exact ⟨w ++ u, hu.ws hw, by rw [ht, e, e']; simp⟩
        · cases h
      · cases h
    · intro d t l rest hd h
      rw [parseField] at h
      simp only [Option.bind_eq_bind, Option.bind_eq_some_iff, Prod.exists] at h
      obtain ⟨s, t1, h1, h⟩ := h
      obtain ⟨k, hk, rfl⟩ := spells_parseString _ _ _ _ le_rfl h1
      obtain ⟨w1, hw1, ht1⟩ := skip_spec t1
      split at h
      · next t2 e =>
        simp only [Option.bind_eq_some_iff, Prod.exists] at h
        obtain ⟨x, t3, h3, xs, t4, h4, h⟩ := h
        injection h with h; injection h with e1 e2; subst e1 e2
        obtain ⟨w2, v, hw2, hv, rfl, hdx⟩ := ihv d _ _ _ hd h3
        obtain ⟨hf, hdf⟩ := ihf d _ _ _ _ hd h4
        obtain ⟨u, hu, e'⟩ := fields_cons hk hw1 hw2 hv hf
        refine ⟨⟨u, hu, ?_⟩, by simp only [depthFields]; omega⟩
        rw [← e', ht1, e]
      · cases h

/-- The reader accepts exactly the JSON texts with fewer than 128 levels, and reads what they say. -/
theorem parse_iff (t : List Char) (j : Json) : parse t = some j ↔ Text t j ∧ depth j ≤ 127 := by
  unfold parse
  constructor
  · intro h
    split at h
    · cases h
    · next j' rest hp =>
      split at h
      · next hs =>
        injection h with h; subst h
        obtain ⟨w, v, hw, hv, e, hd⟩ := (read_sound _).1 128 t j' rest (by omega) hp
        obtain ⟨w', hw', e'⟩ := skip_spec rest
        rw [hs, List.append_nil] at e'
        subst e'
        exact ⟨⟨w, v, rest, hw, hv, hw', e⟩, by omega⟩
      · cases h
  · rintro ⟨⟨w, v, w', hw, hv, hw', rfl⟩, hd⟩
    have hf : Follow w' := by
      have := follow_ws hw' (t := []) (.inl rfl)
      rwa [List.append_nil] at this
    rw [parseValue_ws hw, read_value hv _ 128 (by simp only [List.length_append]; omega) (by omega) w' hf]
    simp only
    rw [if_pos]
    have := skip_ws hw' []
    rw [List.append_nil] at this
    rw [this]; rfl

end Fawkes.Json.Grammar
