import Verif.Lemmas.JsonReader
import Verif.Spec.JsonData
import Verif.Props.Json

/-!
# C91: which JSON texts are read, and as what
-/

open Fawkes Fawkes.Json Fawkes.Json.Grammar Fawkes.Json.Data Fawkes.Serde Fawkes.Groth16

namespace Fawkes.Props

/-- C91: a text is read as the value `j` if and only if it spells `j` in the grammar of RFC 8259 and `j` has at most 127 levels. -/
theorem C91_text (t : List Char) (j : Json) : Json.parse t = some j ↔ Text t j ∧ depth j ≤ 127 := parse_iff t j

/-- The grammar is unambiguous: a text spells at most one value, at any nesting. -/
theorem C91_unambiguous (t : List Char) (j j' : Json) (h : Text t j) (h' : Text t j') : j = j' := by
  have key : ∀ j, Text t j → ∀ d, depth j < d → ∃ rest, parseValue (2 * t.length) d t = some (j, rest) := by
    rintro j ⟨w, v, w', hw, hv, hw', rfl⟩ d hd
    have hf : Follow w' := by
      have := follow_ws hw' (t := []) (.inl rfl)
      rwa [List.append_nil] at this
    exact ⟨w', by rw [parseValue_ws hw, read_value hv _ d (by simp only [List.length_append]; omega) hd w' hf]⟩
  obtain ⟨r, h1⟩ := key j h (max (depth j) (depth j') + 1) (by omega)
  obtain ⟨r', h2⟩ := key j' h' (max (depth j) (depth j') + 1) (by omega)
  rw [h1] at h2
  injection h2 with h2; injection h2

/-! ### Numerals -/

theorem parseDigits_iff (s : List Char) (acc n : Nat) : Num.parseDigits acc s = some n ↔
    (∀ c ∈ s, c = '_' ∨ ('0' ≤ c ∧ c ≤ '9')) ∧
      n = s.foldl (fun n c => if '0' ≤ c ∧ c ≤ '9' then n * 10 + (c.toNat - 48) else n) acc := by
  induction s generalizing acc with
  | nil => simp [Num.parseDigits, eq_comm]
  | cons c s ih =>
    rw [Num.parseDigits]
    by_cases h : c = '_'
    · subst h
      rw [if_pos rfl, ih, List.foldl_cons, if_neg (by decide)]
      simp
    · rw [if_neg h]
      by_cases hd : '0' ≤ c ∧ c ≤ '9'
      · rw [if_pos hd, ih, List.foldl_cons, if_pos hd]
        simp only [List.forall_mem_cons, hd, and_self, or_true, true_and]
        rfl
      · rw [if_neg hd]
        simp [h, hd]

theorem parseBigUint_iff (s : List Char) (n : Nat) : Num.parseBigUint s = some n ↔ IsNumeral s n := by
  have key : ∀ u : List Char, (match u with
      | [] => none
      | '_' :: _ => none
      | _ => Num.parseDigits 0 u) = some n ↔
      ∃ d v, u = d :: v ∧ ('0' ≤ d ∧ d ≤ '9') ∧ (∀ c ∈ v, c = '_' ∨ ('0' ≤ c ∧ c ≤ '9')) ∧ n = value (d :: v) := by
    intro u
    split
    · simp
    · simp only [List.cons.injEq, reduceCtorEq, false_iff]
      rintro ⟨d, v, ⟨rfl, rfl⟩, h, -⟩
      exact absurd h (by decide)
    · next h1 h2 =>
      rw [parseDigits_iff]
      cases u with
      | nil => exact absurd rfl h1
      | cons d v =>
        have hd : d ≠ '_' := fun e => h2 v (by rw [e])
        constructor
        · rintro ⟨h, e⟩
          rw [List.forall_mem_cons] at h
          exact ⟨d, v, rfl, h.1.resolve_left hd, h.2, e⟩
        · rintro ⟨d', v', e, h, h', e'⟩
          injection e with e1 e2; subst e1 e2
          exact ⟨List.forall_mem_cons.2 ⟨.inr h, h'⟩, e'⟩
  have plus : ¬ ('0' ≤ '+' ∧ '+' ≤ '9') := by decide
  unfold Num.parseBigUint IsNumeral
  simp only
  refine (key _).trans ?_
  split
  · next t =>
    split
    · next t =>
      constructor
      · rintro ⟨d, v, e, h, -⟩
        injection e with e1 e2; subst e1
        exact absurd h plus
      · rintro ⟨sign, d, u, rfl | rfl, e, h, -⟩
        · injection e with e1 e2; subst e1
          exact absurd h plus
        · injection e with _ e; injection e with e1 e2; subst e1
          exact absurd h plus
    · constructor
      · rintro ⟨d, v, rfl, h⟩
        exact ⟨['+'], d, v, .inr rfl, rfl, h⟩
      · rintro ⟨sign, d, u, rfl | rfl, e, h⟩
        · injection e with e1 e2; subst e1
          exact absurd h.1 plus
        · injection e with _ e
          exact ⟨d, u, e, h⟩
  · next hs =>
    constructor
    · rintro ⟨d, v, rfl, h⟩
      exact ⟨[], d, v, .inl rfl, rfl, h⟩
    · rintro ⟨sign, d, u, rfl | rfl, e, h⟩
      · exact ⟨d, u, e, h⟩
      · exact absurd e (hs (d :: u))

variable {p : Nat} [hp : Fact (1 < p)]

/-- Reading a numeral never panics; the value is taken if it is below the modulus. -/
theorem deserialize_eq (ha : Aligned p) (s : List Char) : Num.serdeDeserialize p s =
    .ok (match Num.parseBigUint s with
      | none => none
      | some n => if n < p then some (n : ZMod p) else none) := by
  cases h : Num.parseBigUint s with
  | none => unfold Num.serdeDeserialize; rw [h]
  | some n =>
    have h2 := C50_accepts ha n
    unfold Num.serdeDeserialize at h2 ⊢
    rw [parse_decimal] at h2
    rw [h]
    exact h2

/-- C91 (and C50): a string is read as the field element `x` if and only if it is a numeral of its canonical representative; reading
never panics. -/
theorem C91_numeral (ha : Aligned p) (s : List Char) :
    (∃ o, Num.serdeDeserialize p s = .ok o) ∧ ∀ x : ZMod p, Num.serdeDeserialize p s = .ok (some x) ↔ IsNumeral s x.val := by
  have : NeZero p := ⟨by have := hp.out; omega⟩
  refine ⟨⟨_, deserialize_eq ha s⟩, fun x => ?_⟩
  rw [deserialize_eq ha, ← parseBigUint_iff]
  cases h : Num.parseBigUint s with
  | none => simp
  | some n =>
    simp only [Except.ok.injEq, Option.some.injEq]
    split
    · next hn =>
      rw [Option.some.injEq]
      constructor
      · rintro rfl; rw [ZMod.val_natCast_of_lt hn]
      · rintro rfl; rw [ZMod.natCast_zmod_val]
    · next hn =>
      simp only [reduceCtorEq, false_iff]
      rintro rfl
      exact hn (ZMod.val_lt x)

/-! ### Typed values -/

theorem numOf_iff (ha : Aligned p) (j : Json) (x : ZMod p) : numOf p j = some x ↔ IsNum j x := by
  unfold IsNum
  cases j with
  | str s =>
    have h := (C91_numeral ha s).2 x
    obtain ⟨o, ho⟩ := (C91_numeral ha s).1
    rw [numOf, ho]
    rw [ho] at h
    simp only [Except.ok.injEq] at h
    simp [h]
  | _ => simp [numOf]

theorem mapOption_iff {A : Type} {f : Json → Option A} {R : Json → A → Prop} (h : ∀ j a, f j = some a ↔ R j a) (js : List Json)
    (l : List A) : mapOption f js = some l ↔ List.Forall₂ R js l := by
  induction js generalizing l with
  | nil => cases l <;> simp [mapOption]
  | cons j js ih =>
    rw [mapOption]
    simp only [Option.bind_eq_bind, Option.bind_eq_some_iff]
    constructor
    · rintro ⟨a, h1, as, h2, e⟩
      injection e with e; subst e
      exact .cons ((h _ _).1 h1) ((ih _).1 h2)
    · rintro (_ | ⟨h1, h2⟩)
      exact ⟨_, (h _ _).2 h1, _, (ih _).2 h2, rfl⟩

theorem vecOf_iff {A : Type} {f : Json → Option A} {R : Json → A → Prop} (h : ∀ j a, f j = some a ↔ R j a) (j : Json) (l : List A) :
    vecOf f j = some l ↔ IsVec R j l := by
  unfold IsVec
  cases j with
  | arr js => simp [vecOf, mapOption_iff h]
  | _ => simp [vecOf]

theorem pairOf_iff {A B : Type} {f : Json → Option A} {R : Json → A → Prop} {g : Json → Option B} {S : Json → B → Prop}
    (h : ∀ j a, f j = some a ↔ R j a) (h' : ∀ j a, g j = some a ↔ S j a) (j : Json) (a : A) (b : B) :
    pairOf f g j = some (a, b) ↔ IsPair R S j a b := by
  unfold IsPair pairOf
  split
  · next x y =>
    simp only [Option.bind_eq_bind, Option.bind_eq_some_iff, Option.some.injEq, Prod.mk.injEq]
    constructor
    · rintro ⟨a', h1, b', h2, rfl, rfl⟩
      exact ⟨x, y, rfl, (h _ _).1 h1, (h' _ _).1 h2⟩
    · rintro ⟨x', y', e, h1, h2⟩
      injection e with e; injection e with e1 e; injection e with e2 _; subst e1 e2
      exact ⟨a, (h _ _).2 h1, b, (h' _ _).2 h2, rfl, rfl⟩
  · next hj =>
    simp only [reduceCtorEq, false_iff]
    rintro ⟨x, y, rfl, -⟩
    exact hj x y rfl

theorem g1Of_iff (ha : Aligned p) (j : Json) (d : G1PointData (ZMod p)) : g1Of p j = some d ↔ IsG1 j d := by
  unfold g1Of IsG1
  rw [← pairOf_iff (numOf_iff ha) (numOf_iff ha)]
  cases h : pairOf (numOf p) (numOf p) j with
  | none => simp
  | some x => obtain ⟨a, b⟩ := x; obtain ⟨c, e⟩ := d; simp

theorem g2Of_iff (ha : Aligned p) (j : Json) (d : G2PointData (ZMod p)) : g2Of p j = some d ↔ IsG2 j d := by
  have hn : ∀ (j : Json) (a : ZMod p × ZMod p), pairOf (numOf p) (numOf p) j = some a ↔ IsPair IsNum IsNum j a.1 a.2 :=
    fun j a => pairOf_iff (numOf_iff ha) (numOf_iff ha) j a.1 a.2
  unfold g2Of IsG2
  rw [← pairOf_iff hn hn]
  cases h : pairOf (pairOf (numOf p) (numOf p)) (pairOf (numOf p) (numOf p)) j with
  | none => simp
  | some x => obtain ⟨a, b⟩ := x; obtain ⟨c, e⟩ := d; simp

theorem field_iff (name : List Char) (l : List (List Char × Json)) (j : Json) : field name l = some j ↔ Member name l j := by
  have hnil : ∀ l : List (List Char × Json), l.filter (fun x => decide (x.1 = name)) = [] ↔ ∀ x ∈ l, x.1 ≠ name := by
    intro l
    rw [List.filter_eq_nil_iff]
    simp
  have key : ∀ l : List (List Char × Json), (∃ k, l.filter (fun x => decide (x.1 = name)) = [(k, j)]) ↔ Member name l j := by
    intro l
    unfold Member
    constructor
    · rintro ⟨k, h⟩
      obtain ⟨l1, l2, rfl, h1, h2⟩ := List.filter_eq_cons_iff.1 h
      obtain ⟨hk, h2⟩ := h2
      simp only [decide_eq_true_eq] at hk
      subst hk
      exact ⟨l1, l2, rfl, by simpa using h1, (hnil _).1 h2⟩
    · rintro ⟨l1, l2, rfl, h1, h2⟩
      refine ⟨name, ?_⟩
      rw [List.filter_append, (hnil l1).2 h1, List.filter_cons_of_pos (by simp), (hnil l2).2 h2]
      rfl
  rw [← key]
  unfold field
  split
  · next k j' h =>
    rw [h]
    simp
  · next h =>
    simp only [reduceCtorEq, false_iff]
    rintro ⟨k, e⟩
    exact h k j e

theorem proofOf_iff (ha : Aligned p) (j : Json) (d : ProofData (ZMod p)) : Serde.proofOf p j = some d ↔ IsProof j d := by
  unfold IsProof Serde.proofOf
  split
  · next l =>
    simp only [Option.bind_eq_bind, Option.bind_eq_some_iff, Option.some.injEq, field_iff, g1Of_iff ha, g2Of_iff ha]
    constructor
    · rintro ⟨a, h1, b, h2, c, h3, a', h4, b', h5, c', h6, rfl⟩
      exact ⟨a, b, c, .inl ⟨l, rfl, h1, h2, h3⟩, h4, h5, h6⟩
    · rintro ⟨a, b, c, ⟨l', e, h1, h2, h3⟩ | e, h4, h5, h6⟩
      · injection e with e; subst e
        exact ⟨a, h1, b, h2, c, h3, _, h4, _, h5, _, h6, rfl⟩
      · exact absurd e (by simp)
  · next x y z =>
    simp only [Option.bind_eq_bind, Option.bind_eq_some_iff, Option.some.injEq, g1Of_iff ha, g2Of_iff ha]
    constructor
    · rintro ⟨a', h4, b', h5, c', h6, rfl⟩
      exact ⟨x, y, z, .inr rfl, h4, h5, h6⟩
    · rintro ⟨a, b, c, ⟨l', e, -⟩ | e, h4, h5, h6⟩
      · exact absurd e (by simp)
      · injection e with e; injection e with e1 e; injection e with e2 e; injection e with e3 _; subst e1 e2 e3
        exact ⟨_, h4, _, h5, _, h6, rfl⟩
  · next h1 h2 =>
    simp only [reduceCtorEq, false_iff]
    rintro ⟨a, b, c, ⟨l', rfl, -⟩ | rfl, -⟩
    · exact h1 l' rfl
    · exact h2 a b c rfl

theorem vkOf_iff (ha : Aligned p) (j : Json) (d : VKData (ZMod p)) : vkOf p j = some d ↔ IsVK j d := by
  unfold IsVK vkOf
  split
  · next l =>
    simp only [Option.bind_eq_bind, Option.bind_eq_some_iff, Option.some.injEq, field_iff, g1Of_iff ha, g2Of_iff ha, vecOf_iff (g1Of_iff ha)]
    constructor
    · rintro ⟨a, h1, b, h2, c, h3, e, h4, f, h5, a', k1, b', k2, c', k3, e', k4, f', k5, rfl⟩
      exact ⟨a, b, c, e, f, .inl ⟨l, rfl, h1, h2, h3, h4, h5⟩, k1, k2, k3, k4, k5⟩
    · rintro ⟨a, b, c, e, f, ⟨l', eq, h1, h2, h3, h4, h5⟩ | eq, k1, k2, k3, k4, k5⟩
      · injection eq with eq; subst eq
        exact ⟨a, h1, b, h2, c, h3, e, h4, f, h5, _, k1, _, k2, _, k3, _, k4, _, k5, rfl⟩
      · exact absurd eq (by simp)
  · next x y z u v =>
    simp only [Option.bind_eq_bind, Option.bind_eq_some_iff, Option.some.injEq, g1Of_iff ha, g2Of_iff ha, vecOf_iff (g1Of_iff ha)]
    constructor
    · rintro ⟨a', k1, b', k2, c', k3, e', k4, f', k5, rfl⟩
      exact ⟨x, y, z, u, v, .inr rfl, k1, k2, k3, k4, k5⟩
    · rintro ⟨a, b, c, e, f, ⟨l', eq, -⟩ | eq, k1, k2, k3, k4, k5⟩
      · exact absurd eq (by simp)
      · injection eq with eq; injection eq with e1 eq; injection eq with e2 eq; injection eq with e3 eq; injection eq with e4 eq
        injection eq with e5 _; subst e1 e2 e3 e4 e5
        exact ⟨_, k1, _, k2, _, k3, _, k4, _, k5, rfl⟩
  · next h1 h2 =>
    simp only [reduceCtorEq, false_iff]
    rintro ⟨a, b, c, e, f, ⟨l', rfl, -⟩ | rfl, -⟩
    · exact h1 l' rfl
    · exact h2 a b c e f rfl

theorem oneOf_iff {A : Type} {f : Json → Option A} {R : Json → A → Prop} (h : ∀ j a, f j = some a ↔ R j a) (name : List Char)
    (j : Json) (v : A) : (match j with
      | .obj l => (field name l).bind f
      | .arr [j] => f j
      | _ => none) = some v ↔ ∃ x, ((∃ l, j = .obj l ∧ Member name l x) ∨ j = .arr [x]) ∧ R x v := by
  split
  · next l =>
    rw [Option.bind_eq_some_iff]
    constructor
    · rintro ⟨x, h1, h2⟩
      exact ⟨x, .inl ⟨l, rfl, (field_iff _ _ _).1 h1⟩, (h x v).1 h2⟩
    · rintro ⟨x, ⟨l', e, h1⟩ | e, h2⟩
      · injection e with e; subst e
        exact ⟨x, (field_iff _ _ _).2 h1, (h x v).2 h2⟩
      · exact absurd e (by simp)
  · next x =>
    constructor
    · intro h'
      exact ⟨x, .inr rfl, (h x v).1 h'⟩
    · rintro ⟨y, ⟨l', e, h1⟩ | e, h2⟩
      · exact absurd e (by simp)
      · injection e with e; injection e with e _; subst e
        exact (h _ v).2 h2
  · next h1 h2 =>
    simp only [reduceCtorEq, false_iff]
    rintro ⟨x, ⟨l', rfl, -⟩ | rfl, -⟩
    · exact h1 l' rfl
    · exact h2 x rfl

theorem moreOf_iff {A B : Type} {f : Json → Option A} {R : Json → A → Prop} {g : Json → Option B} {S : Json → B → Prop}
    (h : ∀ j a, f j = some a ↔ R j a) (h' : ∀ j a, g j = some a ↔ S j a) (name : List Char) (j : Json) (v1 : A) (v2 : B) :
    (match j with
      | .obj l => (f (.obj l)).bind fun u => ((field name l).bind g).map fun v => (u, v)
      | .arr l => (f (.arr l.dropLast)).bind fun u => (l.getLast?.bind g).map fun v => (u, v)
      | _ => none) = some (v1, v2) ↔ ∃ x, S x v2 ∧
      ((∃ l, j = .obj l ∧ Member name l x ∧ R j v1) ∨ ∃ l, j = .arr (l ++ [x]) ∧ R (.arr l) v1) := by
  split
  · next l =>
    simp only [Option.bind_eq_some_iff, Option.map_eq_some_iff, Prod.mk.injEq]
    constructor
    · rintro ⟨u, h1, w, ⟨x, h2, h3⟩, rfl, rfl⟩
      exact ⟨x, (h' _ _).1 h3, .inl ⟨l, rfl, (field_iff _ _ _).1 h2, (h _ _).1 h1⟩⟩
    · rintro ⟨x, h3, ⟨l', e, h2, h1⟩ | ⟨l', e, -⟩⟩
      · injection e with e; subst e
        exact ⟨v1, (h _ _).2 h1, v2, ⟨x, (field_iff _ _ _).2 h2, (h' _ _).2 h3⟩, rfl, rfl⟩
      · exact absurd e (by simp)
  · next l =>
    simp only [Option.bind_eq_some_iff, Option.map_eq_some_iff, Prod.mk.injEq]
    constructor
    · rintro ⟨u, h1, w, ⟨x, h2, h3⟩, rfl, rfl⟩
      refine ⟨x, (h' _ _).1 h3, .inr ⟨l.dropLast, ?_, (h _ _).1 h1⟩⟩
      rw [List.dropLast_append_getLast? x h2]
    · rintro ⟨x, h3, ⟨l', e, -⟩ | ⟨l', e, h1⟩⟩
      · exact absurd e (by simp)
      · injection e with e; subst e
        exact ⟨v1, by rw [List.dropLast_concat]; exact (h _ _).2 h1, v2, ⟨x, by simp, (h' _ _).2 h3⟩, rfl, rfl⟩
  · next h1 h2 =>
    simp only [reduceCtorEq, false_iff]
    rintro ⟨x, -, ⟨l', rfl, -⟩ | ⟨l', rfl, -⟩⟩
    · exact h1 l' rfl
    · exact h2 _ rfl

theorem layoutOf_iff (ha : Aligned p) (l : Layout) (j : Json) (v : l.ty.V (ZMod p)) : l.of p j = some v ↔ Is l j v := by
  induction l generalizing j with
  | num => exact numOf_iff ha j v
  | bool =>
    show (match j with
      | .bool b => some b
      | _ => none) = some v ↔ j = .bool v
    cases j with
    | bool b =>
      constructor
      · intro h; injection h with h; rw [h]
      · intro h; injection h with h; rw [h]
    | _ => simp
  | vec n a ih =>
    have h := vecOf_iff (f := a.of p) (R := Is a) (fun j v => ih j v) j v.items
    show (vecOf (a.of p) j).map (fun l => (⟨l⟩ : SizedVec _ n)) = some v ↔ IsVec (Is a) j v.items
    rw [← h]
    cases vecOf (a.of p) j with
    | none => simp
    | some x =>
      obtain ⟨y⟩ := v
      constructor
      · intro h; injection h with h; injection h with h; rw [h]
      · intro h; injection h with h; rw [h]; rfl
  | pair a b iha ihb =>
    exact pairOf_iff (f := a.of p) (R := Is a) (g := b.of p) (S := Is b) (fun j v => iha j v) (fun j v => ihb j v) j v.1 v.2
  | one name a ih => exact oneOf_iff (f := a.of p) (R := Is a) (fun j v => ih j v) name j v
  | more f name a ihf iha =>
    exact moreOf_iff (f := f.of p) (R := Is f) (g := a.of p) (S := Is a) (fun j v => ihf j v) (fun j v => iha j v) name j v.1 v.2

theorem ofText_iff {A : Type} {f : Json → Option A} {R : Json → A → Prop} (h : ∀ j a, f j = some a ↔ R j a) (t : List Char) (a : A) :
    ofText f t = some a ↔ ∃ j, Text t j ∧ depth j ≤ 127 ∧ R j a := by
  unfold ofText
  cases hp : Json.parse t with
  | none =>
    simp only [reduceCtorEq, false_iff]
    rintro ⟨j, h1, h2, -⟩
    rw [(C91_text t j).2 ⟨h1, h2⟩] at hp
    exact absurd hp (by simp)
  | some j =>
    obtain ⟨h1, h2⟩ := (C91_text t j).1 hp
    simp only [h]
    constructor
    · intro hr; exact ⟨j, h1, h2, hr⟩
    · rintro ⟨j', k1, -, hr⟩
      rw [C91_unambiguous t j j' h1 k1]; exact hr

/-- C91: a text is read as the verifying key `d` if and only if it spells a value that stands for `d`. -/
theorem C91_vk (ha : Aligned p) (t : List Char) (d : VKData (ZMod p)) :
    ofText (vkOf p) t = some d ↔ ∃ j, Text t j ∧ depth j ≤ 127 ∧ IsVK j d := ofText_iff (vkOf_iff ha) t d

/-- C91: the same for proofs. -/
theorem C91_proof (ha : Aligned p) (t : List Char) (d : ProofData (ZMod p)) :
    ofText (Serde.proofOf p) t = some d ↔ ∃ j, Text t j ∧ depth j ≤ 127 ∧ IsProof j d := ofText_iff (proofOf_iff ha) t d

/-- C91: the same for lists of public inputs. -/
theorem C91_inputs (ha : Aligned p) (t : List Char) (l : List (ZMod p)) :
    ofText (vecOf (numOf p)) t = some l ↔ ∃ j, Text t j ∧ depth j ≤ 127 ∧ IsVec IsNum j l := ofText_iff (vecOf_iff (numOf_iff ha)) t l

/-- C91: the same for the public and secret data of a circuit. -/
theorem C91_object (ha : Aligned p) (l l' : Layout) (t : List Char) (v : l.ty.V (ZMod p)) (v' : l'.ty.V (ZMod p)) :
    ofText (pairOf (l.of p) (l'.of p)) t = some (v, v') ↔ ∃ j, Text t j ∧ depth j ≤ 127 ∧ IsPair (Is l) (Is l') j v v' :=
  ofText_iff (R := fun j x => IsPair (Is l) (Is l') j x.1 x.2)
    (fun j x => pairOf_iff (f := l.of p) (R := Is l) (g := l'.of p) (S := Is l') (layoutOf_iff ha l) (layoutOf_iff ha l') j x.1 x.2)
    t (v, v')

/-! ### Examples -/

/-- A surrogate pair, a code, short escapes, numbers with fractions and exponents, white space everywhere. -/
example : Text (chars! " [ \"\\uD83D\\udE00\\u00e9\\n\" , -0.5e+10,\t{ \"a\" :\r\n{} } ]\n")
    (.arr [.str [Char.ofNat 0x1F600, 'é', '\n'], .num (chars! "-0.5e+10"), .obj [(['a'], .obj [])]]) :=
  ((C91_text _ _).1 (by with_unfolding_all rfl)).1

/-- Lone surrogates, leading zeros, a sign without digits, control characters, single quotes, trailing commas and second values spell
nothing. -/
example : ∀ t ∈ [chars! "\"\\uD83D\"", chars! "\"\\uDE00\"", chars! "01", chars! "-", chars! "1.", chars! "\"\n\"", chars! "'a'", chars! "[1,]",
    chars! "{}{}", chars! "{\"a\":1,}", chars! "", chars! "tru"], ∀ j, depth j ≤ 127 → ¬ Text t j := by
  intro t ht j hd h
  have hp := (C91_text t j).2 ⟨h, hd⟩
  have hn : (Json.parse t).isNone = true := by
    clear hp h; revert t
    decide +kernel
  rw [hp] at hn
  exact absurd hn (by simp)

/-- `+1_000` is a numeral of 1000; `_1`, `1.0`, `-1` and the empty string are not numerals. -/
example : IsNumeral (chars! "+1_000") 1000 ∧ ∀ s ∈ [chars! "_1", chars! "1.0", chars! "-1", chars! "", chars! "++1"], ∀ n, ¬ IsNumeral s n := by
  refine ⟨(parseBigUint_iff _ _).1 (by decide +kernel), fun s hs n h => ?_⟩
  have hp := (parseBigUint_iff s n).2 h
  fin_cases hs <;> revert hp <;> simp [Num.parseBigUint, Num.parseDigits]

/-- Public inputs on one line, and a list with a number that is not a string. -/
example : ofText (vecOf (numOf bnR)) (chars! "[\"007\",\"+1_0\"]") = some [7, 10] ∧
    ofText (vecOf (numOf bnR)) (chars! "[\"7\", 10]") = none := by decide +kernel

end Fawkes.Props
