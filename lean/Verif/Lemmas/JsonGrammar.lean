import Verif.Spec.JsonGrammar
import Mathlib.Tactic.Linarith
import Mathlib.Tactic.IntervalCases

/-!
# The reader accepts exactly the JSON grammar
-/

namespace Fawkes.Json.Grammar

/-! ### White space -/

theorem skip_ws {w : List Char} (hw : Ws w) (t : List Char) : skip (w ++ t) = skip t := by
  induction w with
  | nil => rfl
  | cons c w ih =>
    have h : c = ' ' ∨ c = '\n' ∨ c = '\t' ∨ c = '\r' := by
      rcases hw c (by simp) with h | h | h | h <;> simp [h]
    rw [List.cons_append, skip, if_pos h, ih fun d hd => hw d (by simp [hd])]

theorem skip_spec (t : List Char) : ∃ w, Ws w ∧ t = w ++ skip t := by
  induction t with
  | nil => exact ⟨[], by simp [Ws], rfl⟩
  | cons c t ih =>
    rw [skip]
    split
    · next h =>
      obtain ⟨w, hw, e⟩ := ih
      refine ⟨c :: w, ?_, by rw [List.cons_append, ← e]⟩
      intro d hd
      rcases List.mem_cons.1 hd with rfl | hd
      · rcases h with h | h | h | h <;> simp [h]
      · exact hw d hd
    · exact ⟨[], by simp [Ws], rfl⟩

theorem Ws.append {w w' : List Char} (h : Ws w) (h' : Ws w') : Ws (w ++ w') := by
  intro c hc
  rcases List.mem_append.1 hc with hc | hc
  exacts [h c hc, h' c hc]

theorem ws_nil : Ws [] := by simp [Ws]

/-! ### Strings -/

theorem hexVal_iff {c : Char} {n : Nat} : hexVal c = some n ↔ Hex c n := by
  constructor
  · unfold hexVal
    have key : ∀ (lo hi : Char), lo ≤ c → c ≤ hi → lo.toNat ≤ c.toNat ∧ c.toNat ≤ hi.toNat := fun lo hi h1 h2 => ⟨h1, h2⟩
    have hc : c = Char.ofNat c.toNat := c.ofNat_toNat.symm
    split_ifs with h1 h2 h3
    · intro h
      obtain ⟨a, b⟩ := key _ _ h1.1 h1.2
      rw [show '0'.toNat = 48 from rfl] at a; rw [show '9'.toNat = 57 from rfl] at b
      injection h with h; subst h
      generalize c.toNat = m at *
      subst hc
      interval_cases m <;> exact .inl rfl
    · intro h
      obtain ⟨a, b⟩ := key _ _ h2.1 h2.2
      rw [show 'a'.toNat = 97 from rfl] at a; rw [show 'f'.toNat = 102 from rfl] at b
      injection h with h; subst h
      generalize c.toNat = m at *
      subst hc
      interval_cases m <;> exact .inl rfl
    · intro h
      obtain ⟨a, b⟩ := key _ _ h3.1 h3.2
      rw [show 'A'.toNat = 65 from rfl] at a; rw [show 'F'.toNat = 70 from rfl] at b
      injection h with h; subst h
      generalize c.toNat = m at *
      subst hc
      interval_cases m <;> exact .inr rfl
    · intro h; cases h
  · intro h
    have hn : n < 16 := by
      rcases h with h | h <;> exact (List.getElem?_eq_some_iff.1 h).1
    rcases h with h | h <;> interval_cases n <;> (injection h with h; subst h; decide)

theorem hex4_iff {a b c d : Char} {n : Nat} : hex4 a b c d = some n ↔ Hex4 a b c d n := by
  unfold hex4 Hex4
  simp only [Option.bind_eq_bind, Option.bind_eq_some_iff, hexVal_iff]
  constructor
  · rintro ⟨x, hx, y, hy, z, hz, w, hw, e⟩
    injection e with e
    exact ⟨x, y, z, w, hx, hy, hz, hw, by omega⟩
  · rintro ⟨x, y, z, w, hx, hy, hz, hw, e⟩
    exact ⟨x, hx, y, hy, z, hz, w, hw, by rw [e]; congr 1; omega⟩

theorem Hex.lt {c : Char} {n : Nat} (h : Hex c n) : n < 16 := by
  rcases h with h | h <;> exact (List.getElem?_eq_some_iff.1 h).1

theorem Hex4.lt {a b c d : Char} {n : Nat} (h : Hex4 a b c d n) : n < 65536 := by
  obtain ⟨x, y, z, w, hx, hy, hz, hw, rfl⟩ := h
  have := hx.lt; have := hy.lt; have := hz.lt; have := hw.lt
  omega

theorem simpleEscape_iff {e c : Char} : simpleEscape e = some c ↔ (e, c) ∈ [('"', '"'), ('\\', '\\'), ('/', '/'), ('b', '\x08'),
    ('f', '\x0c'), ('n', '\n'), ('r', '\r'), ('t', '\t')] := by
  constructor
  · unfold simpleEscape
    split_ifs <;> intro h <;> first | (injection h with h; subst h; subst e; decide) | cases h
  · intro h
    simp only [List.mem_cons, List.not_mem_nil, or_false, Prod.mk.injEq] at h
    rcases h with h | h | h | h | h | h | h | h <;> rw [h.1, h.2] <;> rfl

theorem toNat_valid (c : Char) : c.toNat < 0xD800 ∨ 0xDFFF < c.toNat ∧ c.toNat < 0x110000 := c.valid

theorem toNat_ofNat {n : Nat} (h : n < 0xD800 ∨ 0xDFFF < n ∧ n < 0x110000) : (Char.ofNat n).toNat = n := by
  unfold Char.ofNat
  rw [dif_pos (show n.isValidChar from h)]
  rfl

theorem parseString_char {t : List Char} {c : Char} (h : SpellsChar t c) (u : List Char) :
    parseString (t ++ u) = (parseString u).map fun q => (c :: q.1, q.2) := by
  cases h with
  | plain _ h h1 h2 =>
    rw [List.singleton_append, parseString.eq_5 _ _ (by exact h1) (by rintro _ _ _ _ _ rfl; exact absurd rfl h2)
      (by rintro _ _ rfl; exact absurd rfl h2), if_neg (by rintro (h' | h'); exacts [h2 h', by omega])]
    cases parseString u <;> rfl
  | short e _ h =>
    have hu : e ≠ 'u' := by rintro rfl; revert h; simp
    rw [List.cons_append, List.singleton_append, parseString.eq_4 _ _ (by rintro _ _ _ _ _ rfl; exact absurd rfl hu),
      simpleEscape_iff.2 h]
    cases parseString u <;> rfl
  | code a b p q _ h =>
    simp only [List.cons_append, List.nil_append]
    rw [parseString, hex4_iff.2 h]
    simp only
    have := toNat_valid c
    rw [if_neg (by omega), if_neg (by omega), Char.ofNat_toNat]
    cases parseString u <;> rfl
  | pair a b p q a' b' p' q' _ hi lo h1 h2 h h' hx =>
    simp only [List.cons_append, List.nil_append]
    rw [parseString, hex4_iff.2 h]
    simp only
    rw [if_neg (by omega), if_pos (by omega), hex4_iff.2 h']
    simp only
    rw [if_pos (by omega), show (0xD800 + hi - 0xD800) * 1024 + (0xDC00 + lo - 0xDC00) + 0x10000 = c.toNat by rw [hx]; omega,
      Char.ofNat_toNat]
    cases parseString u <;> rfl

theorem parseString_spells {t s : List Char} (h : SpellsString t s) (rest : List Char) :
    parseString (t ++ '"' :: rest) = some (s, rest) := by
  induction h with
  | nil => simp [parseString]
  | cons h _ ih => rw [List.append_assoc, parseString_char h, ih]; rfl

theorem spells_parseString (n : Nat) : ∀ (t s rest : List Char), t.length ≤ n → parseString t = some (s, rest) →
    ∃ u, SpellsString u s ∧ t = u ++ '"' :: rest := by
  induction n with
  | zero =>
    intro t s rest hn h
    rw [List.length_eq_zero_iff.1 (by omega : t.length = 0)] at h
    rw [parseString] at h; cases h
  | succ n ih =>
    intro t s rest hn h
    have key : ∀ (u : List Char) (c : Char) (t' : List Char), SpellsChar u c → t = u ++ t' →
        (match parseString t' with | none => none | some (s, t) => some (c :: s, t)) = some (s, rest) →
        ∃ u, SpellsString u s ∧ t = u ++ '"' :: rest := by
      intro u c t' hc ht h
      have hu : 1 ≤ u.length := by cases hc <;> simp
      cases h' : parseString t' with
      | none => rw [h'] at h; cases h
      | some q =>
        obtain ⟨s', r'⟩ := q
        rw [h'] at h
        injection h with h; injection h with e1 e2; subst e1 e2
        obtain ⟨v, hv, e⟩ := ih t' s' r' (by rw [ht, List.length_append] at hn; omega) h'
        exact ⟨u ++ v, .cons hc hv, by rw [ht, e, List.append_assoc]⟩
    revert h
    rw [parseString.eq_def]
    split
    · intro h; cases h
    · intro h; injection h with h; injection h with e1 e2; subst e1 e2; exact ⟨[], .nil, rfl⟩
    · next a b c d t' =>
      cases hx : hex4 a b c d with
      | none => intro h; cases h
      | some m =>
        simp only
        have h4 := hex4_iff.1 hx
        have hlt := h4.lt
        split
        · intro h; cases h
        · next hlo =>
          split
          · next hhi =>
            split
            · next a' b' c' d' t'' =>
              cases hx' : hex4 a' b' c' d' with
              | none => intro h; cases h
              | some m' =>
                simp only
                split
                · next hlo' =>
                  have h4' := hex4_iff.1 hx'
                  intro h
                  refine key _ _ _ (.pair a b c d a' b' c' d' _ (m - 0xD800) (m' - 0xDC00) (by omega) (by omega) ?_ ?_ ?_) rfl h
                  · rwa [show 0xD800 + (m - 0xD800) = m by omega]
                  · rwa [show 0xDC00 + (m' - 0xDC00) = m' by omega]
                  · rw [toNat_ofNat (by omega)]; omega
                · intro h; cases h
            · intro h; cases h
          · intro h
            exact key _ _ _ (.code a b c d _ (by rw [toNat_ofNat (by omega)]; exact h4)) rfl h
    · next c t' _ =>
      cases hx : simpleEscape c with
      | none => intro h; cases h
      | some e => intro h; exact key ['\\', c] e t' (.short c e (simpleEscape_iff.1 hx)) rfl h
    · next c t' h1 h2 h3 =>
      split
      · intro h; cases h
      · next h4 =>
        intro h
        exact key [c] c t' (.plain c (by by_contra; exact h4 (.inr (by omega))) (by rintro rfl; exact absurd rfl (by first | exact h1 | exact h2 | simpa using h1)) fun e => h4 (.inl e)) rfl h

/-! ### Numbers -/

/-- What may follow a value: nothing, white space, or one of `,`, `]`, `}`. -/
def Follow (t : List Char) : Prop :=
  t = [] ∨ ∃ c u, t = c :: u ∧ (c = ' ' ∨ c = '\t' ∨ c = '\n' ∨ c = '\r' ∨ c = ',' ∨ c = ']' ∨ c = '}')

/-- No digit comes next. -/
def NoDigit (t : List Char) : Prop := ∀ c u, t = c :: u → ¬ Digit c

theorem digits_spec (t : List Char) : ∃ ds u, digits t = (ds, u) ∧ t = ds ++ u ∧ (∀ d ∈ ds, Digit d) := by
  induction t with
  | nil => exact ⟨[], [], rfl, rfl, by simp⟩
  | cons c t ih =>
    rw [digits]
    split
    · next h =>
      obtain ⟨ds, u, e, e', hd⟩ := ih
      rw [e]
      refine ⟨c :: ds, u, rfl, by rw [e']; rfl, ?_⟩
      intro d hd'
      rcases List.mem_cons.1 hd' with rfl | hd'
      exacts [h, hd d hd']
    · exact ⟨[], c :: t, rfl, rfl, by simp⟩

theorem digits_append {ds : List Char} (hd : ∀ d ∈ ds, Digit d) {u : List Char} (hu : NoDigit u) : digits (ds ++ u) = (ds, u) := by
  induction ds with
  | nil =>
    cases u with
    | nil => rfl
    | cons c u => rw [List.nil_append, digits, if_neg (show ¬ ('0' ≤ c ∧ c ≤ '9') from hu c u rfl)]
  | cons c ds ih =>
    rw [List.cons_append, digits, if_pos (show '0' ≤ c ∧ c ≤ '9' from hd c (by simp)), ih fun d h => hd d (by simp [h])]

theorem digits1_append {ds : List Char} (hd : ∀ d ∈ ds, Digit d) (hne : ds ≠ []) {u : List Char} (hu : NoDigit u) :
    digits1 (ds ++ u) = some (ds, u) := by
  unfold digits1
  rw [digits_append hd hu]
  cases ds with
  | nil => exact absurd rfl hne
  | cons c ds => rfl

theorem digits1_spec {t ds u : List Char} (h : digits1 t = some (ds, u)) : t = ds ++ u ∧ ds ≠ [] ∧ ∀ d ∈ ds, Digit d := by
  unfold digits1 at h
  obtain ⟨es, v, e, e', hd⟩ := digits_spec t
  rw [e] at h
  cases es with
  | nil => cases h
  | cons c es =>
    injection h with h; injection h with e1 e2; subst e1 e2
    exact ⟨e', by simp, hd⟩

theorem parseInt_append {a : List Char} (ha : IsInt a) {u : List Char} (hu : NoDigit u) : parseInt (a ++ u) = some (a, u) := by
  unfold parseInt
  rcases ha with rfl | ⟨c, v, rfl, hc, h0, hv⟩
  · rw [digits_append (by simp [Digit]) hu]; rfl
  · rw [digits_append (by intro d hd; rcases List.mem_cons.1 hd with rfl | hd; exacts [hc, hv d hd]) hu]
    split
    · next h => cases h
    · next h => simp only [Prod.mk.injEq, List.cons.injEq] at h; exact absurd h.1.1 h0
    · rfl

theorem parseInt_spec {t a u : List Char} (h : parseInt t = some (a, u)) : t = a ++ u ∧ IsInt a := by
  unfold parseInt at h
  obtain ⟨es, v, e, e', hd⟩ := digits_spec t
  rw [e] at h
  split at h
  · cases h
  · cases h
  · next h1 h2 =>
    injection h with h; injection h with e1 e2; subst e1 e2
    refine ⟨e', ?_⟩
    match es, h1, h2 with
    | [], h1, _ => exact absurd rfl (h1 _)
    | [c], _, _ =>
      by_cases h0 : c = '0'
      · exact .inl (by rw [h0])
      · exact .inr ⟨c, [], rfl, hd c (by simp), h0, by simp⟩
    | c :: d :: es, _, h2 =>
      by_cases h0 : c = '0'
      · subst h0; exact absurd rfl (h2 _ _ _)
      · exact .inr ⟨c, d :: es, rfl, hd c (by simp), h0, fun x hx => hd x (List.mem_cons_of_mem _ hx)⟩

theorem parseFrac_append {b : List Char} (hb : IsFrac b) {u : List Char} (hu : NoDigit u) (hp : ∀ v, u ≠ '.' :: v) :
    parseFrac (b ++ u) = some (b, u) := by
  rcases hb with rfl | ⟨v, rfl, hne, hv⟩
  · rw [List.nil_append, parseFrac.eq_2 _ (by intro v; exact hp v)]
  · rw [List.cons_append, parseFrac, digits1_append hv hne hu]; rfl

theorem parseFrac_spec {t b u : List Char} (h : parseFrac t = some (b, u)) : t = b ++ u ∧ IsFrac b := by
  rw [parseFrac.eq_def] at h
  split at h
  · next t =>
    cases hd : digits1 t with
    | none => rw [hd] at h; cases h
    | some q =>
      obtain ⟨ds, v⟩ := q
      rw [hd] at h
      injection h with h; injection h with e1 e2; subst e1 e2
      obtain ⟨e, hne, hd⟩ := digits1_spec hd
      exact ⟨by rw [e]; rfl, .inr ⟨ds, rfl, hne, hd⟩⟩
  · injection h with h; injection h with e1 e2; subst e1 e2
    exact ⟨rfl, .inl rfl⟩

theorem not_digit_sign {s : Char} (h : s = '+' ∨ s = '-') : ¬ Digit s := by
  rcases h with rfl | rfl <;> unfold Digit <;> decide

theorem parseExp_append {c : List Char} (hc : IsExp c) {u : List Char} (hu : NoDigit u) (he : ∀ x v, u = x :: v → x ≠ 'e' ∧ x ≠ 'E') :
    parseExp (c ++ u) = some (c, u) := by
  rcases hc with rfl | ⟨e, sign, v, rfl, h1, h2, hne, hv⟩
  · rw [List.nil_append]
    cases u with
    | nil => rfl
    | cons x v =>
      rw [parseExp.eq_def]
      dsimp only
      rw [if_neg (by have := he x v rfl; tauto)]
  · rw [List.cons_append, parseExp.eq_def]
    dsimp only
    rw [if_pos h1]
    rcases h2 with rfl | rfl | rfl
    · obtain ⟨d, v', rfl⟩ : ∃ d v', v = d :: v' := by cases v with
        | nil => exact absurd rfl hne
        | cons d v' => exact ⟨d, v', rfl⟩
      rw [List.nil_append, List.cons_append]
      simp only
      rw [if_neg (fun h => not_digit_sign h (hv d (by simp))), ← List.cons_append, digits1_append hv hne hu]; rfl
    · simp only [List.cons_append, List.nil_append]
      rw [if_pos (by simp), digits1_append hv hne hu]; rfl
    · simp only [List.cons_append, List.nil_append]
      rw [if_pos (by simp), digits1_append hv hne hu]; rfl

theorem parseExp_spec {t c u : List Char} (h : parseExp t = some (c, u)) : t = c ++ u ∧ IsExp c := by
  rw [parseExp.eq_def] at h
  split at h
  · next x t =>
    split at h
    · next hx =>
      split at h
      · next s t' =>
        split at h
        · next hs =>
          cases hd : digits1 t' with
          | none => rw [hd] at h; cases h
          | some q =>
            obtain ⟨ds, v⟩ := q
            rw [hd] at h
            injection h with h; injection h with e1 e2; subst e1 e2
            obtain ⟨e, hne, hd⟩ := digits1_spec hd
            exact ⟨by rw [e]; rfl, .inr ⟨x, [s], ds, rfl, hx, by rcases hs with rfl | rfl <;> simp, hne, hd⟩⟩
        · cases hd : digits1 (s :: t') with
          | none => rw [hd] at h; cases h
          | some q =>
            obtain ⟨ds, v⟩ := q
            rw [hd] at h
            injection h with h; injection h with e1 e2; subst e1 e2
            obtain ⟨e, hne, hd⟩ := digits1_spec hd
            exact ⟨by rw [e]; rfl, .inr ⟨x, [], ds, rfl, hx, .inl rfl, hne, hd⟩⟩
      · cases h
    · injection h with h; injection h with e1 e2; subst e1 e2
      exact ⟨rfl, .inl rfl⟩
  · injection h with h; injection h with e1 e2; subst e1 e2
    exact ⟨rfl, .inl rfl⟩

theorem Follow.head {t : List Char} (h : Follow t) {c : Char} {u : List Char} (e : t = c :: u) :
    c = ' ' ∨ c = '\t' ∨ c = '\n' ∨ c = '\r' ∨ c = ',' ∨ c = ']' ∨ c = '}' := by
  rcases h with rfl | ⟨d, v, rfl, h⟩
  · cases e
  · injection e with e _; rwa [← e]

theorem noDigit_cons {c : Char} {u : List Char} (h : ¬ Digit c) : NoDigit (c :: u) := by
  intro d v e
  injection e with e _; rwa [← e]

theorem Follow.noDigit {t : List Char} (h : Follow t) : NoDigit t := by
  intro c u e
  rcases h.head e with rfl | rfl | rfl | rfl | rfl | rfl | rfl <;> unfold Digit <;> decide

theorem parseNumber_append {t : List Char} (h : IsNumber t) {rest : List Char} (hr : Follow rest) :
    parseNumber (t ++ rest) = some (t, rest) := by
  obtain ⟨sign, a, b, c, hs, ha, hb, hc, rfl⟩ := h
  have n1 : NoDigit (c ++ rest) := by
    rcases hc with rfl | ⟨e, sg, u, rfl, he, -⟩
    · exact hr.noDigit
    · refine noDigit_cons ?_
      rcases he with rfl | rfl <;> unfold Digit <;> decide
  have p1 : ∀ v, c ++ rest ≠ '.' :: v := by
    rcases hc with rfl | ⟨e, sg, u, rfl, he, -⟩
    · intro v hv
      have := hr.head hv
      revert this; decide
    · intro v hv
      injection hv with hv _
      rcases he with rfl | rfl <;> cases hv
  have n2 : NoDigit (b ++ (c ++ rest)) := by
    rcases hb with rfl | ⟨u, rfl, -⟩
    · exact n1
    · exact noDigit_cons (by unfold Digit; decide)
  have key : (do
      let (x, t) ← parseInt (a ++ (b ++ (c ++ rest)))
      let (y, t) ← parseFrac t
      let (z, t) ← parseExp t
      some (sign ++ x ++ y ++ z, t)) = some (sign ++ (a ++ (b ++ c)), rest) := by
    rw [parseInt_append ha n2]
    simp only [Option.bind_eq_bind, Option.bind_some]
    rw [parseFrac_append hb n1 p1]
    simp only [Option.bind_some]
    rw [parseExp_append hc hr.noDigit fun x v e => by
      have := hr.head e
      constructor <;> rintro rfl <;> revert this <;> decide]
    simp
  unfold parseNumber
  rw [List.append_assoc, List.append_assoc, List.append_assoc]
  rcases hs with rfl | rfl
  · have hm : ∀ v, a ++ (b ++ (c ++ rest)) ≠ '-' :: v := by
      rintro v hv
      rcases ha with rfl | ⟨d, u, rfl, hd, -⟩
      · injection hv with hv _; cases hv
      · injection hv with hv _; subst hv; exact not_digit_sign (.inr rfl) hd
    split
    · next sg t' heq =>
      split at heq
      · next h => exact absurd h (hm _)
      · simp only [Prod.mk.injEq] at heq
        obtain ⟨rfl, rfl⟩ := heq
        exact key
  · exact key

theorem parseNumber_spec {t n u : List Char} (h : parseNumber t = some (n, u)) : t = n ++ u ∧ IsNumber n := by
  unfold parseNumber at h
  have key : ∀ (sign t' : List Char), (sign = [] ∨ sign = ['-']) → t = sign ++ t' → (do
      let (x, t) ← parseInt t'
      let (y, t) ← parseFrac t
      let (z, t) ← parseExp t
      some (sign ++ x ++ y ++ z, t)) = some (n, u) → t = n ++ u ∧ IsNumber n := by
    intro sign t' hs ht h
    simp only [Option.bind_eq_bind, Option.bind_eq_some_iff, Prod.exists] at h
    obtain ⟨a, t1, h1, b, t2, h2, c, t3, h3, h⟩ := h
    injection h with h; injection h with e1 e2; subst e1 e2
    obtain ⟨e1, ha⟩ := parseInt_spec h1
    obtain ⟨e2, hb⟩ := parseFrac_spec h2
    obtain ⟨e3, hc⟩ := parseExp_spec h3
    exact ⟨by rw [ht, e1, e2, e3]; simp, sign, a, b, c, hs, ha, hb, hc, by simp⟩
  split at h
  next sg t' heq =>
    split at heq
    · simp only [Prod.mk.injEq] at heq
      obtain ⟨rfl, rfl⟩ := heq
      exact key ['-'] _ (.inr rfl) rfl h
    · simp only [Prod.mk.injEq] at heq
      obtain ⟨rfl, rfl⟩ := heq
      exact key [] _ (.inl rfl) rfl h

end Fawkes.Json.Grammar
