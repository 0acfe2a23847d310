import Verif.Lemmas.Json
import Verif.Model.Serde
import Verif.Props.NumConv

/-!
# C73: JSON texts
-/

open Fawkes Fawkes.Json Fawkes.Serde Fawkes.Groth16

namespace Fawkes.Props

/-- What is written with `f` is read back with `g`, and the nesting is at most `n`. -/
def Faithful {A : Type} (f : A → Except Panic Json) (g : Json → Option A) (n : Nat) : Prop :=
  ∀ a, ∃ j, f a = .ok j ∧ g j = some a ∧ NoNumber j ∧ depth j ≤ n

theorem Faithful.mono {A : Type} {f : A → Except Panic Json} {g : Json → Option A} {n m : Nat} (h : Faithful f g n)
    (hm : n ≤ m) : Faithful f g m := fun a => by
  obtain ⟨j, h1, h2, h3, h4⟩ := h a
  exact ⟨j, h1, h2, h3, h4.trans hm⟩

variable {p : Nat} [hp : Fact (1 < p)]

theorem num_faithful (ha : Aligned p) : Faithful (numTo (p := p)) (numOf p) 0 := fun x => by
  obtain ⟨s, h1, h2⟩ := C50_round_trip ha x
  refine ⟨.str s, by unfold numTo; rw [h1]; rfl, by simp only [numOf, h2], ?_, ?_⟩
  · simp [NoNumber]
  · simp [depth]

theorem pair_faithful {A B : Type} {f : A → Except Panic Json} {g : Json → Option A} {f' : B → Except Panic Json}
    {g' : Json → Option B} {n : Nat} (h : Faithful f g n) (h' : Faithful f' g' n) :
    Faithful (pairTo f f') (pairOf g g') (n + 1) := fun a => by
  obtain ⟨j, h1, h2, h3, h4⟩ := h a.1
  obtain ⟨j', h1', h2', h3', h4'⟩ := h' a.2
  refine ⟨.arr [j, j'], by unfold pairTo; rw [h1, h1']; rfl, by simp [pairOf, h2, h2'], ?_, ?_⟩
  · simp [NoNumber, NoNumberItems, h3, h3']
  · simp only [depth, depthItems]; omega

theorem vec_faithful {A : Type} {f : A → Except Panic Json} {g : Json → Option A} {n : Nat} (h : Faithful f g n) :
    Faithful (vecTo f) (vecOf g) (n + 1) := fun l => by
  have : ∃ js, mapE f l = .ok js ∧ mapOption g js = some l ∧ NoNumberItems js ∧ depthItems js ≤ n := by
    induction l with
    | nil => exact ⟨[], rfl, rfl, by simp [NoNumberItems], by simp [depthItems]⟩
    | cons a l ih =>
      obtain ⟨js, h1, h2, h3, h4⟩ := ih
      obtain ⟨j, h1', h2', h3', h4'⟩ := h a
      refine ⟨j :: js, by rw [mapE, h1', h1]; rfl, by rw [mapOption, h2', h2]; rfl, ?_, ?_⟩
      · rw [NoNumberItems]; exact ⟨h3', h3⟩
      · rw [depthItems]; omega
  obtain ⟨js, h1, h2, h3, h4⟩ := this
  refine ⟨.arr js, by unfold vecTo; rw [h1]; rfl, by unfold vecOf; exact h2, ?_, ?_⟩
  · rw [NoNumber]; exact h3
  · rw [depth]; omega

theorem g1_faithful (ha : Aligned p) : Faithful (g1To (p := p)) (g1Of p) 1 := fun d => by
  obtain ⟨j, h1, h2, h3, h4⟩ := pair_faithful (num_faithful ha) (num_faithful ha) (d.p0, d.p1)
  exact ⟨j, h1, by unfold g1Of; rw [h2]; rfl, h3, h4⟩

theorem g2_faithful (ha : Aligned p) : Faithful (g2To (p := p)) (g2Of p) 2 := fun d => by
  have hn := pair_faithful (num_faithful ha) (num_faithful ha)
  obtain ⟨j, h1, h2, h3, h4⟩ := pair_faithful hn hn (d.p0, d.p1)
  exact ⟨j, h1, by unfold g2Of; rw [h2]; rfl, h3, h4⟩

theorem proof_faithful (ha : Aligned p) : Faithful (proofTo (p := p)) (Serde.proofOf p) 3 := fun d => by
  obtain ⟨a, a1, a2, a3, a4⟩ := g1_faithful ha d.a
  obtain ⟨b, b1, b2, b3, b4⟩ := g2_faithful ha d.b
  obtain ⟨c, c1, c2, c3, c4⟩ := g1_faithful ha d.c
  refine ⟨.obj [(chars! "a", a), (chars! "b", b), (chars! "c", c)], by unfold proofTo; rw [a1, b1, c1]; rfl, ?_, ?_, ?_⟩
  · unfold Serde.proofOf
    simp [field, a2, b2, c2]
  · simp [NoNumber, NoNumberFields, a3, b3, c3]
  · simp only [depth, depthFields]; omega

theorem vk_faithful (ha : Aligned p) : Faithful (vkTo (p := p)) (vkOf p) 3 := fun d => by
  obtain ⟨a, a1, a2, a3, a4⟩ := g1_faithful ha d.alphaG1
  obtain ⟨b, b1, b2, b3, b4⟩ := g2_faithful ha d.betaG2
  obtain ⟨c, c1, c2, c3, c4⟩ := g2_faithful ha d.gammaG2
  obtain ⟨e, e1, e2, e3, e4⟩ := g2_faithful ha d.deltaG2
  obtain ⟨f, f1, f2, f3, f4⟩ := vec_faithful (g1_faithful ha) d.ic
  refine ⟨.obj [(chars! "alpha_g1", a), (chars! "beta_g2", b), (chars! "gamma_g2", c), (chars! "delta_g2", e), (chars! "ic", f)],
    by unfold vkTo; rw [a1, b1, c1, e1, f1]; rfl, ?_, ?_, ?_⟩
  · unfold vkOf
    simp [field, a2, b2, c2, e2, f2]
  · simp [NoNumber, NoNumberFields, a3, b3, c3, e3, f3]
  · simp only [depth, depthFields]; omega

/-! ### The data of circuits -/

/-- How deeply the JSON text of data with this layout is nested. -/
def Layout.depth : Layout → Nat
  | .num => 0
  | .bool => 0
  | .vec _ a => Layout.depth a + 1
  | .pair a b => max (Layout.depth a) (Layout.depth b) + 1
  | .one _ a => Layout.depth a + 1
  | .more f _ a => max (Layout.depth f) (Layout.depth a + 1)

/-- The names of the fields of a struct. -/
def Layout.names : Layout → List (List Char)
  | .one name _ => [name]
  | .more f name _ => Layout.names f ++ [name]
  | _ => []

/-- The fields of every struct have different names. -/
def Layout.Named : Layout → Prop
  | .num => True
  | .bool => True
  | .vec _ a => Layout.Named a
  | .pair a b => Layout.Named a ∧ Layout.Named b
  | .one _ a => Layout.Named a
  | .more f name a => Layout.Named f ∧ Layout.names f ≠ [] ∧ name ∉ Layout.names f ∧ Layout.Named a

theorem field_append {name : List Char} {l l' : List (List Char × Json)} :
    (name ∉ l'.map Prod.fst → field name (l ++ l') = field name l) ∧ (name ∉ l.map Prod.fst → field name (l ++ l') = field name l') := by
  constructor
  · intro h
    unfold field
    rw [List.filter_append, show l'.filter (fun x => decide (x.1 = name)) = [] from ?_, List.append_nil]
    rw [List.filter_eq_nil_iff]
    intro x hx
    simp only [decide_eq_true_eq]
    rintro rfl
    exact h (List.mem_map_of_mem hx)
  · intro h
    unfold field
    rw [List.filter_append, show l.filter (fun x => decide (x.1 = name)) = [] from ?_, List.nil_append]
    rw [List.filter_eq_nil_iff]
    intro x hx
    simp only [decide_eq_true_eq]
    rintro rfl
    exact h (List.mem_map_of_mem hx)

theorem noNumberFields_append (l l' : List (List Char × Json)) :
    NoNumberFields (l ++ l') ↔ NoNumberFields l ∧ NoNumberFields l' := by
  induction l with
  | nil => simp [NoNumberFields]
  | cons x l ih => simp only [List.cons_append, NoNumberFields, ih, and_assoc]

theorem depthFields_append (l l' : List (List Char × Json)) : depthFields (l ++ l') = max (depthFields l) (depthFields l') := by
  induction l with
  | nil => simp [depthFields]
  | cons x l ih => simp only [List.cons_append, depthFields, ih]; omega

theorem layout_faithful (ha : Aligned p) (l : Layout) (hl : Layout.Named l) (v : l.ty.V (ZMod p)) :
    ∃ j, l.to v = .ok j ∧ l.of p j = some v ∧ NoNumber j ∧ depth j ≤ Layout.depth l ∧
      (Layout.names l ≠ [] → ∃ js, j = .obj js ∧ js.map Prod.fst = Layout.names l ∧
        ∀ l', (∀ name ∈ Layout.names l, name ∉ l'.map Prod.fst) → l.of p (.obj (js ++ l')) = some v) := by
  induction l with
  | num =>
    obtain ⟨j, h1, h2, h3, h4⟩ := num_faithful ha v
    exact ⟨j, h1, h2, h3, h4, fun h => absurd rfl h⟩
  | bool => exact ⟨.bool v, rfl, rfl, by simp [NoNumber], by simp [Json.depth], fun h => absurd rfl h⟩
  | vec n a ih =>
    have hf : Faithful (a.to (p := p)) (a.of p) (Layout.depth a) := fun v => by
      obtain ⟨j, h1, h2, h3, h4, -⟩ := ih hl v
      exact ⟨j, h1, h2, h3, h4⟩
    obtain ⟨j, h1, h2, h3, h4⟩ := vec_faithful hf v.items
    refine ⟨j, h1, ?_, h3, h4, fun h => absurd rfl h⟩
    show (vecOf (a.of p) j).map (fun l => (⟨l⟩ : SizedVec _ n)) = some v
    rw [h2]; rfl
  | pair a b iha ihb =>
    have hfa : Faithful (a.to (p := p)) (a.of p) (Layout.depth a) := fun v => by
      obtain ⟨j, h1, h2, h3, h4, -⟩ := iha hl.1 v
      exact ⟨j, h1, h2, h3, h4⟩
    have hfb : Faithful (b.to (p := p)) (b.of p) (Layout.depth b) := fun v => by
      obtain ⟨j, h1, h2, h3, h4, -⟩ := ihb hl.2 v
      exact ⟨j, h1, h2, h3, h4⟩
    obtain ⟨j, h1, h2, h3, h4⟩ := pair_faithful (hfa.mono (le_max_left _ (Layout.depth b)))
      (hfb.mono (le_max_right (Layout.depth a) _)) v
    exact ⟨j, h1, h2, h3, h4, fun h => absurd rfl h⟩
  | one name a ih =>
    obtain ⟨j, h1, h2, h3, h4, -⟩ := ih hl v
    have key : ∀ l' : List (List Char × Json), name ∉ l'.map Prod.fst →
        (Layout.one name a).of p (.obj ([(name, j)] ++ l')) = some v := by
      intro l' hl'
      show (field name ([(name, j)] ++ l')).bind (a.of p) = some v
      rw [field_append.1 hl', show field name [(name, j)] = some j by simp [field]]
      exact h2
    refine ⟨.obj [(name, j)], ?_, by simpa using key [] (by simp), by simp [NoNumber, NoNumberFields, h3],
      by simp only [Json.depth, depthFields, Layout.depth]; omega, fun _ => ⟨_, rfl, rfl, fun l' hl' => key l' (hl' name ?_)⟩⟩
    · show (do let j ← a.to v; pure (Json.obj [(name, j)])) = _
      rw [h1]; rfl
    · simp [Layout.names]
  | more f name a ihf iha =>
    obtain ⟨hf, hne, hname, hna⟩ := hl
    obtain ⟨_, k1, -, k3, k4, k⟩ := ihf hf v.1
    obtain ⟨js, rfl, k0, k2⟩ := k hne
    obtain ⟨j, h1, h2, h3, h4, -⟩ := iha hna v.2
    rw [NoNumber] at k3
    rw [Json.depth] at k4
    have key : ∀ l' : List (List Char × Json), (∀ n ∈ Layout.names f ++ [name], n ∉ l'.map Prod.fst) →
        (Layout.more f name a).of p (.obj (js ++ [(name, j)] ++ l')) = some v := by
      intro l' hl'
      have e1 : f.of p (.obj (js ++ [(name, j)] ++ l')) = some v.1 := by
        rw [List.append_assoc]
        apply k2
        intro n hn
        rw [List.map_append, List.mem_append, not_or]
        refine ⟨?_, hl' n (by simp [hn])⟩
        simp only [List.map_cons, List.map_nil, List.mem_singleton]
        rintro rfl; exact hname hn
      have e2 : field name (js ++ [(name, j)] ++ l') = some j := by
        rw [field_append.1 (hl' name (by simp)), field_append.2 (by rw [k0]; exact hname)]
        simp [field]
      show (f.of p (.obj (js ++ [(name, j)] ++ l'))).bind (fun u => ((field name (js ++ [(name, j)] ++ l')).bind (a.of p)).map
        fun v => (u, v)) = some v
      rw [e1, e2]
      show ((a.of p j).map fun w => (v.1, w)) = some v
      rw [h2]; rfl
    refine ⟨.obj (js ++ [(name, j)]), ?_, by simpa using key [] (by simp), ?_, ?_,
      fun _ => ⟨_, rfl, by simp [k0, Layout.names], fun l' hl' => key l' hl'⟩⟩
    · show (do
        let u ← f.to v.1
        let j ← a.to v.2
        match u with
        | Json.obj l => pure (Json.obj (l ++ [(name, j)]))
        | _ => .error .unwrap) = _
      rw [k1, h1]; rfl
    · rw [NoNumber, noNumberFields_append]; exact ⟨k3, by simp [NoNumberFields, h3]⟩
    · rw [Json.depth, depthFields_append]; simp only [depthFields, Layout.depth]; omega

theorem layout_faithful' (ha : Aligned p) (l : Layout) (hl : Layout.Named l) : Faithful (l.to (p := p)) (l.of p) (Layout.depth l) :=
  fun v => by
    obtain ⟨j, h1, h2, h3, h4, -⟩ := layout_faithful ha l hl v
    exact ⟨j, h1, h2, h3, h4⟩

/-- Texts that are read back. -/
theorem text_round_trip {A : Type} {f : A → Except Panic Json} {g : Json → Option A} {n : Nat} (h : Faithful f g n) (hn : n ≤ 127)
    (a : A) : ∃ t, toText f a = .ok t ∧ ofText g t = some a := by
  obtain ⟨j, h1, h2, h3, h4⟩ := h a
  refine ⟨j.pretty 0, by unfold toText; rw [h1]; rfl, ?_⟩
  unfold ofText
  rw [parse_pretty j h3 (by omega)]
  exact h2

/-- C73: a verifying key written as JSON is read back as it was. -/
theorem C73_vk (ha : Aligned p) (d : VKData (ZMod p)) : ∃ t, toText vkTo d = .ok t ∧ ofText (vkOf p) t = some d :=
  text_round_trip (vk_faithful ha) (by omega) d

/-- C73: the same for proofs. -/
theorem C73_proof (ha : Aligned p) (d : ProofData (ZMod p)) :
    ∃ t, toText proofTo d = .ok t ∧ ofText (Serde.proofOf p) t = some d :=
  text_round_trip (proof_faithful ha) (by omega) d

/-- C73: the same for lists of public inputs. -/
theorem C73_inputs (ha : Aligned p) (l : List (ZMod p)) :
    ∃ t, toText (vecTo numTo) l = .ok t ∧ ofText (vecOf (numOf p)) t = some l :=
  text_round_trip (vec_faithful (num_faithful ha)) (by omega) l

/-- C73: the same for the public and secret data of a circuit, if the data are nested at most 126 levels deep. -/
theorem C73_object (ha : Aligned p) (l l' : Layout) (hl : Layout.Named l) (hl' : Layout.Named l') (hd : Layout.depth l ≤ 126)
    (hd' : Layout.depth l' ≤ 126) (v : l.ty.V (ZMod p) × l'.ty.V (ZMod p)) :
    ∃ t, toText (pairTo l.to l'.to) v = .ok t ∧ ofText (pairOf (l.of p) (l'.of p)) t = some v :=
  text_round_trip (pair_faithful ((layout_faithful' ha l hl).mono hd) ((layout_faithful' ha l' hl').mono hd')) (by omega) v

/-- C73: a text that is nested more deeply is written, but not read: `from_str` fails whatever is asked for. -/
theorem C73_too_deep {A B : Type} (f : A → Except Panic Json) (g : Json → Option B) (a : A) (j : Json) (h : f a = .ok j)
    (hn : NoNumber j) (hd : 128 ≤ depth j) : ∃ t, toText f a = .ok t ∧ ofText g t = none :=
  ⟨j.pretty 0, by unfold toText; rw [h]; rfl, by unfold ofText; rw [parse_deep j hn hd]⟩

/-- Pairs in pairs. -/
def nested : Nat → Layout
  | 0 => .bool
  | n + 1 => .pair (nested n) .bool

def nestedData : (n : Nat) → (nested n).ty.V (ZMod p)
  | 0 => true
  | n + 1 => (nestedData n, true)

theorem nested_json (n : Nat) : ∃ j, (nested n).to (nestedData (p := p) n) = .ok j ∧ NoNumber j ∧ depth j = n := by
  induction n with
  | zero => exact ⟨.bool true, rfl, by simp [NoNumber], by simp [depth]⟩
  | succ n ih =>
    obtain ⟨j, h1, h2, h3⟩ := ih
    refine ⟨.arr [j, .bool true], ?_, by simp [NoNumber, NoNumberItems, h2], by simp only [depth, depthItems, h3]; omega⟩
    show pairTo (nested n).to _ (nestedData n, true) = _
    unfold pairTo
    rw [h1]; rfl

/-- The bound is met: data with 127 levels make a text that cannot be read, with 126 levels one that can. -/
example (ha : Aligned p) : (∃ t, toText (pairTo (nested 127).to (Layout.bool.to (p := p))) (nestedData (p := p) 127, true) = .ok t ∧
      ofText (pairOf ((nested 127).of p) (Layout.bool.of p)) t = none) ∧
    ∃ t, toText (pairTo (nested 126).to (Layout.bool.to (p := p))) (nestedData (p := p) 126, true) = .ok t ∧
      ofText (pairOf ((nested 126).of p) (Layout.bool.of p)) t = some (nestedData (p := p) 126, true) := by
  constructor
  · obtain ⟨j, h1, h2, h3⟩ := nested_json (p := p) 127
    refine C73_too_deep _ _ _ (.arr [j, .bool true]) ?_ (by simp [NoNumber, NoNumberItems, h2]) (by simp only [depth, depthItems, h3]; omega)
    unfold pairTo
    rw [h1]; rfl
  · have hn : ∀ n, Layout.Named (nested n) ∧ Layout.depth (nested n) = n := by
      intro n
      induction n with
      | zero => exact ⟨trivial, rfl⟩
      | succ n ih => exact ⟨⟨ih.1, trivial⟩, by show max _ 0 + 1 = _; rw [ih.2]; omega⟩
    exact C73_object ha (nested 126) .bool (hn 126).1 trivial (hn 126).2.le (by decide) _

/-- A struct with two fields, one of them a vector: `struct { root: Num, path: SizedVec<bool, U2> }`. -/
def sampleLayout : Layout := .more (.one (chars! "root") .num) (chars! "path") (.vec 2 .bool)

example : (toText (sampleLayout.to (p := bnR)) ((5 : ZMod bnR), (⟨[true, false]⟩ : SizedVec Bool 2))).toOption =
    some (chars! "{\n  \"root\": \"5\",\n  \"path\": [\n    true,\n    false\n  ]\n}") := by decide +kernel

/-- Fields may come in any order, unknown ones are skipped, white space does not matter; the length of the vector is not
checked. -/
example : (match Json.parse (chars! " { \"path\":[true ], \"x\" : [1.5e3, {}, null], \"ro\\u006ft\" : \"6\"}\n") with
    | some j => (sampleLayout.of bnR j).map fun v => (v.1, v.2.items)
    | none => none) = some ((6 : ZMod bnR), [true]) := by decide +kernel

/-- A field twice, a missing field, a number instead of a string, a number outside the field, a comma too many. -/
example : [chars! "{\"root\":\"6\",\"path\":[],\"root\":\"6\"}", chars! "{\"root\":\"6\"}", chars! "{\"root\":6,\"path\":[]}",
    chars! "{\"root\":\"21888242871839275222246405745257275088548364400416034343698204186575808495617\",\"path\":[]}", chars! "{\"root\":\"6\",\"path\":[true,]}"].all (fun t =>
    (ofText (sampleLayout.of bnR) t).isNone) = true := by decide +kernel

end Fawkes.Props
