import Verif.Model.CommandLine
import Verif.Props.Session

/-!
# C107: the command line says what is done
-/

namespace Fawkes.Props

open Fawkes.Groth16 Fawkes.Cli Fawkes.Cli.Cmd Fawkes.Serde

/-! ## Specification -/

/-- The ways to write an option with its value: `--params a.bin`, `--params=a.bin`, `-p a.bin`, `-pa.bin`, `-p=a.bin`. -/
inductive Form where
  | longApart
  | longEq
  | shortApart
  | shortAttached
  | shortEq
deriving DecidableEq

/-- An option, the way it is written, and its value. -/
structure Setting where
  opt : Opt
  form : Form
  value : Path

/-- The words. -/
def Setting.words (s : Setting) : List (List Char) :=
  match s.form with
  | .longApart => [chars! "--" ++ s.opt.long, s.value]
  | .longEq => [chars! "--" ++ s.opt.long ++ chars! "=" ++ s.value]
  | .shortApart => [chars! "-" ++ [s.opt.short], s.value]
  | .shortAttached => [chars! "-" ++ [s.opt.short] ++ s.value]
  | .shortEq => [chars! "-" ++ [s.opt.short] ++ chars! "=" ++ s.value]

/-- The values that can be written in the way: a value in a word of its own must not look like an option, and a value directly after the
letter is not empty and does not begin with `=`. -/
def Setting.Fits (s : Setting) : Prop :=
  match s.form with
  | .longApart | .shortApart => ∀ c rest, s.value ≠ '-' :: c :: rest
  | .longEq | .shortEq => True
  | .shortAttached => s.value ≠ [] ∧ s.value.head? ≠ some '='

/-- The command line names the command `c` of the program and gives the options `ss`, each at most once (and may end with `--`). -/
structure Says (b : Binding) (c : Command) (ss : List Setting) (argv : List (List Char)) : Prop where
  command : c ∈ b.commands
  known : ∀ s ∈ ss, s.opt ∈ options b c ∧ s.Fits
  once : (ss.map fun s => s.opt.field).Nodup
  line : ∃ stop : Bool, argv = c.name :: (ss.flatMap Setting.words ++ if stop then [chars! "--"] else [])

/-- A path by the name of the field. -/
def file (o : Files) : Field → Path
  | .params => o.params
  | .object => o.object
  | .proof => o.proof
  | .inputs => o.inputs
  | .vk => o.vk
  | .solidity => o.solidity

/-- The paths are the values given by `ss`, and the default values otherwise. -/
def Gives (b : Binding) (c : Command) (ss : List Setting) (o : Files) : Prop :=
  ∀ opt ∈ options b c, (∃ s ∈ ss, s.opt = opt ∧ file o opt.field = s.value) ∨
    ((∀ s ∈ ss, s.opt ≠ opt) ∧ file o opt.field = opt.default)

/-- The names of the options, for all commands of all bindings. -/
def longName : Field → List Char
  | .params => chars! "params"
  | .object => chars! "object"
  | .proof => chars! "proof"
  | .inputs => chars! "inputs"
  | .vk => chars! "vk"
  | .solidity => chars! "solidity"

def shortName : Field → Char
  | .params => 'p'
  | .object => 'o'
  | .proof => 'r'
  | .inputs => 'i'
  | .vk => 'v'
  | .solidity => 's'

/-- The names of the commands. -/
def commandName : Command → List Char
  | .prove => chars! "prove"
  | .verify => chars! "verify"
  | .setup => chars! "setup"
  | .generateVerifier => chars! "generate-verifier"
  | .generateTestData => chars! "generate-test-data"

/-- The files a command reads, and those it writes. -/
def reads : Command → List Field
  | .prove => [.params, .object]
  | .verify => [.vk, .proof, .inputs]
  | .setup => []
  | .generateVerifier => [.vk]
  | .generateTestData => []

def writes : Command → List Field
  | .prove => [.proof, .inputs]
  | .verify => []
  | .setup => [.params, .vk]
  | .generateVerifier => [.solidity]
  | .generateTestData => [.object]

/-! ## Proofs -/

/-- The names of the options of a command can be told from each other. -/
def Clear (opts : List Opt) : Prop :=
  (∀ o ∈ opts, opts.find? (fun p => p.long = o.long) = some o) ∧ (∀ o ∈ opts, opts.find? (fun p => p.short = o.short) = some o) ∧
    (∀ o ∈ opts, opts.find? (fun p => p.field = o.field) = some o) ∧ ∀ o ∈ opts, '=' ∉ o.long ∧ o.long ≠ [] ∧ o.short ≠ '-'

instance (opts : List Opt) : Decidable (Clear opts) := by unfold Clear; infer_instance

theorem options_clear (b : Binding) (c : Command) : Clear (options b c) := by
  cases b <;> cases c <;> decide +kernel

theorem splitEq_plain : ∀ {n : List Char}, '=' ∉ n → splitEq n = (n, none)
  | [], _ => rfl
  | c :: n, h => by
    have hc : c ≠ '=' := fun e => h (by simp [e])
    have := splitEq_plain (n := n) fun e => h (by simp [e])
    simp [splitEq, hc, this]

theorem splitEq_value : ∀ {n : List Char} (x : List Char), '=' ∉ n → splitEq (n ++ '=' :: x) = (n, some x)
  | [], _, _ => rfl
  | c :: n, x, h => by
    have hc : c ≠ '=' := fun e => h (by simp [e])
    have := splitEq_value (n := n) x fun e => h (by simp [e])
    simp [splitEq, hc, this]

theorem splitEq_inv : ∀ n : List Char, match splitEq n with
    | (m, none) => n = m
    | (m, some x) => n = m ++ '=' :: x
  | [] => rfl
  | c :: n => by
    have h := splitEq_inv n
    unfold splitEq
    by_cases hc : c = '='
    · subst hc; rfl
    · rw [if_neg hc]
      generalize splitEq n = R at h ⊢
      rcases R with ⟨m, _ | x⟩
      · exact congrArg (c :: ·) h
      · exact congrArg (c :: ·) h

theorem word_long {opts : List Opt} (h : Clear opts) {o : Opt} (ho : o ∈ opts) : word opts ('-' :: '-' :: o.long) = .option o none := by
  obtain ⟨h1, -, -, h4⟩ := h
  obtain ⟨a, b, -⟩ := h4 o ho
  rcases e : o.long with _ | ⟨c, n⟩
  · exact absurd e b
  · show (match opts.find? (fun p => p.long = (splitEq (c :: n)).1) with | some o => _ | none => _) = _
    rw [← e, splitEq_plain a, h1 o ho]

theorem word_longEq {opts : List Opt} (h : Clear opts) {o : Opt} (ho : o ∈ opts) (x : Path) :
    word opts ('-' :: '-' :: (o.long ++ '=' :: x)) = .option o (some x) := by
  obtain ⟨h1, -, -, h4⟩ := h
  obtain ⟨a, b, -⟩ := h4 o ho
  have e : ∃ c n, o.long ++ '=' :: x = c :: n := by
    rcases o.long with _ | ⟨c, n⟩
    · exact ⟨_, _, rfl⟩
    · exact ⟨_, _, rfl⟩
  obtain ⟨c, n, e⟩ := e
  rw [e]
  show (match opts.find? (fun p => p.long = (splitEq (c :: n)).1) with | some o => _ | none => _) = _
  rw [← e, splitEq_value x a, h1 o ho]

theorem word_short {opts : List Opt} (h : Clear opts) {o : Opt} (ho : o ∈ opts) (rest : List Char) :
    word opts ('-' :: o.short :: rest) = .option o (attached rest) := by
  obtain ⟨-, h2, -, h4⟩ := h
  obtain ⟨-, -, c⟩ := h4 o ho
  unfold word
  split
  · rename_i e; injection e with _ e; injection e with e _; exact absurd e c
  · rename_i e; injection e with _ e; injection e with e _; exact absurd e c
  · rename_i c' rest' _ e
    injection e with _ e
    injection e with e e'
    subst e e'
    rw [h2 o ho]
  · rename_i e; exact absurd rfl (e _ _)

/-- Every word that is an option is one of the spellings. -/
theorem word_option {opts : List Opt} {w : List Char} {o : Opt} {v : Option Path} (h : word opts w = .option o v) :
    o ∈ opts ∧ ((v = none ∧ (w = '-' :: '-' :: o.long ∨ w = ['-', o.short])) ∨
      ∃ x, v = some x ∧ (w = '-' :: '-' :: (o.long ++ '=' :: x) ∨ w = '-' :: o.short :: '=' :: x ∨
        (w = '-' :: o.short :: x ∧ x ≠ [] ∧ x.head? ≠ some '='))) := by
  unfold word at h
  split at h
  · cases h
  · rename_i name _
    have hs := splitEq_inv name
    split at h
    · rename_i p hp
      have hm := List.mem_of_find?_eq_some hp
      have hl : p.long = (splitEq name).1 := of_decide_eq_true (by simpa using List.find?_some hp)
      rcases e : splitEq name with ⟨m, _ | x⟩
      · rw [e] at h hs hl
        cases h
        refine ⟨hm, .inl ⟨rfl, .inl ?_⟩⟩
        rw [show name = m from hs, hl]
      · rw [e] at h hs hl
        cases h
        refine ⟨hm, .inr ⟨x, rfl, .inl ?_⟩⟩
        rw [show name = m ++ '=' :: x from hs, hl]
    · cases h
  · rename_i c rest _ _
    split at h
    · rename_i p hp
      have hm := List.mem_of_find?_eq_some hp
      have hl : p.short = c := of_decide_eq_true (by simpa using List.find?_some hp)
      subst hl
      cases h
      refine ⟨hm, ?_⟩
      unfold attached
      split
      · exact .inl ⟨rfl, .inr rfl⟩
      · exact .inr ⟨_, rfl, .inr (.inl rfl)⟩
      · rename_i h1 h2
        refine .inr ⟨_, rfl, .inr (.inr ⟨rfl, ?_, ?_⟩)⟩
        · intro e; exact h1 e
        · intro e
          rcases rest with _ | ⟨a, rest⟩
          · cases e
          · injection e with e; subst e; exact h2 _ rfl
    · cases h
  · cases h

theorem looksLikeOption_iff (x : List Char) : looksLikeOption x = false ↔ ∀ c rest, x ≠ '-' :: c :: rest := by
  unfold looksLikeOption
  split
  · simp
  · rename_i h; simpa using h

/-- The values after some settings. -/
def setAll (v : Chosen) (ss : List Setting) : Chosen := ss.foldl (fun v s => v.set s.opt.field s.value) v

theorem attached_value {x : Path} (h : x ≠ [] ∧ x.head? ≠ some '=') : attached x = some x := by
  unfold attached
  split
  · exact absurd rfl h.1
  · exact absurd rfl h.2
  · rfl

theorem parse_line {opts : List Opt} (L : Clear opts) (stop : Bool) : ∀ (ss : List Setting) (v : Chosen),
    (∀ s ∈ ss, s.opt ∈ opts ∧ s.Fits) → (ss.map fun s => s.opt.field).Nodup → (∀ s ∈ ss, v s.opt.field = none) →
    parseOptions opts (ss.flatMap Setting.words ++ if stop then [chars! "--"] else []) v = some (setAll v ss)
  | [], v, _, _, _ => by cases stop <;> rfl
  | s :: ss, v, hk, ho, hv => by
    have hs := hk s (by simp)
    have hvs := hv s (by simp)
    simp only [List.map_cons, List.nodup_cons, List.mem_map, not_exists, not_and] at ho
    have ih := parse_line L stop ss (v.set s.opt.field s.value) (fun t ht => hk t (by simp [ht])) ho.2 fun t ht => by
      unfold Chosen.set
      rw [if_neg (ho.1 t ht)]
      exact hv t (by simp [ht])
    have one : ∀ {w : List Char} {ws : List (List Char)}, word opts w = .option s.opt (some s.value) →
        parseOptions opts (w :: ws) v = parseOptions opts ws (v.set s.opt.field s.value) := by
      intro w ws h
      rw [parseOptions, h]
      simp [hvs]
    have two : ∀ {w : List Char} {ws : List (List Char)}, word opts w = .option s.opt none → (∀ c rest, s.value ≠ '-' :: c :: rest) →
        parseOptions opts (w :: s.value :: ws) v = parseOptions opts ws (v.set s.opt.field s.value) := by
      intro w ws h hx
      rw [parseOptions, h]
      simp [hvs, (looksLikeOption_iff s.value).2 hx]
    rw [List.flatMap_cons, List.append_assoc]
    show _ = some (setAll (v.set s.opt.field s.value) ss)
    rw [← ih]
    obtain ⟨hm, hf⟩ := hs
    unfold Setting.words
    unfold Setting.Fits at hf
    cases hform : s.form <;> rw [hform] at hf
    · exact two (word_long L hm) hf
    · refine one ?_
      have := word_longEq L hm s.value
      simpa using this
    · exact two (word_short L hm []) hf
    · refine one ?_
      show word opts ('-' :: s.opt.short :: s.value) = _
      rw [word_short L hm, attached_value hf]
    · exact one (word_short L hm ('=' :: s.value))

theorem setAll_none {v : Chosen} {ss : List Setting} {f : Field} (h : setAll v ss f = none) : v f = none := by
  induction ss generalizing v with
  | nil => exact h
  | cons s ss ih =>
    have := ih (v := v.set s.opt.field s.value) h
    unfold Chosen.set at this
    split at this
    · cases this
    · exact this

/-- Only such lines are accepted. -/
theorem parse_some {opts : List Opt} : ∀ (n : Nat) (ws : List (List Char)) (v v' : Chosen), ws.length ≤ n →
    parseOptions opts ws v = some v' → ∃ (ss : List Setting) (stop : Bool),
      ws = ss.flatMap Setting.words ++ (if stop then [chars! "--"] else []) ∧ (∀ s ∈ ss, s.opt ∈ opts ∧ s.Fits) ∧
      (ss.map fun s => s.opt.field).Nodup ∧ (∀ s ∈ ss, v s.opt.field = none) ∧ v' = setAll v ss
  | _, [], v, v', _, h => ⟨[], false, rfl, by simp, by simp, by simp, (Option.some.inj h).symm⟩
  | n + 1, w :: ws, v, v', hl, h => by
    have next : ∀ (s : Setting) (ws' : List (List Char)), w :: ws = s.words ++ ws' → ws'.length ≤ n → s.opt ∈ opts → s.Fits →
        v s.opt.field = none → parseOptions opts ws' (v.set s.opt.field s.value) = some v' → ∃ (ss : List Setting) (stop : Bool),
          w :: ws = ss.flatMap Setting.words ++ (if stop then [chars! "--"] else []) ∧ (∀ s ∈ ss, s.opt ∈ opts ∧ s.Fits) ∧
          (ss.map fun s => s.opt.field).Nodup ∧ (∀ s ∈ ss, v s.opt.field = none) ∧ v' = setAll v ss := by
      intro s ws' e hl' hm hf hv h'
      obtain ⟨ss, stop, e', hk, ho, hn, hv'⟩ := parse_some n ws' _ v' hl' h'
      have hne : ∀ t ∈ ss, t.opt.field ≠ s.opt.field ∧ v t.opt.field = none := by
        intro t ht
        have := hn t ht
        unfold Chosen.set at this
        split at this
        · cases this
        · rename_i hne; exact ⟨hne, this⟩
      refine ⟨s :: ss, stop, ?_, ?_, ?_, ?_, hv'⟩
      · rw [e, e', List.flatMap_cons, List.append_assoc]
      · intro t ht
        rcases List.mem_cons.1 ht with rfl | ht
        · exact ⟨hm, hf⟩
        · exact hk t ht
      · simp only [List.map_cons, List.nodup_cons, List.mem_map, not_exists, not_and]
        exact ⟨fun t ht => (hne t ht).1, ho⟩
      · intro t ht
        rcases List.mem_cons.1 ht with rfl | ht
        · exact hv
        · exact (hne t ht).2
    have hl1 : ws.length ≤ n := by simpa using hl
    rw [parseOptions] at h
    rcases hw : word opts w with ⟨o, x⟩ | _ | _ <;> rw [hw] at h
    · obtain ⟨hm, hx⟩ := word_option hw
      rcases hx with ⟨rfl, hx⟩ | ⟨x, rfl, hx⟩
      · dsimp only at h
        rcases ws with _ | ⟨x, ws⟩
        · cases h
        · dsimp only at h
          split at h
          · cases h
          · rename_i hc
            rw [Bool.or_eq_true, not_or] at hc
            obtain ⟨h1, h2⟩ := hc
            have h1 := (looksLikeOption_iff x).1 (by simpa using h1)
            have h2 : v o.field = none := by simpa using h2
            have hl' : ws.length ≤ n := le_trans (Nat.le_succ _) hl1
            rcases hx with rfl | rfl
            · exact next ⟨o, .longApart, x⟩ ws rfl hl' hm h1 h2 h
            · exact next ⟨o, .shortApart, x⟩ ws rfl hl' hm h1 h2 h
      · dsimp only at h
        split at h
        · cases h
        · rename_i h2
          have h2 : v o.field = none := by simpa using h2
          rcases hx with rfl | rfl | ⟨rfl, hx⟩
          · exact next ⟨o, .longEq, x⟩ ws (by simp [Setting.words]) hl1 hm trivial h2 h
          · exact next ⟨o, .shortEq, x⟩ ws rfl hl1 hm trivial h2 h
          · exact next ⟨o, .shortAttached, x⟩ ws rfl hl1 hm hx h2 h
    · dsimp only at h
      split at h
      · rename_i he
        subst he
        refine ⟨[], true, ?_, by simp, by simp, by simp, (Option.some.inj h).symm⟩
        have : w = ['-', '-'] := by
          unfold word at hw
          split at hw
          · rfl
          · split at hw <;> cases hw
          · split at hw <;> cases hw
          · cases hw
        rw [this]
        rfl
      · cases h
    · cases h

theorem command_found (b : Binding) (c : Command) : c ∈ b.commands → b.commands.find? (fun d => d.name = c.name) = some c := by
  cases b <;> cases c <;> decide +kernel

theorem setAll_apply {opts : List Opt} (L : Clear opts) : ∀ (ss : List Setting) (v : Chosen), (∀ s ∈ ss, s.opt ∈ opts ∧ s.Fits) →
    (ss.map fun s => s.opt.field).Nodup → ∀ opt ∈ opts,
    (∀ s ∈ ss, s.opt = opt → setAll v ss opt.field = some s.value) ∧ ((∀ s ∈ ss, s.opt ≠ opt) → setAll v ss opt.field = v opt.field)
  | [], _, _, _, _, _ => ⟨by simp, fun _ => rfl⟩
  | s :: ss, v, hk, ho, opt, hopt => by
    simp only [List.map_cons, List.nodup_cons, List.mem_map, not_exists, not_and] at ho
    obtain ⟨i1, i2⟩ := setAll_apply L ss (v.set s.opt.field s.value) (fun t ht => hk t (by simp [ht])) ho.2 opt hopt
    have same : ∀ {p : Opt}, p ∈ opts → p.field = opt.field → p = opt := by
      intro p hp e
      have h1 := L.2.2.1 p hp
      have h2 := L.2.2.1 opt hopt
      rw [e] at h1
      rw [h1] at h2
      exact Option.some.inj h2
    constructor
    · intro t ht e
      rcases List.mem_cons.1 ht with rfl | ht
      · refine (i2 fun u hu e' => ?_).trans ?_
        · exact ho.1 u hu (by rw [e', e])
        · unfold Chosen.set
          rw [if_pos (by rw [e])]
      · exact i1 t ht e
    · intro hne
      refine (i2 fun u hu => hne u (by simp [hu])).trans ?_
      unfold Chosen.set
      rw [if_neg]
      intro e
      exact hne s (by simp) (same (hk s (by simp)).1 e.symm)

theorem file_filesOf (opts : List Opt) (v : Chosen) (f : Field) : file (filesOf opts v) f = fieldValue opts v f := by
  cases f <;> rfl

/-- What the settings give is what `clap` puts into the struct. -/
theorem gives_filesOf {b : Binding} {c : Command} {ss : List Setting} (hk : ∀ s ∈ ss, s.opt ∈ options b c ∧ s.Fits)
    (ho : (ss.map fun s => s.opt.field).Nodup) (o : Files) :
    Gives b c ss o ↔ ∀ opt ∈ options b c, file o opt.field = file (filesOf (options b c) (setAll (fun _ => none) ss)) opt.field := by
  have L := options_clear b c
  refine forall₂_congr fun opt hopt => ?_
  obtain ⟨h1, h2⟩ := setAll_apply L ss (fun _ => none) hk ho opt hopt
  rw [file_filesOf, fieldValue]
  by_cases h : ∃ s ∈ ss, s.opt = opt
  · obtain ⟨s, hs, e⟩ := h
    rw [h1 s hs e]
    constructor
    · rintro (⟨t, ht, e', hf⟩ | ⟨hno, -⟩)
      · have := h1 t ht e'
        rw [h1 s hs e] at this
        rw [hf]; exact (Option.some.inj this).symm
      · exact absurd e (hno s hs)
    · intro hf; exact .inl ⟨s, hs, e, hf⟩
  · have hno : ∀ s ∈ ss, s.opt ≠ opt := fun s hs e => h ⟨s, hs, e⟩
    rw [h2 hno]
    dsimp only
    rw [L.2.2.1 opt hopt]
    constructor
    · rintro (⟨t, ht, e', -⟩ | ⟨-, hf⟩)
      · exact absurd e' (hno t ht)
      · exact hf
    · intro hf; exact .inr ⟨hno, hf⟩

theorem parse_says {b : Binding} {c : Command} {ss : List Setting} {argv : List (List Char)} (h : Says b c ss argv) :
    parseLine b argv = some (c, filesOf (options b c) (setAll (fun _ => none) ss)) := by
  obtain ⟨hc, hk, ho, stop, rfl⟩ := h
  rw [parseLine, command_found b c hc]
  dsimp only
  rw [parse_line (options_clear b c) stop ss _ hk ho (fun _ _ => rfl)]
  rfl

theorem says_parse {b : Binding} {c : Command} {o : Files} {argv : List (List Char)} (h : parseLine b argv = some (c, o)) :
    ∃ ss, Says b c ss argv ∧ o = filesOf (options b c) (setAll (fun _ => none) ss) := by
  rcases argv with _ | ⟨name, ws⟩
  · cases h
  · rw [parseLine] at h
    split at h
    · cases h
    · rename_i d hd
      have hm := List.mem_of_find?_eq_some hd
      have hn : d.name = name := of_decide_eq_true (by simpa using List.find?_some hd)
      rcases hp : parseOptions (options b d) ws fun _ => none with _ | v <;> rw [hp] at h
      · cases h
      · cases h
        obtain ⟨ss, stop, e, hk, ho, -, hv⟩ := parse_some _ ws _ v (le_refl _) hp
        exact ⟨ss, ⟨hm, hk, ho, stop, by rw [hn, e]⟩, by rw [hv]⟩

/-! ## C107 -/

/-- C107: there are paths for every line that says something. -/
theorem C107_files {b : Binding} {c : Command} {ss : List Setting} {argv : List (List Char)} (h : Says b c ss argv) : ∃ o, Gives b c ss o :=
  ⟨_, (gives_filesOf h.known h.once _).2 fun _ _ => rfl⟩

/-- C107: the commands of the bindings (only the Ethereum binding makes contracts) and their names; an option has the same name in all
commands, and every command has options for just the files that it reads or writes. -/
theorem C107_names (b : Binding) : (∀ c, c ∈ b.commands ↔ c = .generateVerifier → b = .ethereum) ∧ ∀ c ∈ b.commands, c.name = commandName c ∧
    (∀ o ∈ options b c, o.long = longName o.field ∧ o.short = shortName o.field) ∧
    ((options b c).map Opt.field).Nodup ∧ ∀ f, f ∈ (options b c).map Opt.field ↔ f ∈ reads c ∨ f ∈ writes c := by
  refine ⟨fun c => by cases b <;> cases c <;> decide, fun c hc => ?_⟩
  cases b <;> cases c <;> first
    | (exact absurd hc (by decide))
    | (refine ⟨rfl, by decide +kernel, by decide +kernel, fun f => ?_⟩; cases f <;> decide +kernel)

/-- C107: no line says two things. -/
theorem C107_unambiguous {b : Binding} {c c' : Command} {ss ss' : List Setting} {argv : List (List Char)} (h : Says b c ss argv)
    (h' : Says b c' ss' argv) : c = c' ∧ ∀ o, Gives b c ss o ↔ Gives b c' ss' o := by
  have e := (parse_says h).symm.trans (parse_says h')
  injection e with e
  injection e with e1 e2
  subst e1
  refine ⟨rfl, fun o => ?_⟩
  rw [gives_filesOf h.known h.once, gives_filesOf h'.known h'.once, e2]

variable {G1 G2 T : Type} [AddCommGroup G1] [AddCommGroup G2] [DecidableEq G1] [DecidableEq G2] [One T] [DecidableEq T]
  {r : Nat} [Fact r.Prime]

/-- A command uses only the paths of its own options. -/
theorem dispatch_files {b : Binding} {g : Program G1 G2 T r} {k : Circumstances g} {c : Command} (hc : c ∈ b.commands) {o o' : Files}
    (h : ∀ opt ∈ options b c, file o opt.field = file o' opt.field) : dispatch b g k o c = dispatch b g k o' c := by
  obtain ⟨o1, o2, o3, o4, o5, o6⟩ := o
  obtain ⟨q1, q2, q3, q4, q5, q6⟩ := o'
  cases b <;> cases c <;> simp [options, file, Binding.commands] at h hc
  all_goals
    first
    | (obtain ⟨h1, h2, h3, h4⟩ := h; subst h1 h2 h3 h4; rfl)
    | (obtain ⟨h1, h2, h3⟩ := h; subst h1 h2 h3; rfl)
    | (obtain ⟨h1, h2⟩ := h; subst h1 h2; rfl)
    | (subst h; rfl)

theorem cliMain_says {b : Binding} (g : Program G1 G2 T r) (k : Circumstances g) {c : Command} {ss : List Setting} {argv : List (List Char)}
    (h : Says b c ss argv) {o : Files} (ho : Gives b c ss o) : cliMain b g k argv = (do dispatch b g k o c; pure .done) := by
  unfold cliMain
  rw [parse_says h]
  dsimp only
  rw [dispatch_files h.command ((gives_filesOf h.known h.once o).1 ho)]

/-- C107: a line that says something makes the program run the command with the paths it gives. -/
theorem C107_runs (b : Binding) (g : Program G1 G2 T r) (k : Circumstances g) (ss : List Setting) (argv : List (List Char)) (o : Files) :
    (Says b .prove ss argv → Gives b .prove ss o → cliMain b g k argv = (do proveCmd g k.x k.y o; pure .done)) ∧
    (Says b .verify ss argv → Gives b .verify ss o → cliMain b g k argv = (do verifyCmd g o; pure .done)) ∧
    (Says b .setup ss argv → Gives b .setup ss o →
      (b = .ethereum → cliMain b g k argv = (do setupEthereum g k.toxic o; pure .done)) ∧
      (b ≠ .ethereum → cliMain b g k argv = (do setupText g k.toxic o; pure .done))) ∧
    (Says b .generateVerifier ss argv → Gives b .generateVerifier ss o →
      cliMain b g k argv = (do @generateVerifier k.q k.prime k.checked o; pure .done)) ∧
    (Says b .generateTestData ss argv → Gives b .generateTestData ss o →
      cliMain b g k argv = (do generateTestData g k.data o; pure .done)) := by
  refine ⟨fun h ho => cliMain_says g k h ho, fun h ho => cliMain_says g k h ho, fun h ho => ⟨fun hb => ?_, fun hb => ?_⟩,
    fun h ho => cliMain_says g k h ho, fun h ho => cliMain_says g k h ho⟩
  · rw [cliMain_says g k h ho, dispatch, if_pos hb]
  · rw [cliMain_says g k h ho, dispatch, if_neg hb]

/-- C107: any other line makes it do nothing but print a message. -/
theorem C107_message (b : Binding) (g : Program G1 G2 T r) (k : Circumstances g) (argv : List (List Char))
    (h : ∀ c ss, ¬ Says b c ss argv) (w : Cli.World) : (cliMain b g k argv).run w = (.ok .message, w) := by
  unfold cliMain
  rcases hp : parseLine b argv with _ | ⟨c, o⟩
  · rfl
  · obtain ⟨ss, hs, -⟩ := says_parse hp
    exact absurd hs (h c ss)

/-- Only these files may change. -/
def Only {α : Type} (S : List Path) (c : Cmd α) : Prop := ∀ w, ∀ p ∉ S, (c.run w).2.files p = w.files p

namespace Only

variable {α β : Type} {S : List Path}

theorem bind {c : Cmd α} {f : α → Cmd β} (h : Only S c) (h' : ∀ a, Only S (f a)) : Only S (c >>= f) := by
  intro w p hp
  have e := h w p hp
  rcases hc : c.run w with ⟨res, w'⟩
  rw [hc] at e
  cases res with
  | error err => rw [run_bind_error hc]; exact e
  | ok a => rw [run_bind_ok hc]; exact (h' a w' p hp).trans e

theorem of_same {c : Cmd α} (h : ∀ w, (c.run w).2.files = w.files) : Only S c := fun w p _ => congrFun (h w) p

theorem lift (x : Except Panic α) : Only S (lift x) := of_same fun _ => rfl
theorem pure (x : α) : Only S (Pure.pure x : Cmd α) := of_same fun _ => rfl
theorem unwrap (x : Option α) : Only S (unwrap x) := of_same fun _ => by cases x <;> rfl
theorem println (l : List Char) : Only S (println l) := of_same fun _ => rfl
theorem calls : Only S Cmd.outcome := of_same fun w => by
  show (Cmd.outcome w).2.files = _
  unfold Cmd.outcome
  split <;> rfl
theorem contents (p : Path) : Only S (contents p) := of_same fun w => by
  show (Cmd.contents p w).2.files = _
  unfold Cmd.contents
  split <;> rfl
theorem setFile {p : Path} (hp : p ∈ S) (bs : List UInt8) : Only S (setFile p bs) := fun w p' hp' => by
  show (if p' = p then some bs else w.files p') = _
  rw [if_neg]
  rintro rfl
  exact hp' hp
theorem create {p : Path} (hp : p ∈ S) : Only S (create p) := bind calls fun o => by
  cases o
  · exact lift _
  · exact setFile hp _
  · exact setFile hp _
theorem writeOnce {p : Path} (hp : p ∈ S) (bs : List UInt8) : Only S (writeOnce p bs) := bind calls fun o => by
  cases o
  · exact lift _
  · exact bind (contents p) fun _ => bind (setFile hp _) fun _ => pure _
  · exact bind (contents p) fun _ => bind (setFile hp _) fun _ => pure _
theorem writeLoop {p : Path} (hp : p ∈ S) : ∀ (fuel : Nat) (bs : List UInt8), Only S (writeLoop p fuel bs)
  | 0, [] => pure _
  | _ + 1, [] => pure _
  | 0, _ :: _ => pure _
  | fuel + 1, b :: bs => by
    unfold Cmd.writeLoop
    refine bind (writeOnce hp _) fun n => ?_
    split
    · exact lift _
    · exact writeLoop hp fuel _
theorem writeAll {p : Path} (hp : p ∈ S) (bs : List UInt8) : Only S (writeAll p bs) := writeLoop hp _ _
theorem writeChunks {p : Path} (hp : p ∈ S) : ∀ cs : List (List UInt8), Only S (writeChunks p cs)
  | [] => pure _
  | c :: cs => bind (writeAll hp c) fun _ => writeChunks hp cs
theorem fsWrite {p : Path} (hp : p ∈ S) (bs : List UInt8) : Only S (fsWrite p bs) := bind (create hp) fun _ => writeAll hp bs
theorem readBytes (p : Path) : Only S (readBytes p) := bind calls fun o => by
  cases o
  · exact lift _
  · exact contents p
  · exact contents p
theorem readToString (p : Path) : Only S (readToString p) := bind (readBytes p) fun _ => unwrap _

end Only

theorem only_dispatch (b : Binding) (g : Program G1 G2 T r) (k : Circumstances g) (o : Files) (c : Command) :
    Only ((writes c).map (file o)) (dispatch b g k o c) := by
  cases c
  · show Only _ (proveCmd g k.x k.y o)
    unfold proveCmd
    repeat' first
      | exact Only.lift _ | exact Only.unwrap _ | exact Only.println _ | exact Only.readToString _ | exact Only.readBytes _
      | exact Only.fsWrite (by simp [writes, file]) _
      | refine Only.bind ?_ fun _ => ?_
  · show Only _ (verifyCmd g o)
    unfold verifyCmd
    repeat' first
      | exact Only.lift _ | exact Only.unwrap _ | exact Only.println _ | exact Only.readToString _ | exact Only.readBytes _
      | exact Only.fsWrite (by simp [writes, file]) _
      | refine Only.bind ?_ fun _ => ?_
  · show Only _ (if _ then _ else _)
    split
    all_goals
      first | unfold setupEthereum | unfold setupText
      repeat' first
        | exact Only.lift _ | exact Only.println _ | exact Only.fsWrite (by simp [writes, file]) _
        | exact Only.create (by simp [writes, file]) | exact Only.writeChunks (by simp [writes, file]) _
        | refine Only.bind ?_ fun _ => ?_
  · show Only _ (@generateVerifier k.q k.prime k.checked o)
    unfold generateVerifier
    repeat' first
      | exact Only.lift _ | exact Only.unwrap _ | exact Only.println _ | exact Only.readToString _
      | exact Only.create (by simp [writes, file]) | exact Only.writeOnce (by simp [writes, file]) _
      | refine Only.bind ?_ fun _ => ?_
  · show Only _ (generateTestData g k.data o)
    unfold generateTestData
    repeat' first
      | exact Only.lift _ | exact Only.println _ | exact Only.fsWrite (by simp [writes, file]) _
      | refine Only.bind ?_ fun _ => ?_

/-- C107: whatever the command line is, and whatever happens during the run (also if it ends with a panic or the disk fails), a file that
is not the same after it is one that the line names - or leaves at its default value - for the command to write. -/
theorem C107_touches (b : Binding) (g : Program G1 G2 T r) (k : Circumstances g) (argv : List (List Char)) (w : Cli.World) (p : Path)
    (h : ((cliMain b g k argv).run w).2.files p ≠ w.files p) :
    ∃ c ss o, Says b c ss argv ∧ Gives b c ss o ∧ ∃ f ∈ writes c, p = file o f := by
  rcases hp : parseLine b argv with _ | ⟨c, o⟩
  · exfalso
    apply h
    unfold cliMain
    rw [hp]
    rfl
  · obtain ⟨ss, hs, ho⟩ := says_parse hp
    refine ⟨c, ss, o, hs, (gives_filesOf hs.known hs.once o).2 fun _ _ => by rw [ho], ?_⟩
    by_contra hn
    apply h
    unfold cliMain
    rw [hp]
    refine Only.bind (only_dispatch b g k o c) (fun _ => Only.pure _) w p fun hm => hn ?_
    obtain ⟨f, hf, e⟩ := List.mem_map.1 hm
    exact ⟨f, hf, e.symm⟩

/-- C107: the default values of the options of different commands fit together, and are different files. -/
theorem C107_defaults (b : Binding) : ∃ o : Files, Distinct o ∧ o.solidity ∉ [o.params, o.vk, o.object, o.proof, o.inputs] ∧
    ∀ c ∈ b.commands, Gives b c [] o := by
  have key : ∀ (b : Binding) (o : Files), (∀ c ∈ b.commands, ∀ opt ∈ options b c, file o opt.field = opt.default) →
      ∀ c ∈ b.commands, Gives b c [] o := fun b o h c hc opt hopt => .inr ⟨by simp, h c hc opt hopt⟩
  cases b
  · exact ⟨ethereumFiles, by unfold Distinct; decide +kernel, by decide +kernel, key _ _ (by decide +kernel)⟩
  all_goals exact ⟨textFiles, by unfold Distinct; decide +kernel, by decide +kernel, key _ _ (by decide +kernel)⟩

/-- The four lines one after the other. -/
def lines (b : Binding) (g : Program G1 G2 T r) (k : Circumstances g) (l1 l2 l3 l4 : List (List Char)) : Cmd Exit := do
  let _ ← cliMain b g k l1
  let _ ← cliMain b g k l2
  let _ ← cliMain b g k l3
  cliMain b g k l4

/-- C107: a session at the command line, with options written in any way and order, that give the same different files to all commands
(or leave them out): it does what C78 says. -/
theorem C107_session (b : Binding) (g : Program G1 G2 T r) (k : Circumstances g) (verdict : Bool)
    (hc : Completes g k.toxic k.data k.x k.y verdict) (o : Files) (ho : Distinct o) (s1 s2 s3 s4 : List Setting)
    (l1 l2 l3 l4 : List (List Char)) (h1 : Says b .setup s1 l1) (h2 : Says b .generateTestData s2 l2) (h3 : Says b .prove s3 l3)
    (h4 : Says b .verify s4 l4) (g1 : Gives b .setup s1 o) (g2 : Gives b .generateTestData s2 o) (g3 : Gives b .prove s3 o)
    (g4 : Gives b .verify s4 o) (w : Cli.World) (hp : w.plan = []) :
    ((lines b g k l1 l2 l3 l4).run w).1 = .ok .done ∧
    ((lines b g k l1 l2 l3 l4).run w).2.printed = w.printed ++
      [chars! "setup OK", chars! "Test data generated", chars! "Proved",
        if verdict then chars! "Verify result is true." else chars! "Verify result is false."] ∧
    ∀ p ∉ [o.params, o.vk, o.object, o.proof, o.inputs], ((lines b g k l1 l2 l3 l4).run w).2.files p = w.files p := by
  have hsetup : dispatch b g k o .setup = setupEthereum g k.toxic o ∨ dispatch b g k o .setup = setupText g k.toxic o := by
    show (if _ then _ else _) = _ ∨ (if _ then _ else _) = _
    split
    · exact .inl rfl
    · exact .inr rfl
  obtain ⟨r1, r2, r3⟩ := hc o ho _ hsetup w hp
  have e : lines b g k l1 l2 l3 l4 = (do session (dispatch b g k o .setup) g k.data k.x k.y o; pure .done) := by
    unfold lines session
    rw [cliMain_says g k h1 g1, cliMain_says g k h2 g2, cliMain_says g k h3 g3, cliMain_says g k h4 g4]
    simp only [Cli.bind_assoc]
    rfl
  rw [e]
  generalize session (dispatch b g k o .setup) g k.data k.x k.y o = S at r1 r2 r3
  rcases hS : S.run w with ⟨_ | _, w'⟩
  · rw [hS] at r1; cases r1
  · rw [hS] at r2 r3
    rw [run_bind_ok hS]
    exact ⟨rfl, r2, r3⟩

/-- C107: if the same path is given for both files, as in `setup -p keys -v keys`, then "setup OK" is printed as well, but only one of
the keys is there afterwards: with the Ethereum binding the verifying key, with the others the proving key. -/
theorem C107_same_path (g : Program G1 G2 T r) (t : Toxic G1 G2 r) (o : Files) (ho : o.params = o.vk) (w : Cli.World) :
    Honest [o.vk] (chars! "setup OK") (fun w' => ∃ params text, generateKeys g.field t (g.circuit none none) = .ok params ∧
      g.format.vkTo (truncate params.vk) = .ok text ∧ w'.files o.vk = some (intoBytes text)) w ((setupEthereum g t o).run w) ∧
    Honest [o.vk] (chars! "setup OK") (fun w' => ∃ params, generateKeys g.field t (g.circuit none none) = .ok params ∧
      w'.files o.vk = some (paramsBytes g.raw1 g.raw2 params)) w ((setupText g t o).run w) := by
  unfold setupEthereum setupText
  cases hk : keyResult (generateKeys g.field t (g.circuit none none)) with
  | error e => rw [run_lift_error rfl, run_lift_error rfl]; exact ⟨honest_same (.refl _ _), honest_same (.refl _ _)⟩
  | ok params =>
    rw [run_lift_ok rfl, run_lift_ok rfl]
    cases hv : g.format.vkTo (truncate params.vk) with
    | error e => rw [run_lift_error rfl, run_lift_error rfl]; exact ⟨honest_same (.refl _ _), honest_same (.refl _ _)⟩
    | ok text =>
      rw [run_lift_ok rfl, run_lift_ok rfl, bind_assoc4, bind_assoc4, ho]
      constructor
      · refine honest_io (.refl _ _) (Io.mono (Q := fun _ w' => w'.files o.vk = some (intoBytes text)) ?_ (fun _ h => h) fun _ w' _ h w'' hw => ?_)
        · refine (create_io o.vk w).bind fun _ w1 _ h1 => ?_
          exact (writeChunks_io o.vk _ [] w1 h1).bind fun _ w2 _ h2 => fsWrite_io o.vk _ w2
        · exact ⟨params, text, keyResult_ok.1 hk, hv, by rw [hw]; exact h⟩
      · refine honest_io (.refl _ _) (Io.mono (Q := fun _ w' => w'.files o.vk = some (paramsBytes g.raw1 g.raw2 params)) ?_ (fun _ h => h)
          fun _ w' _ h w'' hw => ?_)
        · refine (fsWrite_io o.vk _ w).bind fun _ w1 _ h1 => ?_
          refine (create_io o.vk w1).bind fun _ w2 _ h2 => ?_
          exact writeChunks_io o.vk _ [] w2 h2
        · exact ⟨params, keyResult_ok.1 hk, by rw [hw]; exact h⟩

/-- C107: `prove -r out -i out` prints "Proved" as well, but only the inputs are there afterwards. -/
theorem C107_same_path_prove (g : Program G1 G2 T r) (x y : ZMod r) (o : Files) (ho : o.proof = o.inputs) (w : Cli.World) :
    Honest [o.inputs] (chars! "Proved") (fun w' => ∃ object p s inputs inputsText, w.files o.object = some object ∧
      (fromUtf8 object).bind (ofText (pairOf (g.pub.of r) (g.sec.of r))) = some (p, s) ∧ getInputs g.pub.ty (some p) = .ok (some inputs) ∧
      g.format.inputsTo inputs = .ok inputsText ∧ w'.files o.inputs = some (intoBytes inputsText)) w ((proveCmd g x y o).run w) := by
  unfold proveCmd
  rcases readBytes_run o.params w with ⟨bytes, w1, h1, s1, f1, b1⟩ | ⟨w1, h1, s1, f1, b1⟩
  swap
  · rw [run_bind_error h1]; exact honest_same s1
  rw [run_bind_ok h1]
  cases hp : paramsRead g.raw1 g.raw2 false bytes with
  | none => rw [run_unwrap_none rfl]; exact honest_same s1
  | some pr =>
    obtain ⟨params, rest⟩ := pr
    rw [run_unwrap_ok rfl]
    rcases readToString_run o.object w1 with ⟨text, object, w2, h2, s2, f2, b2, t2⟩ | ⟨w2, h2, s2, f2, b2⟩
    swap
    · simp only; rw [run_bind_error h2]; exact honest_same (s1.trans s2)
    simp only
    rw [run_bind_ok h2]
    have hs := s1.trans s2
    cases hd : ofText (pairOf (g.pub.of r) (g.sec.of r)) text with
    | none => rw [run_unwrap_none rfl]; exact honest_same hs
    | some d =>
      obtain ⟨p, s⟩ := d
      rw [run_unwrap_ok rfl]
      simp only
      cases hk : keyResult (prove g.field params x y (g.circuit (some p) (some s))) with
      | error e => rw [run_lift_error rfl]; exact honest_same hs
      | ok proof =>
        rw [run_lift_ok rfl]
        cases hi : getInputs g.pub.ty (some p) with
        | error e => rw [run_lift_error rfl]; exact honest_same hs
        | ok oi =>
          rw [run_lift_ok rfl]
          cases oi with
          | none => rw [run_unwrap_none rfl]; exact honest_same hs
          | some inputs =>
            rw [run_unwrap_ok rfl]
            cases hpt : g.format.proofTo proof with
            | error e => rw [run_lift_error rfl]; exact honest_same hs
            | ok proofText =>
              rw [run_lift_ok rfl]
              cases hit : g.format.inputsTo inputs with
              | error e => rw [run_lift_error rfl]; exact honest_same hs
              | ok inputsText =>
                rw [run_lift_ok rfl, bind_assoc3, ho]
                refine honest_io hs (Io.mono (Q := fun _ w' => w'.files o.inputs = some (intoBytes inputsText))
                  ((fsWrite_io o.inputs _ w2).bind fun _ w3 _ _ => fsWrite_io o.inputs _ w3) (fun _ h => h) fun _ w' _ h w'' hw => ?_)
                refine ⟨object, p, s, inputs, inputsText, ?_, ?_, hi, hit, by rw [hw]; exact h⟩
                · rw [← f1]; exact b2
                · rw [t2]; exact hd

/-! ### Examples -/

/-- `prove -p=a.bin --object my.json -rq.txt` with the other options at their defaults. -/
example : Says .near .prove [⟨⟨.params, 'p', chars! "params", chars! "params.bin"⟩, .shortEq, chars! "a.bin"⟩,
      ⟨⟨.object, 'o', chars! "object", chars! "object.json"⟩, .longApart, chars! "my.json"⟩,
      ⟨⟨.proof, 'r', chars! "proof", chars! "proof.txt"⟩, .shortAttached, chars! "q.txt"⟩]
    [chars! "prove", chars! "-p=a.bin", chars! "--object", chars! "my.json", chars! "-rq.txt"] where
  command := by decide
  known := by
    intro s hs
    simp only [List.mem_cons, List.not_mem_nil, or_false] at hs
    rcases hs with rfl | rfl | rfl
    · exact ⟨by decide, trivial⟩
    · refine ⟨by decide, ?_⟩
      intro c rest h
      injection h with h _
      revert h; decide
    · exact ⟨by decide, by decide, by decide⟩
  once := by decide
  line := ⟨false, rfl⟩

example : (parseLine .near [chars! "prove", chars! "-p=a.bin", chars! "--object", chars! "my.json", chars! "-rq.txt"]).map
    (fun q => (q.1, q.2.params, q.2.object, q.2.proof, q.2.inputs)) =
    some (.prove, chars! "a.bin", chars! "my.json", chars! "q.txt", chars! "inputs.txt") := by decide +kernel

/-- Lines that say nothing: repeated options, unknown ones, missing values, values that look like options, a command of another binding. -/
example : parseLine .near [chars! "prove", chars! "-p=a.bin", chars! "--params", chars! "b.bin"] = none ∧
    parseLine .near [chars! "prove", chars! "-v", chars! "a"] = none ∧ parseLine .near [chars! "prove", chars! "--params"] = none ∧
    parseLine .near [chars! "prove", chars! "--params", chars! "-o"] = none ∧ parseLine .near [chars! "generate-verifier"] = none ∧
    parseLine .ethereum [] = none ∧ parseLine .ethereum [chars! "setup", chars! "--help"] = none ∧
    parseLine .ethereum [chars! "setup", chars! "now"] = none := by
  refine ⟨rfl, rfl, rfl, rfl, rfl, rfl, rfl, rfl⟩

/-- `setup -pkeys --vk keys` gives the same path twice. -/
example : (parseLine .ethereum [chars! "setup", chars! "-pkeys", chars! "--vk", chars! "keys"]).map (fun q => (q.1, q.2.params, q.2.vk)) =
    some (.setup, chars! "keys", chars! "keys") := by decide +kernel

/-- A line without options. -/
theorem says_plain {b : Binding} {c : Command} (hc : c ∈ b.commands) : Says b c [] [c.name] :=
  ⟨hc, by simp, by simp, false, rfl⟩

/-- `generate-test-data` without options creates object.json, so that the hypothesis of `C107_touches` holds for it. -/
example (g : Program G1 G2 T r) (k : Circumstances g) (w : Cli.World) (hp : w.plan = []) (hf : w.files (chars! "object.json") = none)
    (text : List Char) (ht : toText (pairTo g.pub.to g.sec.to) k.data = .ok text) :
    ((cliMain .ethereum g k [chars! "generate-test-data"]).run w).2.files (chars! "object.json") ≠ w.files (chars! "object.json") := by
  have h := C76_test_data g k.data ethereumFiles w
  have hc := (C76_test_data_calm g k.data ethereumFiles w hp text ht).1
  have e : cliMain .ethereum g k [chars! "generate-test-data"] = (do generateTestData g k.data ethereumFiles; pure .done) :=
    (C107_runs .ethereum g k [] _ ethereumFiles).2.2.2.2 (says_plain (by decide))
      (fun opt hopt => .inr ⟨by simp, by revert opt; decide +kernel⟩)
  rw [e]
  rcases hr : (generateTestData g k.data ethereumFiles).run w with ⟨res, w'⟩
  rw [hr] at h hc
  obtain rfl : res = .ok () := hc
  rw [run_bind_ok hr]
  rcases h.2 with ⟨-, -, t, -, h⟩ | ⟨e, h, -⟩
  · show w'.files ethereumFiles.object ≠ _
    rw [show w'.files ethereumFiles.object = _ from h, hf]
    simp
  · cases h

/-- The whole session of a program without any options. -/
theorem session_plain (b : Binding) (g : Program G1 G2 T r) (k : Circumstances g) (hc : Completes g k.toxic k.data k.x k.y true)
    (w : Cli.World) (hp : w.plan = []) :
    ((lines b g k [chars! "setup"] [chars! "generate-test-data"] [chars! "prove"] [chars! "verify"]).run w).2.printed = w.printed ++
      [chars! "setup OK", chars! "Test data generated", chars! "Proved", chars! "Verify result is true."] := by
  obtain ⟨o, ho, -, hg⟩ := C107_defaults b
  have c1 : Command.setup ∈ b.commands := by cases b <;> decide
  have c2 : Command.generateTestData ∈ b.commands := by cases b <;> decide
  have c3 : Command.prove ∈ b.commands := by cases b <;> decide
  have c4 : Command.verify ∈ b.commands := by cases b <;> decide
  have h := (C107_session b g k true hc o ho [] [] [] [] _ _ _ _ (says_plain c1) (says_plain c2) (says_plain c3) (says_plain c4) (hg _ c1) (hg _ c2)
    (hg _ c3) (hg _ c4) w hp).2.1
  rw [if_pos rfl] at h
  exact h

/-- The program of Props/Session. -/
example (w : Cli.World) (hp : w.plan = []) (k : Circumstances (demoProgram (nearFormat demoCoords bnR))) (h1 : k.toxic = demoToxic)
    (h2 : k.data = demoData 5 7) (h3 : k.x = 11) (h4 : k.y = 12) :
    ((lines .near (demoProgram (nearFormat demoCoords bnR)) k
      [chars! "setup"] [chars! "generate-test-data"] [chars! "prove"] [chars! "verify"]).run w).2.printed = w.printed ++
      [chars! "setup OK", chars! "Test data generated", chars! "Proved", chars! "Verify result is true."] := by
  refine session_plain .near _ k ?_ w hp
  rw [h1, h2, h3, h4]
  exact completes_of_outcome demo_true aligned_bnR demoLayouts.1 demoLayouts.2 demoRaw_lawful demoRaw_lawful
    (.inl (C78_near_format demoCoords_lawful))

end Fawkes.Props
