import Verif.Lemmas.Handles
import Verif.Spec.Handles

/-!
# C108: circuits built side by side
-/

namespace Fawkes.Props

open Handle

section

variable {F : Type}

theorem tag_bare {h : Nat} {q : List (HNum F)} (hq : AllOf h q) : (bare q).map (tag h) = q := by
  induction q with
  | nil => rfl
  | cons x q ih =>
    have hx : x.cs = h := hq x (by simp)
    have := ih fun y hy => hq y (List.mem_cons_of_mem _ hy)
    simp only [bare, List.map] at this ⊢
    rw [this]
    subst hx; rfl

theorem bare_tag (h : Nat) (q : List (CNum F)) : bare (q.map (tag h)) = q := by
  simp only [bare, List.map_map]
  exact List.map_id q

theorem allOf_tag (h : Nat) (q : List (CNum F)) : AllOf h (q.map (tag h)) := by
  intro x hx
  obtain ⟨a, _, rfl⟩ := List.mem_map.1 hx
  rfl

end

variable {r : Nat} [Fact r.Prime] {W : Type}

/-- The run of a call on signals of one system. -/
theorem execCall_run {h : Nat} {q : List (HNum (ZMod r))} (hq : AllOf h q) (w : Option W) (c : Call r W) (σ : Store (ZMod r)) :
    execCall h w q c σ = match (c.exec w (bare q)).run (σ h) with
      | .error e => .error e
      | .ok (q', s) => .ok (q'.map (tag h), fun k => if k = h then s else σ k) := by
  conv_lhs => rw [← tag_bare hq]
  rw [execCall_tag, ← bind_pure_comp, bind_apply]
  simp only [on]
  cases (c.exec w (bare q)).run (σ h) <;> rfl

/-- **C108.** A call of any function of the circuit API whose arguments belong to the constraint system `h` does there what it does in a program
with one constraint system, panics included; its results belong to `h` again and no other constraint system changes. -/
theorem C108_call {h : Nat} {q : List (HNum (ZMod r))} (hq : AllOf h q) (w : Option W) (c : Call r W) (σ : Store (ZMod r)) :
    match (c.exec w (bare q)).run (σ h) with
    | .error e => execCall h w q c σ = .error e
    | .ok (q', s) => ∃ q₁ σ₁, execCall h w q c σ = .ok (q₁, σ₁) ∧ AllOf h q₁ ∧ bare q₁ = q' ∧ σ₁ h = s ∧ ∀ k ≠ h, σ₁ k = σ k := by
  rw [execCall_run hq]
  cases (c.exec w (bare q)).run (σ h) with
  | error e => rfl
  | ok x =>
    refine ⟨_, _, rfl, allOf_tag h _, bare_tag h _, ?_, fun k hk => ?_⟩
    · simp
    · simp [hk]

theorem alone_done (w : Option W) (n : Nat) (q : List (CNum (ZMod r))) : alone w n .done q = pure (.done, q) := by
  cases n <;> rfl

/-- One step, seen from each of the circuits. -/
theorem step_ok {w : Nat → Option W} {h₀ : Nat} {B B₁ : Builders r W} {σ σ₁ : Store (ZMod r)} (hB : ∀ h, AllOf h (B.signals h))
    (hs : step w h₀ B σ = .ok (B₁, σ₁)) :
    (∀ h, AllOf h (B₁.signals h)) ∧ ∀ h n, (alone (w h) (n + if h = h₀ then 1 else 0) (B.code h) (bare (B.signals h))).run (σ h)
      = (alone (w h) n (B₁.code h) (bare (B₁.signals h))).run (σ₁ h) := by
  unfold step at hs
  cases hc : B.code h₀ with
  | done =>
    rw [hc] at hs
    injection hs with hs; injection hs with h1 h2; subst h1 h2
    refine ⟨hB, fun h n => ?_⟩
    by_cases hh : h = h₀
    · subst hh; rw [hc, alone_done, alone_done]
    · rw [if_neg hh]; rfl
  | call c next =>
    rw [hc] at hs
    simp only at hs
    rw [bind_apply, execCall_run (hB h₀)] at hs
    cases hr : (c.exec (w h₀) (bare (B.signals h₀))).run (σ h₀) with
    | error e => rw [hr] at hs; cases hs
    | ok x =>
      rw [hr] at hs
      injection hs with hs; injection hs with h1 h2; subst h1 h2
      refine ⟨fun h => ?_, fun h n => ?_⟩
      · by_cases hh : h = h₀
        · subst hh; simp only [if_true]; exact allOf_tag _ _
        · simp only [if_neg hh]; exact hB h
      · by_cases hh : h = h₀
        · subst hh
          simp only [if_true, hc, alone, bare_tag]
          rw [M.run_bind_ok hr]
          simp only [List.map_map]
          rfl
        · simp only [if_neg hh]; rfl

theorem step_error {w : Nat → Option W} {h₀ : Nat} {B : Builders r W} {σ : Store (ZMod r)} (hB : ∀ h, AllOf h (B.signals h)) {e : Panic}
    (hs : step w h₀ B σ = .error e) (n : Nat) : (alone (w h₀) (n + 1) (B.code h₀) (bare (B.signals h₀))).run (σ h₀) = .error e := by
  unfold step at hs
  cases hc : B.code h₀ with
  | done => rw [hc] at hs; cases hs
  | call c next =>
    rw [hc] at hs
    simp only at hs
    rw [bind_apply, execCall_run (hB h₀)] at hs
    cases hr : (c.exec (w h₀) (bare (B.signals h₀))).run (σ h₀) with
    | error e' => rw [hr] at hs; injection hs with hs; subst hs; simp only [alone, M.run_bind, hr]
    | ok x => rw [hr] at hs; cases hs

/-- **C108.** Circuits are built side by side, each in its own constraint system and each with code that looks at its own signals, in any order of
their calls.  Then each constraint system, and each circuit's signals, are those that the circuit gets when it is built on its own. -/
theorem C108_interleave (w : Nat → Option W) : ∀ (hs : List Nat) {B B' : Builders r W} {σ σ' : Store (ZMod r)},
    (∀ h, AllOf h (B.signals h)) → interleave w hs B σ = .ok (B', σ') → ∀ h, AllOf h (B'.signals h) ∧
      (alone (w h) (hs.count h) (B.code h) (bare (B.signals h))).run (σ h) = .ok ((B'.code h, bare (B'.signals h)), σ' h)
  | [], B, B', σ, σ', hB, hr => by
    injection hr with hr; injection hr with h1 h2; subst h1 h2
    exact fun h => ⟨hB h, rfl⟩
  | h₀ :: hs, B, B', σ, σ', hB, hr => by
    intro h
    rw [interleave, bind_apply] at hr
    cases hst : step w h₀ B σ with
    | error e => rw [hst] at hr; cases hr
    | ok x =>
      rw [hst] at hr
      obtain ⟨hB1, hstep⟩ := step_ok hB hst
      obtain ⟨h1, h2⟩ := C108_interleave w hs hB1 hr h
      refine ⟨h1, ?_⟩
      rw [← h2, ← hstep h, List.count_cons]
      by_cases hh : h = h₀
      · simp [hh]
      · simp [hh, Ne.symm hh]

/-- **C108.** If the program panics, then one of the circuits panics in the same way when it is built on its own. -/
theorem C108_panic (w : Nat → Option W) : ∀ (hs : List Nat) {B : Builders r W} {σ : Store (ZMod r)} {e : Panic},
    (∀ h, AllOf h (B.signals h)) → interleave w hs B σ = .error e →
      ∃ h ∈ hs, (alone (w h) (hs.count h) (B.code h) (bare (B.signals h))).run (σ h) = .error e
  | [], B, σ, e, _, hr => by cases hr
  | h₀ :: hs, B, σ, e, hB, hr => by
    rw [interleave, bind_apply] at hr
    cases hst : step w h₀ B σ with
    | error e' =>
      rw [hst] at hr; injection hr with hr; subst hr
      refine ⟨h₀, by simp, ?_⟩
      rw [List.count_cons_self]
      exact step_error hB hst _
    | ok x =>
      rw [hst] at hr
      obtain ⟨hB1, hstep⟩ := step_ok hB hst
      obtain ⟨h, hm, he⟩ := C108_panic w hs hB1 hr
      refine ⟨h, List.mem_cons_of_mem _ hm, ?_⟩
      rw [← he, ← hstep h, List.count_cons]
      by_cases hh : h = h₀
      · simp [hh]
      · simp [hh, Ne.symm hh]

/-- **C108.** The order of the calls does not matter: two orders that make the same number of calls for each circuit end in the same state. -/
theorem C108_order (w : Nat → Option W) {hs hs' : List Nat} (hp : hs.Perm hs') {B : Builders r W} {σ : Store (ZMod r)}
    (hB : ∀ h, AllOf h (B.signals h)) {x : Builders r W × Store (ZMod r)} (hr : interleave w hs B σ = .ok x) :
    interleave w hs' B σ = .ok x := by
  obtain ⟨B', σ'⟩ := x
  have h1 := C108_interleave w hs hB hr
  cases hr' : interleave w hs' B σ with
  | error e =>
    obtain ⟨h, _, he⟩ := C108_panic w hs' hB hr'
    rw [← hp.count_eq, (h1 h).2] at he
    cases he
  | ok y =>
    obtain ⟨B'', σ''⟩ := y
    have h2 := C108_interleave w hs' hB hr'
    have key : ∀ h, B''.code h = B'.code h ∧ B''.signals h = B'.signals h ∧ σ'' h = σ' h := by
      intro h
      have e1 := (h1 h).2
      rw [hp.count_eq, (h2 h).2] at e1
      injection e1 with e1; injection e1 with e1 e2; injection e1 with e1 e3
      refine ⟨e1, ?_, e2⟩
      rw [← tag_bare (h2 h).1, ← tag_bare (h1 h).1, e3]
    obtain ⟨c', q'⟩ := B'
    obtain ⟨c'', q''⟩ := B''
    have hc : c'' = c' := funext fun h => (key h).1
    have hq : q'' = q' := funext fun h => (key h).2.1
    have hσ : σ'' = σ' := funext fun h => (key h).2.2
    rw [hc, hq, hσ]

theorem alone_finished (w : Option W) : ∀ (n : Nat) {code : Code r W} {q q' : List (CNum (ZMod r))} {s s' : CS (ZMod r)},
    (alone w n code q).run s = .ok ((.done, q'), s') → (code.exec w q).run s = .ok (q', s')
  | 0, code, q, q', s, s', hr => by
    injection hr with hr; injection hr with h1 h2; injection h1 with h1 h3; subst h1 h2 h3; rfl
  | n + 1, .done, q, q', s, s', hr => by
    injection hr with hr; injection hr with h1 h2; injection h1 with h1 h3; subst h2 h3; rfl
  | n + 1, .call c next, q, q', s, s', hr => by
    simp only [alone] at hr
    obtain ⟨q1, s1, h1, h2⟩ := M.bind_ok hr
    rw [Code.exec, M.run_bind_ok h1]
    exact alone_finished w n h2

/-- **C108.** A circuit that is finished has made the constraint system that its code makes in a program of its own; so everything that is proved
about such a program holds for it. -/
theorem C108_finished (w : Nat → Option W) (hs : List Nat) {B B' : Builders r W} {σ σ' : Store (ZMod r)}
    (hB : ∀ h, AllOf h (B.signals h)) (hr : interleave w hs B σ = .ok (B', σ')) {h : Nat} (hd : B'.code h = .done) :
    ((B.code h).exec (w h) (bare (B.signals h))).run (σ h) = .ok (bare (B'.signals h), σ' h) := by
  have := (C108_interleave w hs hB hr h).2
  rw [hd] at this
  exact alone_finished (w h) _ this

/-! ## Signals of different systems -/

/-- What the code does when the factors of a product belong to different systems: allocate a variable in each of two new systems of the same kind,
and multiply. -/
def mixedProduct {F : Type} [Field F] [DecidableEq F] (x y : Option F) : H F (HNum F × HNum F × HNum F) := do
  let a ← HNum.alloc 0 x
  let b ← HNum.alloc 1 y
  let c ← HNum.mul a b
  pure (a, b, c)

theorem enforce_ok {F : Type} [Field F] [DecidableEq F] {h : Nat} {a b c : HNum F} {x y : F} (h1 : a.value = some x) (h2 : b.value = some y) (h3 : c.value = some (x * y))
    (σ : Store F) : csEnforce h a b c σ = .ok ((), fun k => if k = h then { σ h with cons := (σ h).cons ++ [⟨a.num, b.num, c.num⟩] } else σ k) := by
  have hc : CS.checkTriple a.num b.num c.num = true := by
    have h1 : a.num.value = some x := h1
    have h2 : b.num.value = some y := h2
    have h3 : c.num.value = some (x * y) := h3
    simp [CS.checkTriple, h1, h2, h3]
  simp only [csEnforce, on, CS.enforce, M.run, hc]
  simp

theorem mixed_test {F : Type} [Field F] [DecidableEq F] (x y : F) : mixedProduct (some x) (some y) (fun _ => CS.new .test) = .ok
    ((⟨0, ⟨some x, [(.input 1, 1)]⟩⟩, ⟨1, ⟨some y, [(.input 1, 1)]⟩⟩, ⟨0, ⟨some (x * y), [(.input 2, 1)]⟩⟩), fun k =>
      if k = 0 then ⟨.test, 3, 0, [(.input 1, some x), (.input 2, some (x * y))],
        [⟨⟨some x, [(.input 1, 1)]⟩, ⟨some y, [(.input 1, 1)]⟩, ⟨some (x * y), [(.input 2, 1)]⟩⟩]⟩
      else if k = 0 then ⟨.test, 3, 0, [(.input 1, some x), (.input 2, some (x * y))], []⟩
      else if k = 1 then ⟨.test, 2, 0, [(.input 1, some y)], []⟩
      else if k = 0 then ⟨.test, 2, 0, [(.input 1, some x)], []⟩ else CS.new .test) := by
  have hm : mixedProduct (some x) (some y) (fun _ => CS.new .test) =
    (csEnforce 0 (⟨0, ⟨some x, [(.input 1, 1)]⟩⟩ : HNum F) ⟨1, ⟨some y, [(.input 1, 1)]⟩⟩ ⟨0, ⟨some (x * y), [(.input 2, 1)]⟩⟩ >>= fun _ =>
     pure ((⟨0, ⟨some x, [(.input 1, 1)]⟩⟩ : HNum F), (⟨1, ⟨some y, [(.input 1, 1)]⟩⟩ : HNum F), (⟨0, ⟨some (x * y), [(.input 2, 1)]⟩⟩ : HNum F)))
      (fun k => if k = 0 then ⟨.test, 3, 0, [(.input 1, some x), (.input 2, some (x * y))], []⟩
      else if k = 1 then ⟨.test, 2, 0, [(.input 1, some y)], []⟩
      else if k = 0 then ⟨.test, 2, 0, [(.input 1, some x)], []⟩ else CS.new .test) := by
    unfold mixedProduct
    rw [bind_apply]
    rw [show HNum.alloc 0 (some x) (fun _ => CS.new .test) = .ok ((⟨0, ⟨some x, [(.input 1, 1)]⟩⟩ : HNum F), fun k => if k = 0 then ⟨.test, 2, 0, [(.input 1, some x)], []⟩ else CS.new .test) from rfl]
    simp only
    rw [bind_apply]
    rw [show HNum.alloc 1 (some y) (fun k => if k = 0 then ⟨.test, 2, 0, [(.input 1, some x)], []⟩ else CS.new .test) = .ok ((⟨1, ⟨some y, [(.input 1, 1)]⟩⟩ : HNum F), fun k => if k = 1 then ⟨.test, 2, 0, [(.input 1, some y)], []⟩ else if k = 0 then ⟨.test, 2, 0, [(.input 1, some x)], []⟩ else CS.new .test) from rfl]
    simp only
    rw [show HNum.mul (⟨0, ⟨some x, [(.input 1, 1)]⟩⟩ : HNum F) ⟨1, ⟨some y, [(.input 1, 1)]⟩⟩ = (HNum.alloc 0 (some (x * y)) >>= fun c => csEnforce 0 (⟨0, ⟨some x, [(.input 1, 1)]⟩⟩ : HNum F) ⟨1, ⟨some y, [(.input 1, 1)]⟩⟩ c >>= fun _ => pure c) from rfl]
    simp only [bind_assoc, pure_bind]
    rw [bind_apply]
    rfl
  rw [hm, bind_apply, enforce_ok (x := x) (y := y) rfl rfl rfl]
  rfl

/-- **C108.** Signals of two constraint systems can be multiplied: nothing panics, in a key generation, in a proof and in a test (where the values
are compared, not the linear combinations).  The result belongs to the first system and its constraint says that it is the square of the first
factor; the second system gets no constraint. -/
theorem C108_mixed {F : Type} [Field F] [DecidableEq F] (b : Backend) (x y : F) :
    ∃ A B C σ, mixedProduct (if b = .setup then none else some x) (if b = .setup then none else some y) (fun _ => CS.new b) = .ok ((A, B, C), σ) ∧
      A.cs = 0 ∧ B.cs = 1 ∧ C.cs = 0 ∧ (b ≠ .setup → C.value = some (x * y)) ∧
      (∀ v : Index → F, (σ 0).Sat v ↔ C.num.lc.eval v = A.num.lc.eval v * A.num.lc.eval v) ∧ (∀ v : Index → F, (σ 1).Sat v) ∧
      ∀ p q : F, ∃ v₀ v₁, (σ 0).Sat v₀ ∧ (σ 1).Sat v₁ ∧ A.num.lc.eval v₀ = p ∧ B.num.lc.eval v₁ = q ∧ C.num.lc.eval v₀ = p * p := by
  have key : ∀ (i j : Index) (hij : i ≠ j) (σ : Store F) (A B C : HNum F), A.num.lc = [(i, 1)] → B.num.lc = [(i, 1)] → C.num.lc = [(j, 1)] →
      (σ 0).cons = [⟨A.num, B.num, C.num⟩] → (σ 1).cons = [] →
      (∀ v : Index → F, (σ 0).Sat v ↔ C.num.lc.eval v = A.num.lc.eval v * A.num.lc.eval v) ∧ (∀ v : Index → F, (σ 1).Sat v) ∧
      ∀ p q : F, ∃ v₀ v₁, (σ 0).Sat v₀ ∧ (σ 1).Sat v₁ ∧ A.num.lc.eval v₀ = p ∧ B.num.lc.eval v₁ = q ∧ C.num.lc.eval v₀ = p * p := by
    intro i j hij σ A B C hA hB hC h0 h1
    have s0 : ∀ v : Index → F, (σ 0).Sat v ↔ C.num.lc.eval v = A.num.lc.eval v * A.num.lc.eval v := by
      intro v
      simp only [CS.Sat, h0, List.mem_singleton, forall_eq, Constraint.Sat, hB, hA]
      exact eq_comm
    have s1 : ∀ v : Index → F, (σ 1).Sat v := by
      intro v c hc; rw [h1] at hc; cases hc
    refine ⟨s0, s1, fun p q => ⟨fun k => if k = i then p else p * p, fun _ => q, (s0 _).2 ?_, s1 _, ?_, ?_, ?_⟩⟩
    · rw [hA, hC]; simp [LC.eval, hij.symm]
    · rw [hA]; simp [LC.eval]
    · rw [hB]; simp [LC.eval]
    · rw [hC]; simp [LC.eval, hij.symm]
  have fin : ∀ (i j : Index) (hij : i ≠ j) {x' y' : Option F} (σ : Store F) (A B C : HNum F),
      mixedProduct x' y' (fun _ => CS.new b) = .ok ((A, B, C), σ) → A.cs = 0 ∧ B.cs = 1 ∧ C.cs = 0 → (b ≠ .setup → C.value = some (x * y)) →
      A.num.lc = [(i, 1)] → B.num.lc = [(i, 1)] → C.num.lc = [(j, 1)] →
      (σ 0).cons = [⟨A.num, B.num, C.num⟩] → (σ 1).cons = [] →
      ∃ A B C σ, mixedProduct x' y' (fun _ => CS.new b) = .ok ((A, B, C), σ) ∧
      A.cs = 0 ∧ B.cs = 1 ∧ C.cs = 0 ∧ (b ≠ .setup → C.value = some (x * y)) ∧
      (∀ v : Index → F, (σ 0).Sat v ↔ C.num.lc.eval v = A.num.lc.eval v * A.num.lc.eval v) ∧ (∀ v : Index → F, (σ 1).Sat v) ∧
      ∀ p q : F, ∃ v₀ v₁, (σ 0).Sat v₀ ∧ (σ 1).Sat v₁ ∧ A.num.lc.eval v₀ = p ∧ B.num.lc.eval v₁ = q ∧ C.num.lc.eval v₀ = p * p :=
    fun i j hij _ _ σ A B C hr hcs hv hA hB hC h0 h1 => ⟨A, B, C, σ, hr, hcs.1, hcs.2.1, hcs.2.2, hv, key i j hij σ A B C hA hB hC h0 h1⟩
  cases b
  · exact fin (.input 1) (.input 2) (by decide) _ _ _ _ (mixed_test x y) ⟨rfl, rfl, rfl⟩ (fun _ => rfl) rfl rfl rfl rfl rfl
  · exact fin (.aux 0) (.aux 1) (by decide) _ _ _ _ rfl ⟨rfl, rfl, rfl⟩ (fun h => absurd rfl h) rfl rfl rfl rfl rfl
  · exact fin (.aux 0) (.aux 1) (by decide) _ _ _ _ rfl ⟨rfl, rfl, rfl⟩ (fun _ => rfl) rfl rfl rfl rfl rfl

/-! ## Examples -/

section examples

local instance handlesPrime : Fact (Nat.Prime 13) := ⟨by decide⟩

/-- A circuit that multiplies its two secrets and asks whether the product is zero. -/
def demoFirst : Code 13 (ZMod 13 × ZMod 13) :=
  .call (.alloc [] fun w _ => .ok w.1) fun _ => .call (.alloc [] fun w _ => .ok w.2) fun _ => .call (.prim (.mul 0 1)) fun _ =>
    .call (.prim (.isZero 2)) fun _ => .done

/-- A circuit that divides its first secret by its second one. -/
def demoSecond : Code 13 (ZMod 13 × ZMod 13) :=
  .call (.alloc [] fun w _ => .ok w.1) fun _ => .call (.alloc [] fun w _ => .ok w.2) fun _ => .call (.prim (.div 0 1)) fun _ => .done

/-- Both are built at the same time, in a test. -/
def demoBuilders : Builders 13 (ZMod 13 × ZMod 13) := ⟨fun h => if h = 0 then demoFirst else demoSecond, fun _ => []⟩

/-- The hypotheses of `C108_interleave`, `C108_order` and `C108_finished` are met: the calls of the two circuits alternate, no signals exist at the
start, nothing panics, and in the end both circuits are finished with four constraints and one. -/
example : (∀ h, AllOf h (demoBuilders.signals h)) ∧
    (match interleave (fun h => some (if h = 0 then (2, 5) else (7, 3))) [0, 1, 0, 1, 1, 0, 0] demoBuilders (fun _ => CS.new .test) with
      | .ok (B, σ) => (match B.code 0, B.code 1 with | .done, .done => true | _, _ => false) && (B.signals 0).length == 4 &&
          (B.signals 1).map (fun x => (x.cs, x.num.value)) == [(1, some 7), (1, some 3), (1, some 11)] &&
          (σ 0).cons.length == 4 && (σ 1).cons.length == 1 && (σ 2).cons.length == 0
      | .error _ => false) = true :=
  ⟨fun _ x hx => (by cases hx), by decide +kernel⟩

/-- The hypothesis of `C108_panic` is met: the second circuit divides by zero. -/
example : (match interleave (fun h => some (if h = 0 then (2, 5) else (7, 0))) [0, 1, 0, 1, 1, 0, 0] demoBuilders (fun _ => CS.new .test) with
      | .ok _ => none
      | .error e => some e) = some Panic.divByZero := by decide +kernel

end examples

end Fawkes.Props
