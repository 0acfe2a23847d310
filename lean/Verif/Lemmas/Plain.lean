import Verif.Props.Proving

/-!
# Without data a boolean is allocated like a number

Two programs are compared that return different data but go through the same states.  `Ty.plain` replaces the booleans of a signal type by
numbers: in the key generator, which has no values, the two types are allocated in the same way.
-/

namespace Fawkes

/-- The same run, up to the returned value. -/
def SameRun {F α β : Type} [Field F] [DecidableEq F] (R : α → β → Prop) (m : M F α) (m' : M F β) : Prop :=
  ∀ s, (∃ a b t, m.run s = .ok (a, t) ∧ m'.run s = .ok (b, t) ∧ R a b) ∨ (∃ e, m.run s = .error e ∧ m'.run s = .error e)

variable {F : Type} [Field F] [DecidableEq F]

theorem SameRun.pure {α β : Type} {R : α → β → Prop} {a : α} {b : β} (h : R a b) :
    SameRun R (Pure.pure a : M F α) (Pure.pure b) := fun s => .inl ⟨a, b, s, rfl, rfl, h⟩

theorem SameRun.refl {α : Type} (m : M F α) : SameRun Eq m m := by
  intro s
  cases h : m.run s with
  | error e => exact .inr ⟨e, rfl, rfl⟩
  | ok q => exact .inl ⟨q.1, q.1, q.2, rfl, rfl, rfl⟩

theorem SameRun.bind {α β γ δ : Type} {R : α → β → Prop} {R' : γ → δ → Prop} {m : M F α} {m' : M F β} {f : α → M F γ} {g : β → M F δ}
    (h : SameRun R m m') (hf : ∀ a b, R a b → SameRun R' (f a) (g b)) : SameRun R' (m >>= f) (m' >>= g) := by
  intro s
  rcases h s with ⟨a, b, t, h1, h2, hr⟩ | ⟨e, h1, h2⟩
  · rw [M.run_bind, M.run_bind, h1, h2]; exact hf a b hr t
  · rw [M.run_bind, M.run_bind, h1, h2]; exact .inr ⟨e, rfl, rfl⟩

theorem SameRun.listMapM {A α β : Type} {R : α → β → Prop} {f : A → M F α} {g : A → M F β} (h : ∀ x, SameRun R (f x) (g x))
    (l : List A) : SameRun (List.Forall₂ R) (listMapM f l) (listMapM g l) := by
  induction l with
  | nil => exact SameRun.pure .nil
  | cons x l ih => exact SameRun.bind (h x) fun a b hr => SameRun.bind ih fun as bs hrs => SameRun.pure (.cons hr hrs)

theorem SameRun.of_post {α : Type} {m : M F α} {Q : α → Prop} (h : ∀ s a s', m.run s = .ok (a, s') → Q a) :
    SameRun (fun a b => a = b ∧ Q a) m m := by
  intro s
  cases hm : m.run s with
  | error e => exact .inr ⟨e, rfl, rfl⟩
  | ok q => exact .inl ⟨q.1, q.1, q.2, rfl, rfl, rfl, h s _ _ hm⟩

theorem SameRun.run_eq {α : Type} {m m' : M F α} (h : SameRun Eq m m') (s : CS F) : m.run s = m'.run s := by
  rcases h s with ⟨a, b, t, h1, h2, rfl⟩ | ⟨e, h1, h2⟩
  · rw [h1, h2]
  · rw [h1, h2]

theorem SameRun.of_eq {α : Type} {m m' : M F α} (h : m = m') : SameRun Eq m m' := h ▸ SameRun.refl m

/-- Only secret signals with vectors of the declared lengths matter. -/
theorem sameRun_synthesize (P Q : Ty) (main main' : P.S F → Q.S F → M F Unit) (p : Option (P.V F)) (q : Option (Q.V F))
    (h : ∀ a b, Q.ok F b → main a b = main' a b) : SameRun Eq (synthesize P Q main p q) (synthesize P Q main' p q) := by
  refine SameRun.bind (SameRun.refl _) fun a a' ha => ?_
  subst ha
  refine SameRun.bind (SameRun.of_post (Q := Q.ok F) fun s b s' hb => (Q.post_alloc q s b s' hb).1) fun b b' hb => ?_
  obtain ⟨rfl, hb⟩ := hb
  rw [h a b hb]
  exact SameRun.refl _

/-- Numbers instead of booleans. -/
def Ty.plain : Ty → Ty
  | .num => .num
  | .bool => .num
  | .pair a b => .pair a.plain b.plain
  | .vec n a => .vec n a.plain

theorem Ty.sameRun_alloc (t : Ty) : SameRun (fun a b => t.linearize (F := F) a = t.plain.linearize b) (t.alloc none)
    (t.plain.alloc none) := by
  induction t with
  | num => exact fun s => (SameRun.refl _ s).imp (fun ⟨a, b, t, h1, h2, h⟩ => ⟨a, b, t, h1, h2, h ▸ rfl⟩) id
  | bool =>
    have : SameRun (fun (a : CBool F) (b : CNum F) => [a.num] = [b]) (CBool.alloc none) (CNum.alloc none) := by
      have h : (CNum.alloc (none : Option F)) = (CNum.alloc none >>= Pure.pure) := (bind_pure _).symm
      rw [h]
      exact SameRun.bind (SameRun.refl _) fun a b h => SameRun.pure (by rw [h])
    exact this
  | pair a b iha ihb =>
    exact SameRun.bind iha fun x x' hx => SameRun.bind ihb fun y y' hy => SameRun.pure (congrArg₂ (· ++ ·) hx hy)
  | vec n a ih =>
    refine SameRun.bind (SameRun.listMapM (fun _ => ih) (List.range n)) fun l l' hl => ?_
    have hlen := List.Forall₂.length_eq hl
    show SameRun _ (M.lift (SizedVec.collect l)) (M.lift (SizedVec.collect l'))
    unfold SizedVec.collect
    rw [hlen]
    split
    · next hn =>
      clear hn
      refine SameRun.pure (?_ : l.flatMap (a.linearize (F := F)) = l'.flatMap a.plain.linearize)
      clear hlen
      induction hl with
      | nil => rfl
      | cons h _ ih => rw [List.flatMap_cons, List.flatMap_cons, h, ih]
    · exact fun s => .inr ⟨_, rfl, rfl⟩

namespace Props

open Groth16

variable {r : Nat} [Fact r.Prime] {W : Type}

theorem sameRun_generated (P Q : Ty) (code : Code r W) (w : Option W) (p : Option (P.V (ZMod r))) :
    SameRun Eq (generated P Q code w p none) (generated P Q.plain code w p none) := by
  refine SameRun.bind (SameRun.refl _) fun a a' ha => ?_
  subst ha
  refine SameRun.bind Q.sameRun_alloc fun b b' hb => ?_
  beta_reduce
  rw [hb]
  exact SameRun.refl _

theorem generateKeys_sameRun {α β : Type} {G1 G2 : Type} [AddCommGroup G1] [AddCommGroup G2] [DecidableEq G1] [DecidableEq G2]
    (K : TwoAdic (ZMod r)) (t : Toxic G1 G2 r) {R : α → β → Prop} {m : M (ZMod r) α} {m' : M (ZMod r) β} (h : SameRun R m m') :
    generateKeys K t m = generateKeys K t m' := by
  unfold generateKeys
  rcases h (CS.new .setup) with ⟨a, b, s, h1, h2, -⟩ | ⟨e, h1, h2⟩
  · rw [h1, h2]
  · rw [h1, h2]

theorem prove_sameRun {α : Type} {G1 G2 : Type} [AddCommGroup G1] [AddCommGroup G2] [DecidableEq G1] [DecidableEq G2]
    (K : TwoAdic (ZMod r)) (params : Parameters G1 G2) (x y : ZMod r) {m m' : M (ZMod r) α} (h : SameRun Eq m m') :
    prove K params x y m = prove K params x y m' := by
  unfold prove
  rw [h.run_eq]

end Props

end Fawkes
