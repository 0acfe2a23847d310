import Verif.Lemmas.Used
import Verif.Lemmas.Signal

/-!
# Signals of any type and the variables they consist of
-/

namespace Fawkes

variable {F : Type} [Field F] [DecidableEq F]

theorem uses_listForM {A : Type} {f : A → M F Unit} (l : List A) (h : ∀ a ∈ l, Uses (f a)) : Uses (listForM f l) := by
  induction l with
  | nil => exact Uses.pure
  | cons a l ih => exact Uses.bind (h a (by simp)) fun _ => ih fun b hb => h b (by simp [hb])

theorem touches_listForM {A : Type} {f : A → M F Unit} {x : CNum F} (l : List A) (h : ∃ a ∈ l, Touches (f a) x) :
    Touches (listForM f l) x := by
  induction l with
  | nil => obtain ⟨a, ha, -⟩ := h; cases ha
  | cons a l ih =>
    obtain ⟨b, hb, ht⟩ := h
    rcases List.mem_cons.1 hb with rfl | hb
    · exact Touches.left ht
    · exact Touches.right fun _ => ih ⟨b, hb, ht⟩

theorem Ty.uses_inputize (t : Ty) (a : t.S F) : Uses (t.inputize a) := by
  induction t with
  | num => exact Fawkes.uses_inputize _
  | bool => exact Fawkes.uses_inputize _
  | pair t u iht ihu => exact Uses.bind (iht _) fun _ => ihu _
  | vec n t ih => exact uses_listForM _ fun b _ => ih b

theorem Ty.touches_inputize (t : Ty) (a : t.S F) {x : CNum F} (hx : Bare x) (hm : x ∈ t.leaves F a) : Touches (t.inputize a) x := by
  induction t with
  | num =>
    obtain rfl := List.mem_singleton.1 hm
    exact Fawkes.touches_inputize hx.asConst
  | bool =>
    obtain rfl := List.mem_singleton.1 hm
    exact Fawkes.touches_inputize hx.asConst
  | pair t u iht ihu =>
    rcases List.mem_append.1 hm with hm | hm
    · exact Touches.left (iht _ hm)
    · exact Touches.right fun _ => ihu _ hm
  | vec n t ih =>
    obtain ⟨b, hb, hm⟩ := List.mem_flatMap.1 hm
    exact touches_listForM _ ⟨b, hb, ih b hm⟩

/-- The variables between the two states are among the signals. -/
def Covers (s : CS F) (l : List (CNum F)) (s' : CS F) : Prop :=
  ∀ j, s.naux ≤ j → j < s'.naux → ∃ x ∈ l, x.lc = [(.aux j, 1)]

theorem covers_alloc (v : Option F) (s : CS F) (hb : s.backend ≠ .test) : Post s (CNum.alloc v) (fun a s' => Covers s [a] s') := by
  intro a s' h j h1 h2
  obtain ⟨hl, hn⟩ := bare_alloc hb h
  obtain rfl : j = s.naux := by omega
  exact ⟨a, by simp, hl⟩

theorem Covers.append {s s1 s2 : CS F} {l m : List (CNum F)} (h1 : Covers s l s1) (h2 : Covers s1 m s2) : Covers s (l ++ m) s2 := by
  intro j a b
  by_cases hj : j < s1.naux
  · obtain ⟨x, hx, e⟩ := h1 j a hj
    exact ⟨x, List.mem_append_left _ hx, e⟩
  · obtain ⟨x, hx, e⟩ := h2 j (by omega) b
    exact ⟨x, List.mem_append_right _ hx, e⟩

theorem covers_listMapM (t : Ty) {A : Type} {f : A → M F (t.S F)} (as : List A) (s : CS F) (hb : s.backend ≠ .test)
    (hf : ∀ a ∈ as, ∀ s : CS F, s.backend ≠ .test → Post s (f a) (fun b s' => Covers s (t.leaves F b) s')) :
    Post s (listMapM f as) (fun bs s' => Covers s (bs.flatMap (t.leaves F)) s') := by
  induction as generalizing s with
  | nil => exact Post.pure fun j h1 h2 => by omega
  | cons a as ih =>
    refine Post.bind (hf a (by simp) s hb) fun b s1 r1 h1 => ?_
    have hb1 : s1.backend ≠ .test := by rw [r1.backend]; exact hb
    refine Post.bind (ih s1 hb1 (fun a ha => hf a (by simp [ha]))) fun bs s2 _ h2 => Post.pure ?_
    exact h1.append h2

theorem Ty.covers_alloc (t : Ty) (v : Option (t.V F)) (s : CS F) (hb : s.backend ≠ .test) :
    Post s (t.alloc v) (fun a s' => Covers s (t.leaves F a) s') := by
  induction t generalizing s with
  | num => exact Fawkes.covers_alloc (show Option F from v) s hb
  | bool =>
    refine Post.bind (Fawkes.covers_alloc _ s hb) fun a s' _ h => Post.pure ?_
    exact h
  | pair t u iht ihu =>
    refine Post.bind (iht _ s hb) fun a s1 r1 h1 => ?_
    have hb1 : s1.backend ≠ .test := by rw [r1.backend]; exact hb
    exact Post.bind (ihu _ s1 hb1) fun b s2 _ h2 => Post.pure (h1.append h2)
  | vec n t ih =>
    have key : ∀ {A : Type} (f : A → M F (t.S F)) (as : List A),
        (∀ a ∈ as, ∀ s : CS F, s.backend ≠ .test → Post s (f a) (fun b s' => Covers s (t.leaves F b) s')) →
        Post s (listMapM f as >>= fun l => M.lift (SizedVec.collect l))
          (fun (b : (Ty.vec n t).S F) s' => Covers s ((Ty.vec n t).leaves F b) s') := by
      intro A f as hf
      refine Post.bind (covers_listMapM t as s hb hf) fun l s1 r1 h1 => Post.lift ?_
      intro r hr
      unfold SizedVec.collect at hr
      split at hr
      · injection hr with hr; subst hr; exact h1
      · cases hr
    cases v with
    | none => exact key _ _ fun a _ s hs => ih none s hs
    | some v => exact key _ _ fun a _ s hs => ih (some a) s hs

theorem uses_zipForM {A B : Type} {f : A → B → M F Unit} (h : ∀ a b, Uses (f a b)) (as : List A) (bs : List B) :
    Uses (zipForM f as bs) := by
  induction as generalizing bs with
  | nil => exact Uses.pure
  | cons a as ih => cases bs with
    | nil => exact Uses.pure
    | cons b bs => exact Uses.bind (h a b) fun _ => ih bs

theorem uses_zipMapM {A B C : Type} {f : A → B → M F C} (h : ∀ a b, Uses (f a b)) (as : List A) (bs : List B) :
    Uses (zipMapM f as bs) := by
  induction as generalizing bs with
  | nil => exact Uses.pure
  | cons a as ih => cases bs with
    | nil => exact Uses.pure
    | cons b bs => exact Uses.bind (h a b) fun _ => Uses.bind (ih bs) fun _ => Uses.pure

theorem Ty.uses_switch (t : Ty) (a b : t.S F) (c : CBool F) : Uses (t.switch a c b) := by
  induction t with
  | num => exact Fawkes.uses_switch _ _ _
  | bool => exact Uses.bind (Fawkes.uses_switch _ _ _) fun _ => Uses.pure
  | pair t u iht ihu => exact Uses.bind (iht _ _) fun _ => Uses.bind (ihu _ _) fun _ => Uses.pure
  | vec n t ih => exact Uses.bind (uses_zipMapM (fun x y => ih x y) _ _) fun _ => Uses.lift

theorem Ty.uses_assertEq (t : Ty) (a b : t.S F) : Uses (t.assertEq a b) := by
  induction t with
  | num => exact uses_assertZero _
  | bool => exact uses_assertZero _
  | pair t u iht ihu => exact Uses.bind (iht _ _) fun _ => ihu _ _
  | vec n t ih => exact uses_zipForM (fun x y => ih x y) _ _

theorem Ty.uses_assertConst (t : Ty) (a : t.S F) (v : t.V F) : Uses (t.assertConst a v) := by
  induction t with
  | num => exact Fawkes.uses_assertConst _ _
  | bool => exact Fawkes.uses_assertConst _ _
  | pair t u iht ihu => exact Uses.bind (iht _ _) fun _ => ihu _ _
  | vec n t ih => exact uses_zipForM (fun x y => ih x y) _ _

theorem uses_isEqLoop {S : Type} {f : S → S → M F (CBool F)} (h : ∀ a b, Uses (f a b)) (n : Nat) (as bs : List S) (acc : CNum F) :
    Uses (isEqLoop f n as bs acc) := by
  induction n generalizing as bs acc with
  | zero => unfold isEqLoop; exact Uses.pure
  | succ n ih =>
    match as, bs with
    | a :: as, b :: bs => exact Uses.bind (h a b) fun _ => Uses.bind (uses_mul _ _) fun _ => ih _ _ _
    | [], _ => exact Uses.panic
    | _ :: _, [] => exact Uses.panic

theorem Ty.uses_isEq (t : Ty) (a b : t.S F) : Uses (t.isEq a b) := by
  induction t with
  | num => exact uses_isZero _
  | bool => exact uses_isZero _
  | pair t u iht ihu =>
    exact Uses.bind (iht _ _) fun _ => Uses.bind (uses_mul _ _) fun _ => Uses.bind (ihu _ _) fun _ =>
      Uses.bind (uses_mul _ _) fun _ => Uses.pure
  | vec n t ih =>
    show Uses (vecIsEq (fun x y => t.isEq x y) n a.items b.items)
    unfold vecIsEq
    split
    · exact Uses.panic
    · exact Uses.bind (uses_isEqLoop (fun x y => ih x y) _ _ _ _) fun _ => Uses.pure

end Fawkes
