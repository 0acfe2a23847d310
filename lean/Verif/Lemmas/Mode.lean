import Verif.Lemmas.Varies
import Verif.Lemmas.Bitify

/-!
# One proof for soundness and completeness

Gadgets that only compute (no assertions, no free witnesses) satisfy the same functional statement in every satisfying
assignment and on the honest run.  A `Mode` collects the rules both readings share.
-/

set_option linter.unusedSectionVars false

namespace Fawkes

/-- What "signal `a` has value `v` in state `s`" and "running `m` from `s` establishes `Q`" mean, with the rules the
curve gadgets need. -/
structure Mode (F : Type) [Field F] [DecidableEq F] where
  St : CS F → Prop
  H : CS F → CNum F → F → Prop
  T : {α : Type} → CS F → M F α → (α → CS F → Prop) → Prop
  /-- the values for which a zero test is covered -/
  Z : F → Prop
  wf : ∀ {s}, St s → s.WF
  alloc : ∀ {s a v}, H s a v → a.lc.Alloc s
  mono : ∀ {s s' a v}, s.Ext s' → H s a v → H s' a v
  fromConst : ∀ {s} k, H s (CNum.fromConst k) k
  addAssign : ∀ {s a b x y}, H s a x → H s b y → H s (CNum.addAssign a b) (x + y)
  add : ∀ {s a b x y}, H s a x → H s b y → H s (CNum.add a b) (x + y)
  sub : ∀ {s a b x y}, H s a x → H s b y → H s (CNum.sub a b) (x - y)
  neg : ∀ {s a x}, H s a x → H s (CNum.neg a) (-x)
  mulConst : ∀ {s a x} k, H s a x → H s (CNum.mulConst a k) (x * k)
  pure : ∀ {α s} {a : α} {Q}, St s → Q a s → T s (Pure.pure a) Q
  bind : ∀ {α β s} {m : M F α} {f : α → M F β} {Q R}, T s m Q →
    (∀ a s1, s.Ext s1 → St s1 → Q a s1 → T s1 (f a) R) → T s (m >>= f) R
  weaken : ∀ {α s} {m : M F α} {Q Q'}, T s m Q → (∀ a s', s.Ext s' → St s' → Q a s' → Q' a s') → T s m Q'
  post : ∀ {α s} {m : M F α} {Q Q'}, T s m Q → Post s m Q' → T s m (fun a s' => Q a s' ∧ Q' a s')
  lift : ∀ {α s} {x : Except Panic α} {a Q}, St s → x = .ok a → Q a s → T s (M.lift x) Q
  mul : ∀ {s a b x y}, St s → H s a x → H s b y → T s (CNum.mul a b) (fun c s' => H s' c (x * y))
  div : ∀ {s a b x y}, St s → H s a x → H s b y → a.asConst = none → y ≠ 0 →
    T s (CNum.div a b) (fun c s' => H s' c (x / y))
  isZero : ∀ {s a x}, St s → H s a x → Z x → T s (CNum.isZero a) (fun c s' => H s' c.num (if x = 0 then 1 else 0))
  switch : ∀ {s t f} {b : CBool F} {x y c}, St s → H s t x → H s f y → H s b.num c → (c = 0 ∨ c = 1) →
    T s (CNum.switch t b f) (fun r s' => H s' r (y + c * (x - y)))
  mux3 : ∀ {s} {sb : List (CBool F)} {b0 b1 b2 : Bool} (c : List (List F)), St s →
    List.Forall₂ (fun x b => H s x.num (b2f b)) sb [b0, b1, b2] → (∀ col ∈ c, col.length = 8) →
    T s (Mux.mux3 sb c) (fun r s' => List.Forall₂ (fun x col => ∃ v, H s' x v ∧ some v = col[sel3 b0 b1 b2]?) r c)

variable {F : Type} [Field F] [DecidableEq F]

section alloc
variable {s : CS F}

theorem alloc_column (hs : s.WF) {s0 s1 s2 : CBool F} {s10 : CNum F} (h0 : s0.num.lc.Alloc s) (h1 : s1.num.lc.Alloc s)
    (h2 : s2.num.lc.Alloc s) (h10 : s10.lc.Alloc s) (c0 c1 c2 c3 c4 c5 c6 c7 : F) :
    Post s (Mux.column s0 s1 s2 s10 c0 c1 c2 c3 c4 c5 c6 c7) (fun r s' => r.lc.Alloc s') := by
  unfold Mux.column
  refine Post.bind (post_mul hs _ _) fun t s1' e1 ht => ?_
  refine Post.pure ?_
  have := ht.1 (alloc_addConst (alloc_add (alloc_add (alloc_mulConst h10 _) (alloc_mulConst h1 _)) (alloc_mulConst h0 _)) _) h2
  exact alloc_addConst (alloc_add (alloc_add (alloc_add this (alloc_mulConst (h10.mono e1) _)) (alloc_mulConst (h1.mono e1) _))
    (alloc_mulConst (h0.mono e1) _)) _

theorem alloc_columns {s0 s1 s2 : CBool F} {s10 : CNum F} (c : List (List F)) : ∀ {s : CS F}, s.WF → s0.num.lc.Alloc s →
    s1.num.lc.Alloc s → s2.num.lc.Alloc s → s10.lc.Alloc s →
    Post s (Mux.columns s0 s1 s2 s10 c) (fun r s' => ∀ x ∈ r, x.lc.Alloc s') := by
  induction c with
  | nil => intro s hs h0 h1 h2 h10; exact Post.pure (by simp)
  | cons col c ih =>
    intro s hs h0 h1 h2 h10
    unfold Mux.columns
    split
    · exact Post.pure (by simp)
    · next heq =>
      injection heq with ha hb
      subst ha hb
      refine Post.bind (alloc_column hs h0 h1 h2 h10 _ _ _ _ _ _ _ _) fun r s1' e1 hr => ?_
      refine Post.bind (ih (e1.wf hs) (h0.mono e1) (h1.mono e1) (h2.mono e1) (h10.mono e1)) fun rs s2' e2 hrs => ?_
      refine Post.pure fun x hx => ?_
      rcases List.mem_cons.1 hx with rfl | hx
      · exact hr.mono e2
      · exact hrs x hx
    · exact Post.panic

theorem alloc_mux3 (hs : s.WF) {sb : List (CBool F)} (hb : ∀ b ∈ sb, b.num.lc.Alloc s) (c : List (List F)) :
    Post s (Mux.mux3 sb c) (fun r s' => ∀ x ∈ r, x.lc.Alloc s') := by
  unfold Mux.mux3
  refine Post.bind Post.true fun _ s1 e1 _ => ?_
  refine Post.bind Post.true fun _ s2 e2 _ => ?_
  split
  · next s0 s1' s2' =>
    have e := e1.trans e2
    have h0 := (hb s0 (by simp)).mono e
    have h1 := (hb s1' (by simp)).mono e
    have h2 := (hb s2' (by simp)).mono e
    refine Post.bind (post_mul (e.wf hs) _ _) fun s10 s3 e3 h10 => ?_
    exact alloc_columns c ((e.trans e3).wf hs) (h0.mono e3) (h1.mono e3) (h2.mono e3) (h10.1 h0 h1)
  · exact Post.panic

end alloc

theorem forall₂_and_mem {A B : Type} {R : A → B → Prop} {P : A → Prop} {l : List A} {l' : List B} (h : List.Forall₂ R l l')
    (hp : ∀ a ∈ l, P a) : List.Forall₂ (fun a b => P a ∧ R a b) l l' := by
  induction h with
  | nil => exact .nil
  | cons h1 h2 ih => exact .cons ⟨hp _ (by simp), h1⟩ (ih fun a ha => hp a (by simp [ha]))

/-- Soundness: values under an arbitrary satisfying assignment. -/
def specMode (w : Index → F) (hw : IsAssignment w) : Mode F where
  St s := s.WF
  H s a v := a.lc.Alloc s ∧ a.eval w = v
  T s m Q := s.WF → Spec w s m Q
  Z _ := True
  wf h := h
  alloc h := h.1
  mono e h := ⟨h.1.mono e, h.2⟩
  fromConst k := ⟨alloc_fromConst k, CNum.eval_fromConst hw k⟩
  addAssign h h' := ⟨alloc_addAssign h.1 h'.1, by rw [CNum.eval_addAssign, h.2, h'.2]⟩
  add h h' := ⟨alloc_add h.1 h'.1, by rw [CNum.eval_add, h.2, h'.2]⟩
  sub h h' := ⟨alloc_sub h.1 h'.1, by rw [CNum.eval_sub, h.2, h'.2]⟩
  neg h := ⟨alloc_neg h.1, by rw [CNum.eval_neg, h.2]⟩
  mulConst k h := ⟨alloc_mulConst h.1 k, by rw [CNum.eval_mulConst hw, h.2]⟩
  pure _ h := fun _ => Spec.pure fun _ => h
  bind hm hf := fun hs => Spec.bind (hm hs) fun a s1 e1 h1 => hf a s1 e1 (e1.wf hs) h1 (e1.wf hs)
  weaken h hq := fun hs => (h hs).mono fun a s' e h' => hq a s' e (e.wf hs) h'
  post h h' := fun hs => (h hs).and_post h'
  lift _ hx h := fun _ => Spec.lift fun b hb => by rw [hx] at hb; injection hb with hb; subst hb; exact h
  mul hs h h' := fun _ => ((spec_mul hw _ _).and_post (post_mul hs _ _)).mono fun c s' _ hc =>
    ⟨hc.2.1 h.1 h'.1, by rw [hc.1, h.2, h'.2]⟩
  div hs h h' hc hy := fun _ => ((spec_div hw hc _).and_post (post_div hs _ _)).mono fun c s' _ hq =>
    ⟨hq.2.1 h.1 h'.1, by rw [eq_div_iff hy, ← h.2, ← h'.2]; exact hq.1⟩
  isZero hs h _ := fun _ => ((spec_isZero hw _).and_post (post_isZero hs h.1)).mono fun c s' _ hc =>
    ⟨hc.2, by rw [hc.1, h.2]⟩
  switch hs ht hf hb _ := fun _ => ((spec_switch hw _ _ _).and_post (post_switch hs ht.1 hf.1 hb.1)).mono
    fun c s' _ hc => ⟨hc.2, by rw [hc.1, ht.2, hf.2, hb.2]⟩
  mux3 := by
    intro s sb b0 b1 b2 c hs hb hc _
    have hsp : SpellsBits w sb [b0, b1, b2] := hb.imp fun _ _ h => h.2
    have hal : ∀ b ∈ sb, b.num.lc.Alloc s := by
      clear hsp
      generalize [b0, b1, b2] = bs at hb
      induction hb with
      | nil => simp
      | cons h1 h2 ih =>
        intro b hb
        rcases List.mem_cons.1 hb with rfl | hb
        · exact h1.1
        · exact ih b hb
    refine ((spec_mux3 hw hsp c s).and_post (alloc_mux3 hs hal c)).mono fun r s' _ hr => ?_
    exact (forall₂_and_mem hr.1 hr.2).imp fun _ _ h => ⟨_, ⟨h.1, rfl⟩, h.2⟩

/-- Completeness: the honest run and the values it records. -/
def runsMode (F : Type) [Field F] [DecidableEq F] : Mode F where
  St s := s.Honest
  H s a v := Has s a v
  T s m Q := Runs s m Q
  Z _ := True
  wf h := h.wf
  alloc h := h.alloc
  mono e h := h.mono e
  fromConst k := has_fromConst k
  addAssign h h' := has_addAssign h h'
  add h h' := has_add h h'
  sub h h' := has_sub h h'
  neg h := has_neg h
  mulConst k h := has_mulConst h k
  pure hs h := Runs.pure hs h
  bind hm hf := Runs.bind hm hf
  weaken h hq := h.mono hq
  post h h' := h.and_post h'
  lift hs hx h := Runs.lift hs hx h
  mul hs h h' := runs_mul hs h h'
  div hs h h' hc hy := runs_div hs h h' hc hy
  isZero hs h _ := runs_isZero hs h
  switch hs ht hf hb hc := runs_switch hs ht hf hb hc
  mux3 c hs hb hc := runs_mux3 hs hb c hc

namespace Mode

variable (md : Mode F) {s : CS F}

theorem addConst {a : CNum F} {x : F} (h : md.H s a x) (k : F) : md.H s (CNum.addConst a k) (x + k) :=
  md.addAssign h (md.fromConst k)

theorem subConst {a : CNum F} {x : F} (h : md.H s a x) (k : F) : md.H s (CNum.subConst a k) (x - k) :=
  md.sub h (md.fromConst k)

theorem constSub {a : CNum F} {x : F} (h : md.H s a x) (k : F) : md.H s (CNum.constSub k a) (k - x) :=
  md.sub (md.fromConst k) h

theorem zero : md.H s CNum.zero 0 := md.fromConst 0

/-- Product of two non-constant signals. -/
theorem mul' {a b : CNum F} {x y : F} (hs : md.St s) (ha : md.H s a x) (hb : md.H s b y) (va : Varies a) (vb : Varies b) :
    md.T s (CNum.mul a b) (fun c s' => md.H s' c (x * y) ∧ FreshVar s c) :=
  md.weaken (md.post (md.mul hs ha hb) (post_mul_fresh (md.wf hs) (md.alloc ha) (md.alloc hb) va vb))
    fun _ _ _ _ h => ⟨h.1, h.2.1⟩

/-- Quotient of two non-constant signals. -/
theorem div' {a b : CNum F} {x y : F} (hs : md.St s) (ha : md.H s a x) (hb : md.H s b y) (va : Varies a) (vb : Varies b)
    (hy : y ≠ 0) : md.T s (CNum.div a b) (fun c s' => md.H s' c (x / y) ∧ FreshVar s c) :=
  md.weaken (md.post (md.div hs ha hb va.asConst hy) (post_div_fresh (md.wf hs) (md.alloc ha) (md.alloc hb) va vb))
    fun _ _ _ _ h => ⟨h.1, h.2.1⟩

end Mode

end Fawkes
