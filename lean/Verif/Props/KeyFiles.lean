import Verif.Model.KeyFiles
import Verif.Props.Groth16
import Verif.Spec.Bytes

/-!
# C74: the binary files of keys and proofs
-/

namespace Fawkes.Props

open Fawkes.Groth16

section raw

variable {G G1 G2 : Type}

/-- The bytes are one uncompressed block that decodes to the point; infinity only if it is allowed. -/
def RawBlock (u : RawCodec G) (checked rejectZero : Bool) (bs : List UInt8) (g : G) : Prop :=
  bs.length = u.size ∧ (if checked then u.decode bs else u.decodeUnchecked bs) = some g ∧ (rejectZero = true → u.isZero g = false)

/-- The bytes are a list of points: four bytes with the number of points, most significant first, then a block for each; none
of the points is infinity. -/
def RawList (u : RawCodec G) (checked : Bool) (bs : List UInt8) (l : List G) : Prop :=
  ∃ count bss, count.length = 4 ∧ beNat count = l.length ∧ bs = count ++ bss.flatten ∧
    List.Forall₂ (RawBlock u checked true) bss l

theorem readRaw_iff (u : RawCodec G) (checked rejectZero : Bool) (buf rest : List UInt8) (g : G) :
    readRaw u checked rejectZero buf = some (g, rest) ↔ ∃ bs, RawBlock u checked rejectZero bs g ∧ buf = bs ++ rest := by
  unfold readRaw RawBlock
  constructor
  · intro h
    by_cases hl : buf.length < u.size
    · rw [if_pos hl] at h; cases h
    rw [if_neg hl] at h
    refine ⟨buf.take u.size, ?_⟩
    split at h
    · cases h
    · rename_i g' hd
      split at h
      · cases h
      · rename_i hz
        simp only [Option.some.injEq, Prod.mk.injEq] at h
        obtain ⟨rfl, rfl⟩ := h
        refine ⟨⟨by rw [List.length_take]; omega, ?_, fun hr => ?_⟩, (List.take_append_drop _ _).symm⟩
        · rw [← hd]; cases checked <;> rfl
        · subst hr; simpa using hz
  · rintro ⟨bs, ⟨h1, h2, h3⟩, rfl⟩
    rw [if_neg (by rw [List.length_append]; omega), List.take_left' h1]
    have : (if checked = true then u.decode else u.decodeUnchecked) bs = some g := by rw [← h2]; cases checked <;> rfl
    rw [this]
    simp only [List.drop_left' h1]
    rw [if_neg]
    cases rejectZero
    · simp
    · simp [h3 rfl]

theorem be32Read_iff (buf rest : List UInt8) (n : Nat) :
    be32Read buf = some (n, rest) ↔ ∃ count, count.length = 4 ∧ beNat count = n ∧ buf = count ++ rest := by
  unfold be32Read
  constructor
  · intro h
    split at h
    · rename_i b3 b2 b1 b0 r
      simp only [Option.some.injEq, Prod.mk.injEq] at h
      obtain ⟨rfl, rfl⟩ := h
      exact ⟨[b3, b2, b1, b0], rfl, by simp [beNat, leNat], rfl⟩
    · cases h
  · rintro ⟨count, h1, rfl, rfl⟩
    match count, h1 with
    | [b3, b2, b1, b0], _ =>
      simp [beNat, leNat]

theorem decodeN_blocks (u : RawCodec G) (checked : Bool) (n : Nat) (buf rest : List UInt8) (l : List G) :
    decodeN (readRaw u checked true) n buf = some (l, rest) ↔
      l.length = n ∧ ∃ bss, List.Forall₂ (RawBlock u checked true) bss l ∧ buf = bss.flatten ++ rest := by
  induction n generalizing buf l with
  | zero =>
    simp only [decodeN, Option.some.injEq, Prod.mk.injEq, List.length_eq_zero_iff]
    constructor
    · rintro ⟨rfl, rfl⟩; exact ⟨rfl, [], .nil, by simp⟩
    · rintro ⟨rfl, bss, hF, rfl⟩
      cases hF
      simp
  | succ n ih =>
    simp only [decodeN, Option.bind_eq_bind, Option.bind_eq_some_iff, Prod.exists, Option.pure_def, Option.some.injEq,
      Prod.mk.injEq]
    constructor
    · rintro ⟨a, b1, h1, l1, b2, h2, rfl, rfl⟩
      obtain ⟨bs, hB, rfl⟩ := (readRaw_iff _ _ _ _ _ _).1 h1
      obtain ⟨rfl, bss, hF, rfl⟩ := (ih _ _).1 h2
      exact ⟨rfl, bs :: bss, .cons hB hF, by simp⟩
    · rintro ⟨hl, bss, hF, rfl⟩
      cases hF with
      | nil => simp at hl
      | @cons bs a bss l hB hF =>
        exact ⟨a, bss.flatten ++ rest, (readRaw_iff _ _ _ _ _ _).2 ⟨bs, hB, by simp⟩, l, rest,
          (ih _ _).2 ⟨by simpa using hl, bss, hF, rfl⟩, rfl, rfl⟩

theorem readRaws_iff (u : RawCodec G) (checked : Bool) (buf rest : List UInt8) (l : List G) :
    readRaws u checked buf = some (l, rest) ↔ ∃ bs, RawList u checked bs l ∧ buf = bs ++ rest := by
  unfold readRaws RawList
  simp only [Option.bind_eq_bind, Option.bind_eq_some_iff, Prod.exists]
  constructor
  · rintro ⟨n, b1, h1, h2⟩
    obtain ⟨count, hc, rfl, rfl⟩ := (be32Read_iff _ _ _).1 h1
    obtain ⟨hl, bss, hF, rfl⟩ := (decodeN_blocks _ _ _ _ _ _).1 h2
    exact ⟨_, ⟨count, bss, hc, hl.symm, rfl, hF⟩, by simp⟩
  · rintro ⟨bs, ⟨count, bss, hc, hn, rfl, hF⟩, rfl⟩
    exact ⟨_, bss.flatten ++ rest, (be32Read_iff _ _ _).2 ⟨count, hc, rfl, by simp⟩,
      (decodeN_blocks _ _ _ _ _ _).2 ⟨hn.symm, bss, hF, rfl⟩⟩

variable {u1 : RawCodec G1} {u2 : RawCodec G2} {c1 : Codec G1} {c2 : Codec G2}

/-- C74: exactly what `Parameters::read` accepts: a block for each of the six points of the key, all of them checked, then the
IC points, checked, then the five queries, checked if this is asked for; none of the points in the lists is infinity.  What is
not used of the input is left. -/
theorem C74_params_read (checked : Bool) (buf rest : List UInt8) (p : Parameters G1 G2) :
    paramsRead u1 u2 checked buf = some (p, rest) ↔
      ∃ b1 b2 b3 b4 b5 b6 ic h l a bG1 bG2,
        buf = b1 ++ b2 ++ b3 ++ b4 ++ b5 ++ b6 ++ ic ++ h ++ l ++ a ++ bG1 ++ bG2 ++ rest ∧
        RawBlock u1 true false b1 p.vk.alphaG1 ∧ RawBlock u1 true false b2 p.vk.betaG1 ∧ RawBlock u2 true false b3 p.vk.betaG2 ∧
        RawBlock u2 true false b4 p.vk.gammaG2 ∧ RawBlock u1 true false b5 p.vk.deltaG1 ∧ RawBlock u2 true false b6 p.vk.deltaG2 ∧
        RawList u1 true ic p.vk.ic ∧ RawList u1 checked h p.h ∧ RawList u1 checked l p.l ∧ RawList u1 checked a p.a ∧
        RawList u1 checked bG1 p.bG1 ∧ RawList u2 checked bG2 p.bG2 := by
  unfold paramsRead fullVKRead
  simp only [Option.bind_eq_bind, Option.bind_eq_some_iff, Prod.exists, Option.pure_def, Option.some.injEq, Prod.mk.injEq]
  constructor
  · rintro ⟨vk, r7, ⟨p1, r1, e1, p2, r2, e2, p3, r3, e3, p4, r4, e4, p5, r5, e5, p6, r6, e6, l7, r7', e7, rfl, rfl⟩,
      l8, r8, e8, l9, r9, e9, l10, r10, e10, l11, r11, e11, l12, r12, e12, rfl, rfl⟩
    obtain ⟨b1, h1, rfl⟩ := (readRaw_iff _ _ _ _ _ _).1 e1
    obtain ⟨b2, h2, rfl⟩ := (readRaw_iff _ _ _ _ _ _).1 e2
    obtain ⟨b3, h3, rfl⟩ := (readRaw_iff _ _ _ _ _ _).1 e3
    obtain ⟨b4, h4, rfl⟩ := (readRaw_iff _ _ _ _ _ _).1 e4
    obtain ⟨b5, h5, rfl⟩ := (readRaw_iff _ _ _ _ _ _).1 e5
    obtain ⟨b6, h6, rfl⟩ := (readRaw_iff _ _ _ _ _ _).1 e6
    obtain ⟨b7, h7, rfl⟩ := (readRaws_iff _ _ _ _ _).1 e7
    obtain ⟨b8, h8, rfl⟩ := (readRaws_iff _ _ _ _ _).1 e8
    obtain ⟨b9, h9, rfl⟩ := (readRaws_iff _ _ _ _ _).1 e9
    obtain ⟨b10, h10, rfl⟩ := (readRaws_iff _ _ _ _ _).1 e10
    obtain ⟨b11, h11, rfl⟩ := (readRaws_iff _ _ _ _ _).1 e11
    obtain ⟨b12, h12, rfl⟩ := (readRaws_iff _ _ _ _ _).1 e12
    exact ⟨b1, b2, b3, b4, b5, b6, b7, b8, b9, b10, b11, b12, by simp, h1, h2, h3, h4, h5, h6, h7, h8, h9, h10, h11, h12⟩
  · rintro ⟨b1, b2, b3, b4, b5, b6, b7, b8, b9, b10, b11, b12, rfl, h1, h2, h3, h4, h5, h6, h7, h8, h9, h10, h11, h12⟩
    simp only [List.append_assoc]
    exact ⟨p.vk, _, ⟨_, _, (readRaw_iff _ _ _ _ _ _).2 ⟨b1, h1, rfl⟩, _, _, (readRaw_iff _ _ _ _ _ _).2 ⟨b2, h2, rfl⟩,
        _, _, (readRaw_iff _ _ _ _ _ _).2 ⟨b3, h3, rfl⟩, _, _, (readRaw_iff _ _ _ _ _ _).2 ⟨b4, h4, rfl⟩,
        _, _, (readRaw_iff _ _ _ _ _ _).2 ⟨b5, h5, rfl⟩, _, _, (readRaw_iff _ _ _ _ _ _).2 ⟨b6, h6, rfl⟩,
        _, _, (readRaws_iff _ _ _ _ _).2 ⟨b7, h7, rfl⟩, rfl, rfl⟩,
      _, _, (readRaws_iff _ _ _ _ _).2 ⟨b8, h8, rfl⟩, _, _, (readRaws_iff _ _ _ _ _).2 ⟨b9, h9, rfl⟩,
      _, _, (readRaws_iff _ _ _ _ _).2 ⟨b10, h10, rfl⟩, _, _, (readRaws_iff _ _ _ _ _).2 ⟨b11, h11, rfl⟩,
      _, _, (readRaws_iff _ _ _ _ _).2 ⟨b12, h12, rfl⟩, rfl, rfl⟩

/-- What is assumed of the uncompressed encoding of one kind of points. -/
structure LawfulRaw (u : RawCodec G) : Prop where
  length_encode : ∀ g, (u.encode g).length = u.size
  decode_encode : ∀ g, u.decode (u.encode g) = some g
  unchecked_encode : ∀ g, u.decodeUnchecked (u.encode g) = some g

/-- The lists of the parameters, with the IC points: none of their points is infinity, and each has less than `2^32`. -/
def Storable (u1 : RawCodec G1) (u2 : RawCodec G2) (p : Parameters G1 G2) : Prop :=
  (∀ l ∈ [p.vk.ic, p.h, p.l, p.a, p.bG1], l.length < 2 ^ 32 ∧ ∀ g ∈ l, u1.isZero g = false) ∧
    p.bG2.length < 2 ^ 32 ∧ ∀ g ∈ p.bG2, u2.isZero g = false

/-- The bytes that `Parameters::write` writes. -/
def paramsBytes (u1 : RawCodec G1) (u2 : RawCodec G2) (p : Parameters G1 G2) : List UInt8 := (paramsChunks u1 u2 p).flatten

theorem beNat_be32 (n : Nat) (h : n < 2 ^ 32) : beNat (be32 n) = n := by
  simp only [be32, List.map_cons, List.map_nil, beNat, List.reverse_cons, List.reverse_nil, List.nil_append, List.cons_append, leNat, UInt8.toNat_ofNat']
  omega

theorem rawList_write {u : RawCodec G} (hu : LawfulRaw u) (checked : Bool) (l : List G) (hl : l.length < 2 ^ 32)
    (hz : ∀ g ∈ l, u.isZero g = false) : RawList u checked (rawChunks u l).flatten l := by
  refine ⟨be32 l.length, l.map u.encode, rfl, beNat_be32 _ hl, rfl, ?_⟩
  clear hl
  induction l with
  | nil => exact .nil
  | cons g l ih =>
    refine .cons ⟨hu.length_encode g, ?_, fun _ => hz g (by simp)⟩ (ih fun g hg => hz g (by simp [hg]))
    cases checked
    · exact hu.unchecked_encode g
    · exact hu.decode_encode g

/-- C74: parameters written to a file are read back, checked or not, whatever follows in the file. -/
theorem C74_params_round_trip (h1 : LawfulRaw u1) (h2 : LawfulRaw u2) (checked : Bool) (p : Parameters G1 G2)
    (hp : Storable u1 u2 p) (rest : List UInt8) :
    paramsRead u1 u2 checked (paramsBytes u1 u2 p ++ rest) = some (p, rest) := by
  obtain ⟨hl, hb, hbz⟩ := hp
  simp only [List.forall_mem_cons, List.not_mem_nil, false_imp_iff, implies_true, and_true] at hl
  obtain ⟨⟨i1, i2⟩, ⟨i3, i4⟩, ⟨i5, i6⟩, ⟨i7, i8⟩, ⟨i9, i10⟩⟩ := hl
  have B1 : ∀ g, RawBlock u1 true false (u1.encode g) g := fun g => ⟨h1.length_encode g, h1.decode_encode g, by simp⟩
  have B2 : ∀ g, RawBlock u2 true false (u2.encode g) g := fun g => ⟨h2.length_encode g, h2.decode_encode g, by simp⟩
  exact (C74_params_read _ _ _ _).2 ⟨_, _, _, _, _, _, _, _, _, _, _, _, by simp [paramsBytes, paramsChunks, fullVKChunks],
    B1 _, B1 _, B2 _, B2 _, B1 _, B2 _, rawList_write h1 true _ i1 i2, rawList_write h1 _ _ i3 i4, rawList_write h1 _ _ i5 i6,
    rawList_write h1 _ _ i7 i8, rawList_write h1 _ _ i9 i10, rawList_write h2 _ _ hb hbz⟩

/-- C74: `Parameters::read` never returns infinity in one of the lists. -/
theorem C74_params_no_infinity (checked : Bool) (buf rest : List UInt8) (p : Parameters G1 G2)
    (h : paramsRead u1 u2 checked buf = some (p, rest)) : Storable u1 u2 p := by
  obtain ⟨b1, b2, b3, b4, b5, b6, b7, b8, b9, b10, b11, b12, rfl, -, -, -, -, -, -, h7, h8, h9, h10, h11, h12⟩ :=
    (C74_params_read _ _ _ _).1 h
  have key : ∀ {G : Type} (u : RawCodec G) (checked : Bool) (bs : List UInt8) (l : List G), RawList u checked bs l →
      l.length < 2 ^ 32 ∧ ∀ g ∈ l, u.isZero g = false := by
    rintro G u checked bs l ⟨count, bss, hc, hn, -, hF⟩
    constructor
    · rw [← hn]
      match count, hc with
      | [c3, c2, c1, c0], _ =>
        have := c0.toNat_lt; have := c1.toNat_lt; have := c2.toNat_lt; have := c3.toNat_lt
        simp only [beNat, List.reverse_cons, List.reverse_nil, List.nil_append, List.cons_append, leNat]
        omega
    · clear hn
      induction hF with
      | nil => simp
      | cons hB _ ih =>
        intro g hg
        rcases List.mem_cons.1 hg with rfl | hg
        · exact hB.2.2 rfl
        · exact ih g hg
  unfold Storable
  simp only [List.forall_mem_cons, List.not_mem_nil, false_imp_iff, implies_true, and_true]
  exact ⟨⟨key _ _ _ _ h7, key _ _ _ _ h8, key _ _ _ _ h9, key _ _ _ _ h10, key _ _ _ _ h11⟩, key _ _ _ _ h12⟩

/-- C74: exactly what `Proof::read` accepts. -/
theorem C74_proof_read (buf : List UInt8) (p : Proof G1 G2) :
    proofRead c1 c2 buf = some p ↔
      ∃ a b c rest, buf = a ++ b ++ c ++ rest ∧ Block c1 a p.a ∧ Block c2 b p.b ∧ Block c1 c p.c := by
  unfold proofRead
  simp only [Option.bind_eq_bind, Option.bind_eq_some_iff, Prod.exists, Option.pure_def, Option.some.injEq]
  constructor
  · rintro ⟨a, r1, e1, b, r2, e2, c, r3, e3, rfl⟩
    obtain ⟨ba, ha, rfl⟩ := (readPoint_iff _ _ _ _).1 e1
    obtain ⟨bb, hb, rfl⟩ := (readPoint_iff _ _ _ _).1 e2
    obtain ⟨bc, hc, rfl⟩ := (readPoint_iff _ _ _ _).1 e3
    exact ⟨ba, bb, bc, r3, by simp, ha, hb, hc⟩
  · rintro ⟨ba, bb, bc, rest, rfl, ha, hb, hc⟩
    simp only [List.append_assoc]
    exact ⟨_, _, (readPoint_iff _ _ _ _).2 ⟨ba, ha, rfl⟩, _, _, (readPoint_iff _ _ _ _).2 ⟨bb, hb, rfl⟩,
      _, _, (readPoint_iff _ _ _ _).2 ⟨bc, hc, rfl⟩, rfl⟩

/-- C74: a proof without infinity is read back, whatever follows. -/
theorem C74_proof_round_trip (h1 : LawfulCodec c1) (h2 : LawfulCodec c2) (p : Proof G1 G2)
    (hp : c1.isZero p.a = false ∧ c2.isZero p.b = false ∧ c1.isZero p.c = false) (rest : List UInt8) :
    proofRead c1 c2 (proofWrite c1 c2 p ++ rest) = some p :=
  (C74_proof_read _ _).2 ⟨_, _, _, rest, rfl, ⟨h1.length_encode _, h1.decode_encode _, hp.1⟩,
    ⟨h2.length_encode _, h2.decode_encode _, hp.2.1⟩, ⟨h1.length_encode _, h1.decode_encode _, hp.2.2⟩⟩

/-- C74: a proof with infinity is written, but not read. -/
theorem C74_proof_infinity (h1 : LawfulCodec c1) (h2 : LawfulCodec c2) (p : Proof G1 G2)
    (hp : ¬ (c1.isZero p.a = false ∧ c2.isZero p.b = false ∧ c1.isZero p.c = false)) (rest : List UInt8) :
    proofRead c1 c2 (proofWrite c1 c2 p ++ rest) = none := by
  rw [Option.eq_none_iff_forall_ne_some]
  intro p' h
  obtain ⟨a, b, c, rest', e, ⟨l1, d1, z1⟩, ⟨l2, d2, z2⟩, ⟨l3, d3, z3⟩⟩ := (C74_proof_read _ _).1 h
  simp only [proofWrite, List.append_assoc] at e
  obtain ⟨rfl, e1⟩ := List.append_inj e (by rw [h1.length_encode, l1])
  obtain ⟨rfl, e2⟩ := List.append_inj e1 (by rw [h2.length_encode, l2])
  obtain ⟨rfl, e3⟩ := List.append_inj e2 (by rw [h1.length_encode, l3])
  rw [h1.decode_encode] at d1 d3
  rw [h2.decode_encode] at d2
  injection d1 with d1; injection d2 with d2; injection d3 with d3
  exact hp ⟨by rw [d1]; exact z1, by rw [d2]; exact z2, by rw [d3]; exact z3⟩

theorem rawBlocks_inj {u : RawCodec G} (hu : LawfulRaw u) (checked : Bool) (l l' : List G) (bss : List (List UInt8))
    (hF : List.Forall₂ (RawBlock u checked true) bss l') (hl : l'.length = l.length) (rest rest' : List UInt8)
    (e : bss.flatten ++ rest' = (l.map u.encode).flatten ++ rest) : l' = l ∧ rest' = rest := by
  induction l generalizing l' bss with
  | nil =>
    have : l' = [] := List.length_eq_zero_iff.1 hl
    subst this
    cases hF
    exact ⟨rfl, by simpa using e⟩
  | cons g l ih =>
    cases hF with
    | nil => simp at hl
    | @cons b g' bss l' hb hF =>
      simp only [List.map_cons, List.flatten_cons, List.append_assoc] at e
      obtain ⟨rfl, e1⟩ := List.append_inj e (by rw [hb.1, hu.length_encode])
      obtain ⟨rfl, rfl⟩ := ih l' bss hF (by simpa using hl) e1
      have hd := hb.2.1
      have hd' : some g = some g' := by
        cases checked
        · exact (hu.unchecked_encode g).symm.trans hd
        · exact (hu.decode_encode g).symm.trans hd
      injection hd' with hd'
      exact ⟨by rw [hd'], rfl⟩

theorem rawList_inj {u : RawCodec G} (hu : LawfulRaw u) (checked : Bool) {l l' : List G} {bs : List UInt8}
    (h : RawList u checked bs l') (hl : l.length < 2 ^ 32) {rest rest' : List UInt8}
    (e : bs ++ rest' = (rawChunks u l).flatten ++ rest) : l' = l ∧ rest' = rest := by
  obtain ⟨count, bss, hc, hn, rfl, hF⟩ := h
  simp only [rawChunks, List.flatten_cons, List.append_assoc] at e
  obtain ⟨rfl, e1⟩ := List.append_inj e (by rw [hc]; rfl)
  exact rawBlocks_inj hu checked l l' bss hF (by rw [← hn, beNat_be32 _ hl]) _ _ e1

/-- C74: parameters with infinity in one of the lists are written, but not read. -/
theorem C74_params_infinity (h1 : LawfulRaw u1) (h2 : LawfulRaw u2) (checked : Bool) (p : Parameters G1 G2)
    (hlen : ∀ l ∈ [p.vk.ic, p.h, p.l, p.a, p.bG1], l.length < 2 ^ 32) (hlen2 : p.bG2.length < 2 ^ 32)
    (hp : ¬ Storable u1 u2 p) (rest : List UInt8) : paramsRead u1 u2 checked (paramsBytes u1 u2 p ++ rest) = none := by
  rw [Option.eq_none_iff_forall_ne_some]
  rintro ⟨p', rest'⟩ h
  have hs := C74_params_no_infinity _ _ _ _ h
  obtain ⟨b1, b2, b3, b4, b5, b6, b7, b8, b9, b10, b11, b12, e, k1, k2, k3, k4, k5, k6, h7, h8, h9, h10, h11, h12⟩ :=
    (C74_params_read _ _ _ _).1 h
  simp only [List.forall_mem_cons, List.not_mem_nil, false_imp_iff, implies_true, and_true] at hlen
  simp only [paramsBytes, paramsChunks, fullVKChunks, List.append_assoc, List.flatten_append, List.flatten_cons, List.flatten_nil,
    List.cons_append, List.nil_append] at e
  obtain ⟨-, e1⟩ := List.append_inj e (by rw [k1.1, h1.length_encode])
  obtain ⟨-, e2⟩ := List.append_inj e1 (by rw [k2.1, h1.length_encode])
  obtain ⟨-, e3⟩ := List.append_inj e2 (by rw [k3.1, h2.length_encode])
  obtain ⟨-, e4⟩ := List.append_inj e3 (by rw [k4.1, h2.length_encode])
  obtain ⟨-, e5⟩ := List.append_inj e4 (by rw [k5.1, h1.length_encode])
  obtain ⟨-, e6⟩ := List.append_inj e5 (by rw [k6.1, h2.length_encode])
  obtain ⟨m1, e7⟩ := rawList_inj h1 _ h7 hlen.1 e6.symm
  obtain ⟨m2, e8⟩ := rawList_inj h1 _ h8 hlen.2.1 e7
  obtain ⟨m3, e9⟩ := rawList_inj h1 _ h9 hlen.2.2.1 e8
  obtain ⟨m4, e10⟩ := rawList_inj h1 _ h10 hlen.2.2.2.1 e9
  obtain ⟨m5, e11⟩ := rawList_inj h1 _ h11 hlen.2.2.2.2 e10
  obtain ⟨m6, -⟩ := rawList_inj h2 _ h12 hlen2 e11
  apply hp
  unfold Storable at hs ⊢
  rw [m1, m2, m3, m4, m5, m6] at hs
  exact hs

end raw

/-- Numbers below 200 as one byte and its complement, 0 as infinity. -/
def byteRaw : RawCodec (Fin 200) where
  size := 2
  encode g := [UInt8.ofNat g.val, UInt8.ofNat (255 - g.val)]
  decode bs := match bs with
    | [b, c] => if h : b.toNat < 200 then if b.toNat + c.toNat = 255 then some ⟨b.toNat, h⟩ else none else none
    | _ => none
  decodeUnchecked bs := match bs with
    | [b, _] => if h : b.toNat < 200 then some ⟨b.toNat, h⟩ else none
    | _ => none
  isZero g := g.val == 0

theorem byteRaw_lawful : LawfulRaw byteRaw where
  length_encode _ := rfl
  decode_encode := by decide +kernel
  unchecked_encode := by decide +kernel

/-- Small parameters. -/
def sampleParameters (z : Fin 200) : Parameters (Fin 200) (Fin 200) :=
  ⟨⟨1, 2, 3, 4, 5, 6, [7, 8]⟩, [9, z], [10], [11, 12], [13], [14, 15]⟩

example : paramsRead byteRaw byteRaw false (paramsBytes byteRaw byteRaw (sampleParameters 199) ++ [1, 2, 3]) =
    some (sampleParameters 199, [1, 2, 3]) :=
  C74_params_round_trip byteRaw_lawful byteRaw_lawful false _ (by unfold Storable sampleParameters; decide +kernel) _

example : (paramsRead byteRaw byteRaw false (paramsBytes byteRaw byteRaw (sampleParameters 0) ++ [1, 2, 3])) = none :=
  C74_params_infinity byteRaw_lawful byteRaw_lawful false _ (by unfold sampleParameters; decide) (by unfold sampleParameters; decide)
    (by unfold Storable sampleParameters; decide +kernel) _

/-- The blocks of a file, and what is read from it: unchecked, a wrong second byte in the list `h` is not noticed. -/
example : (paramsRead byteRaw byteRaw false ([1, 254, 2, 253, 3, 252, 4, 251, 5, 250, 6, 249] ++ [0, 0, 0, 1, 7, 248] ++ [0, 0, 0, 1, 9, 9] ++ [0, 0, 0, 0] ++
      [0, 0, 0, 0] ++ [0, 0, 0, 0] ++ [0, 0, 0, 0])).map (fun x => (x.1.h, x.2)) = some ([9], []) ∧
    (paramsRead byteRaw byteRaw true ([1, 254, 2, 253, 3, 252, 4, 251, 5, 250, 6, 249] ++ [0, 0, 0, 1, 7, 248] ++ [0, 0, 0, 1, 9, 9] ++ [0, 0, 0, 0] ++
      [0, 0, 0, 0] ++ [0, 0, 0, 0] ++ [0, 0, 0, 0])).isNone = true := by decide +kernel

example : proofRead pairCodec byteCodec (proofWrite pairCodec byteCodec ⟨1, 2, 3⟩ ++ [9]) = some ⟨1, 2, 3⟩ ∧
    proofRead pairCodec byteCodec (proofWrite pairCodec byteCodec ⟨1, 0, 3⟩ ++ [9]) = none :=
  ⟨C74_proof_round_trip pairCodec_lawful byteCodec_lawful _ (by decide +kernel) _,
    C74_proof_infinity pairCodec_lawful byteCodec_lawful _ (by decide +kernel) _⟩

end Fawkes.Props
