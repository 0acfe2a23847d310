import Verif.Spec.JsonGrammar
import Verif.Model.Serde

/-!
# Specification: which JSON values stand for which data

Relations between JSON values and data, without the readers of Model/Serde.lean.
-/

namespace Fawkes.Json.Data

open Fawkes Fawkes.Groth16 Fawkes.Serde

/-- The number that a sequence of decimal digits stands for; other characters are passed over. -/
def value (s : List Char) : Nat := s.foldl (fun n c => if '0' ≤ c ∧ c ≤ '9' then n * 10 + (c.toNat - 48) else n) 0

/-- `s` is a numeral of `n`: decimal digits, possibly with underscores after the first one and a plus sign before it. -/
def IsNumeral (s : List Char) (n : Nat) : Prop :=
  ∃ sign d u, (sign = [] ∨ sign = ['+']) ∧ s = sign ++ d :: u ∧ ('0' ≤ d ∧ d ≤ '9') ∧ (∀ c ∈ u, c = '_' ∨ ('0' ≤ c ∧ c ≤ '9')) ∧
    n = value (d :: u)

/-- The object with the members `l` has the member `name` once, with the value `j`. -/
def Member (name : List Char) (l : List (List Char × Json)) (j : Json) : Prop :=
  ∃ l1 l2, l = l1 ++ (name, j) :: l2 ∧ (∀ x ∈ l1, x.1 ≠ name) ∧ ∀ x ∈ l2, x.1 ≠ name

variable {p : Nat}

/-- Field elements are strings with a numeral of the canonical representative. -/
def IsNum (j : Json) (x : ZMod p) : Prop := ∃ s, j = .str s ∧ IsNumeral s x.val

def IsVec {A : Type} (R : Json → A → Prop) (j : Json) (l : List A) : Prop := ∃ js, j = .arr js ∧ List.Forall₂ R js l

def IsPair {A B : Type} (R : Json → A → Prop) (S : Json → B → Prop) (j : Json) (a : A) (b : B) : Prop :=
  ∃ x y, j = .arr [x, y] ∧ R x a ∧ S y b

def IsG1 (j : Json) (d : G1PointData (ZMod p)) : Prop := IsPair IsNum IsNum j d.p0 d.p1

def IsG2 (j : Json) (d : G2PointData (ZMod p)) : Prop :=
  IsPair (fun j x => IsPair IsNum IsNum j x.1 x.2) (fun j x => IsPair IsNum IsNum j x.1 x.2) j d.p0 d.p1

/-- Objects with the members in any order and any others besides, or arrays of the values in order. -/
def IsProof (j : Json) (d : ProofData (ZMod p)) : Prop :=
  ∃ a b c, ((∃ l, j = .obj l ∧ Member (chars! "a") l a ∧ Member (chars! "b") l b ∧ Member (chars! "c") l c) ∨ j = .arr [a, b, c]) ∧
    IsG1 a d.a ∧ IsG2 b d.b ∧ IsG1 c d.c

def IsVK (j : Json) (d : VKData (ZMod p)) : Prop :=
  ∃ a b c e f, ((∃ l, j = .obj l ∧ Member (chars! "alpha_g1") l a ∧ Member (chars! "beta_g2") l b ∧ Member (chars! "gamma_g2") l c ∧
      Member (chars! "delta_g2") l e ∧ Member (chars! "ic") l f) ∨ j = .arr [a, b, c, e, f]) ∧
    IsG1 a d.alphaG1 ∧ IsG2 b d.betaG2 ∧ IsG2 c d.gammaG2 ∧ IsG2 e d.deltaG2 ∧ IsVec IsG1 f d.ic

/-- The data of a circuit.  The length of vectors is not part of it. -/
def Is : (l : Layout) → Json → l.ty.V (ZMod p) → Prop
  | .num => fun j v => IsNum (p := p) j v
  | .bool => fun j v => j = .bool v
  | .vec _ a => fun j v => IsVec (Is a) j v.items
  | .pair a b => fun j v => IsPair (Is a) (Is b) j v.1 v.2
  | .one name a => fun j v => ∃ x, ((∃ l, j = .obj l ∧ Member name l x) ∨ j = .arr [x]) ∧ Is a x v
  | .more f name a => fun j v => ∃ x, Is a x v.2 ∧
      ((∃ l, j = .obj l ∧ Member name l x ∧ Is f j v.1) ∨ ∃ l, j = .arr (l ++ [x]) ∧ Is f (.arr l) v.1)

end Fawkes.Json.Data
