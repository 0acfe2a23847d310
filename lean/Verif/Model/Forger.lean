import Verif.Model.Eddsa

/-!
# Signing and verifying with an ideal hash

`eddsaposeidon_sign` and `eddsaposeidon_verify` call two hash functions: `hash_r` (BLAKE2s, gives the nonce) and `hash_ram` (Poseidon,
gives the challenge).  `signWith` and `verifyWith` are the same code with the hash functions as parameters; with the hash functions of
the code they are `sign` and `verify` (`C109_code`).  The rest of the file describes a client that attacks a signer: it may ask for
signatures and for values of the challenge hash, one after the other, each request depending on all earlier answers.  In `play` the
hash functions are given; in `attack` what they answer is read from a tape when it is first needed (for `C109_lazy`, and for the
extractor, which has no secret key).
-/

namespace Fawkes.Eddsa

section code

variable {r : Nat} [Fact r.Prime]

/-- src/native/eddsaposeidon.rs:27-38: `eddsaposeidon_sign`, where `nonce` is what `hash_r` returned and `hash` stands for `hash_ram`. -/
def signWith (J : JubJubParams (ZMod r)) [Fact J.l.Prime] (nonce : Except Panic (ZMod J.l))
    (hash : ZMod r → ZMod r → ZMod r → Except Panic (ZMod r)) (sk : ZMod J.l) (m : ZMod r) : Except Panic (ZMod J.l × ZMod r) := do
  let rho ← nonce
  let rp ← J.g.mul rho J
  let ap ← J.g.mul sk J
  let h ← hash rp.x ap.x m
  let h' ← Num.intoOther J.l h
  pure (rho + h' * sk, rp.x)

/-- src/native/eddsaposeidon.rs:40-66: `eddsaposeidon_verify`, where `hash` stands for `hash_ram`. -/
def verifyWith (sqrt : ZMod r → Option (ZMod r)) (J : JubJubParams (ZMod r)) [Fact J.l.Prime]
    (hash : ZMod r → ZMod r → ZMod r → Except Panic (ZMod r)) (s : ZMod J.l) (rx a m : ZMod r) : Except Panic Bool := do
  match ← EdwardsPoint.subgroupDecompress sqrt a J with
  | none => pure false
  | some pa =>
    match ← EdwardsPoint.subgroupDecompress sqrt rx J with
    | none => pure false
    | some pr => do
      let h ← hash rx a m
      let h' ← Num.intoOther J.l h
      let ha ← pa.mul h' J
      let sb ← J.g.mul s J
      let haR ← ha.add pr J
      pure (sb.x == haR.x && sb.y == haR.y)

end code

/-! ### A client that attacks a signer -/

/-- A client of src/native/eddsaposeidon.rs:18-66 that wants to forge a signature under a public key: it asks for values of the challenge
hash (`hash_ram`, 18-25) at points of its choice, asks the owner of the key to sign messages of its choice (`eddsaposeidon_sign`, 27-38),
and at last outputs a signature `(s, rx)` of a message `m`.  `F` is the field of messages, `S` the field of scalars. -/
inductive Forger (F S : Type)
  | forge (s : S) (rx m : F)
  | ask (rx a m : F) (next : F → Forger F S)
  | sign (m : F) (next : S × F → Forger F S)

/-- A value of the challenge hash (src/native/eddsaposeidon.rs:18-25) that has been fixed: `h` is the value at `(rx, a, m)`; if it was fixed
while a signature was made, `sig` is the first part of the signature. -/
structure Entry (F S : Type) where
  rx : F
  a : F
  m : F
  h : F
  sig : Option S

/-- The value of the challenge hash (src/native/eddsaposeidon.rs:18-25) at a point, if it has been fixed, and when: the number of values
fixed before.  The log has its newest entry first. -/
def Entry.lookup {F S : Type} [DecidableEq F] (rx a m : F) : List (Entry F S) → Option (Nat × F)
  | [] => none
  | e :: log => if e.rx = rx ∧ e.a = a ∧ e.m = m then some (log.length, e.h) else Entry.lookup rx a m log

/-- The signature given out for a message.  The nonce is a function of key and message (src/native/eddsaposeidon.rs:11-16), so a message
signed again gets the same signature. -/
def Entry.signature {F S : Type} [DecidableEq F] (m : F) : List (Entry F S) → Option (S × F)
  | [] => none
  | e :: log =>
    match e.sig with
    | some s => if e.m = m then some (s, e.rx) else Entry.signature m log
    | none => Entry.signature m log

/-- The client got the signature `(s, rx)` of `m` from the signer (src/native/eddsaposeidon.rs:27-38). -/
def Entry.given {F S : Type} [DecidableEq F] [DecidableEq S] (s : S) (rx m : F) (log : List (Entry F S)) : Bool :=
  log.any fun e => decide (e.sig = some s ∧ e.rx = rx ∧ e.m = m)

/-- A forgery: the value `h` of the challenge hash that its verification uses (src/native/eddsaposeidon.rs:40-66), the number of values
fixed before `h`, and the first part of the signature. -/
structure Win (F S : Type) where
  idx : Nat
  h : F
  s : S

/-- The attack on the public key `a`.  Every value of the challenge hash and every nonce is taken from the tape, one symbol for one
request that the log does not answer; when the tape ends the client has lost.  `signer` makes the entry of a signature (how the nonce
becomes a signature); `accept h s rx m` says if `(s, rx)` passes verification as signature of `m` when the challenge is `h`
(src/native/eddsaposeidon.rs:40-66).  The client wins if what it outputs is accepted and was not given to it by the signer. -/
def attack {F S : Type} [DecidableEq F] [DecidableEq S] (accept : F → S → F → F → Bool)
    (signer : List (Entry F S) → F → F × S → Option (Entry F S)) (a : F) : Forger F S → List (Entry F S) → List (F × S) → Option (Win F S)
  | .forge s rx m, log, tape =>
    match Entry.lookup rx a m log, tape with
    | some (i, h), _ => if accept h s rx m && !Entry.given s rx m log then some ⟨i, h, s⟩ else none
    | none, (h, _) :: _ => if accept h s rx m && !Entry.given s rx m log then some ⟨log.length, h, s⟩ else none
    | none, [] => none
  | .ask rx a' m next, log, tape =>
    match Entry.lookup rx a' m log, tape with
    | some (_, h), tape => attack accept signer a (next h) log tape
    | none, (h, _) :: tape => attack accept signer a (next h) (⟨rx, a', m, h, none⟩ :: log) tape
    | none, [] => none
  | .sign m next, log, tape =>
    match Entry.signature m log, tape with
    | some sig, tape => attack accept signer a (next sig) log tape
    | none, x :: tape =>
      match signer log m x with
      | some ⟨rx, a', m', h, some s⟩ => attack accept signer a (next (s, rx)) (⟨rx, a', m', h, some s⟩ :: log) tape
      | _ => none
    | none, [] => none

/-! ### The same attack with hash functions that are chosen beforehand -/

/-- The client makes at most `n` requests. -/
def Forger.AtMost {F S : Type} : Forger F S → Nat → Prop
  | .forge _ _ _, _ => True
  | .ask _ _ _ next, n + 1 => ∀ h, (next h).AtMost n
  | .sign _ next, n + 1 => ∀ s, (next s).AtMost n
  | _, 0 => False

/-- The client of src/native/eddsaposeidon.rs:18-66 attacks the owner of the secret key `sk`: `hash` is used in the place of `hash_ram`
(18-25), `nonce` in the place of `hash_r` with this key (11-16).  `given` are the signatures (`s`, `rx`, `m`) that the client has got.
The result is `true` if what the client outputs passes `eddsaposeidon_verify` under the public key `a` and was not given to it. -/
def play {r : Nat} [Fact r.Prime] (sqrt : ZMod r → Option (ZMod r)) (J : JubJubParams (ZMod r)) [Fact J.l.Prime]
    (hash : ZMod r → ZMod r → ZMod r → ZMod r) (nonce : ZMod r → ZMod J.l) (sk : ZMod J.l) (a : ZMod r) :
    Forger (ZMod r) (ZMod J.l) → List (ZMod J.l × ZMod r × ZMod r) → Except Panic Bool
  | .forge s rx m, given => do
    let ok ← verifyWith sqrt J (fun rx a m => .ok (hash rx a m)) s rx a m
    pure (ok && !decide ((s, rx, m) ∈ given))
  | .ask rx a' m next, given => play sqrt J hash nonce sk a (next (hash rx a' m)) given
  | .sign m next, given => do
    let sig ← signWith J (.ok (nonce m)) (fun rx a m => .ok (hash rx a m)) sk m
    play sqrt J hash nonce sk a (next sig) ((sig.1, sig.2, m) :: given)

section games

variable {r : Nat} [Fact r.Prime]

/-- `eddsaposeidon_verify` (src/native/eddsaposeidon.rs:40-66) accepts when the challenge is `h`. -/
def accepts (sqrt : ZMod r → Option (ZMod r)) (J : JubJubParams (ZMod r)) [Fact J.l.Prime] (a h : ZMod r) (s : ZMod J.l) (rx m : ZMod r) : Bool :=
  match verifyWith sqrt J (fun _ _ _ => .ok h) s rx a m with
  | .ok b => b
  | .error _ => false

/-- The owner of the secret key signs (src/native/eddsaposeidon.rs:27-38): the tape gives the nonce and, if the value of the challenge
hash is not fixed yet, the challenge. -/
def ownSigner (J : JubJubParams (ZMod r)) [Fact J.l.Prime] (sk : ZMod J.l) (a : ZMod r) (log : List (Entry (ZMod r) (ZMod J.l))) (m : ZMod r)
    (x : ZMod r × ZMod J.l) : Option (Entry (ZMod r) (ZMod J.l)) :=
  let answer := fun rx a m => match Entry.lookup rx a m log with
    | some (_, h) => h
    | none => x.1
  match signWith J (.ok x.2) (fun rx a m => .ok (answer rx a m)) sk m with
  | .ok (s, rx) => some ⟨rx, a, m, answer rx a m, some s⟩
  | .error _ => none

/-- A signature made without the secret key, with the point functions of src/native/ecc.rs:29-196: choose `s` and the challenge `h`, and
take the point `s · G - h · A` for the nonce.  Not in the code; used by the extractor. -/
def simulate (sqrt : ZMod r → Option (ZMod r)) (J : JubJubParams (ZMod r)) [Fact J.l.Prime] (a h : ZMod r) (s : ZMod J.l) :
    Except Panic (Option (ZMod r)) := do
  match ← EdwardsPoint.subgroupDecompress sqrt a J with
  | none => pure none
  | some pa =>
    let h' ← Num.intoOther J.l h
    let ha ← pa.mul (-h') J
    let sb ← J.g.mul s J
    let rp ← sb.add ha J
    pure (some rp.x)

/-- A signer who does not know the secret key, but who may choose the value of the challenge hash: it fails if that value is fixed
already.  Not in the code; used by the extractor. -/
def simSigner (sqrt : ZMod r → Option (ZMod r)) (J : JubJubParams (ZMod r)) [Fact J.l.Prime] (a : ZMod r)
    (log : List (Entry (ZMod r) (ZMod J.l))) (m : ZMod r) (x : ZMod r × ZMod J.l) : Option (Entry (ZMod r) (ZMod J.l)) :=
  match simulate sqrt J a x.1 x.2 with
  | .ok (some rx) =>
    match Entry.lookup rx a m log with
    | some _ => none
    | none => some ⟨rx, a, m, x.1, some x.2⟩
  | _ => none

/-- The attack on the owner of a secret key. -/
def attackOwner (sqrt : ZMod r → Option (ZMod r)) (J : JubJubParams (ZMod r)) [Fact J.l.Prime] (sk : ZMod J.l) (a : ZMod r)
    (f : Forger (ZMod r) (ZMod J.l)) (tape : List (ZMod r × ZMod J.l)) : Option (Win (ZMod r) (ZMod J.l)) :=
  attack (accepts sqrt J a) (ownSigner J sk a) a f [] tape

/-- The attack on the signer without secret key. -/
def attackSim (sqrt : ZMod r → Option (ZMod r)) (J : JubJubParams (ZMod r)) [Fact J.l.Prime] (a : ZMod r)
    (f : Forger (ZMod r) (ZMod J.l)) (tape : List (ZMod r × ZMod J.l)) : Option (Win (ZMod r) (ZMod J.l)) :=
  attack (accepts sqrt J a) (simSigner sqrt J a) a f [] tape

/-- The extractor: it is given a public key and a forger, and looks for the secret key.  It runs the forger twice, the second time with
fresh answers from the moment on at which the challenge of the first forgery was fixed, and divides as in `C97_extract`.  Not in the
code. -/
def extract (sqrt : ZMod r → Option (ZMod r)) (J : JubJubParams (ZMod r)) [Fact J.l.Prime] (a : ZMod r)
    (f : Forger (ZMod r) (ZMod J.l)) (tape tape' : List (ZMod r × ZMod J.l)) : Option (ZMod J.l) :=
  match attackSim sqrt J a f tape with
  | none => none
  | some w =>
    match attackSim sqrt J a f (tape.take w.idx ++ tape'.drop w.idx) with
    | none => none
    | some w' =>
      match Num.intoOther J.l w.h, Num.intoOther J.l w'.h with
      | .ok h, .ok h' => if w.idx = w'.idx ∧ h ≠ h' then some ((w.s - w'.s) / (h - h')) else none
      | _, _ => none

end games

end Fawkes.Eddsa
