import Verif.Spec.Bytes
import Verif.Spec.Circuit
import Verif.Model.CNum

/-!
# Specification: lists of bit signals
-/

namespace Fawkes

variable {F : Type} [Field F]

/-- Under assignment `w` the signals `bits` are the bits `bs`: each is 0 or 1 accordingly. -/
def SpellsBits (w : Index → F) (bits : List (CBool F)) (bs : List Bool) : Prop :=
  List.Forall₂ (fun c b => c.num.lc.eval w = if b = true then 1 else 0) bits bs

/-- The signals `bits` carry the bit values `bs` in state `s`. -/
def CarriesBits (s : CS F) (bits : List (CBool F)) (bs : List Bool) : Prop :=
  List.Forall₂ (fun c b => Has s c.num (if b = true then 1 else 0)) bits bs

/-- The low `n` bits of an integer, least significant first. -/
def lowBits (n x : Nat) : List Bool := (List.range n).map fun i => x.testBit i

/-- `Σ 2^i · xᵢ` -/
def weighted : List F → F
  | [] => 0
  | x :: xs => x + 2 * weighted xs

end Fawkes
