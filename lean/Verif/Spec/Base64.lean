/-!
# Specification: base64 (RFC 4648, section 4)
-/

namespace Fawkes.Base64

/-- The character for six bits: `A`–`Z`, `a`–`z`, `0`–`9`, `+`, `/`. -/
def rfcSymbol (v : Nat) : Char :=
  if v < 26 then Char.ofNat ('A'.toNat + v)
  else if v < 52 then Char.ofNat ('a'.toNat + (v - 26))
  else if v < 62 then Char.ofNat ('0'.toNat + (v - 52))
  else if v = 62 then '+' else '/'

/-- The number written by digits in a base, most significant digit first. -/
def number (base : Nat) (ds : List Nat) : Nat := ds.foldl (fun n d => n * base + d) 0

/-- The text is the base64 encoding of the bytes: the bits of the bytes, followed by fewer than six zero bits, are cut into
groups of six, one character each; `=` fills the text up to a multiple of four characters. -/
def IsBase64 (t : List Char) (bs : List UInt8) : Prop :=
  ∃ (vs : List Nat) (zeros pad : Nat), t = vs.map rfcSymbol ++ List.replicate pad '=' ∧ (∀ v ∈ vs, v < 64) ∧
    6 * vs.length = 8 * bs.length + zeros ∧ zeros < 6 ∧ number 64 vs = number 256 (bs.map UInt8.toNat) * 2 ^ zeros ∧
    (vs.length + pad) % 4 = 0 ∧ pad < 4

end Fawkes.Base64
