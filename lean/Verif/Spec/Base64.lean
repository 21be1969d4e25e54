import Verif.Basic

namespace Verif.Base64

/-! ## Specification: RFC 4648 as a statement about bits -/

/-- the `w` low bits of `n`, most significant first -/
def bitsOf (w n : Nat) : List Bool := (List.range w).map fun i => n.testBit (w - 1 - i)

/-- the RFC 4648 alphabet in order of value -/
def alphabet : List Char :=
  "ABCDEFGHIJKLMNOPQRSTUVWXYZabcdefghijklmnopqrstuvwxyz0123456789+/".toList

/-- the ASCII code of the character for the 6-bit value `v` (only used for `v < 64`) -/
def charOf (v : Nat) : UInt8 := UInt8.ofNat ((alphabet[v]?.getD '?').toNat)

/-- bits of a byte string -/
def byteBits (s : Bytes) : List Bool := s.flatMap fun b => bitsOf 8 b.toNat

/-- `out` is the RFC 4648 base64 text of `s`: sextets of the zero-padded bit string, then `=`
padding to a multiple of four. -/
def IsBase64 (s out : Bytes) : Prop :=
  ∃ vs : List Nat, (∀ v ∈ vs, v < 64) ∧
    (∃ k, k < 6 ∧ vs.flatMap (bitsOf 6) = byteBits s ++ List.replicate k false) ∧
    ∃ p, p < 4 ∧ (vs.length + p) % 4 = 0 ∧ out = vs.map charOf ++ List.replicate p 61

end Verif.Base64
