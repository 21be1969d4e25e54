import Verif.Basic

/-! # Model of src/base64.c -/

namespace Verif.Base64

/-- src/base64.c:24-25 `base64_enc_lut` (without its terminating NUL) -/
def encLut : List UInt8 :=
  [65,66,67,68,69,70,71,72,73,74,75,76,77,78,79,80,81,82,83,84,85,86,87,88,89,90,
   97,98,99,100,101,102,103,104,105,106,107,108,109,110,111,112,113,114,115,116,117,118,
   119,120,121,122,48,49,50,51,52,53,54,55,56,57,43,47]

/-- src/base64.c:27-45 `base64_validation_lut`.  The table's designated initialisers are written
as ranges; every entry not mentioned there is 0. -/
def valid (c : UInt8) : Bool :=
  (65 ≤ c && c ≤ 90) || (97 ≤ c && c ≤ 122) || (48 ≤ c && c ≤ 57) ||
  c == 43 || c == 47 || c == 45 || c == 95 || c == 61

/-- src/base64.c:47-65 `base64_dec_lut`, written as ranges; unmentioned entries are 0. -/
def decLut (c : UInt8) : Nat :=
  if 65 ≤ c ∧ c ≤ 90 then c.toNat - 65
  else if 97 ≤ c ∧ c ≤ 122 then c.toNat - 97 + 0x1a
  else if 48 ≤ c ∧ c ≤ 57 then c.toNat - 48 + 0x34
  else if c = 43 then 0x3e
  else if c = 47 then 0x3f
  else if c = 45 then 0x3e
  else if c = 95 then 0x3f
  else 0

/-- `base64_enc_lut[n]`; callers only use `n < 64`, see `lut_index_lt` in the lemmas.  An index
beyond the table would be out of bounds in C, here `none`. -/
def lut (n : Nat) : Option UInt8 := encLut[n]?

/-- Body of the main loop of `base64_encode`, src/base64.c:71-81. -/
def encTriple (a b c : UInt8) : Option Bytes := do
  let tmp := (a.toNat <<< 16) ||| (b.toNat <<< 8) ||| c.toNat
  let w ← lut (tmp >>> 18)
  let x ← lut ((tmp >>> 12) &&& 0x3f)
  let y ← lut ((tmp >>> 6) &&& 0x3f)
  let z ← lut (tmp &&& 0x3f)
  return [w, x, y, z]

/-- `base64_encode`, src/base64.c:67-107: the bytes stored into `dst`, including the final NUL.
The index loop `i < src_len / 3` is written as recursion on the remaining source; the two remainder
loops (89-103) are unrolled for `rem = 1, 2`.  `none` would be an out-of-bounds table access. -/
def encode : Bytes → Option Bytes
  | [] => some [0]
  | [a] => do
    let tmp := a.toNat <<< 16
    let w ← lut ((tmp >>> 18) &&& 0x3f)
    let x ← lut ((tmp >>> 12) &&& 0x3f)
    return [w, x, 61, 61, 0]
  | [a, b] => do
    let tmp := (a.toNat <<< 16) ||| (b.toNat <<< 8)
    let w ← lut ((tmp >>> 18) &&& 0x3f)
    let x ← lut ((tmp >>> 12) &&& 0x3f)
    let y ← lut ((tmp >>> 6) &&& 0x3f)
    return [w, x, y, 61, 0]
  | a :: b :: c :: rest => do
    let q ← encTriple a b c
    let r ← encode rest
    return q ++ r

/-- the C string starting at a buffer: everything before the first NUL -/
def cstr (l : Bytes) : Bytes := l.takeWhile (· ≠ 0)

/-- `base64_is_valid`, src/base64.c:109-115 -/
def isValid (s : Bytes) : Bool := s.all valid

/-- The decoding loops of `base64_decode`, src/base64.c:125-154, on the `src_len` characters
before the first '='.  The assignment to `uint8_t dst[]` truncates to 8 bits. -/
def decBody : Bytes → Bytes
  | [] => []
  | [_] => []                                   -- rem = 1: (1*3)/4 = 0 bytes
  | [a, b] =>                                   -- rem = 2: 1 byte
    let tmp := (decLut a <<< 18) ||| (decLut b <<< 12)
    [UInt8.ofNat ((tmp >>> 16) &&& 0xff)]
  | [a, b, c] =>                                -- rem = 3: 2 bytes
    let tmp := (decLut a <<< 18) ||| (decLut b <<< 12) ||| (decLut c <<< 6)
    [UInt8.ofNat ((tmp >>> 16) &&& 0xff), UInt8.ofNat ((tmp >>> 8) &&& 0xff)]
  | a :: b :: c :: d :: rest =>
    let tmp := (decLut a <<< 18) ||| (decLut b <<< 12) ||| (decLut c <<< 6) ||| decLut d
    UInt8.ofNat (tmp >>> 16) :: UInt8.ofNat ((tmp >>> 8) &&& 0xff) ::
      UInt8.ofNat (tmp &&& 0xff) :: decBody rest

/-- `base64_decode`, src/base64.c:117-155; `none` is the return value -1.
`mem` is the memory starting at `src`. -/
def decode (mem : Bytes) : Option Bytes :=
  let s := cstr mem
  if isValid s then some (decBody (s.takeWhile (· ≠ 61)))   -- strcspn(src, "=")
  else none

/-- `BASE64_ENCODED_SIZE`, include/base64.h:21 -/
def encodedSize (x : Nat) : Nat := ((x + 2) / 3) * 4 + 1
/-- `BASE64_DECODED_MAX_SIZE`, include/base64.h:22 -/
def decodedMaxSize (x : Nat) : Nat := ((x + 3) / 4) * 3

end Verif.Base64
