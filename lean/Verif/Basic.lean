/-!
# Bytes and big-endian integers

Shared vocabulary of the model.  A byte is a `UInt8`, a byte string a `List UInt8`.
The big-endian readers model `ntohs`/`ntohl`/`nvnc__ntohll` applied to packed protocol
structures (include/rfb-proto.h) on a little- or big-endian host alike.
-/

namespace Verif

abbrev Bytes := List UInt8

/-- Result of running C code that may hit undefined behaviour, a failed assertion or `abort`.
`ub` carries a short reason used only for readability. -/
inductive Outcome (α : Type) where
  | ok (a : α)
  | ub (why : String)      -- undefined behaviour in C (out-of-bounds, use after free, bad shift)
  | abort (why : String)   -- assert()/abort()/PANIC log
  deriving Repr, DecidableEq

/-- big-endian 16 bit value as two bytes (`htons`) -/
def be16 (n : Nat) : Bytes := [UInt8.ofNat (n / 256), UInt8.ofNat n]

/-- big-endian 32 bit value as four bytes (`htonl`) -/
def be32 (n : Nat) : Bytes :=
  [UInt8.ofNat (n / 16777216), UInt8.ofNat (n / 65536), UInt8.ofNat (n / 256), UInt8.ofNat n]

/-- `ntohs` of two bytes -/
def rd16 (a b : UInt8) : Nat := a.toNat * 256 + b.toNat

/-- `ntohl` of four bytes -/
def rd32 (a b c d : UInt8) : Nat :=
  a.toNat * 16777216 + b.toNat * 65536 + c.toNat * 256 + d.toNat

theorem rd16_lt (a b : UInt8) : rd16 a b < 65536 := by
  have := a.toNat_lt; have := b.toNat_lt; unfold rd16; omega

theorem rd32_lt (a b c d : UInt8) : rd32 a b c d < 4294967296 := by
  have := a.toNat_lt; have := b.toNat_lt; have := c.toNat_lt; have := d.toNat_lt
  unfold rd32; omega

theorem toNat_ofNat8 (n : Nat) : (UInt8.ofNat n).toNat = n % 256 := by simp

theorem rd16_be16 (n : Nat) (h : n < 65536) :
    rd16 (UInt8.ofNat (n / 256)) (UInt8.ofNat n) = n := by
  unfold rd16; simp only [toNat_ofNat8]; omega

theorem rd32_be32 (n : Nat) (h : n < 4294967296) :
    rd32 (UInt8.ofNat (n / 16777216)) (UInt8.ofNat (n / 65536)) (UInt8.ofNat (n / 256))
      (UInt8.ofNat n) = n := by
  unfold rd32; simp only [toNat_ofNat8]; omega

@[simp] theorem be16_length (n : Nat) : (be16 n).length = 2 := rfl
@[simp] theorem be32_length (n : Nat) : (be32 n).length = 4 := rfl

instance : Monad Outcome where
  pure := .ok
  bind x f := match x with
    | .ok a => f a
    | .ub w => .ub w
    | .abort w => .abort w

@[simp] theorem Outcome.pure_eq {α} (a : α) : (pure a : Outcome α) = .ok a := rfl
@[simp] theorem Outcome.bind_ok {α β} (a : α) (f : α → Outcome β) : (Outcome.ok a >>= f) = f a := rfl
@[simp] theorem Outcome.bind_ub {α β} (w : String) (f : α → Outcome β) : (Outcome.ub w >>= f) = .ub w := rfl
@[simp] theorem Outcome.bind_abort {α β} (w : String) (f : α → Outcome β) :
    (Outcome.abort w >>= f) = .abort w := rfl

theorem Outcome.bind_eq_ok {α β} {x : Outcome α} {f : α → Outcome β} {b : β} :
    (x >>= f) = .ok b ↔ ∃ a, x = .ok a ∧ f a = .ok b := by
  cases x <;> simp

/-- big-endian value of a byte string -/
def beNat (l : Bytes) : Nat := l.foldl (fun acc b => acc * 256 + b.toNat) 0

/-- `n` bytes at offset `i` of a buffer; `none` if they are not all inside -/
def slice (p : Bytes) (i n : Nat) : Option Bytes :=
  if i + n ≤ p.length then some ((p.drop i).take n) else none

/-- as an access in C: undefined behaviour when out of bounds -/
def readAt (p : Bytes) (i n : Nat) : Outcome Bytes :=
  match slice p i n with
  | some b => .ok b
  | none => .ub "read out of bounds"

/-- `memcpy(&dst[i], src, src.length)`; undefined behaviour when out of bounds -/
def writeAt (dst : Bytes) (i : Nat) (src : Bytes) : Outcome Bytes :=
  if i + src.length ≤ dst.length then .ok (dst.take i ++ src ++ dst.drop (i + src.length))
  else .ub "write out of bounds"

theorem readAt_ok {p : Bytes} {i n : Nat} (h : i + n ≤ p.length) :
    readAt p i n = .ok ((p.drop i).take n) := by simp [readAt, slice, h]

theorem writeAt_ok {dst src : Bytes} {i : Nat} (h : i + src.length ≤ dst.length) :
    writeAt dst i src = .ok (dst.take i ++ src ++ dst.drop (i + src.length)) := by simp [writeAt, h]

/-- big-endian 64 bit value as eight bytes -/
def be64 (n : Nat) : Bytes := be32 (n / 4294967296) ++ be32 n

@[simp] theorem be64_length (n : Nat) : (be64 n).length = 8 := rfl

end Verif
