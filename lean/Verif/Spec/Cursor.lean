import Verif.Model.Cursor
import Verif.Spec.Raw

/-!
# What cursor messages should say

RFC 6143, 7.8.1: hotspot, size, the pixels, and a bitmask with rows padded to bytes in which the leftmost
pixel is the most significant bit.
-/

namespace Verif.Enc
open Verif.Server (PixFmt)
open Verif.Pixels

/-- bytes in a row of a bitmask -/
def rowLen (w : Nat) : Nat := w / 8 + if w % 8 = 0 then 0 else 1

/-- bit `j` of a bitmask, counted from the most significant bit of the first byte -/
def maskBit (d : Bytes) (j : Nat) : Bool := (d.getD (j / 8) 0).toNat.testBit (7 - j % 8)

/-- the pixel is more than half opaque -/
def Fb.opaque (fb : Fb) (x y : Nat) : Bool :=
  let a := drmAlpha fb.f.code
  decide (2 ^ a.bits - 1 < 2 * a.get (drmPixel fb.f (fb.pixel x y)))

/-- a format with alpha -/
def hasAlpha (f : Fourcc) : Bool :=
  match f.code with
  | .four _ _ a => a
  | _ => false

end Verif.Enc
