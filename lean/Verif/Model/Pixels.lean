import Verif.Model.Server

/-!
# Pixel formats and conversion

src/pixels.c and calc_bytes_per_cpixel of src/enc/util.c, on a little endian host.  `uint32_t`
arithmetic is modulo 2^32 and a shift by 32 or more is undefined.  A pixel in memory is the list of
its bytes.
-/

namespace Verif.Pixels
open Verif.Server (PixFmt)

/-- where the components of a pixel are, from the most significant bits on -/
inductive Order where
  | rgba | bgra | argb | abgr
  deriving Repr, DecidableEq

/-- the widths of the three colours and of the fourth component -/
inductive Width where
  | w10 | w8 | w4                     -- 10:10:10:2, 8:8:8:8, 4:4:4:4
  deriving Repr, DecidableEq

/-- the DRM formats of the tables in pixels.c; `alpha` tells the A from the X formats -/
inductive Code where
  | four (w : Width) (o : Order) (alpha : Bool)
  | rgb888
  | bgr888
  | other
  deriving Repr, DecidableEq

/-- a fourcc: the format and DRM_FORMAT_BIG_ENDIAN -/
structure Fourcc where
  code : Code
  big : Bool
  deriving Repr, DecidableEq

/-- the shifts in rfb_pixfmt_from_fourcc, pixels.c 311-412 -/
def shifts : Width → Order → Nat × Nat × Nat
  | .w10, .rgba => (22, 12, 2)
  | .w10, .bgra => (2, 12, 22)
  | .w10, .argb => (20, 10, 0)
  | .w10, .abgr => (0, 10, 20)
  | .w8, .rgba => (24, 16, 8)
  | .w8, .bgra => (8, 16, 24)
  | .w8, .argb => (16, 8, 0)
  | .w8, .abgr => (0, 8, 16)
  | .w4, .rgba => (12, 8, 4)
  | .w4, .bgra => (4, 8, 12)
  | .w4, .argb => (8, 4, 0)
  | .w4, .abgr => (0, 4, 8)

/-- rfb_pixfmt_from_fourcc, pixels.c 309-423 -/
def pixfmt (f : Fourcc) : Option PixFmt :=
  let mk (bpp depth max : Nat) (s : Nat × Nat × Nat) : PixFmt :=
    { bpp := bpp, depth := depth, bigEndian := if f.big then 1 else 0, trueColour := 1,
      rmax := max, gmax := max, bmax := max, rshift := s.1, gshift := s.2.1, bshift := s.2.2 }
  match f.code with
  | .four .w10 o _ => some (mk 32 30 0x3ff (shifts .w10 o))
  | .four .w8 o _ => some (mk 32 24 0xff (shifts .w8 o))
  | .four .w4 o _ => some (mk 16 12 0x7f (shifts .w4 o))
  | .bgr888 => some (mk 24 24 0xff (0, 8, 16))
  | .rgb888 => some (mk 24 24 0xff (16, 8, 0))
  | .other => none

/-- pixel_size_from_fourcc, pixels.c 425-462 -/
def pixelSize (f : Fourcc) : Nat :=
  match f.code with
  | .four .w10 _ _ => 4
  | .four .w8 _ _ => 4
  | .four .w4 _ _ => 2
  | .bgr888 => 3
  | .rgb888 => 3
  | .other => 0

/-- `__builtin_popcount` of a `uint32_t` -/
def popcount (n : Nat) : Nat := (List.range 32).countP fun i => n.testBit i

def shl (x n : Nat) : Outcome Nat :=
  if n < 32 then .ok ((x <<< n) % 4294967296) else .ub "shift too far"

def shr (x n : Nat) : Outcome Nat :=
  if n < 32 then .ok (x >>> n) else .ub "shift too far"

/-- one line of CONVERT_PIXELS, pixels.c 76-86 -/
def chan (px sshift smax dmax dshift : Nat) : Outcome Nat := do
  let v ← shr px sshift
  let v ← shl (v &&& smax) (popcount dmax)
  let v ← shr v (popcount smax)
  shl v dshift

/-- CONVERT_PIXELS, pixels.c 76-86 -/
def convert (dst src : PixFmt) (px : Nat) : Outcome Nat := do
  let r ← chan px src.rshift src.rmax dst.rmax dst.rshift
  let g ← chan px src.gshift src.gmax dst.gmax dst.gshift
  let b ← chan px src.bshift src.bmax dst.bmax dst.bshift
  .ok (r ||| g ||| b)

/-- little endian bytes of a value, and its value -/
def le : Nat → Nat → Bytes
  | 0, _ => []
  | n + 1, v => UInt8.ofNat v :: le n (v >>> 8)

def leNat : Bytes → Nat
  | [] => 0
  | b :: l => b.toNat + 256 * leNat l

/-- the bytes of a converted pixel, pixels.c 88-158 -/
def put (dst : PixFmt) (n cpx : Nat) : Bytes :=
  if dst.bigEndian ≠ 0 then (le n cpx).reverse else le n cpx

/-- the shifts of a three byte pixel are made as small as possible, pixels.c 113-125 -/
def compact (dst : PixFmt) (bpc : Nat) : PixFmt :=
  if bpc = 3 ∧ dst.bpp = 32 ∧ dst.depth ≤ 24 then
    let m := min dst.rshift (min dst.gshift dst.bshift)
    { dst with rshift := dst.rshift - m, gshift := dst.gshift - m, bshift := dst.bshift - m }
  else dst

def convertAll (dst src : PixFmt) (bpc : Nat) : List Bytes → Outcome Bytes
  | [] => .ok []
  | px :: rest => do
    let c ← convert dst src (leNat px)
    let bs ← convertAll dst src bpc rest
    .ok (put dst bpc c ++ bs)

/-- pixel_to_cpixel and pixel32_to_cpixel, pixels.c 40-306, without bounds: the pixels are given,
and the bytes written are returned -/
def toCpixel (dst src : PixFmt) (bpc : Nat) (px : List Bytes) : Outcome Bytes :=
  if src.trueColour = 0 then .abort "src true_colour_flag"
  else if 32 < src.depth then .abort "src depth"
  else if dst.trueColour = 0 then .abort "dst true_colour_flag"
  else if 32 < dst.bpp then .abort "dst bits_per_pixel"
  else if 32 < dst.depth then .abort "dst depth"
  else if bpc = 0 ∨ 4 < bpc then .abort "bytes_per_cpixel"
  else convertAll (compact dst bpc) src bpc px

/-- the pixels in memory from an offset on -/
def load (size : Nat) (mem : Bytes) (off : Nat) : Nat → Outcome (List Bytes)
  | 0 => .ok []
  | n + 1 => do
    let px ← readAt mem off size
    let rest ← load size mem (off + size) n
    .ok (px :: rest)

/-- calc_bytes_per_cpixel, enc/util.c 43-47 -/
def bytesPerCpixel (f : PixFmt) : Nat :=
  if f.bpp = 32 then (f.depth + 7) / 8 else (f.bpp + 7) / 8

end Verif.Pixels
