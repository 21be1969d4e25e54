import Verif.Model.Zrle
import Verif.Spec.Raw

/-!
# What ZRLE says

A decoder for ZRLE tiles as in RFC 6143, 7.7.6 (and 7.7.5), after decompression.
-/

namespace Verif.Enc
open Verif.Server (PixFmt)
open Verif.Pixels

/-! ## CPIXEL -/

inductive CKind where
  | full                     -- a pixel as it is
  | low                      -- the three least significant bytes
  | high                     -- the three most significant bytes
  deriving Repr, DecidableEq

/-- the kind of CPIXEL of a format; where both low and high are possible, the least significant bytes are
used -/
def cpixelKind (p : PixFmt) (l : Layout) : CKind :=
  if p.bpp = 32 ∧ p.depth ≤ 24 then
    if (l .r).shift + (l .r).bits ≤ 24 ∧ (l .g).shift + (l .g).bits ≤ 24 ∧ (l .b).shift + (l .b).bits ≤ 24 then .low
    else if 8 ≤ (l .r).shift ∧ 8 ≤ (l .g).shift ∧ 8 ≤ (l .b).shift then .high
    else .full
  else .full

/-- the size of a CPIXEL -/
def cpixelSize (p : PixFmt) (l : Layout) : Nat :=
  match cpixelKind p l with
  | .full => p.bpp / 8
  | _ => 3

/-- the pixel's value -/
def cpixelValue (p : PixFmt) (l : Layout) (b : Bytes) : Nat :=
  match cpixelKind p l with
  | .high => clientPixel p b * 256
  | _ => clientPixel p b

/-- formats for which the encoder's compact pixels are those of the RFC: such that are sent as they are,
and those with depths of 17 to 24 of which some component begins at the first bit of the three bytes -/
def CpixelOk (p : PixFmt) (l : Layout) : Prop :=
  p.bpp ≠ 32 ∨ 24 < p.depth ∨
    (16 < p.depth ∧ ((cpixelKind p l = .low ∧ ∃ c, (l c).shift = 0) ∨ (cpixelKind p l = .high ∧ ∃ c, (l c).shift = 8)))

/-- the colours of the source's pixel, in the client's compact format -/
def SameCpixel (f : Fourcc) (dst : PixFmt) (l : Layout) (src b : Bytes) : Prop :=
  b.length = cpixelSize dst l ∧
  Holds (cpixelValue dst l b) l fun c =>
    rescale ((drm f.code c).get (drmPixel f src)) (drm f.code c).bits (l c).bits

/-! ## Tiles -/

/-- so many pixels of so many bytes -/
def readPixels (size : Nat) : Nat → Bytes → Option (List Bytes × Bytes)
  | 0, b => some ([], b)
  | k + 1, b =>
    if b.length < size then none
    else (readPixels size k (b.drop size)).map fun q => (b.take size :: q.1, q.2)

/-- one more than the sum of bytes up to the first that is not 255 -/
def readRun : Bytes → Option (Nat × Bytes)
  | [] => none
  | x :: b => if x = 255 then (readRun b).map fun q => (255 + q.1, q.2) else some (x.toNat + 1, b)

/-- runs of pixels, subencoding 128; the fuel is the number of pixels -/
def readPlainRle (size : Nat) : Nat → Nat → Bytes → Option (List Bytes × Bytes)
  | _, 0, b => some ([], b)
  | 0, _ + 1, _ => none
  | f + 1, k + 1, b => do
    let (c, b) ← readPixels size 1 b
    let (r, b) ← readRun b
    if r ≤ k + 1 then do
      let (px, b) ← readPlainRle size f (k + 1 - r) b
      some (List.replicate r (c.headD []) ++ px, b)
    else none

/-- runs of indices into a palette: the top bit says that there is a length -/
def readPaletteRle (pal : List Bytes) : Nat → Nat → Bytes → Option (List Bytes × Bytes)
  | _, 0, b => some ([], b)
  | 0, _ + 1, _ => none
  | _ + 1, _ + 1, [] => none
  | f + 1, k + 1, x :: b => do
    let c ← pal[x.toNat % 128]?
    if x.toNat < 128 then do
      let (px, b) ← readPaletteRle pal f k b
      some (c :: px, b)
    else do
      let (r, b) ← readRun b
      if r ≤ k + 1 then do
        let (px, b) ← readPaletteRle pal f (k + 1 - r) b
        some (List.replicate r c ++ px, b)
      else none

/-- a row of packed indices -/
def readPackedRow (pal : List Bytes) (bits w : Nat) (b : Bytes) : Option (List Bytes) :=
  (List.range w).mapM fun i =>
    pal[((b.getD (i * bits / 8) 0).toNat / 2 ^ (8 - bits - i * bits % 8)) % 2 ^ bits]?

/-- packed indices, rows padded to bytes -/
def readPacked (pal : List Bytes) (bits w : Nat) : Nat → Bytes → Option (List Bytes × Bytes)
  | 0, b => some ([], b)
  | h + 1, b =>
    let n := (w * bits + 7) / 8
    if b.length < n then none
    else do
      let row ← readPackedRow pal bits w b
      let (px, b) ← readPacked pal bits w h (b.drop n)
      some (row ++ px, b)

/-- a tile: its pixels and what comes after it -/
def decodeTile (size w h : Nat) : Bytes → Option (List Bytes × Bytes)
  | [] => none
  | s :: b =>
    let s := s.toNat
    if s = 0 then readPixels size (w * h) b
    else if s = 1 then (readPixels size 1 b).map fun q => (List.replicate (w * h) (q.1.headD []), q.2)
    else if s ≤ 16 then do
      let (pal, b) ← readPixels size s b
      readPacked pal (if s = 2 then 1 else if s ≤ 4 then 2 else 4) w h b
    else if s = 128 then readPlainRle size (w * h) (w * h) b
    else if 130 ≤ s then do
      let (pal, b) ← readPixels size (s - 128) b
      readPaletteRle pal (w * h) (w * h) b
    else none

/-- the tiles of a rectangle: rows of tiles from top to bottom, from left to right, all 64 by 64 but for
the last ones -/
def rfcTiles (w h : Nat) : List Box :=
  (List.range ((h + 63) / 64)).flatMap fun j => (List.range ((w + 63) / 64)).map fun i =>
    ⟨64 * i, 64 * j, min w (64 * i + 64), min h (64 * j + 64)⟩

/-- the tiles of a rectangle one by one -/
def decodeTiles (size : Nat) : List Box → Bytes → Option (List (List Bytes) × Bytes)
  | [], b => some ([], b)
  | t :: ts, b => do
    let (px, b) ← decodeTile size t.w t.h b
    let (rest, b) ← decodeTiles size ts b
    some (px :: rest, b)

/-- the pixels of a tile of a box -/
def tilePixels (fb : Fb) (b t : Box) : List Bytes := t.cells.map fun p => fb.pixel (b.x1 + p.1) (b.y1 + p.2)

/-- the tile has so many colours -/
def Colours (px : List Bytes) (k : Nat) : Prop :=
  ∃ cs : List Bytes, cs.Nodup ∧ cs.length = k ∧ ∀ c, c ∈ cs ↔ c ∈ px

/-- a rectangle in ZRLE: position, size, encoding 16, the length of the compressed data and the data -/
def zrleRect (xpos ypos : Nat) (b : Box) (c : Bytes) : Bytes :=
  be16 (xpos + b.x1) ++ be16 (ypos + b.y1) ++ be16 b.w ++ be16 b.h ++ [0, 0, 0, 16] ++ be32 c.length ++ c

/-- a stream after `u` was put into it and `c` came out, until all of `u` could be decompressed -/
def Zs.put (z : Zs) (u c : Bytes) : Zs :=
  { inp := z.inp ++ u, out := z.out ++ c, flushed := z.flushed ++ [(z.inp ++ u, z.out ++ c)] }

/-- the bytes are a sequence of ZRLE rectangles: what was given to the compressor for each box are its
tiles, and everything that came out until all of it can be decompressed is in the rectangle -/
def ZrleFrame (size : Nat) (one : Bytes → Bytes) (fb : Fb) (xpos ypos : Nat) : List Box → Zs → Bytes → Zs → Prop
  | [], z, p, z' => p = [] ∧ z' = z
  | b :: bs, z, p, z' => ∃ u c rest, p = zrleRect xpos ypos b c ++ rest ∧ c.length < 4294967296 ∧
      decodeTiles size (rfcTiles b.w b.h) u = some ((rfcTiles b.w b.h).map fun t => (tilePixels fb b t).map one, []) ∧
      ZrleFrame size one fb xpos ypos bs (z.put u c) rest z'

end Verif.Enc
