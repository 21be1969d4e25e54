import Verif.Model.Raw

/-!
# The ZRLE encoder

src/enc/zrle.c.  A tile is the list of its pixels, each of them the bytes in memory.  The vector for a
tile and the arrays on the stack have their sizes.  zlib is outside: what `deflate` does at each call is
given by a list of answers, and the bytes it has taken and given so far are recorded.
-/

namespace Verif.Enc
open Verif.Server (PixFmt)
open Verif.Pixels Verif.Vec

/-- find_colour_in_palette, zrle.c 64-72 -/
def findColour : List Bytes → Bytes → Option Nat
  | [], _ => none
  | p :: ps, c => if p = c then some 0 else (findColour ps c).map (· + 1)

/-- the loop of zrle_get_tile_palette, zrle.c 82-91; `none` for -1 -/
def paletteLoop : List Bytes → List Bytes → Option (List Bytes)
  | pal, [] => some pal
  | pal, c :: cs =>
    match findColour pal c with
    | some _ => paletteLoop pal cs
    | none => if 16 ≤ pal.length then none else paletteLoop (pal ++ [c]) cs

/-- zrle_get_tile_palette, zrle.c 74-94; the first pixel is read also if there is none -/
def tilePalette (px : List Bytes) : Outcome (Option (List Bytes)) :=
  match px with
  | [] => .ub "empty tile"
  | c :: _ => .ok (paletteLoop [c] px)

/-- vec_fast_append_8 -/
def push (x : UInt8) (v : Vec) : Outcome Vec := do
  let (v, _) ← Vec.step (.fast8 x) v
  .ok v

/-- pixels written behind the first byte, and counted: zrle.c 105-108 and 207-210 -/
def putPixels (dst src : PixFmt) (bpc : Nat) (px : List Bytes) (v : Vec) : Outcome Vec := do
  let b ← toCpixel dst src bpc px
  let d ← writeAt v.data 1 b
  .ok { v with data := d, len := v.len + bpc * px.length }

/-- the rest of encode_run_length, zrle.c 120-125; the first number limits the rounds, and the run's length
is more than enough -/
def runTail : Nat → Nat → Vec → Outcome Vec
  | 0, _, _ => .abort "too many rounds"
  | k + 1, r, v =>
    if 255 < r then do
      let v ← push 255 v
      runTail k (r - 255) v
    else push (UInt8.ofNat (r - 1)) v

/-- encode_run_length, zrle.c 111-126 -/
def encodeRun (index : UInt8) (r : Nat) (v : Vec) : Outcome Vec :=
  if r = 1 then push index v
  else do
    let v ← push (index ||| 128) v
    runTail r r v

/-- the index as the `uint8_t` that is passed on; -1 if a colour is not found -/
def index (pal : List Bytes) (c : Bytes) : UInt8 :=
  match findColour pal c with
  | some i => UInt8.ofNat i
  | none => 255

/-- the loop of zrle_encode_packed_tile, zrle.c 145-163: the last pixel, how often it was there, and the
pixels to come -/
def runs (pal : List Bytes) : Bytes → Nat → List Bytes → Vec → Outcome Vec
  | c, r, [], v => encodeRun (index pal c) r v
  | c, r, p :: ps, v =>
    if p = c then runs pal p (r + 1) ps v
    else do
      let v ← encodeRun (index pal c) r v
      runs pal p 1 ps v

/-- zrle_encode_packed_tile, zrle.c 128-164; `cpalette` has 48 bytes -/
def packedTile (m : Heap) (dst src : PixFmt) (bpc : Nat) (px pal : List Bytes) (v : Vec) : Outcome Vec := do
  let cpal ← toCpixel dst src bpc pal
  if 48 < cpal.length then .ub "cpalette overflow"
  else do
    let v ← push (UInt8.ofNat (128 ||| pal.length)) v
    let (v, _) ← Vec.step (.append m cpal) v
    match px with
    | [] => .ub "empty tile"
    | c :: cs => runs pal c 1 cs v

/-- the end of zrle_encode_tile, zrle.c 205-210 -/
def rawTile (dst src : PixFmt) (bpc : Nat) (px : List Bytes) (v : Vec) : Outcome Vec := do
  let v ← push 0 v
  putPixels dst src bpc px v

/-- zrle_encode_tile, zrle.c 175-211 -/
def zrleTile (m : Heap) (dst src : PixFmt) (px : List Bytes) (v : Vec) : Outcome Vec := do
  let bpc := bytesPerCpixel dst
  let v := { v with len := 0 }
  match ← tilePalette px with
  | some [c] => do
    -- zrle_encode_unichrome_tile, zrle.c 96-109
    let v ← push 1 v
    putPixels dst src bpc [c] v
  | some pal => do
    let v ← packedTile m dst src bpc px pal v
    if v.len ≤ 1 + bpc * px.length then .ok v
    else rawTile dst src bpc px { v with len := 0 }
  | none => rawTile dst src bpc px v

/-- the size of the vector for a tile, zrle.c 255 -/
def tileCap (dst : PixFmt) : Nat := 1 + bytesPerCpixel dst * 64 * 64 + 16 * 3

/-! ## Tiles of a rectangle -/

/-- zrle_copy_tile, zrle.c 166-173, `n` rows from the offset on; the tile's buffer has 16384 bytes -/
def copyRows (size stride w : Nat) (mem : Bytes) : Nat → Nat → Outcome (List Bytes)
  | _, 0 => .ok []
  | off, n + 1 => do
    let row ← load size mem off w
    let rest ← copyRows size stride w mem (off + stride * size) n
    .ok (row ++ rest)

def copyTile (size stride w h : Nat) (mem : Bytes) (off : Nat) : Outcome (List Bytes) :=
  if 64 * 64 * 4 < w * h * size then .ub "tile overflow"
  else copyRows size stride w mem off h

/-- the box of tile `i`, zrle.c 270-279, relative to the rectangle -/
def tileBox (w h i : Nat) : Box :=
  let tx := i % ((w + 63) / 64) * 64
  let ty := i / ((w + 63) / 64) * 64
  let tw := if 64 ≤ w - tx then 64 else w - tx
  let th := if 64 ≤ h - ty then 64 else h - ty
  ⟨tx, ty, tx + tw, ty + th⟩

/-- a z_stream: what was taken and what was given so far, and both at each time when a flush was complete: all of
the former can be read from the latter when deflate was called with Z_SYNC_FLUSH until there was room left, see
zlib.h -/
structure Zs where
  inp : Bytes
  out : Bytes
  flushed : List (Bytes × Bytes)
  deriving Repr, DecidableEq

/-- what `deflate` does in one call, and what the allocator would do before -/
structure Ans where
  heap : Heap
  take : Nat
  give : Bytes
  err : Bool

/-- the compressor after a call of `deflate`: a flush is complete once there is space left for more output
(zlib.h, "deflate"); nothing can be said about what has not been flushed -/
def Zs.after (z : Zs) (flush full : Bool) (took gave : Bytes) : Zs :=
  { inp := z.inp ++ took, out := z.out ++ gave,
    flushed := if flush && !full then z.flushed ++ [(z.inp ++ took, z.out ++ gave)] else z.flushed }

/-- zrle_deflate, zrle.c 213-236: the rest of the answers, and `false` for -1.  Answers that `deflate`
cannot give, or too few of them, stop the run. -/
def zrleDeflate (flush : Bool) : List Ans → Bytes → Vec → Zs → Outcome (Vec × Zs × List Ans × Bool)
  | [], _, _, _ => .abort "waiting for deflate"
  | a :: as, inp, v, z =>
    let (v, r) := if v.len = v.cap then reserve a.heap ((v.cap * 2) % sizeT) v else (v, true)
    if r = false then .ok (v, z, as, false)
    else if inp.length < a.take ∨ v.cap - v.len < a.give.length then .abort "not what deflate does"
    else if a.err then .ok (v, z, as, false)
    else do
      let d ← writeAt v.data v.len a.give
      let full := v.cap - v.len == a.give.length
      let v := { v with data := d, len := v.len + a.give.length }
      let z := z.after flush full (inp.take a.take) a.give
      if full then zrleDeflate flush as (inp.drop a.take) v z
      else if (inp.drop a.take).length = 0 then .ok (v, z, as, true)
      else .abort "zs->avail_in == 0"

/-- the loop of zrle_encode_box, zrle.c 269-295: tile `i` and `n` more after it, with
a flush after the last one -/
def zrleTiles (m : Nat → Heap) (dst src : PixFmt) (fb : Fb) (b : Box) : Nat → Nat → Vec → Vec → Zs → List Ans →
    Outcome (Vec × Zs × List Ans × Bool)
  | 0, _, _, out, z, as => .ok (out, z, as, true)
  | n + 1, i, tile, out, z, as => do
    let t := tileBox b.w b.h i
    let size := src.bpp / 8
    let off ← int ((b.x1 + t.x1) * size + (b.y1 + t.y1) * fb.stride * size)
    let px ← copyTile size fb.stride t.w t.h fb.mem off
    let tile ← zrleTile (m i) dst src px tile
    let (out, z, as, r) ← zrleDeflate (n == 0) as tile.bytes out z
    if r = false then .ok (out, z, as, false)
    else zrleTiles m dst src fb b n (i + 1) tile out z as

/-- zrle_encode_box, zrle.c 238-305: `false` for a negative result; the heap's answers are for the tile's
vector (0), the header (1), the length (2) and the tiles (from 3 on).  That the length was not appended
is not noticed.  Offsets are added up before they are made an `int`. -/
def zrleBox (m : Nat → Heap) (xpos ypos : Nat) (dst src : PixFmt) (fb : Fb) (b : Box) (out : Vec) (z : Zs)
    (as : List Ans) : Outcome (Vec × Zs × List Ans × Bool) :=
  match Vec.init (m 0) (tileCap dst) with
  | (_, false) => .ok (out, z, as, false)
  | (tile, true) => do
    let (out, r) ← Vec.step (.append (m 1) (rectHead Server.encZrle (xpos + b.x1) (ypos + b.y1) b.w b.h)) out
    if r = false then .ok (out, z, as, false)
    else do
      let pos := out.len
      let (out, _) ← Vec.step (.appendZero (m 2) 4) out
      let (out, z, as, r) ← zrleTiles (fun i => m (i + 3)) dst src fb b (((b.w + 63) / 64) * ((b.h + 63) / 64)) 0
        tile out z as
      if r = false then .ok (out, z, as, false)
      else do
        let d ← writeAt out.data pos (be32 (out.len - pos - 4))
        .ok ({ out with data := d }, z, as, true)

/-- the loop of zrle_encode_frame, zrle.c 327-338 -/
def zrleBoxes (m : Nat → Nat → Heap) (xpos ypos : Nat) (dst src : PixFmt) (fb : Fb) : Nat → List Box → Vec → Zs →
    List Ans → Outcome (Vec × Zs × List Ans × Bool)
  | _, [], v, z, as => .ok (v, z, as, true)
  | i, b :: bs, v, z, as => do
    let (v, z, as, r) ← zrleBox (m i) xpos ypos dst src fb b v z as
    if r = false then .ok (v, z, as, false)
    else zrleBoxes m xpos ypos dst src fb (i + 1) bs v z as

/-- zrle_encoder_do_work, zrle.c 344-380: the payload, the number of rectangles, and the state of the
stream -/
def zrleWork (m0 : Heap) (m : Nat → Nat → Heap) (xpos ypos : Nat) (dst : PixFmt) (fb : Fb) (bs : List Box) (z : Zs)
    (as : List Ans) : Outcome (Bytes × Nat × Zs) :=
  match Vec.init m0 (fb.stride * fb.height * pixelSize fb.f) with
  | (_, false) => .abort "vec_init"
  | (v, true) =>
    match pixfmt fb.f with
    | none => .abort "rfb_pixfmt_from_fourcc"
    | some src => do
      let (v, z, _, r) ← zrleBoxes m xpos ypos dst src fb 0 (pick bs) v z as
      if r = false then .abort "zrle_encode_frame"
      else .ok (v.bytes, (pick bs).length, z)

end Verif.Enc
