import Verif.Model.Zrle

/-!
# The Tight encoder

src/enc/tight.c.  zlib and libjpeg are outside: what `deflate` does at each call on a stream is given by
a list of answers for that stream, and what `tjCompress2` makes of its arguments by a function.  The four workers
run at the same time: a schedule tells which one of them does its next tile.  Encoding a tile is one step,
as workers share nothing but the framebuffer, which they only read.  Strides are not negative.
-/

namespace Verif.Enc
open Verif.Server (PixFmt)
open Verif.Pixels Verif.Vec

inductive TState where
  | ready | damaged | encoded
  deriving Repr, DecidableEq

/-- struct tight_tile, tight.c 95-100: the buffer up to its `size` -/
structure Tile where
  state : TState
  type : UInt8
  data : Bytes
  deriving Repr, DecidableEq

/-- a value as an `int16_t` -/
def i16 (n : Nat) : Int := if n % 65536 < 32768 then (n % 65536 : Nat) else (n % 65536 : Nat) - 65536

/-- pixman_region_contains_rectangle is not PIXMAN_REGION_OUT -/
def overlaps (damage : List Box) (x1 y1 x2 y2 : Int) : Bool :=
  damage.any fun b => x1 < b.x2 ∧ (b.x1 : Int) < x2 ∧ y1 < b.y2 ∧ (b.y1 : Int) < y2

/-- tight_apply_damage, tight.c 228-255, for the tile at a place in the grid -/
def damagedTile (damage : List Box) (x y : Nat) : Bool :=
  overlaps damage (i16 (x * 64)) (i16 (y * 64)) (i16 ((x + 1) * 64)) (i16 ((y + 1) * 64))

/-- tight_apply_damage, tight.c 228-255: tile `i` of the grid is at column `i % gw` -/
def applyDamage (gw : Nat) (damage : List Box) (grid : List Tile) : List Tile :=
  grid.mapIdx fun i t => { t with state := if damagedTile damage (i % gw) (i / gw) then .damaged else .ready }

/-- tight_encode_size, tight.c 257-264 -/
def encodeSize (size : Nat) (v : Vec) : Outcome Vec := do
  let v ← push (UInt8.ofNat ((size &&& 0x7f) ||| (if 128 ≤ size then 1 <<< 7 else 0))) v
  let v ← if 128 ≤ size then
    push (UInt8.ofNat (((size >>> 7) &&& 0x7f) ||| (if 16384 ≤ size then 1 <<< 7 else 0))) v else .ok v
  if 16384 ≤ size then push (UInt8.ofNat ((size >>> 14) &&& 0xff)) v else .ok v

/-- MAX_TILE_SIZE, tight.c 55 -/
def maxTile : Nat := 2 * 64 * 64 * 4

/-- tight_deflate, tight.c 266-289, and the abort() at tight.c 321 when it fails -/
def tightDeflate (flush : Bool) : List Ans → Bytes → Bytes → Zs → Outcome (Bytes × Zs × List Ans)
  | [], _, _, _ => .abort "waiting for deflate"
  | a :: as, inp, data, z =>
    if maxTile ≤ data.length then .abort "tile buffer is full"
    else if inp.length < a.take ∨ maxTile - data.length < a.give.length then .abort "not what deflate does"
    else if a.err then .abort "Z_STREAM_ERROR"
    else
      let full := maxTile - data.length == a.give.length
      let data := data ++ a.give
      let z := z.after flush full (inp.take a.take) a.give
      if full then tightDeflate flush as (inp.drop a.take) data z
      else if (inp.drop a.take).length = 0 then .ok (data, z, as)
      else .abort "zs->avail_in == 0"

/-- the format that pixels are converted to, tight.c 302-306 -/
def tightFmt (dst : PixFmt) : PixFmt :=
  if bytesPerCpixel dst = 3 then
    { bpp := 32, depth := 24, bigEndian := 0, trueColour := 1, rmax := 0xff, gmax := 0xff, bmax := 0xff,
      rshift := 0, gshift := 8, bshift := 16 }
  else dst

/-- the rows of tight_encode_tile_basic, tight.c 312-322: row `y` and `n - 1` more; `row` has 256 bytes -/
def tightRows (dst src : PixFmt) (fb : Fb) (x w : Nat) : Nat → Nat → Bytes → Zs → List Ans →
    Outcome (Bytes × Zs × List Ans)
  | _, 0, data, z, as => .ok (data, z, as)
  | y, n + 1, data, z, as => do
    let bpc := bytesPerCpixel dst
    let xoff ← int (x * (src.bpp / 8))
    let stride ← int (fb.stride * (src.bpp / 8))
    let row ← convertRow (tightFmt dst) src bpc fb.mem (xoff + (y * stride) % 4294967296) w
    if 64 * 4 < row.length then .ub "row overflow"
    else do
      let (data, z, as) ← tightDeflate (n == 0) as row data z
      tightRows dst src fb x w (y + 1) n data z as

/-- those of turbojpeg's pixel formats, enum TJPF, that are used at tight.c 327-349 -/
inductive Tjpf where
  | rgb | bgr | rgbx | bgrx | xbgr | xrgb
  deriving Repr, DecidableEq

/-- turbojpeg's tjPixelSize -/
def Tjpf.size : Tjpf → Nat
  | .rgb | .bgr => 3
  | _ => 4

/-- what tjCompress2 is given, tight.c 379-380: the memory from `img` on, the tile's size, the distance of rows, the
format of pixels, whether it is TJSAMP_444 and not TJSAMP_420, and the quality -/
structure JpegCall where
  img : Bytes
  width : Nat
  pitch : Nat
  height : Nat
  fmt : Tjpf
  full : Bool
  quality : Nat
  deriving Repr, DecidableEq

/-- how tiles are to be encoded: whether there is libjpeg, the quality, and what tjCompress2 makes of what it is
given -/
structure TightCfg where
  jpeg : Bool
  quality : Nat
  compress : JpegCall → Option Bytes

/-- tight_get_jpeg_pixfmt, tight.c 327-349; `none` for TJPF_UNKNOWN -/
def jpegFormat (f : Fourcc) : Option Tjpf :=
  match f.big, f.code with
  | false, .four .w8 .rgba _ => some .xbgr
  | false, .four .w8 .bgra _ => some .xrgb
  | false, .four .w8 .argb _ => some .bgrx
  | false, .four .w8 .abgr _ => some .rgbx
  | false, .bgr888 => some .rgb
  | false, .rgb888 => some .bgr
  | _, _ => none

/-- tight_encode_tile_jpeg, tight.c 351-402: the result is not looked at by the caller, what counts is the tile's
data.  The handle and the image, which is not freed when it is too large, are left out. -/
def tightJpeg (cfg : TightCfg) (src : PixFmt) (fb : Fb) (x y w h : Nat) : Outcome Bytes :=
  match jpegFormat fb.f with
  | none => .ok []
  | some fmt => do
    let quality := 11 * cfg.quality + 1
    let stride ← int (fb.stride * (src.bpp / 8))
    let xoff ← int (x * (src.bpp / 8))
    let off := xoff + (y * stride) % 4294967296
    if fb.mem.length < off + (h - 1) * stride + w * fmt.size then .ub "tjCompress2 reads out of bounds"
    else match cfg.compress ⟨fb.mem.drop off, w, stride, h, fmt, quality == 9, quality⟩ with
      | none => .ok []
      | some b => if maxTile < b.length then .ok [] else .ok b

/-- tight_tile_width and tight_tile_height, tight.c 136-146 -/
def tightSide (side x : Nat) : Nat := if side < x + 64 then side - x else 64

/-- the stream of a tile, tight.c 420 -/
def streamOf (gx : Nat) : Fin 4 := ⟨gx % 4, Nat.mod_lt _ (by decide)⟩

/-- tight_encode_tile, tight.c 405-429 -/
def encodeTile (cfg : TightCfg) (dst src : PixFmt) (fb : Fb) (gx gy : Nat) (t : Tile) (z : Zs) (as : List Ans) :
    Outcome (Tile × Zs × List Ans) :=
  let x := gx * 64
  let y := gy * 64
  if cfg.jpeg = false ∨ 10 ≤ cfg.quality then
    if 4 < bytesPerCpixel dst then .abort "bytes_per_cpixel <= 4"
    else do
      let (data, z, as) ← tightRows dst src fb x (tightSide fb.width x) y (tightSide fb.height y) [] z as
      .ok ({ t with state := .encoded, type := UInt8.ofNat ((streamOf gx).val <<< 4), data := data }, z, as)
  else do
    let data ← tightJpeg cfg src fb x y (tightSide fb.width x) (tightSide fb.height y)
    .ok ({ t with state := .encoded, type := 0x90, data := data }, z, as)

/-- the encoder while workers run: the grid, and for each worker the tiles it has still to look at,
and for each stream what went through it and zlib's answers -/
structure Work where
  grid : List Tile
  todo : Fin 4 → List (Nat × Nat)
  zs : Fin 4 → Zs
  ans : Fin 4 → List Ans

def put4 {α} (f : Fin 4 → α) (i : Fin 4) (a : α) : Fin 4 → α := fun j => if j = i then a else f j

/-- the tiles of a worker, tight.c 437-438 -/
def workerTiles (gw gh : Nat) (i : Fin 4) : List (Nat × Nat) :=
  (List.range gh).flatMap fun y => (List.range ((gw - i + 3) / 4)).map fun k => (i + 4 * k, y)

/-- one tile of do_tight_zs_work, tight.c 431-441 -/
def workStep (cfg : TightCfg) (dst src : PixFmt) (fb : Fb) (i : Fin 4) (s : Work) : Outcome Work :=
  match s.todo i with
  | [] => .ok s
  | (x, y) :: rest =>
    let k := x + y * ((fb.width + 63) / 64)
    match s.grid[k]? with
    | none => .ub "outside of the grid"
    | some t =>
      if t.state = .damaged then do
        let j := streamOf x
        let (t, z, as) ← encodeTile cfg dst src fb x y t (s.zs j) (s.ans j)
        .ok { grid := s.grid.set k t, todo := put4 s.todo i rest, zs := put4 s.zs j z, ans := put4 s.ans j as }
      else .ok { s with todo := put4 s.todo i rest }

def workRun (cfg : TightCfg) (dst src : PixFmt) (fb : Fb) : List (Fin 4) → Work → Outcome Work
  | [], s => .ok s
  | i :: is, s => do
    let s ← workStep cfg dst src fb i s
    workRun cfg dst src fb is s

/-- tight_finish_tile, tight.c 479-501; that memory could not be had is not noticed -/
def finishTile (m : Nat → Heap) (xpos ypos : Nat) (fb : Fb) (gx gy : Nat) (t : Tile) (v : Vec) : Outcome Vec := do
  let (v, _) ← Vec.step (.append (m 0) (rectHead Server.encTight (xpos + gx * 64) (ypos + gy * 64)
    (tightSide fb.width (gx * 64)) (tightSide fb.height (gy * 64)))) v
  let (v, _) ← Vec.step (.append (m 1) [t.type]) v
  let v ← encodeSize t.data.length v
  let (v, _) ← Vec.step (.append (m 2) t.data) v
  .ok v

/-- tight_finish, tight.c 503-509: the tiles of the grid from number `i` on -/
def finish (m : Nat → Nat → Heap) (xpos ypos : Nat) (fb : Fb) : Nat → List Tile → Vec → Outcome Vec
  | _, [], v => .ok v
  | i, t :: ts, v => do
    let gw := (fb.width + 63) / 64
    let v ← if t.state = .encoded then finishTile (m i) xpos ypos fb (i % gw) (i / gw) t v else .ok v
    finish m xpos ypos fb (i + 1) ts v

/-- tight_encoder_encode, tight.c 584-623, with the workers and on_tight_finished, tight.c 517-531: the
payload, the number of rectangles and the streams afterwards.  The grid is the one for these dimensions,
see tight_encoder_resize.  A schedule with which not all workers finish is not a run. -/
def tightEncode (m0 : Heap) (m : Nat → Nat → Heap) (cfg : TightCfg) (xpos ypos : Nat) (dst : PixFmt) (fb : Fb)
    (damage : List Box) (grid : List Tile) (zs : Fin 4 → Zs) (ans : Fin 4 → List Ans) (schedule : List (Fin 4)) :
    Outcome (Bytes × Nat × (Fin 4 → Zs)) :=
  let gw := (fb.width + 63) / 64
  let gh := (fb.height + 63) / 64
  match pixfmt fb.f with
  | none => .abort "rfb_pixfmt_from_fourcc"
  | some src =>
    match Vec.init m0 ((fb.width * fb.height * 4) % 4294967296) with
    | (_, false) => .abort "vec_init"
    | (v, true) =>
      let grid := applyDamage gw damage grid
      let n := grid.countP fun t => t.state = .damaged
      if n = 0 then .abort "n_rects > 0"
      else do
        let s ← workRun cfg dst src fb schedule ⟨grid, workerTiles gw gh, zs, ans⟩
        if s.todo 0 = [] ∧ s.todo 1 = [] ∧ s.todo 2 = [] ∧ s.todo 3 = [] then do
          let v ← finish m xpos ypos fb 0 s.grid v
          .ok (v.bytes, n, s.zs)
        else .abort "workers still running"

end Verif.Enc
