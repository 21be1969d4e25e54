import Verif.Model.Tight

/-!
# Displays: damage refinement, transforms, resampling

src/damage-refinery.c, src/transform-util.c, src/resampler.c and src/display.c.  pixman and XXH3 are
outside: `norm` is how pixman keeps a region as a list of rectangles, `xxh` is the hash.  Compositing with
PIXMAN_OP_SRC between images of one format copies pixels; which one is copied is modelled.  Framebuffers are
mapped already.  Strides are not negative.
-/

namespace Verif.Display
open Verif.Enc (Fb int i16)
open Verif.Pixels (pixelSize)

/-- struct pixman_box16 -/
structure Rect where
  x1 : Int
  y1 : Int
  x2 : Int
  y2 : Int
  deriving Repr, DecidableEq

/-- rectangles of a region, in some order -/
abbrev Region := List Rect

/-- pixman_region_union_rect with a position that is an `int16_t`: what does not fit is ignored -/
def unionRect (r : Region) (x y w h : Nat) : Region :=
  let b : Rect := ⟨i16 x, i16 y, i16 (x + w), i16 (y + h)⟩
  if b.x1 < b.x2 ∧ b.y1 < b.y2 then r ++ [b] else r

/-! ## The refinery -/

/-- struct damage_refinery, damage-refinery.h 25-30 -/
structure Refinery where
  width : Nat
  height : Nat
  hashes : List Nat
  deriving Repr, DecidableEq

/-- damage_refinery_init, damage-refinery.c 37-57; allocation does not fail -/
def initRefinery (w h : Nat) : Refinery := ⟨w, h, List.replicate ((w + 31) / 32 * ((h + 31) / 32)) 0⟩

/-- damage_refinery_resize, damage-refinery.c 59-67 -/
def resizeRefinery (w h : Nat) (rf : Refinery) : Refinery :=
  if w = rf.width ∧ h = rf.height then rf else initRefinery w h

/-- what is hashed, damage-refinery.c 90-93: row `y` and `n - 1` more -/
def tileRows (mem : Bytes) (stride xoff len : Nat) : Nat → Nat → Outcome Bytes
  | _, 0 => .ok []
  | y, n + 1 => do
    let o ← int (y * stride)
    let row ← readAt mem (xoff + o) len
    let rest ← tileRows mem stride xoff len (y + 1) n
    .ok (row ++ rest)

/-- damage_hash_tile, damage-refinery.c 75-96: the hash is cut to 32 bits -/
def hashTile (xxh : Bytes → Nat) (rf : Refinery) (fb : Fb) (tx ty : Nat) : Outcome Nat := do
  let bpp := pixelSize fb.f
  let stride ← int (fb.stride * bpp)
  let xstop := min ((tx + 1) * 32) rf.width
  let ystop := min ((ty + 1) * 32) rf.height
  let xoff ← int (tx * 32 * bpp)
  let b ← tileRows fb.mem stride xoff (bpp * (xstop - tx * 32)) (ty * 32) (ystop - ty * 32)
  .ok (xxh b % 4294967296)

/-- damage_refine_tile, damage-refinery.c 105-117.  A tile that is not there is undefined behaviour: its
hash is outside of the array. -/
def refineTile (xxh : Bytes → Nat) (fb : Fb) (t : Int × Int) (s : Refinery × Region) : Outcome (Refinery × Region) :=
  let (rf, refined) := s
  if t.1 < 0 ∨ t.2 < 0 then .ub "outside of the grid"
  else
    let tx := t.1.toNat
    let ty := t.2.toNat
    let k := tx + ty * ((rf.width + 31) / 32)
    match rf.hashes[k]? with
    | none => .ub "outside of the grid"
    | some old => do
      let hash ← hashTile xxh rf fb tx ty
      .ok ({ rf with hashes := rf.hashes.set k hash },
        if hash ≠ old then unionRect refined (tx * 32) (ty * 32) 32 32 else refined)

/-- one rectangle of tile_region_from_region, damage-refinery.c 126-131: C's division -/
def tileRect (r : Rect) : Rect := ⟨r.x1.tdiv 32, r.y1.tdiv 32, (r.x2 + 31).tdiv 32, (r.y2 + 31).tdiv 32⟩

/-- the positions in a rectangle in the order of damage-refinery.c 154-155 -/
def Rect.cells (r : Rect) : List (Int × Int) :=
  (List.range (r.y2 - r.y1).toNat).flatMap fun j : Nat => (List.range (r.x2 - r.x1).toNat).map fun i : Nat =>
    (r.x1 + i, r.y1 + j)

def refineTiles (xxh : Bytes → Nat) (fb : Fb) : List (Int × Int) → Refinery × Region → Outcome (Refinery × Region)
  | [], s => .ok s
  | t :: ts, s => do
    let s ← refineTile xxh fb t s
    refineTiles xxh fb ts s

/-- pixman_region_intersect_rect with a rectangle at the origin -/
def clip (w h : Nat) (r : Region) : Region :=
  r.filterMap fun b =>
    let c : Rect := ⟨max b.x1 0, max b.y1 0, min b.x2 (i16 w), min b.y2 (i16 h)⟩
    if c.x1 < c.x2 ∧ c.y1 < c.y2 then some c else none

/-- damage_refine, damage-refinery.c 135-161, with an empty region to begin with -/
def refine (norm : Region → Region) (xxh : Bytes → Nat) (hint : Region) (fb : Fb) (rf : Refinery) :
    Outcome (Refinery × Region) :=
  if rf.width = fb.width ∧ rf.height = fb.height then do
    let (rf, refined) ← refineTiles xxh fb ((norm (hint.map tileRect)).flatMap Rect.cells) (rf, [])
    .ok (rf, clip rf.width rf.height refined)
  else .abort "width == buffer->width && height == buffer->height"

/-! ## Transforms -/

/-- enum nvnc_transform, neatvnc.h 85-94 -/
inductive Xf where
  | normal | r90 | r180 | r270 | flipped | f90 | f180 | f270
  deriving Repr, DecidableEq

/-- the upper two rows of a pixman_transform_t; the last one is that of the identity -/
structure Matrix where
  a : Int
  b : Int
  c : Int
  d : Int
  e : Int
  f : Int
  deriving Repr, DecidableEq

/-- pixman_fixed_1 -/
def F1 : Int := 65536

/-- nvnc_transform_to_pixman_transform, transform-util.c 48-137 -/
def matrix (t : Xf) (w h : Int) : Matrix :=
  match t with
  | .normal => ⟨F1, 0, 0, 0, F1, 0⟩
  | .r90 => ⟨0, F1, 0, -F1, 0, h * F1⟩
  | .r180 => ⟨-F1, 0, w * F1, 0, -F1, h * F1⟩
  | .r270 => ⟨0, -F1, w * F1, F1, 0, 0⟩
  | .flipped => ⟨-F1, 0, w * F1, 0, F1, 0⟩
  | .f90 => ⟨0, F1, 0, F1, 0, 0⟩
  | .f180 => ⟨F1, 0, 0, 0, -F1, h * F1⟩
  | .f270 => ⟨0, -F1, w * F1, -F1, 0, h * F1⟩

/-- the pixel that pixman takes for one of the destination: the middle of it is transformed
(pixman_transform_point_3d), and the nearest pixel is taken (bits_image_fetch_pixel_nearest) -/
def sample (m : Matrix) (x y : Int) : Int × Int :=
  let vx := x * F1 + F1 / 2
  let vy := y * F1 + F1 / 2
  let ux := (m.a * vx + m.b * vy + m.c * F1 + F1 / 2) / F1
  let uy := (m.d * vx + m.e * vy + m.f * F1 + F1 / 2) / F1
  ((ux - 1) / F1, (uy - 1) / F1)

/-- is_transform_90_degrees, transform-util.c 139-152 -/
def swaps : Xf → Bool
  | .r90 | .r270 | .f90 | .f270 => true
  | _ => false

/-- nvnc_transform_dimensions, transform-util.c 154-162 -/
def dims (t : Xf) (w h : Nat) : Nat × Nat := if swaps t then (h, w) else (w, h)

/-- an `int` stored as an `int16_t` -/
def cut16 (n : Int) : Int := (n + 32768) % 65536 - 32768

/-- the switch in nvnc_transform_region, transform-util.c 183-232 -/
def moveRect (t : Xf) (w h : Int) (r : Rect) : Rect :=
  let c := fun x1 y1 x2 y2 => (⟨cut16 x1, cut16 y1, cut16 x2, cut16 y2⟩ : Rect)
  match t with
  | .normal => c r.x1 r.y1 r.x2 r.y2
  | .r90 => c (h - r.y2) r.x1 (h - r.y1) r.x2
  | .r180 => c (w - r.x2) (h - r.y2) (w - r.x1) (h - r.y1)
  | .r270 => c r.y1 (w - r.x2) r.y2 (w - r.x1)
  | .flipped => c (w - r.x2) r.y1 (w - r.x1) r.y2
  | .f90 => c r.y1 r.x1 r.y2 r.x2
  | .f180 => c r.x1 (h - r.y2) r.x2 (h - r.y1)
  | .f270 => c (h - r.y2) (w - r.x2) (h - r.y1) (w - r.x1)

/-- nvnc_transform_region, transform-util.c 165-238, to a region that is empty: `room` is whether there is
memory -/
def moveRegion (room : Bool) (norm : Region → Region) (t : Xf) (w h : Nat) (r : Region) : Region :=
  if t = .normal then r
  else if room = false then []
  else norm ((norm r).map (moveRect t w h))

/-! ## Resampling -/

/-- a framebuffer with its transform -/
structure Frame where
  fb : Fb
  xf : Xf
  deriving Repr, DecidableEq

/-- what pixman reads: nothing outside of the image -/
def fetch (fb : Fb) (p : Int × Int) : Bytes :=
  if 0 ≤ p.1 ∧ p.1 < fb.width ∧ 0 ≤ p.2 ∧ p.2 < fb.height then
    (fb.mem.drop ((p.2.toNat * fb.stride + p.1.toNat) * pixelSize fb.f)).take (pixelSize fb.f)
  else List.replicate (pixelSize fb.f) 0

/-- resample_now, resampler.c 104-148, into a buffer of the pool as resampler_feed has it resized.  `known` is
whether pixman knows the format.  There is never a clip region: do_work, resampler.c 157, asks the
destination for what is attached to the source, and gets nothing. -/
def resample (known : Bool) (s : Frame) : Outcome Fb :=
  if known = false then .abort "fourcc_to_pixman_fmt"
  else if ¬ (s.fb.width < 32768 ∧ s.fb.height < 32768) then .ub "width * pixman_fixed_1"
  else
    let d := dims s.xf s.fb.width s.fb.height
    let m := matrix s.xf s.fb.width s.fb.height
    .ok { f := s.fb.f, width := d.1, height := d.2, stride := d.1,
          mem := (List.range d.2).flatMap fun y : Nat => (List.range d.1).flatMap fun x : Nat =>
            fetch s.fb (sample m x y) }

/-! ## Displays -/

/-- a resampling job and the damage that goes with it -/
structure Job where
  frame : Frame
  damage : Region
  deriving Repr, DecidableEq

/-- struct nvnc_display, display.h 29-36, the jobs that are under way, and the calls of
nvnc__damage_region, the last one first -/
structure Display where
  refinery : Refinery
  shown : Option Fb
  jobs : List Job
  calls : List Region
  deriving Repr, DecidableEq

/-- nvnc_display_new, display.c 54-79 -/
def newDisplay : Display := ⟨initRefinery 0 0, none, [], []⟩

/-- nvnc_display__on_resampler_done, display.c 31-51: references are not modelled -/
def onDone (fb : Fb) (damage : Region) (d : Display) : Display :=
  { d with shown := some fb, calls := damage :: d.calls }

/-- outside: pixman's way of keeping regions, the hash, whether pixman knows the format, and whether clients
want damage -/
structure World where
  norm : Region → Region
  xxh : Bytes → Nat
  known : Bool
  wanted : Bool

/-- the refinery's part in nvnc_display_feed_buffer, display.c 123-135 -/
def refineDamage (wd : World) (s : Frame) (damage : Region) (rf : Refinery) : Outcome (Refinery × Region) :=
  if wd.wanted then refine wd.norm wd.xxh damage s.fb (resizeRefinery s.fb.width s.fb.height rf)
  else .ok (resizeRefinery 0 0 rf, damage)

/-- nvnc_display_feed_buffer, display.c 112-146, with resampler_feed, resampler.c 170-243.  The flags tell
whether there is memory for the region's rectangles and for the job; failures are not noticed. -/
def feed (wd : World) (room room' : Bool) (s : Frame) (damage : Region) (d : Display) : Outcome Display := do
  let (rf, damage) ← refineDamage wd s damage d.refinery
  let d := { d with refinery := rf }
  let damage := moveRegion room wd.norm s.xf s.fb.width s.fb.height damage
  if s.xf = .normal then .ok (onDone s.fb damage d)
  else if room' = false then .ok d
  else .ok { d with jobs := d.jobs ++ [⟨s, damage⟩] }

/-- a job is finished by one of the worker threads: do_work and on_work_done, resampler.c 150-168 -/
def finishJob (wd : World) (i : Nat) (d : Display) : Outcome Display :=
  match d.jobs[i]? with
  | none => .ok d
  | some j => do
    let fb ← resample wd.known j.frame
    .ok (onDone fb j.damage { d with jobs := d.jobs.eraseIdx i })

end Verif.Display
