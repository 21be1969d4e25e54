import Verif.Model.Pixels
import Verif.Model.Vec

/-!
# Framebuffers and the raw encoder

src/enc/raw.c, encode_rect_head and calculate_region_area of src/enc/util.c.  A framebuffer is its
memory (already mapped) and its dimensions; strides are not negative.  The damage is the list of boxes
that `pixman_region_rectangles` gives; their coordinates are not negative.  Signed overflow is
undefined behaviour.  Failed assertions abort.
-/

namespace Verif.Enc
open Verif.Server (PixFmt)
open Verif.Pixels Verif.Vec

/-- struct nvnc_fb, fb.h 30-66: what encoders look at; `stride` is in pixels -/
structure Fb where
  f : Fourcc
  width : Nat
  height : Nat
  stride : Nat
  mem : Bytes
  deriving Repr, DecidableEq

/-- struct pixman_box16 -/
structure Box where
  x1 : Nat
  y1 : Nat
  x2 : Nat
  y2 : Nat
  deriving Repr, DecidableEq

def Box.w (b : Box) : Nat := b.x2 - b.x1
def Box.h (b : Box) : Nat := b.y2 - b.y1

/-- a value of type `int` -/
def int (n : Nat) : Outcome Nat := if n < 2147483648 then .ok n else .ub "int overflow"

/-- encode_rect_head, enc/util.c 29-41: the header of a rectangle -/
def rectHead (enc : Int) (x y w h : Nat) : Bytes :=
  be16 x ++ be16 y ++ be16 w ++ be16 h ++ Server.be32i enc

/-- pixel_to_cpixel from memory, pixels.c 166-306: assertions first, then pixel by pixel -/
def convertRow (dst src : PixFmt) (bpc : Nat) (mem : Bytes) (off n : Nat) : Outcome Bytes := do
  let _ ← toCpixel dst src bpc []
  let px ← load (src.bpp / 8) mem off n
  toCpixel dst src bpc px

/-- the rows of raw_encode_box, raw.c 82-87: from row `y` on, `n` rows -/
def rawRows (dst src : PixFmt) (fb : Fb) (x w : Nat) : Nat → Nat → Vec → Outcome Vec
  | _, 0, v => .ok v
  | y, n + 1, v => do
    let off ← int (x * (src.bpp / 8) + y * (fb.stride * (src.bpp / 8)))
    let b ← convertRow dst src (dst.bpp / 8) fb.mem off w
    let d ← writeAt v.data v.len b
    rawRows dst src fb x w (y + 1) n { v with data := d, len := v.len + w * (dst.bpp / 8) }

/-- raw_encode_box, raw.c 56-90 -/
def rawBox (m m' : Heap) (xpos ypos : Nat) (dst src : PixFmt) (fb : Fb) (b : Box) (v : Vec) :
    Outcome (Vec × Bool) := do
  let (v, r) ← Vec.step (.append m (rectHead 0 (xpos + b.x1) (ypos + b.y1) b.w b.h)) v
  if r = false then .ok (v, false)
  else do
    let size ← int (b.w * b.h * (dst.bpp / 8))
    match reserve m' (size + v.len) v with
    | (v, false) => .ok (v, false)
    | (v, true) => do
      let v ← rawRows dst src fb b.x1 b.w b.y1 b.h v
      .ok (v, true)

/-- the loop of raw_encode_frame, raw.c 110-121; the i-th box uses the heap's i-th answers -/
def rawBoxes (m : Nat → Heap) (xpos ypos : Nat) (dst src : PixFmt) (fb : Fb) :
    Nat → List Box → Vec → Outcome (Vec × Bool)
  | _, [], v => .ok (v, true)
  | i, b :: bs, v => do
    let (v, r) ← rawBox (m (2 * i)) (m (2 * i + 1)) xpos ypos dst src fb b v
    if r = false then .ok (v, false)
    else rawBoxes m xpos ypos dst src fb (i + 1) bs v

/-- pixman_region_extents: the smallest box around all of them -/
def extents : List Box → Box
  | [] => ⟨0, 0, 0, 0⟩
  | [b] => b
  | b :: bs =>
    let e := extents bs
    ⟨min b.x1 e.x1, min b.y1 e.y1, max b.x2 e.x2, max b.y2 e.y2⟩

/-- the rectangles to encode, raw.c 99-104 and zrle.c 281-286 -/
def pick (bs : List Box) : List Box := if 65535 < bs.length then [extents bs] else bs

/-- calculate_region_area, enc/util.c 49-65 -/
def area : List Box → Outcome Nat
  | [] => .ok 0
  | b :: bs => do
    let a ← int (b.w * b.h)
    let r ← area bs
    .ok ((a + r) % 4294967296)

/-- raw_encoder_do_work, raw.c 127-162: payload and number of rectangles -/
def rawWork (m0 : Heap) (m : Nat → Heap) (xpos ypos : Nat) (dst : PixFmt) (fb : Fb) (bs : List Box) :
    Outcome (Bytes × Nat) := do
  let a ← area bs
  let n := if 65535 < bs.length then 1 else bs.length
  match Vec.init m0 (a * (dst.bpp / 8) + n * 12) with
  | (_, false) => .abort "vec_init"
  | (v, true) =>
    match pixfmt fb.f with
    | none => .abort "rfb_pixfmt_from_fourcc"
    | some src => do
      let (v, r) ← rawBoxes m xpos ypos dst src fb 0 (pick bs) v
      if r = false then .abort "raw_encode_frame"
      else .ok (v.bytes, (pick bs).length)

end Verif.Enc
