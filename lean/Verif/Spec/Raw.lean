import Verif.Model.Raw
import Verif.Spec.Pixels

/-!
# What encoded frames should say
-/

namespace Verif.Enc
open Verif.Server (PixFmt)
open Verif.Pixels

/-- the bytes of the pixel at a position -/
def Fb.pixel (fb : Fb) (x y : Nat) : Bytes :=
  (fb.mem.drop ((y * fb.stride + x) * pixelSize fb.f)).take (pixelSize fb.f)

/-- a framebuffer of a supported format with memory for all its rows; it is smaller than 2 GB, at
four bytes per pixel -/
structure Fb.Ok (fb : Fb) : Prop where
  stride : fb.width ≤ fb.stride
  mem : fb.height * fb.stride * pixelSize fb.f ≤ fb.mem.length
  small : fb.height * fb.stride * 4 < 2147483648

/-- a box that is not empty, inside the framebuffer -/
def Box.In (b : Box) (fb : Fb) : Prop := b.x1 < b.x2 ∧ b.y1 < b.y2 ∧ b.x2 ≤ fb.width ∧ b.y2 ≤ fb.height

/-- a position in a box -/
def Box.has (b : Box) (x y : Nat) : Prop := b.x1 ≤ x ∧ x < b.x2 ∧ b.y1 ≤ y ∧ y < b.y2

/-- the positions in a box, row by row -/
def Box.cells (b : Box) : List (Nat × Nat) :=
  (List.range b.h).flatMap fun j => (List.range b.w).map fun i => (b.x1 + i, b.y1 + j)

/-- a rectangle in raw encoding (RFC 6143, 7.6.1 and 7.7.1): position, size, encoding 0, pixels from
left to right and top to bottom -/
def rawRect (xpos ypos : Nat) (pix : Nat × Nat → Bytes) (b : Box) : Bytes :=
  be16 (xpos + b.x1) ++ be16 (ypos + b.y1) ++ be16 b.w ++ be16 b.h ++ [0, 0, 0, 0] ++ b.cells.flatMap pix

/-- allocation never fails -/
def Plenty (m : Vec.Heap) : Prop := ∀ n, (m n).isSome

/-- the colours of the source's pixel, in the client's format -/
def SameColour (f : Fourcc) (dst : PixFmt) (l : Layout) (src b : Bytes) : Prop :=
  b.length = dst.bpp / 8 ∧
  Holds (clientPixel dst b) l fun c =>
    rescale ((drm f.code c).get (drmPixel f src)) (drm f.code c).bits (l c).bits

end Verif.Enc
