import Verif.Model.Tight
import Verif.Spec.Zrle

/-!
# What Tight says

The Tight encoding of the community's rfbproto document, for basic compression without filters and JPEG.
-/

namespace Verif.Enc
open Verif.Server (PixFmt)
open Verif.Pixels

/-- a length of one to three bytes: seven bits each in the first two, whose top bits say that there is
another byte, and eight in the third -/
def readCompact : Bytes → Option (Nat × Bytes)
  | [] => none
  | a :: b =>
    if a.toNat < 128 then some (a.toNat, b)
    else match b with
      | [] => none
      | c :: b =>
        if c.toNat < 128 then some (a.toNat % 128 + 128 * c.toNat, b)
        else match b with
          | [] => none
          | d :: b => some (a.toNat % 128 + 128 * (c.toNat % 128) + 16384 * d.toNat, b)

/-- TPIXEL has three bytes -/
def shortPixel (p : PixFmt) : Prop := p.bpp = 32 ∧ p.depth = 24 ∧ p.rmax = 255 ∧ p.gmax = 255 ∧ p.bmax = 255

instance (p : PixFmt) : Decidable (shortPixel p) := by unfold shortPixel; exact inferInstance

/-- the size of a TPIXEL -/
def tpixelSize (p : PixFmt) : Nat := if shortPixel p then 3 else p.bpp / 8

/-- the colours of a TPIXEL: red, green and blue in this order if it has three bytes -/
def tpixelColour (p : PixFmt) (l : Layout) (b : Bytes) : Ch → Nat :=
  if shortPixel p then fun
    | .r => (b.getD 0 0).toNat
    | .g => (b.getD 1 0).toNat
    | .b => (b.getD 2 0).toNat
  else fun c => (l c).get (clientPixel p b)

/-- the colours of the source's pixel in a TPIXEL -/
def SameTpixel (f : Fourcc) (dst : PixFmt) (l : Layout) (src b : Bytes) : Prop :=
  b.length = tpixelSize dst ∧
  ∀ c, tpixelColour dst l b c = rescale ((drm f.code c).get (drmPixel f src)) (drm f.code c).bits (l c).bits

/-- TPIXEL is what the server takes for it -/
def TpixelOk (p : PixFmt) : Prop := p.bpp ≠ 32 ∨ 24 < p.depth ∨ shortPixel p

/-- the header of a rectangle -/
def tightHead (xpos ypos : Nat) (b : Box) : Bytes :=
  be16 (xpos + b.x1) ++ be16 (ypos + b.y1) ++ be16 b.w ++ be16 b.h ++ [0, 0, 0, 7]

/-- the uncompressed data of a rectangle -/
def tightData (one : Bytes → Bytes) (fb : Fb) (b : Box) : Bytes := b.cells.flatMap fun p => one (fb.pixel p.1 p.2)

/-- the bytes are rectangles in basic compression: a byte with the number of a stream, and, unless there
are less than 12 bytes, which are sent as they are, the length of the compressed data and the data, which
are all that came out of the stream until everything put into it can be decompressed -/
def TightFrame (one : Bytes → Bytes) (fb : Fb) (xpos ypos : Nat) :
    List Box → (Fin 4 → Zs) → Bytes → (Fin 4 → Zs) → Prop
  | [], z, p, z' => p = [] ∧ z' = z
  | b :: bs, z, p, z' =>
    if (tightData one fb b).length < 12 then
      ∃ (s : Fin 4) (rest : Bytes), p = tightHead xpos ypos b ++ [UInt8.ofNat (16 * s)] ++ tightData one fb b ++ rest ∧
        TightFrame one fb xpos ypos bs z rest z'
    else
      ∃ (s : Fin 4) (len c rest : Bytes), p = tightHead xpos ypos b ++ [UInt8.ofNat (16 * s)] ++ len ++ c ++ rest ∧
        (∀ more, readCompact (len ++ more) = some (c.length, more)) ∧
        TightFrame one fb xpos ypos bs
          (fun j => if j = s then (z s).put (tightData one fb b) c else z j) rest z'

/-- the names of turbojpeg's formats tell the colours byte by byte (turbojpeg.h) -/
def Tjpf.letters : Tjpf → List (Option Ch)
  | .rgb => [some .r, some .g, some .b]
  | .bgr => [some .b, some .g, some .r]
  | .rgbx => [some .r, some .g, some .b, none]
  | .bgrx => [some .b, some .g, some .r, none]
  | .xbgr => [none, some .b, some .g, some .r]
  | .xrgb => [none, some .r, some .g, some .b]

/-- what turbojpeg reads is the part of the framebuffer in the box: each byte that it takes for a colour of a pixel
is that colour of the framebuffer's pixel there -/
structure Shows (fb : Fb) (t : Box) (c : JpegCall) : Prop where
  width : c.width = t.w
  height : c.height = t.h
  pixels : ∀ x y, x < t.w → y < t.h → ∀ ch k, c.fmt.letters[k]? = some (some ch) →
    ∃ b, c.img[y * c.pitch + x * c.fmt.letters.length + k]? = some b ∧
      b.toNat = (drm fb.f.code ch).get (drmPixel fb.f (fb.pixel (t.x1 + x) (t.y1 + y)))

/-- each colour has eight bits, as in JPEG images -/
def Eight (f : Fourcc) : Prop := ∀ c, (drm f.code c).bits = 8

instance (f : Fourcc) : Decidable (Eight f) :=
  decidable_of_iff ((drm f.code .r).bits = 8 ∧ (drm f.code .g).bits = 8 ∧ (drm f.code .b).bits = 8)
    ⟨fun ⟨h1, h2, h3⟩ c => by cases c <;> assumption, fun h => ⟨h .r, h .g, h .b⟩⟩

/-- the bytes are rectangles with JPEG images -/
def JpegFrame (img : Box → Bytes) (xpos ypos : Nat) : List Box → Bytes → Prop
  | [], p => p = []
  | b :: bs, p => ∃ len rest, p = tightHead xpos ypos b ++ [0x90] ++ len ++ img b ++ rest ∧
      (∀ more, readCompact (len ++ more) = some ((img b).length, more)) ∧ JpegFrame img xpos ypos bs rest

/-- the bytes are rectangles, each with a byte that tells how it is compressed, a length and data -/
def TightRects (xpos ypos : Nat) : List Box → Bytes → Prop
  | [], p => p = []
  | b :: bs, p => ∃ ctl len data rest, p = tightHead xpos ypos b ++ [ctl] ++ len ++ data ++ rest ∧
      (∀ more, readCompact (len ++ more) = some (data.length, more)) ∧ TightRects xpos ypos bs rest

/-- some damaged pixel is in the box -/
def Touched (damage : List Box) (t : Box) : Prop := ∃ b ∈ damage, ∃ x y, b.has x y ∧ t.has x y

end Verif.Enc
