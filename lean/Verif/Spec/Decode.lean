import Verif.Spec.Canvas

/-!
# A client's decoders

How a client gets the colours of pixels out of rectangles in raw, ZRLE and Tight encoding (RFC 6143 and the
community's rfbproto document), and what the encoders of a connection do.
-/

namespace Verif.Wire

open Verif.Server Verif.Enc Verif.Pixels

variable {α : Type}

/-! ## Decoders -/

/-- raw: pixels from left to right and from top to bottom -/
def rawDec (pixel : Nat) (val : Bytes → α) : Decoder α := fun _ q px py =>
  val ((q.body.drop (((py - q.y) * q.w + (px - q.x)) * pixel)).take pixel)

/-- what a decompressor makes of more bytes of a stream; `inflate` is all it gets out of the bytes from the
beginning of the stream -/
def inflateNext (inflate : Bytes → Bytes) (before c : Bytes) : Bytes :=
  (inflate (before ++ c)).drop (inflate before).length

/-- the compressed data of rectangles in ZRLE: what is behind their lengths -/
def zrleStream (past : List RectMsg) : Bytes := past.flatMap fun q => if q.enc = 16 then q.body.drop 4 else []

/-- the pixel at a place in a rectangle that was decoded tile by tile -/
def pixelAt (tiles : List (Box × List Bytes)) (x y : Nat) : Bytes :=
  match tiles.find? fun t => decide (t.1.x1 ≤ x ∧ x < t.1.x2 ∧ t.1.y1 ≤ y ∧ y < t.1.y2) with
  | some (t, px) => px.getD ((y - t.y1) * t.w + (x - t.x1)) []
  | none => []

/-- ZRLE: the tiles in the next part of the stream -/
def zrleDec (inflate : Bytes → Bytes) (size : Nat) (val : Bytes → α) : Decoder α := fun past q px py =>
  match decodeTiles size (rfcTiles q.w q.h) (inflateNext inflate (zrleStream past) (q.body.drop 4)) with
  | some (tiles, _) => val (pixelAt ((rfcTiles q.w q.h).zip tiles) (px - q.x) (py - q.y))
  | none => val []

/-- the stream and the compressed data of a rectangle in Tight with basic compression and at least 12 bytes -/
def tightPart (tp : Nat) (q : RectMsg) : Option (Nat × Bytes) :=
  match q.body with
  | [] => none
  | c :: b =>
    if c.toNat / 16 < 4 ∧ 12 ≤ q.w * q.h * tp then (readCompact b).map fun r => (c.toNat / 16, r.2) else none

/-- stream `s` after another rectangle: the lower bits of the first byte say which streams are reset before -/
def tightFeed (tp s : Nat) (d : Bytes) (q : RectMsg) : Bytes :=
  if q.enc = 7 then
    (if (q.body.headD 0).toNat / 2 ^ s % 2 = 1 then [] else d) ++
      match tightPart tp q with
      | some (i, c) => if i = s then c else []
      | none => []
  else d

/-- the compressed data of a stream -/
def tightStream (tp s : Nat) (past : List RectMsg) : Bytes := past.foldl (tightFeed tp s) []

/-- Tight without JPEG: pixels from left to right and from top to bottom in the next part of the stream, or as they
are if there are less than 12 bytes -/
def tightDec (inflate : Bytes → Bytes) (tp : Nat) (val : Bytes → α) : Decoder α := fun past q px py =>
  let data := match tightPart tp q with
    | some (s, c) => inflateNext inflate
        (if (q.body.headD 0).toNat / 2 ^ s % 2 = 1 then [] else tightStream tp s past) c
    | none => q.body.drop 1
  val ((data.drop (((py - q.y) * q.w + (px - q.x)) * tp)).take tp)

/-- the colours of a framebuffer at the precision of the client's format -/
def fbPic (fb : Enc.Fb) (l : Pixels.Layout) : Pic (Ch → Nat) := fun x y c =>
  rescale ((drm fb.f.code c).get (drmPixel fb.f (fb.pixel x y))) (drm fb.f.code c).bits (l c).bits

/-- the colours of a pixel in the client's format -/
def pixVal (dst : PixFmt) (l : Pixels.Layout) (b : Bytes) : Ch → Nat := fun c => (l c).get (clientPixel dst b)

/-- the colours of a CPIXEL -/
def cpixVal (dst : PixFmt) (l : Pixels.Layout) (b : Bytes) : Ch → Nat := fun c => (l c).get (cpixelValue dst l b)

/-- a client's pixel format, where the colours are in its pixels, and zlib -/
structure Codec where
  dst : PixFmt
  l : Pixels.Layout
  inflate : Bytes → Bytes

/-- a client that knows raw, ZRLE and Tight encoding -/
def Codec.dec (k : Codec) : Decoder (Ch → Nat) := fun past q =>
  match q.enc with
  | 7 => tightDec k.inflate (tpixelSize k.dst) (tpixelColour k.dst k.l) past q
  | 16 => zrleDec k.inflate (cpixelSize k.dst k.l) (cpixVal k.dst k.l) past q
  | _ => rawDec (k.dst.bpp / 8) (pixVal k.dst k.l) past q

/-- the sizes of its pixels -/
def Codec.sizes (k : Codec) : Sizes := ⟨k.dst.bpp / 8, tpixelSize k.dst⟩

/-- a frame has all of its rectangles, which may be more than what the encoder was given -/
def Codec.wide (k : Codec) (f : Frame) : Region := (rectsOf k.sizes f).map fun q => ⟨q.x, q.y, q.w, q.h⟩

/-! ## Encoders -/

/-- the compressed streams of an encoder -/
structure Zlibs where
  zrle : Zs := ⟨[], [], []⟩
  tight : Fin 4 → Zs := fun _ => ⟨[], [], []⟩

/-- zlib works: what was put into a stream is what the client's zlib gets out of it, at each flush -/
structure Zlibs.Right (inflate : Bytes → Bytes) (z : Zlibs) : Prop where
  zrle : ∀ q ∈ z.zrle.flushed, inflate q.2 = q.1
  tight : ∀ s, ∀ q ∈ (z.tight s).flushed, inflate q.2 = q.1

/-- what an encoder is given: a framebuffer of reasonable size and kind whose colours are those of the picture `p`,
and the boxes of the region `r` -/
structure Given (k : Codec) (fb : Enc.Fb) (bs : List Box) (r : Region) (p : Pic (Ch → Nat)) : Prop where
  ok : fb.Ok
  plain : Plain fb.f
  width : fb.width ≤ 32704
  height : fb.height ≤ 32704
  boxes : ∀ b ∈ bs, b.In fb
  few : bs.length < 65536
  region : ∀ px py, r.Has px py ↔ ∃ b ∈ bs, b.x1 ≤ px ∧ px < b.x2 ∧ b.y1 ≤ py ∧ py < b.y2
  pic : ∀ px py, px < fb.width → py < fb.height → p px py = fbPic fb k.l px py

/-- The frame is what the encoder for `e` made of the region `r` of the picture `p`, with memory to spare:
raw; ZRLE, with a format for which compact pixels work (C64) and palettes that fit (C43), and less than 4 GB of
compressed data; Tight without JPEG, with a format for which TPIXEL works (C65) and no tile of less than 12 bytes. -/
def MadeBy (k : Codec) (e : Int) (z z' : Zlibs) (f : Frame) (r : Region) (p : Pic (Ch → Nat)) : Prop :=
  z'.Right k.inflate ∧ ∃ fb bs, Given k fb bs r p ∧
    ((e = 0 ∧ z' = z ∧ ∃ m0 m, Plenty m0 ∧ (∀ i, Plenty (m i)) ∧
        rawWork m0 m 0 0 k.dst fb bs = .ok (f.payload, f.nRects)) ∨
      (e = 16 ∧ z'.tight = z.tight ∧ CpixelOk k.dst k.l ∧
        (cpixelSize k.dst k.l = 4 → ∀ b ∈ bs, ∀ t ∈ rfcTiles b.w b.h, ∀ n, Colours (tilePixels fb b t) n → n ≤ 12 ∨ 16 < n) ∧
        ∃ m0 m as, (∀ i j, Plenty (m i j)) ∧ (as.map fun a => a.give.length).sum < 4294967296 ∧
          zrleWork m0 m 0 0 k.dst fb bs z.zrle as = .ok (f.payload, f.nRects, z'.zrle)) ∨
      (e = 7 ∧ z'.zrle = z.zrle ∧ TpixelOk k.dst ∧
        (∀ t ∈ rfcTiles fb.width fb.height, Touched bs t → 12 ≤ t.w * t.h * tpixelSize k.dst) ∧
        ∃ m0 m cfg grid ans schedule, (∀ i j, Plenty (m i j)) ∧ (cfg.jpeg = false ∨ 10 ≤ cfg.quality) ∧
          grid.length = (fb.height + 63) / 64 * ((fb.width + 63) / 64) ∧
          tightEncode m0 m cfg 0 0 k.dst fb bs grid z.tight ans schedule = .ok (f.payload, f.nRects, z'.tight)))

/-- the encoders and their streams when a frame comes back: the frame is made of some region of some picture, and
if the observer in the server has seen what was handed to the encoder, of that -/
def Fed (k : Codec) (v : Viewer (Ch → Nat)) (m : Makers) (x : Eff) (g g' : Nat → Zlibs) : Prop :=
  match x, m.cur with
  | .encodeDone f, some (e, i) => ∃ q : Region × Pic (Ch → Nat), (∀ q', v.frame = some q' → q' = q) ∧
      MadeBy k e (g i) (g' i) f q.1 q.2 ∧ ∀ i', i' ≠ i → g' i' = g i'
  | _, _ => g' = g

/-- all frames of a part of a log are made by the encoders -/
def Works (k : Codec) (c : Pic (Ch → Nat)) : Viewer (Ch → Nat) → Makers → (Nat → Zlibs) → List Eff →
    (Nat → Zlibs) → Prop
  | _, _, g, [], g' => g' = g
  | v, m, g, x :: es, g' => ∃ g1, Fed k v m x g g1 ∧ Works k c (v.see c x) (m.see k.sizes x) g1 es g'

/-- and those of a run -/
def Worked (k : Codec) (table : List Nat) : List ((Server.Op × Env × List Read) × Pic (Ch → Nat)) → St →
    Viewer (Ch → Nat) → (Nat → Zlibs) → Prop
  | [], _, _, _ => True
  | ((o, env, net), c) :: ops, s, v, g => ∀ s', step table o env net s = .ok s' →
      ∃ g', Works k c v (makers k.sizes s.log) g (s'.log.drop s.log.length) g' ∧
        Worked k table ops s' ((s'.log.drop s.log.length).foldl (Viewer.see c) v).settle g'

end Verif.Wire
