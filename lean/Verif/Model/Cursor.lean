import Verif.Model.Raw

/-!
# Cursors

src/cursor.c, extract_alpha_mask of src/pixels.c and send_cursor_update of src/server.c, for images that
are not transformed and already mapped, on a little endian host.
-/

namespace Verif.Enc
open Verif.Server (PixFmt)
open Verif.Pixels Verif.Vec

/-- how extract_alpha_mask reads a format: bytes per pixel, shift and maximum -/
structure Alpha where
  size : Nat
  shift : Nat
  max : Nat
  deriving Repr, DecidableEq

/-- extract_alpha_mask, pixels.c 562-582: DRM_FORMAT_BIG_ENDIAN is ignored -/
def alphaOf (f : Fourcc) : Option Alpha :=
  match f.code with
  | .four .w10 .rgba true => some ⟨4, 0, 3⟩
  | .four .w10 .bgra true => some ⟨4, 0, 3⟩
  | .four .w10 .argb true => some ⟨4, 30, 3⟩
  | .four .w10 .abgr true => some ⟨4, 30, 3⟩
  | .four .w8 .rgba true => some ⟨4, 0, 0xff⟩
  | .four .w8 .bgra true => some ⟨4, 0, 0xff⟩
  | .four .w8 .argb true => some ⟨4, 24, 0xff⟩
  | .four .w8 .abgr true => some ⟨4, 24, 0xff⟩
  | .four .w4 .rgba true => some ⟨2, 0, 0xf⟩
  | .four .w4 .bgra true => some ⟨2, 0, 0xf⟩
  | .four .w4 .argb true => some ⟨2, 12, 0xf⟩
  | .four .w4 .abgr true => some ⟨2, 12, 0xf⟩
  | _ => none

/-- the loops of extract_alpha_mask_rgba32 and extract_alpha_mask_rgba16, pixels.c 529-553: pixel `i`
and `k - 1` more after it -/
def maskLoop (a : Alpha) (mem : Bytes) (off : Nat) : Nat → Nat → Bytes → Outcome Bytes
  | 0, _, d => .ok d
  | k + 1, i, d => do
    let px ← readAt mem (off + i * a.size) a.size
    let alpha := (leNat px >>> a.shift) &&& a.max
    let binary := if a.max / 2 < alpha then 1 else 0
    match d[i / 8]? with
    | none => .ub "mask written out of bounds"
    | some b => maskLoop a mem off k (i + 1) (d.set (i / 8) (b ||| UInt8.ofNat (binary <<< (7 - i % 8))))

/-- extract_alpha_mask, pixels.c 555-602: the bytes that are written, and the result -/
def alphaMask (f : Fourcc) (mem : Bytes) (off len : Nat) : Outcome (Bytes × Bool) :=
  match alphaOf f with
  | none => .ok (List.replicate ((len + 7) / 8) 0, false)
  | some a => do
    let d ← maskLoop a mem off len 0 (List.replicate ((len + 7) / 8) 0)
    .ok (d, true)

/-- the pixels of a cursor row by row, cursor.c 101-109 -/
def cursorRows (dst src : PixFmt) (fb : Fb) (w : Nat) : Nat → Nat → Vec → Outcome Vec
  | _, 0, v => .ok v
  | y, n + 1, v => do
    let b ← convertRow dst src (dst.bpp / 8) fb.mem (y * (fb.stride * (src.bpp / 8))) w
    let d ← writeAt v.data (v.len + y * (dst.bpp / 8) * w) b
    cursorRows dst src fb w (y + 1) n { v with data := d }

/-- the pixels of a cursor, cursor.c 97-109 -/
def cursorPixels (dst src : PixFmt) (fb : Fb) (w h : Nat) (v : Vec) : Outcome Vec :=
  if w = fb.stride then do
    let b ← convertRow dst src (dst.bpp / 8) fb.mem 0 ((w * h) % 4294967296)
    let d ← writeAt v.data v.len b
    .ok { v with data := d }
  else cursorRows dst src fb w 0 h v

/-- the mask row by row, cursor.c 115-122: `false` when the loop is left early.  The address of a row is
computed from a pointer to 32 bit values whatever the format. -/
def maskRows (fb : Fb) (w base : Nat) : Nat → Nat → Vec → Outcome (Vec × Bool)
  | _, 0, v => .ok (v, true)
  | y, n + 1, v => do
    let (b, r) ← alphaMask fb.f fb.mem (4 * (y * fb.stride)) w
    let d ← writeAt v.data (base + y * ((w + 7) / 8)) b
    if r = false then .ok ({ v with data := d }, false)
    else maskRows fb w base (y + 1) n { v with data := d, len := v.len + (w + 7) / 8 }

/-- cursor_encode, cursor.c 55-129.  Leaving the last loop early is no failure: `rc` is that of
vec_reserve. -/
def cursorEncode (m m' : Heap) (dst : PixFmt) (image : Option Fb) (w h hx hy : Nat) (v : Vec) :
    Outcome (Vec × Bool) :=
  match image with
  | none => Vec.step (.append m (rectHead Server.encCursor 0 0 0 0)) v
  | some fb =>
    if fb.width < w then .abort "width <= image->width"
    else if fb.height < h then .abort "height <= image->height"
    else match pixfmt fb.f with
    | none => .ok (v, false)
    | some src => do
      let (v, r) ← Vec.step (.append m (rectHead Server.encCursor hx hy w h)) v
      if r = false then .ok (v, false)
      else
        let bpp := dst.bpp / 8
        let size := (w * h) % 4294967296
        match reserve m' (v.len + size * bpp + (size + 7) / 8) v with
        | (v, false) => .ok (v, false)
        | (v, true) => do
          let v ← cursorPixels dst src fb w h v
          let v := { v with len := v.len + size * bpp }
          let (v, _) ← maskRows fb w v.len 0 h v
          .ok (v, true)

/-- send_cursor_update, server.c 697-724: the message that is sent, if any -/
def sendCursor (m0 m m' m'' : Heap) (dst : PixFmt) (image : Option Fb) (w h hx hy : Nat) :
    Outcome (Option Bytes) := do
  let (v, _) ← Outcome.ok (Vec.init m0 4096)
  let (v, _) ← Vec.step (.append m'' [0, 0, 0, 1]) v
  let (v, r) ← cursorEncode m m' dst image w h hx hy v
  if r = false then .ok none else .ok (some v.bytes)

end Verif.Enc
