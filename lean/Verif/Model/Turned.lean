import Verif.Model.Cursor
import Verif.Model.Display

/-!
# Cursors with a transform

src/cursor.c with `apply_transform` and the references that it takes and gives up. `Verif.Enc` has the part
that is the same for every image.
-/

namespace Verif.Turned
open Verif.Server (PixFmt)
open Verif.Pixels Verif.Vec
open Verif.Enc (Fb cursorEncode)
open Verif.Display (Frame dims resample)

/-- what `nvnc_fb_new` allocates, src/fb.c 54-58 -/
def allocated (w h size : Nat) : Nat := (h * w * size + 7) / 8 * 8

/-- `apply_transform`, src/cursor.c 33-54, for an image that has a transform: four bytes of each pixel are
cleared, whatever the format. `known` is whether pixman knows the format. There is memory (`assert(dst)`). -/
def applyTransform (known : Bool) (s : Frame) : Outcome Fb :=
  let d := dims s.xf s.fb.width s.fb.height
  if allocated d.1 d.2 (pixelSize s.fb.f) < d.1 * d.2 * 4 then .ub "memset out of bounds"
  else resample known s

/-- `cursor_encode`, src/cursor.c 55-129. `mapped` is whether `nvnc_fb_map` works. The last result is how many
references to the caller's image there are more than before. -/
def encode (m m' : Heap) (mapped known : Bool) (dst : PixFmt) (image : Option Frame) (w h hx hy : Nat) (v : Vec) :
    Outcome (Vec × Bool × Int) :=
  match image with
  | none => do
    let (v, r) ← cursorEncode m m' dst none w h hx hy v
    .ok (v, r, 0)
  | some s =>
    let size := dims s.xf w h
    let spot := dims s.xf hx hy
    if mapped = false then .ok (v, false, -1)
    else if s.xf = .normal then do
      let (v, r) ← cursorEncode m m' dst (some s.fb) size.1 size.2 spot.1 spot.2 v
      .ok (v, r, 1 - 1)
    else do
      let g ← applyTransform known s
      let (v, r) ← cursorEncode m m' dst (some g) size.1 size.2 spot.1 spot.2 v
      .ok (v, r, 0)

/-- `send_cursor_update`, src/server.c 697-724: the message that is sent, if any, and the references -/
def send (m0 m m' m'' : Heap) (mapped known : Bool) (dst : PixFmt) (image : Option Frame) (w h hx hy : Nat) :
    Outcome (Option Bytes × Int) := do
  let (v, _) ← Outcome.ok (Vec.init m0 4096)
  let (v, _) ← Vec.step (.append m'' [0, 0, 0, 1]) v
  let (v, r, refs) ← encode m m' mapped known dst image w h hx hy v
  if r = false then .ok (none, refs) else .ok (some v.bytes, refs)

end Verif.Turned
