import Verif.Model.V4l2

/-!
# Finding a hardware encoder and setting its formats: src/enc/h264/v4l2m2m-impl.c

A device is what it answers: each `ioctl` works or not, and enumerations are lists. `VIDIOC_S_FMT` lets a
driver change what it is asked for. The rest of the creation is in `Verif.V4l2` and `Verif.Make`.
-/

namespace Verif.Device
open V4l2 (fourcc supportedFormats formatFromDrm)

/-- an answer to `VIDIOC_ENUM_FRAMESIZES`: `discrete`, or `continuous` and `stepwise`, which have the same
fields -/
inductive Size where
  | discrete (w h : Nat)
  | steps (minW maxW stepW minH maxH stepH : Nat)
  deriving DecidableEq, Repr

/-- a format of a queue of the device: the format and the width and height -/
structure Fmt where
  pixfmt : Nat
  width : Nat
  height : Nat
  deriving DecidableEq, Repr

/-- a device -/
structure Dev where
  /-- `open` works -/
  opens : Bool := true
  /-- the capabilities, if `VIDIOC_QUERYCAP` works -/
  caps : Option Nat
  driver : String
  /-- the formats of the capture queue -/
  captures : List Nat
  /-- the sizes for H.264 -/
  sizes : List Size
  /-- the formats of the output queue -/
  outs : List Nat
  /-- `VIDIOC_G_FMT` works -/
  gets : Bool := true
  /-- what `VIDIOC_S_FMT` makes of a format of the output queue; `none` if it fails -/
  setOut : Fmt → Option Fmt := some
  /-- the same for the capture queue -/
  setCapture : Fmt → Option Fmt := some

/-- an entry of /dev -/
structure Entry where
  name : String
  dev : Dev

/-- `V4L2_PIX_FMT_H264` -/
def h264 : Nat := fourcc 'H' '2' '6' '4'

/-- `V4L2_CAP_VIDEO_M2M_MPLANE | V4L2_CAP_STREAMING` -/
def requiredCaps : Nat := 0x4000 ||| 0x04000000

/-- `can_encode_to_h264`, v4l2m2m-impl.c 541-557 -/
def canEncode (d : Dev) : Bool := d.captures.contains h264

/-- `16 % step == 0` in C -/
def divides16 (step : Nat) : Outcome Bool :=
  if step = 0 then .ub "division by zero" else .ok (16 % step == 0)

/-- one round of the loop of `can_handle_frame_size`, v4l2m2m-impl.c 571-587: conditions after one that
does not hold are not evaluated -/
def sizeFits (s : Size) (w h : Nat) : Outcome Bool :=
  match s with
  | .discrete sw sh => .ok (sw == w && sh == h)
  | .steps minW maxW stepW minH maxH stepH =>
    if minW ≤ w ∧ w ≤ maxW ∧ minH ≤ h ∧ h ≤ maxH then
      match divides16 stepW with
      | .ok true => divides16 stepH
      | r => r
    else .ok false

/-- `can_handle_frame_size`, v4l2m2m-impl.c 559-590 -/
def canHandle : List Size → Nat → Nat → Outcome Bool
  | [], _, _ => .ok false
  | s :: ss, w, h =>
    match sizeFits s w h with
    | .ok false => canHandle ss w h
    | r => r

/-- `is_device_capable`, v4l2m2m-impl.c 592-610 -/
def isCapable (d : Dev) (w h : Nat) : Outcome Bool :=
  match d.caps with
  | none => .ok false
  | some caps =>
    if caps &&& requiredCaps ≠ requiredCaps then .ok false
    else if !canEncode d then .ok false
    else canHandle d.sizes w h

/-- `strncmp(entry->d_name, "video", 5) != 0`, v4l2m2m-impl.c 623 -/
def isVideo (name : String) : Bool := name.toList.take 5 == "video".toList

/-- `find_capable_device`, v4l2m2m-impl.c 612-643: the device that is left open -/
def find : List Entry → Nat → Nat → Outcome (Option Dev)
  | [], _, _ => .ok none
  | e :: es, w, h =>
    if !isVideo e.name then find es w h
    else if !e.dev.opens then find es w h
    else match isCapable e.dev w h with
      | .ok true => .ok (some e.dev)
      | .ok false => find es w h
      | .ub x => .ub x
      | .abort x => .abort x

/-- `v4l2_format_from_drm_bcm2835`, v4l2m2m-impl.c 196-211: the formats that the device has are not looked
at -/
def formatBcm2835 (drm : Nat) : Nat :=
  if drm = V4l2.Drm.xrgb8888 ∨ drm = V4l2.Drm.argb8888 then V4l2.Pix.rgba32
  else if drm = V4l2.Drm.bgrx8888 ∨ drm = V4l2.Drm.bgra8888 then V4l2.Pix.bgr32
  else 0

/-- `ALIGN_UP(n, 16)` for 32 bits -/
def alignUp16 (n : Nat) : Nat := (n + 15) % 4294967296 / 16 * 16

/-- `set_src_fmt`, v4l2m2m-impl.c 213-252: what the device is set to; `none` if the function fails. What
the driver answers is not looked at. -/
def setSrc (d : Dev) (drm w h : Nat) : Outcome (Option Fmt) := do
  let known ← supportedFormats d.outs
  let format := if d.driver = "bcm2835-codec" then formatBcm2835 drm else formatFromDrm known drm
  if format = 0 then return none
  if !d.gets then return none
  return d.setOut { pixfmt := format, width := alignUp16 w, height := alignUp16 h }

/-- `set_dst_fmt`, v4l2m2m-impl.c 254-277 -/
def setDst (d : Dev) (w h : Nat) : Option Fmt :=
  if !d.gets then none else d.setCapture { pixfmt := h264, width := w, height := h }

/-- what the encoder works with -/
structure Chosen where
  dev : Dev
  src : Fmt
  dst : Fmt

/-- the beginning of `h264_encoder_v4l2m2m_create`, v4l2m2m-impl.c 645-670 -/
def setup (es : List Entry) (drm w h : Nat) : Outcome (Option Chosen) := do
  match ← find es w h with
  | none => return none
  | some dev =>
    match ← setSrc dev drm w h with
    | none => return none
    | some src =>
      match setDst dev w h with
      | none => return none
      | some dst => return some { dev, src, dst }

/-- a plane of a buffer object: its stride and where it begins -/
structure Plane where
  stride : Nat
  offset : Nat
  deriving DecidableEq, Repr

/-- what the device is told of a plane of the framebuffer: where the data begin and how many bytes there
are, both `bytesused` and `length`, with the offset. `encode_buffer`, v4l2m2m-impl.c 486-499 -/
structure Told where
  offset : Nat
  size : Nat
  deriving DecidableEq, Repr

def tell (height : Nat) (p : Plane) : Told :=
  { offset := p.offset, size := p.stride * alignUp16 height % 4294967296 }

end Verif.Device
