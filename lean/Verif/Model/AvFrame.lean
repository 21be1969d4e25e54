import Verif.Model.V4l2

/-!
# What FFmpeg is told about a framebuffer: src/enc/h264/ffmpeg-impl.c

Who owns the parts of the frame is the subject of `Verif.Model.Make`; here is what is written into them.
-/

namespace Verif.AvFrame


/-- The formats of libavutil/pixfmt.h that the encoder uses; the header is not part of the repository. -/
inductive AvFormat where
  | none | bgr0 | rgb0 | obgr | orgb
  deriving DecidableEq, Repr

/-- `drm_to_av_pixel_format`, ffmpeg-impl.c 87-105 -/
def avFormat (drm : Nat) : AvFormat :=
  if drm = V4l2.Drm.xrgb8888 ∨ drm = V4l2.Drm.argb8888 then .bgr0
  else if drm = V4l2.Drm.xbgr8888 ∨ drm = V4l2.Drm.abgr8888 then .rgb0
  else if drm = V4l2.Drm.rgbx8888 ∨ drm = V4l2.Drm.rgba8888 then .obgr
  else if drm = V4l2.Drm.bgrx8888 ∨ drm = V4l2.Drm.bgra8888 then .orgb
  else .none

/-- A plane of a buffer object, as libgbm's functions give it: a descriptor of the memory (negative if there is
none), the bytes from one line to the next, and where it begins. -/
structure Plane where
  fd : Int
  stride : Nat
  offset : Nat
  deriving DecidableEq, Repr

/-- `struct gbm_bo`, of libgbm -/
structure Bo where
  planes : List Plane
  format : Nat
  modifier : Nat
  deriving DecidableEq, Repr

/-- `AVDRMObjectDescriptor`, libavutil/hwcontext_drm.h -/
structure Object where
  fd : Int
  size : Nat
  modifier : Nat
  deriving DecidableEq, Repr

/-- `AVDRMPlaneDescriptor` -/
structure PlaneDesc where
  object : Nat
  offset : Nat
  pitch : Nat
  deriving DecidableEq, Repr

/-- `AVDRMFrameDescriptor` with its one layer -/
structure Desc where
  objects : List Object
  format : Nat
  planes : List PlaneDesc
  deriving DecidableEq, Repr

/-- The loop of `fb_to_avframe`, ffmpeg-impl.c 132-144, from plane `i` on. `stride * fb->height` is computed with
32 bits. -/
def describePlanes (modifier height : Nat) : Nat → List Plane → List (Object × PlaneDesc)
  | _, [] => []
  | i, p :: ps =>
    ({ fd := p.fd, size := p.stride * height % 4294967296, modifier },
      { object := i, offset := p.offset, pitch := p.stride }) :: describePlanes modifier height (i + 1) ps

/-- `fb_to_avframe`, ffmpeg-impl.c 119-144: the arrays have `AV_DRM_MAX_PLANES`, four, elements. -/
def describe (bo : Bo) (height : Nat) : Outcome Desc :=
  if 4 < bo.planes.length then .ub "objects[i] out of bounds"
  else
    let l := describePlanes bo.modifier height 0 bo.planes
    .ok { objects := l.map Prod.fst, format := bo.format, planes := l.map Prod.snd }

/-- A framebuffer from a buffer object: `nvnc_fb_from_gbm_bo`, src/fb.c 87-111. The size is cut to 16 bits there;
here it is what the framebuffer has. -/
structure Fb where
  bo : Bo
  width : Nat
  height : Nat
  deriving DecidableEq, Repr

/-- What the encoder was made for: `h264_encoder_ffmpeg_create`, ffmpeg-impl.c 544-549. -/
structure Encoder where
  width : Nat
  height : Nat
  format : Nat
  deriving DecidableEq, Repr

/-- `h264_encoder_ffmpeg_create`, ffmpeg-impl.c 513-596: `fine` says whether all that it needs is there; a format
that is not known is refused (550-551). -/
def create (fine : Bool) (width height format : Nat) : Option Encoder :=
  if fine ∧ avFormat format ≠ .none then some { width, height, format } else none

/-- What FFmpeg knows when it is given a frame: the frame's size (157-158) and descriptor, the pixel format and
size of its frames context (341-345, and 425), and the size of the picture that the codec makes (312-313). -/
structure Told where
  width : Nat
  height : Nat
  desc : Desc
  pixels : AvFormat
  context : Nat × Nat
  codec : Nat × Nat
  deriving DecidableEq, Repr

/-- `h264_encoder__do_work`, ffmpeg-impl.c 418-425, with `fb_to_avframe` (119-175). -/
def tell (e : Encoder) (fb : Fb) : Outcome Told :=
  match describe fb.bo fb.height with
  | .ok desc => .ok {
      width := fb.width, height := fb.height, desc, pixels := avFormat e.format
      context := (e.width, e.height), codec := (e.width, e.height) }
  | .ub w => .ub w
  | .abort w => .abort w

/-- `struct open_h264`, src/enc/h264/open-h264.c 40-62: what decides about a new encoder -/
structure Open where
  encoder : Option Encoder := none
  width : Nat := 0
  height : Nat := 0
  format : Nat := 0
  qualityChanged : Bool := false
  /-- ghost: what FFmpeg was told, and of which framebuffer, latest first -/
  told : List (Fb × Told) := []
  deriving DecidableEq, Repr

/-- `open_h264_resize`, src/enc/h264/open-h264.c 135-158 -/
def resize (fine : Bool) (fb : Fb) (s : Open) : Option Open :=
  match create fine fb.width fb.height fb.bo.format with
  | none => none
  | some e => some { s with
      encoder := some e, width := fb.width, height := fb.height
      format := fb.bo.format, qualityChanged := false }

/-- `h264_encoder_feed`, src/enc/h264/encoder.c 67-70, and what becomes of the frame. The work is done at some
later time; nothing of what it is told can change until then. -/
def feed (fb : Fb) (s : Open) : Outcome Open :=
  if s.width = 0 ∨ s.height = 0 then .abort "self->width && self->height"
  else match s.encoder with
    | none => .ub "NULL is dereferenced"
    | some e =>
      match tell e fb with
      | .ok t => .ok { s with told := (fb, t) :: s.told }
      | .ub w => .ub w
      | .abort w => .abort w

/-- `open_h264_encode`, src/enc/h264/open-h264.c 160-182 -/
def encode (fine : Bool) (fb : Fb) (s : Open) : Outcome Open :=
  if fb.width ≠ s.width ∨ fb.height ≠ s.height ∨ fb.bo.format ≠ s.format ∨ s.qualityChanged = true then
    match resize fine fb s with
    | none => .ok s
    | some s => feed fb s
  else feed fb s

inductive Op where
  | encode (fine : Bool) (fb : Fb)
  /-- `open_h264_set_quality` with another level, src/enc/h264/open-h264.c 191-197 -/
  | quality
  deriving DecidableEq, Repr

def step (o : Op) (s : Open) : Outcome Open :=
  match o with
  | .encode fine fb => encode fine fb s
  | .quality => .ok { s with qualityChanged := true }

def run : List Op → Open → Outcome Open
  | [], s => .ok s
  | o :: os, s =>
    match step o s with
    | .ok s => run os s
    | .ub w => .ub w
    | .abort w => .abort w

end Verif.AvFrame
