import Verif.Basic

/-! # Model of the hardware H.264 encoder: src/enc/h264/v4l2m2m-impl.c

The device (a V4L2 memory-to-memory driver) is a parameter: it finishes source buffers and yields packets
in any order and at any time, but only source buffers that were queued, and packets only while it has
a destination buffer. -/

namespace Verif.V4l2

/-- `N_SRC_BUFS`, v4l2m2m-impl.c 39 -/
def nSrc : Nat := 3

/-- `N_DST_BUFS`, v4l2m2m-impl.c 40 -/
def nDst : Nat := 3

/-- `struct h264_encoder_v4l2m2m_src_buf`, v4l2m2m-impl.c 48-54; `fd` is `planes[0].m.fd` while the buffer is in
use -/
structure Src where
  taken : Bool := false
  fb : Option Nat := none
  fd : Option Nat := none
  deriving DecidableEq, Repr

/-- `struct h264_encoder_v4l2m2m`, v4l2m2m-impl.c 56-74, and the device.  Framebuffers are numbers. -/
structure State where
  src : List Src := List.replicate nSrc {}
  idx : Nat := 0
  /-- `next_frame_should_be_keyframe` -/
  key : Bool := false
  dead : Bool := false
  /-- device: source buffers being encoded, and the framebuffers it reads -/
  queued : List (Nat × Nat) := []
  /-- device: source buffers that can be dequeued -/
  finished : List Nat := []
  /-- device: packets that can be dequeued, by their time stamps -/
  ready : List Nat := []
  /-- device: destination buffers it may write to -/
  dstFree : Nat := nDst
  /-- framebuffers held by the encoder, each as often as it is held -/
  held : List Nat := []
  /-- descriptors the encoder owns -/
  fds : List Nat := []
  /-- the descriptor the kernel hands out next; none is handed out again, to tell them apart -/
  nextFd : Nat := 3
  /-- ghost: frames given to the device, with time stamp and whether a key frame was forced -/
  coded : List (Nat × Nat × Bool) := []
  /-- ghost: frames dropped -/
  dropped : List Nat := []
  /-- ghost: framebuffers released -/
  released : List Nat := []
  /-- ghost: packets the device wrote -/
  emitted : List Nat := []
  /-- ghost: packets passed to `on_packet_ready` -/
  delivered : List Nat := []
  deriving DecidableEq, Repr

/-- the loop of `take_src_buffer`, v4l2m2m-impl.c 99-103: the buffer it ends at, and the next index.
The first argument is the number of rounds left after this one. -/
def scan (src : List Src) : Nat → Nat → Nat × Nat
  | 0, i => (i, (i + 1) % nSrc)
  | n + 1, i =>
    if (src.getD i {}).taken then scan src n ((i + 1) % nSrc) else (i, (i + 1) % nSrc)

/-- `take_src_buffer`, v4l2m2m-impl.c 93-112 -/
def take (s : State) : Option (Nat × State) :=
  match scan s.src (nSrc - 1) s.idx with
  | (b, i) =>
    if (s.src.getD b {}).taken then none
    else some (b, { s with idx := i, src := s.src.set b { s.src.getD b {} with taken := true } })

/-- one source buffer of `process_src_bufs`, v4l2m2m-impl.c 383-393 -/
def claim (i : Nat) (s : State) : Outcome State :=
  match s.src[i]? with
  | none => .ub "src_bufs[buf.index] out of bounds"
  | some b =>
    match b.fd, b.fb with
    | some fd, some fb =>
      if fd ∈ s.fds then
        if fb ∈ s.held then
          .ok { s with src := s.src.set i { b with taken := false, fb := none, fd := none },
                       fds := s.fds.erase fd, held := s.held.erase fb, released := s.released ++ [fb] }
        else .ub "nvnc_fb_release without hold"
      else .ub "close of a descriptor that is not open"
    | _, _ => .ub "source buffer without framebuffer"

def claimAll : List Nat → State → Outcome State
  | [], s => .ok s
  | i :: l, s =>
    match claim i s with
    | .ok s => claimAll l s
    | .ub w => .ub w
    | .abort w => .abort w

/-- `process_src_bufs`, v4l2m2m-impl.c 367-395 -/
def processSrc (s : State) : Outcome State := claimAll s.finished { s with finished := [] }

/-- one round of the loop of `process_dst_bufs`, v4l2m2m-impl.c 339-364: a packet is passed on and its buffer queued
again.  What `on_packet_ready` does in between, such as feeding the next frame, is another operation. -/
def processDst (s : State) : State :=
  match s.ready with
  | [] => s
  | p :: l => { s with ready := l, delivered := s.delivered ++ [p], dstFree := s.dstFree + 1 }

/-- `encode_buffer`, v4l2m2m-impl.c 462-512, for a buffer object of `planes` planes, which has one at least; `ok` is whether
`VIDIOC_QBUF` succeeds -/
def encode (fb pts planes : Nat) (ok : Bool) (s : State) : Outcome State :=
  match take s with
  | none => .ok { s with dropped := s.dropped ++ [fb] }
  | some (b, s) =>
    if (s.src.getD b {}).fb ≠ none then .abort "!srcbuf->fb"
    else if 4 < planes then .ub "planes[4] out of bounds"
    else if ok then
      .ok { s with
        src := s.src.set b ⟨true, some fb, some s.nextFd⟩,
        held := s.held ++ [fb], fds := s.fds ++ [s.nextFd], nextFd := s.nextFd + 1,
        key := false, queued := s.queued ++ [(b, fb)], coded := s.coded ++ [(fb, pts, s.key)] }
    else .abort "Failed to enqueue buffer"

/-- `h264_encoder_v4l2m2m_feed`, v4l2m2m-impl.c 731-737 -/
def feed (fb pts planes : Nat) (ok : Bool) (s : State) : Outcome State :=
  match processSrc s with
  | .ok s => encode fb pts planes ok s
  | .ub w => .ub w
  | .abort w => .abort w

inductive Op where
  | feed (fb pts planes : Nat) (ok : Bool)
  /-- `h264_encoder_request_keyframe`, encoder.c 72-75 -/
  | keyframe
  /-- the descriptor of the device is readable, one round: `process_fd_events`, v4l2m2m-impl.c 514-518 -/
  | event
  /-- the device is done with a source buffer -/
  | finish (i : Nat)
  /-- the device has written a packet -/
  | packet (pts : Nat)
  /-- one round of `claim_all_src_bufs` in `h264_encoder_v4l2m2m_destroy`, v4l2m2m-impl.c 707-729; when no source
  buffer is taken any more the encoder is gone, otherwise it sleeps and tries again -/
  | destroy

def step (o : Op) (s : State) : Outcome State :=
  if s.dead then .ok s
  else match o with
  | .feed fb pts planes ok => feed fb pts planes ok s
  | .keyframe => .ok { s with key := true }
  | .event => .ok (processDst s)
  | .finish i =>
    if i ∈ s.queued.map Prod.fst then
      .ok { s with queued := s.queued.filter (fun q => q.1 ≠ i), finished := s.finished ++ [i] }
    else .ok s
  | .packet pts =>
    if 0 < s.dstFree then
      .ok { s with dstFree := s.dstFree - 1, ready := s.ready ++ [pts], emitted := s.emitted ++ [pts] }
    else .ok s
  | .destroy =>
    match processSrc s with
    | .ok s => .ok (if s.src.any (·.taken) then s else { s with dead := true })
    | .ub w => .ub w
    | .abort w => .abort w

def run : List Op → State → Outcome State
  | [], s => .ok s
  | o :: os, s =>
    match step o s with
    | .ok s => run os s
    | .ub w => .ub w
    | .abort w => .abort w

/-! ## Creation -/

def insert (f : Nat) : List Nat → List Nat
  | [] => [f]
  | g :: l => if f ≤ g then f :: g :: l else g :: insert f l

/-- `qsort` with `u32_cmp`, v4l2m2m-impl.c 123-128 -/
def sort : List Nat → List Nat
  | [] => []
  | f :: l => insert f (sort l)

/-- `get_supported_formats`, v4l2m2m-impl.c 130-151, called with room for 256 formats (217-219); the argument is what
the device enumerates.  `max_len` is not looked at. -/
def supportedFormats (enum : List Nat) : Outcome (List Nat) :=
  if 256 < enum.length then .ub "supported_formats[256] out of bounds" else .ok (sort enum)

/-- `alloc_dst_buffers`, v4l2m2m-impl.c 279-317: `count` is the number of buffers the driver grants, which may be less or
more than asked for; the result is how many are mapped -/
def allocDst (count : Nat) : Outcome Nat :=
  if nDst < count then .ub "dst_bufs[i] out of bounds" else .ok count

/-- `enqueue_dst_buffers`, v4l2m2m-impl.c 319-326: the driver refuses a buffer that it has not granted -/
def enqueueDst (count : Nat) : Outcome Unit :=
  if count < nDst then .abort "rc >= 0" else .ok ()

/-- the fourcc codes of drm_fourcc.h and videodev2.h, which are not part of the repository -/
def fourcc (a b c d : Char) : Nat := a.toNat + 256 * b.toNat + 65536 * c.toNat + 16777216 * d.toNat

namespace Drm
def rgbx8888 := fourcc 'R' 'X' '2' '4'
def rgba8888 := fourcc 'R' 'A' '2' '4'
def xrgb8888 := fourcc 'X' 'R' '2' '4'
def argb8888 := fourcc 'A' 'R' '2' '4'
def bgrx8888 := fourcc 'B' 'X' '2' '4'
def bgra8888 := fourcc 'B' 'A' '2' '4'
def xbgr8888 := fourcc 'X' 'B' '2' '4'
def abgr8888 := fourcc 'A' 'B' '2' '4'
end Drm

namespace Pix
def rgbx32 := fourcc 'X' 'B' '2' '4'
def rgba32 := fourcc 'A' 'B' '2' '4'
def xrgb32 := fourcc 'B' 'X' '2' '4'
def argb32 := fourcc 'B' 'A' '2' '4'
def rgb32 := fourcc 'R' 'G' 'B' '4'
def xbgr32 := fourcc 'X' 'R' '2' '4'
def abgr32 := fourcc 'A' 'R' '2' '4'
def bgr32 := fourcc 'B' 'G' 'R' '4'
def bgrx32 := fourcc 'R' 'X' '2' '4'
def bgra32 := fourcc 'R' 'A' '2' '4'
end Pix

/-- the loop of `bsearch` (C11 7.22.5.1, as C libraries have it) with `u32_cmp`, v4l2m2m-impl.c 123-128: `lo` and
`hi` are the ends of what is left; the first argument bounds the number of turns -/
def bsearchLoop (a : List Nat) (key : Nat) : Nat → Nat → Nat → Bool
  | 0, _, _ => false
  | n + 1, lo, hi =>
    if hi ≤ lo then false
    else match a[(lo + hi) / 2]? with
      | none => false
      | some x =>
        if key < x then bsearchLoop a key n lo ((lo + hi) / 2)
        else if x < key then bsearchLoop a key n ((lo + hi) / 2 + 1) hi
        else true

/-- `have_v4l2_format`, v4l2m2m-impl.c 153-157 -/
def haveFormat (known : List Nat) (f : Nat) : Bool := bsearchLoop known f (known.length + 1) 0 known.length

/-- `TRY_FORMAT`, v4l2m2m-impl.c 162-164 -/
def tryFormats (known : List Nat) : List Nat → Nat
  | [] => 0
  | f :: l => if haveFormat known f then f else tryFormats known l

/-- `v4l2_format_from_drm`, v4l2m2m-impl.c 159-194 -/
def formatFromDrm (known : List Nat) (drm : Nat) : Nat :=
  if drm = Drm.rgbx8888 ∨ drm = Drm.rgba8888 then tryFormats known [Pix.rgbx32, Pix.rgba32]
  else if drm = Drm.xrgb8888 ∨ drm = Drm.argb8888 then tryFormats known [Pix.xrgb32, Pix.argb32, Pix.rgb32]
  else if drm = Drm.bgrx8888 ∨ drm = Drm.bgra8888 then tryFormats known [Pix.xbgr32, Pix.abgr32, Pix.bgr32]
  else if drm = Drm.xbgr8888 ∨ drm = Drm.abgr8888 then tryFormats known [Pix.bgrx32, Pix.bgra32]
  else 0

end Verif.V4l2
