import Verif.Model.Vec
import Verif.Model.Flow

/-!
# The H.264 encoder

src/enc/h264/open-h264.c, the interface in src/enc/h264/encoder.c, and the queue of
src/enc/h264/ffmpeg-impl.c.  What libavcodec makes of a frame is a parameter, and so is what memory allocation does
and whether an encoder can be created.  The worker is a job between `start` and `done`.  The V4L2 implementation is
not modelled.  In ffmpeg-impl.c the reference to a frame goes with the hold.
-/

namespace Verif.H264
open Verif.Vec

/-- a frame, as far as it matters here -/
structure Fb where
  id : Nat
  width : Nat
  height : Nat
  format : Nat
  pts : Nat
  gbm : Bool                    -- type is NVNC_FB_GBM_BO
  normal : Bool                 -- transform is NVNC_TRANSFORM_NORMAL
  deriving Repr, DecidableEq

/-- struct encoded_frame: payload, n_rects, width, height and pts (`none` for NVNC_NO_PTS) -/
structure Frame where
  payload : Bytes
  nRects : Nat
  width : Nat
  height : Nat
  pts : Option Nat
  deriving Repr, DecidableEq

/-- what can be seen -/
inductive Eff where
  | refused                                         -- encoder_encode returns -1
  | create (width height format : Nat) (qp : Int)   -- an encoder is created
  | asked                                           -- a key frame is asked for
  | hold (fb : Nat)                                 -- nvnc_fb_hold
  | start (fb : Nat) (key : Bool)                   -- a job is started
  | release (fb : Nat)                              -- nvnc_fb_release
  | coded (fb : Fb) (out : Bytes)                   -- a job is done; what the codec gave
  | finish (r : Option Frame)                       -- encoder_finish_frame
  deriving Repr, DecidableEq

/-! ## ffmpeg-impl.c -/

/-- struct h264_encoder_ffmpeg, ffmpeg-impl.c 53-84, with next_frame_should_be_keyframe of the base -/
structure Ff where
  width : Nat
  height : Nat
  format : Nat
  qp : Int
  current : Option Fb
  queue : List Fb
  nextKey : Bool
  pleaseDestroy : Bool
  deriving Repr, DecidableEq

/-- h264_encoder_ffmpeg_create, ffmpeg-impl.c 513-596, when nothing fails -/
def ffCreate (width height format : Nat) (qp : Int) : Ff := ⟨width, height, format, qp, none, [], true, false⟩

/-- h264_encoder__schedule_work, ffmpeg-impl.c 353-368 -/
def schedule (e : Ff) : Ff × List Eff :=
  match e.current, e.queue with
  | some _, _ => (e, [])
  | none, [] => (e, [])
  | none, fb :: q => ({ e with current := some fb, queue := q, nextKey := false }, [.start fb.id e.nextKey])

/-- h264_encoder_ffmpeg_feed, ffmpeg-impl.c 616-632 -/
def ffFeed (fb : Fb) (e : Ff) : Outcome (Ff × List Eff) :=
  if fb.gbm = false then .abort "fb->type == NVNC_FB_GBM_BO"
  else if fb.normal = false then .abort "fb->transform == NVNC_TRANSFORM_NORMAL"
  else
    let (e, es) := schedule { e with queue := e.queue ++ [fb] }
    .ok (e, .hold fb.id :: es)

/-- h264_encoder_ffmpeg_destroy, ffmpeg-impl.c 598-614: the encoder when it has to live on.  The queue
is forgotten. -/
def ffDestroy (e : Ff) : Option Ff :=
  match e.current with
  | some _ => some { e with pleaseDestroy := true }
  | none => none

/-- the copy of the packet in h264_encoder__on_work_done, ffmpeg-impl.c 481-484 -/
def copyPacket (m m' : Heap) (out : Bytes) : Outcome Bytes := do
  let (v, _) ← step (.append m' out) (init m out.length).1
  .ok v.bytes

/-! ## open-h264.c -/

/-- struct open_h264, open-h264.c 35-52; `x` and `y` are of the parent -/
structure Oh where
  x : Nat
  y : Nat
  encoder : Option Ff
  pending : Vec
  pts : Option Nat
  width : Nat
  height : Nat
  format : Nat
  needsReset : Bool
  quality : Int
  qualityChanged : Bool
  deriving Repr, DecidableEq

/-- memory for a packet -/
structure Mem where
  copy : Heap
  copy' : Heap
  append : Heap
  init : Heap
  rect : Heap
  header : Heap
  frame : Bool

/-- open_h264_init_pending, open-h264.c 93-102 -/
def initPending (m m' m'' : Heap) : Outcome (Vec × Bool) :=
  match init m 4096 with
  | (v, false) => .ok (v, false)
  | (v, true) => do
    let (v, _) ← step (.appendZero m' 12) v
    let (v, _) ← step (.appendZero m'' 8) v
    .ok (v, true)

/-- open_h264_new, open-h264.c 104-122 -/
def new (x y : Nat) (m m' m'' : Heap) : Outcome (Option Oh) := do
  let (v, ok) ← initPending m m' m''
  if ok then .ok (some ⟨x, y, none, v, none, 0, 0, 0, false, 6, false⟩) else .ok none

/-- OPEN_H264_FLAG_RESET_CONTEXT, open-h264.c 55 -/
def resetContext : Nat := 0

/-- the bytes of the two headers, open-h264.c 196-207; the encoding is 50 -/
def headers (o : Oh) (size flags : Nat) : Bytes :=
  be16 o.x ++ be16 o.y ++ be16 o.width ++ be16 o.height ++ be32 50 ++ be32 size ++ be32 flags

/-- payload_size, open-h264.c 185-187: it wraps -/
def payloadSize (len : Nat) : Nat := if 20 ≤ len then len - 20 else len + sizeT - 20

/-- open_h264_pull, open-h264.c 181-218 -/
def pull (a : Mem) (o : Oh) : Outcome (Oh × Option Frame) :=
  if payloadSize o.pending.len = 0 then .ok (o, none)
  else do
    let d ← writeAt o.pending.data 0 (headers o (payloadSize o.pending.len) (if o.needsReset then resetContext else 0))
    let payload ← readAt d 0 o.pending.len
    let (v, _) ← initPending a.init a.rect a.header
    .ok ({ o with pts := none, needsReset := false, pending := v },
      if a.frame then some ⟨payload, 1, o.width % 65536, o.height % 65536, o.pts⟩ else none)

/-- open_h264_handle_packet, open-h264.c 70-91 -/
def handlePacket (a : Mem) (data : Bytes) (pts : Nat) (o : Oh) : Outcome (Oh × List Eff) :=
  if 100000000 < o.pending.len then .ok (o, [])
  else do
    let (v, _) ← step (.append a.append data) o.pending
    let (o, r) ← pull a { o with pending := v, pts := some pts }
    .ok (o, [.finish r])

/-- h264_encoder__on_work_done, ffmpeg-impl.c 456-491, with the callback; `out` is in current_packet -/
def workDone (a : Mem) (out : Bytes) (o : Oh) : Outcome (Oh × List Eff) :=
  match o.encoder with
  | none => .ok (o, [])
  | some e => match e.current with
    | none => .ok (o, [])
    | some fb =>
      if out = [] then
        .ok ({ o with encoder := some { e with current := none } }, [.release fb.id, .coded fb out])
      else do
        let data ← copyPacket a.copy a.copy' out
        let (e, es) := schedule { e with current := none }
        let (o, es') ← handlePacket a data fb.pts { o with encoder := some e }
        .ok (o, [.release fb.id, .coded fb out] ++ es ++ es')

/-- `51 - round((50.0 / 9.0) * quality)`, open-h264.c 137 -/
def qp (quality : Int) : Int := 51 - Flow.roundDiv (50 * quality) 9

/-- open_h264_resize, open-h264.c 135-161; `created` is whether an encoder could be created.  The old one is
returned when it has a job. -/
def resize (created : Bool) (fb : Fb) (o : Oh) : Option (Oh × Option Ff × List Eff) :=
  if created then
    some ({ o with encoder := some (ffCreate fb.width fb.height fb.format (qp o.quality)), width := fb.width,
                   height := fb.height, format := fb.format, needsReset := true, qualityChanged := false },
      o.encoder.bind ffDestroy, [.create fb.width fb.height fb.format (qp o.quality)])
  else none

/-- the end of open_h264_encode, open-h264.c 174-178 -/
def encodeWith (fb : Fb) (o : Oh) : Outcome (Oh × List Eff) :=
  if o.width = 0 ∨ o.height = 0 then .abort "self->width && self->height"
  else match o.encoder with
    | none => .ub "NULL encoder"
    | some e => do
      let (e, es) ← ffFeed fb e
      .ok ({ o with encoder := some e }, es)

/-- open_h264_encode, open-h264.c 163-179 -/
def encode (created : Bool) (fb : Fb) (o : Oh) : Outcome (Oh × Option Ff × List Eff) :=
  if fb.width ≠ o.width ∨ fb.height ≠ o.height ∨ fb.format ≠ o.format ∨ o.qualityChanged then
    match resize created fb o with
    | none => .ok (o, none, [.refused])
    | some (o, old, es) => do
      let (o, es') ← encodeWith fb o
      .ok (o, old, es ++ es')
  else do
    let (o, es) ← encodeWith fb o
    .ok (o, none, es)

/-- open_h264_request_keyframe, open-h264.c 220-224 -/
def requestKey (o : Oh) : Outcome Oh :=
  match o.encoder with
  | none => .ub "NULL encoder"
  | some e => .ok { o with encoder := some { e with nextKey := true } }

/-- open_h264_set_quality, open-h264.c 226-233 -/
def setQuality (value : Int) (o : Oh) : Oh :=
  let value := if value = 10 then 6 else value
  { o with qualityChanged := o.qualityChanged || o.quality ≠ value, quality := value }

/-! ## All of it -/

/-- an encoder of a client, if it was not destroyed, and the codecs that are to be destroyed when their job is done -/
structure Sys where
  oh : Option Oh
  old : List Ff
  deriving Repr, DecidableEq

inductive Ev where
  | encode (fb : Fb) (created : Bool)
  | done (out : Bytes) (a : Mem)
  | oldDone (i : Nat) (out : Bytes)
  | quality (value : Int)
  | key
  | destroy

/-- one event; what cannot occur changes nothing -/
def step (s : Sys) : Ev → Outcome (Sys × List Eff)
  | .encode fb created => match s.oh with
    | none => .ok (s, [])
    | some o => do
      let (o, old, es) ← encode created fb o
      .ok (⟨some o, s.old ++ old.toList⟩, es)
  | .done out a => match s.oh with
    | none => .ok (s, [])
    | some o => do
      let (o, es) ← workDone a out o
      .ok (⟨some o, s.old⟩, es)
  -- h264_encoder__on_work_done, ffmpeg-impl.c 456-470
  | .oldDone i _ => match s.old[i]? with
    | none => .ok (s, [])
    | some e => .ok (⟨s.oh, s.old.eraseIdx i⟩, (e.current.map fun fb => Eff.release fb.id).toList)
  | .quality value => .ok (⟨s.oh.map (setQuality value), s.old⟩, [])
  | .key => match s.oh with
    | none => .ok (s, [])
    | some o => do
      let o ← requestKey o
      .ok (⟨some o, s.old⟩, [.asked])
  -- open_h264_destroy, open-h264.c 124-133
  | .destroy => match s.oh with
    | none => .ok (s, [])
    | some o => .ok (⟨none, s.old ++ (o.encoder.bind ffDestroy).toList⟩, [])

def run (s : Sys) : List Ev → Outcome (Sys × List Eff)
  | [] => .ok (s, [])
  | e :: evs => do
    let (s, es) ← step s e
    let (s, es') ← run s evs
    .ok (s, es ++ es')

end Verif.H264
