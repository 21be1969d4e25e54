import Verif.Basic

/-!
# The per-client side of the server (src/server.c, src/auth/*.c)

One client of one server: the receive buffer, the handshake, the message handlers, the update
flow and the fences.  Everything the client's bytes, the encoder's completions and the
application's calls can do to the client is a function on `St`; everything the outside world can
observe (bytes written, callbacks called, frames handed to the encoder, …) is appended to
`St.log`.

Simplifications (all on the environment side):
* cryptographic primitives, zlib, the clock, the bandwidth estimate and the answers of the
  application callbacks are functions in `Env`, arbitrary but fixed during one event;
* callbacks do not re-enter the library; a callback that is not set behaves like one that
  does nothing, so the log shows it as called;
* memory allocation does not fail;
* a write error does not close the stream in the middle of an event (a closed stream is
  announced by its own event);
* WebSocket streams answer reads like plain ones (their own framing is in `Model/Ws`);
* regions are lists of rectangles with unbounded coordinates (pixman's are 16 bit);
* the build has TLS, crypto and H.264 enabled (`ENABLE_EXPERIMENTAL` is a flag of `Env`).
-/

namespace Verif.Server

/-! ## Constants of include/rfb-proto.h 28-159 and include/common.h 38-43 -/

def encRaw : Int := 0
def encCopyRect : Int := 1
def encRre : Int := 2
def encHextile : Int := 5
def encTight : Int := 7
def encTrle : Int := 15
def encZrle : Int := 16
def encH264 : Int := 50
def encCursor : Int := -239
def encDesktopSize : Int := -223
def encQemuKey : Int := -258
def encQemuLed : Int := -261
def encExtDesktopSize : Int := -308
def encFence : Int := -312
def encContUpdates : Int := -313
def encPts : Int := -1000
def encNtp : Int := -1001
def encVmwareLed : Int := 1464686184
def encExtClipboard : Int := -1063131698

def msgBufferSize : Nat := 4096
def maxEncodings : Nat := 32
def maxCutText : Nat := 10000000

def secNone : Nat := 1
def secRsaAes : Nat := 5
def secVencrypt : Nat := 19
def secAppleDh : Nat := 30
def secRsaAes256 : Nat := 129

/-- rfb_fence_flags, rfb-proto.h 152-159, those that are used -/
def fenceBlockBefore : Nat := 1
def fenceBlockAfter : Nat := 2
def fenceRequest : Nat := 2147483648

/-- rfb_ext_clipboard_flags, rfb-proto.h 134-150 (bit numbers) -/
def clipText : Nat := 0
def clipCaps : Nat := 24
def clipRequest : Nat := 25
def clipPeek : Nat := 26
def clipNotify : Nat := 27
def clipProvide : Nat := 28

/-! ## Types -/

/-- enum nvnc_client_state, common.h 45-63 -/
inductive CState where
  | error | version | security
  | veVersion | veSubtype | vePlain
  | appleDh
  | rsaPubKey | rsaChallenge | rsaHash | rsaCreds
  | init | ready
  deriving Repr, DecidableEq

/-- the kind of `net_stream` -/
inductive Chan where
  | plain | tls | rsa
  deriving Repr, DecidableEq

structure Rect where
  x : Nat
  y : Nat
  w : Nat
  h : Nat
  deriving Repr, DecidableEq

/-- `struct pixman_region16`, as a list of rectangles -/
abbrev Region := List Rect

/-- does the region contain the pixel? -/
def Region.Has (r : Region) (px py : Nat) : Prop :=
  ∃ q ∈ r, q.x ≤ px ∧ px < q.x + q.w ∧ q.y ≤ py ∧ py < q.y + q.h

/-- `pixman_region_not_empty` -/
def Region.notEmpty (r : Region) : Bool := r.any fun q => decide (0 < q.w) && decide (0 < q.h)

/-- one rectangle of `pixman_region_intersect_rect` -/
def Rect.inter (a b : Rect) : Rect :=
  let x1 := max a.x b.x
  let y1 := max a.y b.y
  { x := x1, y := y1, w := min (a.x + a.w) (b.x + b.w) - x1,
    h := min (a.y + a.h) (b.y + b.h) - y1 }

/-- `pixman_region_intersect_rect` -/
def Region.clip (r : Region) (q : Rect) : Region := r.map fun p => p.inter q

/-- struct rfb_pixel_format, rfb-proto.h 171-183 -/
structure PixFmt where
  bpp : Nat
  depth : Nat
  bigEndian : Nat
  trueColour : Nat
  rmax : Nat
  gmax : Nat
  bmax : Nat
  rshift : Nat
  gshift : Nat
  bshift : Nat
  deriving Repr, DecidableEq

/-- the displayed frame buffer: size, what `rfb_pixfmt_from_fourcc` makes of its format,
whether it is a GBM buffer -/
structure Fb where
  w : Nat
  h : Nat
  fmt : Option PixFmt
  gbm : Bool
  deriving Repr, DecidableEq

/-- what `encoder_encode` is given: the buffer and its damage, and the encoder itself, server.c 949 -/
structure Job where
  fb : Fb
  dmg : Region
  id : Nat
  deriving Repr, DecidableEq

/-- struct cut_text, common.h 80-86; `data` is the part received so far (`index` bytes) -/
structure Cut where
  len : Nat
  data : Bytes
  zlib : Bool
  provide : Bool
  deriving Repr, DecidableEq

/-- one screen of a desktop layout as handed to the application -/
structure Screen where
  id : Nat
  x : Nat
  y : Nat
  w : Nat
  h : Nat
  deriving Repr, DecidableEq

structure Layout where
  w : Nat
  h : Nat
  screens : List Screen
  deriving Repr, DecidableEq

/-- which message a write belongs to (for reading the log only) -/
inductive Kind where
  | version | secTypes | secOk | secFail | badVersion
  | veVersion | veAck | veSubtypes | appleKey | rsaKey | rsaChallenge | rsaHash | rsaSubtype
  | serverInit | colourMap | endOfCont | fence | clip | cutText
  | extSupport | cursor | led | desktopSize | ntp
  | updateHead | resizeRect | ptsRect | frame
  deriving Repr, DecidableEq

/-- the messages a server sends before the session starts (for reading the log only) -/
def Kind.handshake : Kind → Bool
  | .version | .secTypes | .secOk | .secFail | .badVersion
  | .veVersion | .veAck | .veSubtypes | .appleKey | .rsaKey | .rsaChallenge | .rsaHash
  | .rsaSubtype => true
  | _ => false

/-- an encoded frame as delivered by an encoder (`struct encoded_frame`) -/
structure Frame where
  nRects : Nat
  w : Nat
  h : Nat
  pts : Option Nat
  payload : Bytes
  deriving Repr, DecidableEq

/-- observable effects; `msg` is a ghost entry recording what the receive loop consumed, `contOn`,
`fenceReq`, `encodeDone` and `damaged` are ghost entries recording that continuous updates were enabled,
that a fence request was accepted (it stays in the buffer if it is not), that the encoder reported a finished frame
and that the application damaged a region while the client was connected; so are `encodings` (the encodings a client selected),
`pixFmt` (the pixel format that it set, or the one it gets with a colour map), `ledSet` (nvnc_client_set_led_state), `clipMsg` (a complete extended clipboard message) and `offered`
(the application's text in nvnc_send_cut_text, for an open connection) -/
inductive Eff where
  | send (ch : Chan) (k : Kind) (b : Bytes)
  | upgrade (ch : Chan)
  | auth (user pass : Bytes) (ok : Bool)
  | newClient
  | key (sym : Nat) (down : Bool)
  | keyCode (code : Nat) (down : Bool)
  | pointer (x y mask : Nat)
  | fbReq (incremental : Bool) (x y w h : Nat)
  | cutText (b : Bytes)
  | layout (l : Layout)
  | disconnectOthers
  | deferClose
  | encode (enc : Int) (job : Job) (fmt : PixFmt) (quality : Int)
  | encodeFail
  | msg (st : CState) (ch : Chan) (b : Bytes) (plain : Nat)
  | contOn
  | encodeDone (f : Frame)
  | damaged (r : Region)
  | encodings (es : List Int)
  | ledSet (v : Int)
  | clipMsg (flags : Nat) (data : Bytes)
  | offered (text : Bytes)
  | fenceReq (flags : Nat) (payload : Bytes)
  | pixFmt (f : PixFmt)
  deriving Repr, DecidableEq

/-- what the kernel answers to one `stream_read` (through whatever stream is on top of it) -/
inductive Read where
  | data (b : Bytes)
  | again
  | closed
  | err
  deriving Repr, DecidableEq

/-- the part of `struct nvnc` (common.h 171-211) a client depends on -/
structure Srv where
  requireAuth : Bool
  requireEnc : Bool
  hasAuthFn : Bool
  hasTls : Bool
  secTypes : List Nat          -- n_security_types / security_types
  name : Bytes                 -- up to the terminator
  fb : Option Fb               -- display && display->buffer
  cursorSeq : Nat
  provideMsg : Option Bytes    -- ext_clipboard_provide_msg
  nDamageClients : Int
  deriving Repr, DecidableEq

/-- `struct nvnc_client` (common.h 88-149) -/
structure Client where
  st : CState
  chan : Chan
  username : Bytes             -- up to the terminator
  rsa256 : Bool                -- hash_type / cipher_type / challenge_len
  rsaKeyLen : Nat              -- crypto_rsa_pub_key_length(client->rsa.pub)
  buf : Bytes                  -- msg_buffer[0 .. buffer_len)
  idx : Nat                    -- buffer_index
  plain : Nat                  -- ghost: how many of the unread bytes arrived in plain text
  pix : PixFmt
  encodings : List Int         -- encodings[0 .. n_encodings)
  quality : Int
  formatsChanged : Bool
  contNotified : Bool          -- is_continuous_updates_notified
  cut : Option Cut
  clipCaps : Nat               -- ext_clipboard_caps
  clipMax : Nat                -- ext_clipboard_max_unsolicited_text_size
  knownW : Nat
  knownH : Nat
  closed : Bool                -- net_stream->state == STREAM_STATE_CLOSED
  closePending : Bool          -- a write with close_after_write is in the send queue
  nDefer : Nat                 -- scheduled do_deferred_client_close calls
  freed : Bool                 -- client_close has run
  encoding : Bool              -- the encoder is working on a frame of this client
  writing : Bool               -- a frame is in the send queue
  nPending : Int               -- n_pending_requests
  isUpdating : Bool
  extNotified : Bool
  cont : Bool                  -- continuous_updates_enabled
  contRect : Rect
  encoder : Option Int         -- encoder (by type)
  encId : Nat                  -- which encoder it is (the address)
  kept : List (Int × Nat)      -- zrle_encoder, tight_encoder (those that are not NULL)
  nEncs : Nat                  -- ghost: how many encoders were created
  damage : Region
  cursorSeq : Nat
  led : Int
  pendingLed : Int
  blocked : Bool               -- is_blocked_by_fence
  mustBlock : Bool             -- must_block_after_next_message
  pfN : Int                    -- pending_fence.n_pending_requests
  pfFlags : Nat
  pfPayload : Bytes
  inflight : Int
  deriving Repr, DecidableEq

structure St where
  srv : Srv
  cl : Client
  net : List Read              -- answers to the reads made by nested calls of on_client_event
  log : List Eff
  deriving Repr, DecidableEq

/-- what becomes of a write with `close_after_write` inside `stream_write`: it is sent, it stays in
the queue, or the peer turns out to be gone (EPIPE, stream/tcp.c 108-111) -/
inductive WriteRes where
  | sent | queued | broken
  deriving Repr, DecidableEq

/-- everything outside the modelled code -/
structure Env where
  experimental : Bool                            -- ENABLE_EXPERIMENTAL
  now : Nat                                      -- gettime_us, truncated to 32 bit
  authFn : Bytes → Bytes → Bool                  -- server->auth_fn
  layoutFn : Layout → Bool                       -- server->desktop_layout_fn
  tlsOk : Bool                                   -- stream_upgrade_to_tls ≥ 0
  appleKey : Bytes                               -- what apple_dh_send_public_key writes
  appleDecrypt : Bytes → Bytes → Bytes           -- client public key, ciphertext ↦ 128 bytes
  rsaKey : Bytes                                 -- what rsa_aes_send_public_key writes
  rsaKeySize : Bytes → Bytes → Nat               -- modulus, exponent ↦ key.size
  -- encrypted challenge for a key, if it can be encrypted with it (src/crypto/nettle/rsa.c 196-210)
  rsaChallenge : Bytes → Bytes → Option Bytes
  rsaDecrypt : Bytes → Option Bytes              -- decryption of the client's challenge
  serverHash : Bytes → Bytes                     -- server_hash (depends on the client random)
  clientHash : Bytes                             -- the hash expected from the client
  stale : Nat → UInt8                            -- contents of msg_buffer past buffer_len
  inflate1 : Bytes → Option Bytes                -- first inflate (avail_out = 4): Z_OK and output
  inflate2 : Bytes → Nat → Option Bytes          -- second inflate: not an error, and output
  h264Works : Bool                               -- have_working_h264_encoder
  encNew : Int → Bool                            -- encoder_new succeeds
  encodeOk : Bool                                -- encoder_encode ≥ 0
  cursorMsg : PixFmt → Option Bytes              -- cursor_encode
  maxInflight : Option Int                       -- none if there is no bandwidth estimate
  lastWrite : WriteRes                           -- fate of a write that closes the connection
  sentAtOnce : Bool                              -- a frame's write completes inside stream_send

/-! ## Small helpers -/

/-- assignment to fields of the client -/
def St.upd (s : St) (f : Client → Client) : St := { s with cl := f s.cl }

@[simp] theorem St.upd_cl (s : St) (f) : (s.upd f).cl = f s.cl := rfl
@[simp] theorem St.upd_srv (s : St) (f) : (s.upd f).srv = s.srv := rfl
@[simp] theorem St.upd_net (s : St) (f) : (s.upd f).net = s.net := rfl
@[simp] theorem St.upd_log (s : St) (f) : (s.upd f).log = s.log := rfl

def emit (e : Eff) (s : St) : St := { s with log := s.log ++ [e] }

@[simp] theorem emit_cl (e s) : (emit e s).cl = s.cl := rfl
@[simp] theorem emit_srv (e s) : (emit e s).srv = s.srv := rfl
@[simp] theorem emit_net (e s) : (emit e s).net = s.net := rfl
@[simp] theorem emit_log (e s) : (emit e s).log = s.log ++ [e] := rfl

/-- `stream_write`/`stream_send`: nothing happens on a closed stream -/
def send (k : Kind) (b : Bytes) (s : St) : St :=
  if s.cl.closed then s else emit (.send s.cl.chan k b) s

@[simp] theorem send_cl (k b s) : (send k b s).cl = s.cl := by unfold send; split <;> rfl
@[simp] theorem send_srv (k b s) : (send k b s).srv = s.srv := by unfold send; split <;> rfl
@[simp] theorem send_net (k b s) : (send k b s).net = s.net := by unfold send; split <;> rfl
@[simp] theorem send_log (k b s) : (send k b s).log =
    s.log ++ (if s.cl.closed then [] else [.send s.cl.chan k b]) := by
  unfold send; split <;> simp [*]

/-- two's complement reading of a 32-bit value -/
def toInt32 (n : Nat) : Int := if n < 2147483648 then (n : Int) else (n : Int) - 4294967296

/-- `htonl` of a signed value -/
def be32i (i : Int) : Bytes := be32 (i % 4294967296).toNat

/-- a C string stored in a byte buffer -/
def cstr (b : Bytes) : Bytes := b.takeWhile (· != 0)

/-- client_has_encoding, server.c 2478-2486 -/
def hasEnc (c : Client) (e : Int) : Bool := c.encodings.contains e

/-- choose_frame_encoding, server.c 2453-2476 -/
def chooseEncoding (env : Env) (fb : Fb) : List Int → Int
  | [] => encRaw
  | e :: rest =>
    if e = encRaw ∨ e = encTight ∨ e = encZrle then e
    else if e = encH264 then
      if !fb.gbm then chooseEncoding env fb rest
      else if !env.h264Works then chooseEncoding env fb rest
      else e
    else chooseEncoding env fb rest

/-- struct rfb_pixel_format in network byte order -/
def pixfmtBytes (p : PixFmt) : Bytes :=
  [UInt8.ofNat p.bpp, UInt8.ofNat p.depth, UInt8.ofNat p.bigEndian, UInt8.ofNat p.trueColour]
  ++ be16 p.rmax ++ be16 p.gmax ++ be16 p.bmax
  ++ [UInt8.ofNat p.rshift, UInt8.ofNat p.gshift, UInt8.ofNat p.bshift, 0, 0, 0]

/-- struct rfb_server_fb_update_msg, rfb-proto.h 289-293 -/
def updateHead (n : Nat) : Bytes := [0, 0] ++ be16 n

/-- struct rfb_server_fb_rect, rfb-proto.h 262-268 -/
def rectHead (x y w h : Nat) (enc : Int) : Bytes :=
  be16 x ++ be16 y ++ be16 w ++ be16 h ++ be32i enc

/-! ## Fences -/

/-- send_fence, server.c 582-596 -/
def sendFence (flags : Nat) (payload : Bytes) (s : St) : Outcome St :=
  if 64 < payload.length then .abort "send_fence: length <= 64"
  else .ok (send .fence ([248, 0, 0, 0] ++ be32 flags ++ [UInt8.ofNat payload.length] ++ payload) s)

/-- send_ping, server.c 598-614 -/
def sendPing (env : Env) (prevSize : Nat) (s : St) : Outcome St :=
  if !hasEnc s.cl encFence then .ok s
  else
    let s := s.upd fun k => { k with inflight := k.inflight + prevSize }
    sendFence (fenceRequest + fenceBlockBefore) (be32 env.now ++ be32 prevSize) s

/-- process_pending_fence, server.c 2419-2436.  `reenter` stands for the nested call of
on_client_event. -/
def processPendingFence (reenter : St → Outcome St) (s : St) : Outcome St :=
  if s.cl.pfN = 0 then
    if s.cl.blocked then .abort "process_pending_fence: !is_blocked_by_fence" else .ok s
  else
    let n := s.cl.pfN - 1
    let s := s.upd fun k => { k with pfN := n }
    if n ≠ 0 then .ok s
    else do
      let s ← sendFence s.cl.pfFlags s.cl.pfPayload s
      let s := s.upd fun k => { k with pfN := 0, pfFlags := 0, pfPayload := [], blocked := false }
      reenter s

/-! ## Framebuffer updates -/

/-- decrement_pending_requests, server.c 828-835; the flag says whether the result is positive -/
def decrementPending (reenter : St → Outcome St) (s : St) : Outcome (St × Bool) :=
  if s.cl.isUpdating then .abort "decrement_pending_requests: !is_updating"
  else if s.cl.cont then .ok (s, true)
  else do
    let s ← processPendingFence reenter s
    let s := s.upd fun k => { k with nPending := k.nPending - 1 }
    .ok (s, decide (0 < s.cl.nPending))

/-- send_ext_support_frame, server.c 2593-2623; the flag is its result -/
def sendExtSupport (s : St) : St × Bool :=
  let q := hasEnc s.cl encQemuKey
  let n := hasEnc s.cl encNtp
  let cnt := (if q then 1 else 0) + (if n then 1 else 0)
  if cnt = 0 then (s, false)
  else
    let b := updateHead cnt ++ (if q then rectHead 0 0 0 0 encQemuKey else []) ++
      (if n then rectHead 0 0 0 0 encNtp else [])
    (send .extSupport b s, true)

/-- process_fb_update_requests, server.c 883-890 -/
def stageExt (reenter : St → Outcome St) (s : St) : Outcome (St × Bool) :=
  if s.cl.extNotified then .ok (s, true)
  else
    let s := s.upd fun k => { k with extNotified := true }
    match sendExtSupport s with
    | (s, true) => decrementPending reenter s
    | (s, false) => .ok (s, true)

/-- send_cursor_update, server.c 697-724 -/
def sendCursor (env : Env) (s : St) : St :=
  match env.cursorMsg s.cl.pix with
  | none => s
  | some b =>
    send .cursor (updateHead 1 ++ b) (s.upd fun k => { k with cursorSeq := s.srv.cursorSeq })

/-- process_fb_update_requests, server.c 892-898 -/
def stageCursor (env : Env) (reenter : St → Outcome St) (s : St) : Outcome (St × Bool) :=
  if s.srv.cursorSeq ≠ s.cl.cursorSeq ∧ hasEnc s.cl encCursor then
    decrementPending reenter (sendCursor env s)
  else .ok (s, true)

/-- client_send_led_state, server.c 2771-2815; the flag is its result -/
def sendLed (s : St) : St × Bool :=
  if s.cl.pendingLed = s.cl.led then (s, false)
  else
    let q := hasEnc s.cl encQemuLed
    let v := hasEnc s.cl encVmwareLed
    if !q && !v then (s, false)
    else
      let b := updateHead 1 ++ rectHead 0 0 0 0 encQemuLed ++
        (if q then [UInt8.ofNat (s.cl.pendingLed % 256).toNat] else be32i s.cl.pendingLed)
      let s := send .led b s
      ((s.upd fun k => { k with led := k.pendingLed }), true)

/-- process_fb_update_requests, server.c 900-903 -/
def stageLed (reenter : St → Outcome St) (s : St) : Outcome (St × Bool) :=
  match sendLed s with
  | (s, true) => decrementPending reenter s
  | (s, false) => .ok (s, true)

/-- client_has_damage, server.c 841-861 -/
def hasDamage (c : Client) : Bool :=
  if !c.damage.notEmpty then false
  else if !c.cont then true
  else (c.damage.clip c.contRect).notEmpty

/-- `!(encoder->impl->flags & ENCODER_IMPL_FLAG_IGNORES_DAMAGE)`; only open-h264 has the flag
(src/enc/h264/open-h264.c 236) -/
def needsDamage (enc : Int) : Int := if enc = encH264 then 0 else 1

/-- the encodings whose encoders are kept for the whole connection, server.c 789-808 -/
def isKept (enc : Int) : Bool := enc == encZrle || enc == encTight

/-- ensure_encoder, server.c 771-826; the flag is its result -/
def ensureEncoder (env : Env) (fb : Fb) (s : St) : St × Bool :=
  let e := chooseEncoding env fb s.cl.encodings
  if s.cl.encoder = some e then (s, true)
  else
    let drop := match s.cl.encoder with | some o => needsDamage o | none => 0
    let srv := { s.srv with nDamageClients := s.srv.nDamageClients - drop }
    match s.cl.kept.lookup e with
    | some i =>
      let srv := { srv with nDamageClients := srv.nDamageClients + needsDamage e }
      ({ s with srv := srv, cl := { s.cl with encoder := some e, encId := i } }, true)
    | none =>
      if !env.encNew e then
        ({ s with srv := srv, cl := { s.cl with encoder := none } }, false)
      else
        let srv := { srv with nDamageClients := srv.nDamageClients + needsDamage e }
        ({ s with
          srv := srv
          cl := { s.cl with
            encoder := some e
            encId := s.cl.nEncs
            kept := if isKept e then (e, s.cl.nEncs) :: s.cl.kept else s.cl.kept
            nEncs := s.cl.nEncs + 1 } }, true)

/-- process_fb_update_requests, server.c 905-958.  A reference is taken to an encoder that is kept even if it
could not be created (server.c 799, 807).  A tight encoder asserts that there is
something to encode (src/enc/tight.c 609-610). -/
def stageFrame (env : Env) (fb : Fb) (s : St) : Outcome St :=
  if !hasDamage s.cl then .ok s
  else if (match env.maxInflight with | some m => decide (m < s.cl.inflight) | none => false) then
    .ok s
  else
    match ensureEncoder env fb s with
    | (t, false) =>
      if isKept (chooseEncoding env fb s.cl.encodings) then .ub "encoder_ref(NULL)" else .ok t
    | (s, true) =>
      let dmg := s.cl.damage.clip { x := 0, y := 0, w := fb.w, h := fb.h }
      let enc := s.cl.encoder.getD encRaw
      let s := s.upd fun k => { k with damage := [], isUpdating := true, formatsChanged := false }
      if enc = encTight ∧ dmg.notEmpty = false then .abort "tight_encoder_encode: n_rects > 0"
      else if env.encodeOk then
        let s := emit (.encode enc { fb := fb, dmg := dmg, id := s.cl.encId } s.cl.pix s.cl.quality)
          (s.upd fun k => { k with encoding := true })
        .ok (if 0 < s.cl.nPending then
              (s.upd fun k => { k with nPending := k.nPending - 1 }) else s)
      else
        .ok (emit .encodeFail (s.upd fun k => { k with isUpdating := false, formatsChanged := false }))

/-- process_fb_update_requests, server.c 863-959 -/
def processFb (env : Env) (reenter : St → Outcome St) (s : St) : Outcome St :=
  if s.cl.closed then .ok s
  else match s.srv.fb with
  | none => .ok s
  | some fb =>
    if s.cl.isUpdating then .ok s
    else if !s.cl.cont ∧ s.cl.nPending = 0 then .ok s
    else do
      let (s, go) ← stageExt reenter s
      if !go then .ok s else
      let (s, go) ← stageCursor env reenter s
      if !go then .ok s else
      let (s, go) ← stageLed reenter s
      if !go then .ok s else
      stageFrame env fb s

/-- complete_fb_update, server.c 2438-2445 -/
def completeFb (env : Env) (reenter : St → Outcome St) (s : St) : Outcome St :=
  if !s.cl.isUpdating then .ok s
  else processFb env reenter (s.upd fun k => { k with isUpdating := false })

/-- client_supports_resizing, server.c 2561-2565 -/
def supportsResizing (c : Client) : Bool := hasEnc c encDesktopSize || hasEnc c encExtDesktopSize

/-- send_extended_desktop_size_rect, server.c 1636-1663 -/
def extDesktopSizeRect (w h initiator status : Nat) : Bytes :=
  rectHead initiator status w h encExtDesktopSize ++ [1, 0, 0, 0] ++
  (be32 0 ++ be16 0 ++ be16 0 ++ be16 w ++ be16 h ++ be32 0)

/-- send_desktop_resize_rect, server.c 2567-2591 -/
def sendResizeRect (w h : Nat) (s : St) : St :=
  let s := s.upd fun k => { k with
    knownW := w % 65536, knownH := h % 65536,
    damage := k.damage ++ [{ x := 0, y := 0, w := w % 65536, h := h % 65536 }] }
  send .resizeRect (if hasEnc s.cl encExtDesktopSize then extDesktopSizeRect w h 0 0
    else rectHead 0 0 w h encDesktopSize) s

/-- send_pts_rect, server.c 726-743 -/
def sendPts (pts : Option Nat) (s : St) : St :=
  match pts with
  | none => s
  | some p =>
    if hasEnc s.cl encPts then send .ptsRect (rectHead 0 0 0 0 encPts ++ be64 p) s else s

/-- will_send_pts, server.c 726-729 -/
def willSendPts (c : Client) (pts : Option Nat) : Bool := pts.isSome && hasEnc c encPts

/-- finish_fb_update, server.c 2509-2510: does the client have to be told about a new size? -/
def resized (f : Frame) (c : Client) : Bool :=
  decide (c.knownW ≠ f.w) || decide (c.knownH ≠ f.h)

/-- finish_fb_update, server.c 2507-2513: the number of rectangles announced -/
def nRectsSent (f : Frame) (c : Client) : Nat :=
  f.nRects + (if willSendPts c f.pts then 1 else 0) + (if resized f c then 1 else 0)

/-- the writes of finish_fb_update, server.c 2521-2540 -/
def sendFrame (f : Frame) (s : St) : St :=
  let rs := resized f s.cl
  let s := send .updateHead (updateHead (nRectsSent f s.cl % 65536)) s
  let s := if rs then sendResizeRect f.w f.h s else s
  send .frame f.payload (sendPts f.pts s)

/-- finish_fb_update, server.c 2488-2550.  Closing the client in the middle of the function is a
use of freed memory (line 2517 and onwards). -/
def finishFb (env : Env) (reenter : St → Outcome St) (f : Frame) (s : St) : Outcome St :=
  if s.cl.closed then completeFb env reenter s
  else if s.cl.formatsChanged && !hasEnc s.cl encFence then
    completeFb env reenter (s.upd fun k => { k with nPending := k.nPending + 1 })
  else if resized f s.cl && !supportsResizing s.cl then
    .ub "client used after client_close"
  else do
    let s := sendFrame f s
    let s ← (if env.sentAtOnce then completeFb env reenter s
      else .ok (s.upd fun k => { k with writing := true }))
    let s ← sendPing env f.payload.length s
    processPendingFence reenter s

/-! ## Closing -/

/-- defer_client_close, server.c 215-221 -/
def deferClose (s : St) : St :=
  emit .deferClose (s.upd fun k => { k with nDefer := k.nDefer + 1 })

/-- stream_tcp_close, stream/tcp.c 40-59, with close_after_write, server.c 223-234: the requests
in the send queue are finished, and each that was to close the client schedules that. -/
def streamClose (s : St) : St :=
  if s.cl.closed then s
  else
    let s := s.upd fun k => { k with closed := true }
    if s.cl.closePending then deferClose (s.upd fun k => { k with closePending := false }) else s

/-- stream__remote_closed, stream/common.c 35-41, with on_client_event, server.c 1944-1948 -/
def remoteClosed (s : St) : St := deferClose (streamClose s)

/-- client_close, server.c 164-203: the encoder is released (188-196) -/
def freeClient (s : St) : St :=
  let s := streamClose s
  let drop := match s.cl.encoder with | some o => needsDamage o | none => 0
  { s with srv := { s.srv with nDamageClients := s.srv.nDamageClients - drop },
           cl := { s.cl with freed := true, encoder := none } }

/-- `stream_write` with `close_after_write`, server.c 223-234, 251; auth/common.c 47;
auth/vencrypt.c 31.  When the peer is gone the stream is closed, which fails the request, and then
reported closed. -/
def sendAndClose (env : Env) (k : Kind) (b : Bytes) (s : St) : St :=
  if s.cl.closed then s
  else match env.lastWrite with
    | .sent => deferClose ((send k b s).upd fun k => { k with closed := true })
    | .queued =>
      let s := send k b s
      (s.upd fun k => { k with closePending := true })
    | .broken => remoteClosed (s.upd fun k => { k with closePending := true })

/-! ## Handshake -/

/-- security_handshake_failed, auth/common.c 23-51 -/
def handshakeFailed (env : Env) (reason : Bytes) (s : St) : St :=
  let s := s.upd fun k => { k with st := .error }
  sendAndClose env .secFail (be32 1 ++ be32 reason.length ++ reason) s

/-- security_handshake_ok, auth/common.c 53-65; `username` is a C string -/
def handshakeOk (username : Option Bytes) (s : St) : St :=
  let s := match username with
    | some u => (s.upd fun k => { k with username := (cstr u).take 255 })
    | none => s
  send .secOk (be32 0) s

/-- handle_unsupported_version, server.c 236-255 -/
def badVersion (env : Env) (s : St) : St :=
  let reason : Bytes := "Unsupported version\n".toUTF8.toList
  let s := s.upd fun k => { k with st := .error }
  sendAndClose env .badVersion ([0] ++ be32 reason.length ++ reason) s

/-- init_security_types, server.c 257-292 -/
def initSecTypes (srv : Srv) : Outcome Srv :=
  if srv.secTypes ≠ [] then .ok srv
  else if srv.requireAuth then
    if !srv.hasAuthFn then .abort "init_security_types: auth_fn"
    else .ok { srv with
      secTypes := (if srv.hasTls then [secVencrypt] else []) ++ [secRsaAes256, secRsaAes] ++
        (if srv.requireEnc then [] else [secAppleDh]) }
  else .ok { srv with secTypes := [secNone] }

/-- RFB_VERSION_MESSAGE, rfb-proto.h 26 -/
def versionMsg : Bytes := "RFB 003.008\n".toUTF8.toList

abbrev Handler := St → Bytes → Outcome (St × Nat)

/-- on_version_message, server.c 316-349.  `strcmp` with the 12 character version string on the
12 received bytes plus terminator is equality of the strings. -/
def onVersion (env : Env) : Handler := fun s a =>
  match slice a 0 12 with
  | none => .ok (s, 0)
  | some v =>
    if cstr v ≠ versionMsg then .ok (badVersion env s, 0)
    else do
      let srv ← initSecTypes s.srv
      let s := { s with srv := srv }
      let s := send .secTypes ([UInt8.ofNat srv.secTypes.length] ++ srv.secTypes.map UInt8.ofNat) s
      .ok ((s.upd fun k => { k with st := .security }), 12)

/-- on_security_message, server.c 351-404 -/
def onSecurity (env : Env) : Handler := fun s a =>
  match a with
  | [] => .ok (s, 0)
  | t :: _ =>
    if ¬ s.srv.secTypes.any (fun x => UInt8.ofNat x == t) then
      .ok (handshakeFailed env "Illegal security type".toUTF8.toList s, 1)
    else if t.toNat = secNone then
      let s := handshakeOk none s
      .ok ((s.upd fun k => { k with st := .init }), 1)
    else if t.toNat = secVencrypt then
      let s := send .veVersion [0, 2] s
      .ok ((s.upd fun k => { k with st := .veVersion }), 1)
    else if t.toNat = secAppleDh then
      let s := send .appleKey env.appleKey s
      .ok ((s.upd fun k => { k with st := .appleDh }), 1)
    else if t.toNat = secRsaAes then
      let s := send .rsaKey env.rsaKey (s.upd fun k => { k with rsa256 := false })
      .ok ((s.upd fun k => { k with st := .rsaPubKey }), 1)
    else if t.toNat = secRsaAes256 then
      let s := send .rsaKey env.rsaKey (s.upd fun k => { k with rsa256 := true })
      .ok ((s.upd fun k => { k with st := .rsaPubKey }), 1)
    else .ok (handshakeFailed env "Unsupported security type".toUTF8.toList s, 1)

/-- the common tail of the three authentication methods: vencrypt.c 130-136,
apple-dh.c 101-107, rsa-aes.c 297-303.  The arguments are the C strings in the buffers. -/
def authenticate (env : Env) (user pass : Bytes) (s : St) : St :=
  let u := cstr user
  let p := cstr pass
  let ok := env.authFn u p
  let s := emit (.auth u p ok) s
  if ok then
    let s := handshakeOk (some u) s
    (s.upd fun k => { k with st := .init })
  else handshakeFailed env "Invalid username or password".toUTF8.toList s

/-- on_vencrypt_version_message, auth/vencrypt.c 45-71 -/
def onVeVersion (env : Env) : Handler := fun s a =>
  match a with
  | major :: minor :: _ =>
    if major ≠ 0 ∨ minor ≠ 2 then
      .ok (handshakeFailed env "Unsupported VeNCrypt version".toUTF8.toList s, 2)
    else
      let s := send .veAck [0] s
      let s := send .veSubtypes ([1] ++ be32 262) s
      .ok ((s.upd fun k => { k with st := .veSubtype }), 2)
  | _ => .ok (s, 0)

/-- on_vencrypt_subtype_message, auth/vencrypt.c 73-101.  When the upgrade fails the client is
closed and then used. -/
def onVeSubtype (env : Env) : Handler := fun s a =>
  match a with
  | b0 :: b1 :: b2 :: b3 :: _ =>
    if rd32 b0 b1 b2 b3 ≠ 262 then
      let s := s.upd fun k => { k with st := .error }
      .ok (sendAndClose env .veAck [0] s, 4)
    else
      let s := send .veAck [1] s
      if !env.tlsOk then .ub "client used after nvnc_client_close"
      else
        let s := emit (.upgrade .tls) (s.upd fun k => { k with chan := .tls })
        .ok ((s.upd fun k => { k with st := .vePlain }), 4)
  | _ => .ok (s, 0)

/-- on_vencrypt_plain_auth_message, auth/vencrypt.c 112-137, for given lengths -/
def vePlainBody (env : Env) (a : Bytes) (ulen plen : Nat) (s : St) : Outcome (St × Nat) :=
  match slice a 8 ulen, slice a (8 + ulen) plen with
  | some u, some p => .ok (authenticate env (u.take 255) (p.take 255) s, 8 + ulen + plen)
  | _, _ => .ok (s, 0)

/-- on_vencrypt_plain_auth_message, auth/vencrypt.c 103-139 -/
def onVePlain (env : Env) : Handler := fun s a =>
  match a with
  | u0 :: u1 :: u2 :: u3 :: p0 :: p1 :: p2 :: p3 :: _ =>
    vePlainBody env a (rd32 u0 u1 u2 u3) (rd32 p0 p1 p2 p3) s
  | _ => .ok (s, 0)

/-- apple_dh_handle_response, auth/apple-dh.c 54-110 -/
def onAppleDh (env : Env) : Handler := fun s a =>
  match slice a 0 128, slice a 128 256 with
  | some enc, some pub =>
    let pt := env.appleDecrypt pub enc
    .ok (authenticate env (pt.take 63) ((pt.drop 64).take 63) s, 128 + 256)
  | _, _ => .ok (s, 0)

/-- on_rsa_aes_public_key and rsa_aes_send_challenge, auth/rsa-aes.c 59-105, for a key of `n`
bytes.  The encrypted challenge is exported into 1024 - 2 bytes of stack with the client's key
length as the size (`crypto_export` clears that many bytes).  When the key cannot encrypt the
challenge, `len` is -1 and one byte of the length field is written. -/
def rsaPubKeyBody (env : Env) (a : Bytes) (n : Nat) (s : St) : Outcome (St × Nat) :=
  match slice a 4 n, slice a (4 + n) n with
  | some m, some e =>
    let sz := env.rsaKeySize m e
    if 1022 < sz then .ub "rsa_aes_send_challenge: stack buffer overflow"
    else
      let s := s.upd fun k => { k with st := .rsaChallenge, rsaKeyLen := sz }
      match env.rsaChallenge m e with
      | some c => .ok (send .rsaChallenge (be16 c.length ++ c) s, 4 + n * 2)
      | none => .ok (send .rsaChallenge [255] s, 4 + n * 2)
  | _, _ => .ok (s, 0)

/-- on_rsa_aes_public_key, auth/rsa-aes.c 76-105; `UDIV_UP` is computed in 32 bits -/
def onRsaPubKey (env : Env) : Handler := fun s a =>
  match a with
  | b0 :: b1 :: b2 :: b3 :: _ =>
    rsaPubKeyBody env a (((rd32 b0 b1 b2 b3 + 7) % 4294967296) / 8) s
  | _ => .ok (s, 0)

/-- client_rsa_aes_hash_len, auth/rsa-aes.c 107-116 -/
def rsaHashLen (c : Client) : Nat := if c.rsa256 then 32 else 20

/-- server_hash, auth/rsa-aes.c 184-185: 32 bytes of zeroes, which the hash overwrites -/
def hashBuf (h : Bytes) : Bytes := (h ++ List.replicate 32 0).take 32

/-- on_rsa_aes_challenge, auth/rsa-aes.c 118-207.  A challenge that does not decrypt closes the
client, which is then used. -/
def onRsaChallenge (env : Env) : Handler := fun s a =>
  match a with
  | b0 :: b1 :: _ =>
    let n := rd16 b0 b1
    match slice a 2 n with
    | some c =>
      match env.rsaDecrypt c with
      | none => .ub "client used after nvnc_client_close"
      | some r =>
        let s := emit (.upgrade .rsa) (s.upd fun k => { k with chan := .rsa })
        let s := send .rsaHash ((hashBuf (env.serverHash r)).take (rsaHashLen s.cl)) s
        .ok ((s.upd fun k => { k with st := .rsaHash }), 2 + n)
    | none => .ok (s, 0)
  | _ => .ok (s, 0)

/-- on_rsa_aes_client_hash, auth/rsa-aes.c 209-267 -/
def onRsaHash (env : Env) : Handler := fun s a =>
  match slice a 0 (rsaHashLen s.cl) with
  | some h =>
    if h ≠ env.clientHash.take (rsaHashLen s.cl) then .ub "client used after nvnc_client_close"
    else
      let s := send .rsaSubtype [1] s
      .ok ((s.upd fun k => { k with st := .rsaCreds }), rsaHashLen s.cl)
  | none => .ok (s, 0)

/-- on_rsa_aes_credentials, auth/rsa-aes.c 269-306 -/
def onRsaCreds (env : Env) : Handler := fun s a =>
  match a with
  | u0 :: _ :: _ =>
    let ulen := u0.toNat
    match slice a 1 ulen, slice a (1 + ulen) 1 with
    | some u, some [p0] =>
      let plen := p0.toNat
      match slice a (2 + ulen) plen with
      | some p => .ok (authenticate env u p s, 2 + ulen + plen)
      | none => .ok (s, 0)
    | _, _ => .ok (s, 0)
  | _ => .ok (s, 0)

/-- send_server_init_message, server.c 420-478; `none` where it closes the client -/
def sendServerInit (s : St) : Option St :=
  match s.srv.fb with
  | none => none
  | some fb =>
    match fb.fmt with
    | none => none
    | some f =>
      let f := if f.bpp = 24 then { f with bpp := 32 } else f
      let s := s.upd fun k => { k with pix := f }
      let s := send .serverInit (be16 fb.w ++ be16 fb.h ++ pixfmtBytes f ++
        be32 s.srv.name.length ++ s.srv.name) s
      some (s.upd fun k => { k with knownW := fb.w % 65536, knownH := fb.h % 65536 })

/-- on_init_message, server.c 480-502 -/
def onInit : Handler := fun s a =>
  match a with
  | [] => .ok (s, 0)
  | shared :: _ =>
    let s := if shared = 0 then emit .disconnectOthers s else s
    match sendServerInit s with
    | none => .ub "client used after nvnc_client_close"
    | some s =>
      let s := emit .newClient s
      .ok ((s.upd fun k => { k with st := .ready }), 1)

/-! ## Messages of a ready client -/

/-- a `double` that is not negative: `m / 2 ^ k`, where `m` has 53 bits -/
structure Dbl where
  m : Nat
  k : Nat
  deriving DecidableEq, Repr

/-- the integer nearest to `n / d`, the even one of two (roundTiesToEven of IEEE 754) -/
def nearestEven (n d : Nat) : Nat :=
  if 2 * (n % d) < d then n / d
  else if d < 2 * (n % d) then n / d + 1
  else n / d + n / d % 2

/-- the `double` nearest to `n / d`, for numbers that are zero or between 1 and 2 to the 52: the first bit of the
quotient is at `log2`, and 52 more follow -/
def Dbl.near (n d : Nat) : Dbl :=
  if n = 0 then ⟨0, 0⟩
  else ⟨nearestEven (n * 2 ^ (52 - (n / d).log2)) d, 52 - (n / d).log2⟩

/-- multiplication by an integer, which is a `double` exactly -/
def Dbl.times (a : Dbl) (n : Nat) : Dbl := .near (a.m * n) (2 ^ a.k)

/-- `round`: to the nearest, halves upwards -/
def Dbl.round (a : Dbl) : Nat := (2 * a.m + 2 ^ a.k) / (2 * 2 ^ a.k)

/-- make_rgb332_pal8_map, src/pixels.c 678-690: the colour map message -/
def rgb332Map : Bytes :=
  [1, 0] ++ be16 0 ++ be16 256 ++
  (List.range 256).flatMap fun i =>
    be16 (((Dbl.near 65535 7).times (i / 32 % 8)).round) ++ be16 (((Dbl.near 65535 7).times (i / 4 % 8)).round) ++
      be16 (((Dbl.near 65535 3).times (i % 4)).round)

/-- cook_pixel_map, server.c 504-526 -/
def cookedFmt : PixFmt :=
  { bpp := 8, depth := 8, bigEndian := 0, trueColour := 1, rmax := 7, gmax := 7, bmax := 3,
    rshift := 5, gshift := 2, bshift := 0 }

/-- on_client_set_pixel_format, server.c 528-557 -/
def onSetPixelFormat : Handler := fun s a =>
  match a with
  | _ :: _ :: _ :: _ :: bpp :: depth :: be :: tc :: r0 :: r1 :: g0 :: g1 :: b0 :: b1 ::
      rs :: gs :: bs :: _ :: _ :: _ :: _ =>
    let s :=
      if tc ≠ 0 then
        let f : PixFmt :=
          { bpp := bpp.toNat, depth := depth.toNat, bigEndian := be.toNat,
            trueColour := tc.toNat, rmax := rd16 r0 r1, gmax := rd16 g0 g1, bmax := rd16 b0 b1,
            rshift := rs.toNat, gshift := gs.toNat, bshift := bs.toNat }
        emit (.pixFmt f) (s.upd fun k => { k with pix := f })
      else send .colourMap rgb332Map (emit (.pixFmt cookedFmt) (s.upd fun k => { k with pix := cookedFmt }))
    .ok ((s.upd fun k => { k with formatsChanged := true }), 20)
  | _ => .ok (s, 0)

/-- the encodings that are stored, server.c 637-666 -/
def recognised (experimental : Bool) (e : Int) : Bool :=
  [encRaw, encCopyRect, encRre, encHextile, encTight, encTrle, encZrle, encH264, encCursor,
    encDesktopSize, encExtDesktopSize, encQemuKey, encQemuLed, encVmwareLed, encExtClipboard,
    encContUpdates, encFence].contains e
  || (experimental && (e == encPts || e == encNtp))

/-- the loop of on_client_set_encodings, server.c 634-671: encodings stored so far, quality -/
def scanEncodings (experimental : Bool) : Bytes → List Int → Int → List Int × Int
  | b0 :: b1 :: b2 :: b3 :: rest, acc, q =>
    if maxEncodings ≤ acc.length then (acc, q)
    else
      let e := toInt32 (rd32 b0 b1 b2 b3)
      let acc := if recognised experimental e then acc ++ [e] else acc
      let q := if -32 ≤ e ∧ e ≤ -23 then e + 32 else q
      scanEncodings experimental rest acc q
  | _, acc, q => (acc, q)

/-- send_ext_clipboard_caps, server.c 1098-1115 -/
def sendClipCaps (s : St) : St :=
  send .clip ([3, 0, 0, 0] ++ be32i (-8) ++
    be32 (2 ^ clipCaps + 2 ^ clipText + 2 ^ clipRequest + 2 ^ clipPeek + 2 ^ clipNotify +
      2 ^ clipProvide) ++ be32 0) s

/-- on_client_set_encodings, server.c 681-687 -/
def notifyCont (s : St) : St :=
  if !s.cl.contNotified && hasEnc s.cl encContUpdates then
    send .endOfCont [150] (s.upd fun k => { k with contNotified := true })
  else s

/-- on_client_set_encodings, server.c 616-695 -/
def onSetEncodings (env : Env) : Handler := fun s a =>
  match a with
  | _ :: _ :: n0 :: n1 :: _ =>
    let n := rd16 n0 n1
    match slice a 4 (n * 4) with
    | none => .ok (s, 0)
    | some body => do
      let (encs, q) := scanEncodings env.experimental body [] 10
      let s := emit (.encodings encs)
        (s.upd fun k => { k with encodings := encs, quality := q, formatsChanged := true })
      let s := notifyCont s
      let s := if hasEnc s.cl encExtClipboard then sendClipCaps s else s
      let s ← sendPing env 0 s
      .ok (s, 4 + 4 * n)
  | _ => .ok (s, 0)

/-- on_client_fb_update_request, server.c 999-1004 -/
def forgetSize (inc : Bool) (s : St) : St :=
  if !inc && hasEnc s.cl encExtDesktopSize then
    s.upd fun k => { k with knownW := 0, knownH := 0 }
  else s

/-- the bookkeeping of on_client_fb_update_request, server.c 981-1004 -/
def fbReqPre (inc : Bool) (r : Rect) (s : St) : St :=
  let s := s.upd fun k => { k with
    nPending := k.nPending + 1, damage := if inc then k.damage else k.damage ++ [r] }
  forgetSize inc (emit (.fbReq inc r.x r.y r.w r.h) s)

/-- on_client_fb_update_request, server.c 961-1009 -/
def onFbRequest (env : Env) (reenter : St → Outcome St) : Handler := fun s a =>
  match a with
  | _ :: inc :: x0 :: x1 :: y0 :: y1 :: w0 :: w1 :: h0 :: h1 :: _ =>
    if inc ≠ 0 ∧ s.cl.cont then .ok (s, 0)
    else do
      let s := fbReqPre (inc != 0)
        { x := rd16 x0 x1, y := rd16 y0 y1, w := rd16 w0 w1, h := rd16 h0 h1 } s
      let s ← processFb env reenter s
      .ok (s, 10)
  | _ => .ok (s, 0)

/-- on_client_key_event, server.c 1011-1030 -/
def onKey : Handler := fun s a =>
  match a with
  | _ :: down :: _ :: _ :: k0 :: k1 :: k2 :: k3 :: _ =>
    .ok (emit (.key (rd32 k0 k1 k2 k3) (down != 0)) s, 8)
  | _ => .ok (s, 0)

/-- on_client_pointer_event, server.c 1076-1096 -/
def onPointer : Handler := fun s a =>
  match a with
  | _ :: mask :: x0 :: x1 :: y0 :: y1 :: _ =>
    .ok (emit (.pointer (rd16 x0 x1) (rd16 y0 y1) mask.toNat) s, 6)
  | _ => .ok (s, 0)

/-- code_map_qnum_to_linux, src/qnum-to-evdev.c 7-245 -/
def qnumTable : List Nat := [
  0, 1, 2, 3, 4, 5, 6, 7, 8, 9, 10, 11, 12, 13, 14, 15,
  16, 17, 18, 19, 20, 21, 22, 23, 24, 25, 26, 27, 28, 29, 30, 31,
  32, 33, 34, 35, 36, 37, 38, 39, 40, 41, 42, 43, 44, 45, 46, 47,
  48, 49, 50, 51, 52, 53, 54, 55, 56, 57, 58, 59, 60, 61, 62, 63,
  64, 65, 66, 67, 68, 69, 70, 71, 72, 73, 74, 75, 76, 77, 78, 79,
  80, 81, 82, 83, 99, 186, 86, 87, 88, 117, 190, 101, 95, 183, 184, 185,
  0, 0, 0, 169, 134, 135, 141, 144, 145, 146, 151, 153, 161, 193, 0, 194,
  93, 123, 122, 89, 191, 177, 85, 91, 90, 92, 0, 94, 0, 124, 121, 0,
  0, 171, 150, 187, 189, 129, 130, 131, 176, 181, 182, 120, 132, 0, 233, 178,
  165, 0, 152, 147, 222, 195, 196, 149, 168, 163, 197, 198, 96, 97, 139, 148,
  113, 140, 164, 160, 166, 205, 154, 199, 200, 201, 0, 202, 203, 204, 114, 206,
  115, 167, 172, 207, 208, 98, 209, 99, 100, 210, 211, 212, 137, 213, 214, 215,
  216, 136, 218, 219, 220, 221, 119, 102, 103, 104, 223, 105, 224, 106, 118, 107,
  108, 109, 110, 111, 225, 234, 227, 228, 229, 230, 231, 125, 126, 127, 116, 142,
  0, 0, 0, 143, 232, 217, 156, 173, 128, 159, 158, 157, 155, 226, 0, 112,
  235, 236, 237, 238, 239, 138, 179, 188, 133, 192, 0, 180, 0, 162]

/-- on_client_qemu_key_event, server.c 1032-1055: the table is indexed without a check -/
def onQemuKey (table : List Nat) : Handler := fun s a =>
  match a with
  | _ :: _ :: d0 :: d1 :: _ :: _ :: _ :: _ :: c0 :: c1 :: c2 :: c3 :: _ =>
    let code := rd32 c0 c1 c2 c3
    match table[code]? with
    | none => .ub "code_map_qnum_to_linux read out of bounds"
    | some v => .ok (emit (.keyCode (if v = 0 then code else v) (decide (rd16 d0 d1 ≠ 0))) s, 12)
  | _ => .ok (s, 0)

/-- on_client_qemu_event, server.c 1057-1074 -/
def onQemu (table : List Nat) : Handler := fun s a =>
  match a with
  | _ :: sub :: _ =>
    if sub = 0 then onQemuKey table s a else .ub "client used after nvnc_client_close"
  | _ => .ok (s, 0)

/-- crlf_to_lf, server.c 1161-1187.  The test `in_len == 0` on line 1178 is never true, so for a
carriage return at the end of the text the byte after the text decides; the callers pass a text
followed by a zero byte. -/
def crlfToLf : Bytes → Bytes
  | [] => []
  | c :: rest =>
    if c ≠ 13 then c :: crlfToLf rest
    else
      match rest with
      | d :: _ => if d ≠ 10 then 10 :: crlfToLf rest else crlfToLf rest
      | [] => 10 :: crlfToLf rest

/-- process_client_ext_clipboard_provide, server.c 1189-1263.  Bytes that inflate did not write
are uninitialised. -/
def clipProvideText (env : Env) (z : Bytes) (s : St) : Outcome St :=
  match env.inflate1 z with
  | none => .ok s
  | some [b0, b1, b2, b3] =>
    let n := rd32 b0 b1 b2 b3
    if n ≤ 1 then .ok s
    else match env.inflate2 z n with
      | none => .ok s
      | some t =>
        if t.length < n then .ub "uninitialised clipboard text"
        else if t.getD (n - 1) 0 ≠ 0 then .ok s
        else .ok (emit (.cutText (cstr (crlfToLf (t.take (n - 1))))) s)
  | some _ => .ub "uninitialised clipboard length"

/-- send_ext_clipboard_request, server.c 1117-1127 -/
def sendClipRequest (s : St) : St :=
  send .clip ([3, 0, 0, 0] ++ be32i (-4) ++ be32 (2 ^ clipRequest + 2 ^ clipText)) s

/-- send_ext_clipboard_notify, server.c 1129-1141 -/
def sendClipNotify (s : St) : St :=
  send .clip ([3, 0, 0, 0] ++ be32i (-4) ++
    be32 (2 ^ clipNotify + (if s.srv.provideMsg.isSome then 2 ^ clipText else 0))) s

/-- send_ext_clipboard_provide, server.c 1143-1159 -/
def sendClipProvide (m : Bytes) (s : St) : St :=
  send .clip ([3, 0, 0, 0] ++ be32i (-(4 + (m.length : Int))) ++
    be32 (2 ^ clipProvide + 2 ^ clipText) ++ m) s

/-- process_client_ext_clipboard, server.c 1306-1323: the message does not fit the buffer -/
def clipBegin (flags len : Nat) (body : Bytes) (s : St) : St :=
  let prov := flags.testBit clipProvide && flags.testBit clipText && !flags.testBit clipCaps
  let c : Cut := { len := len, data := body, zlib := true, provide := prov }
  s.upd fun k => { k with cut := some c }

/-- process_client_ext_clipboard, server.c 1277-1287: the client's capabilities -/
def clipSetCaps (flags : Nat) (len : Int) (body : Bytes) (s : St) : Outcome St :=
  let s := s.upd fun k => { k with clipCaps := flags }
  if 4 ≤ len then
    match body with
    | m0 :: m1 :: m2 :: m3 :: _ => .ok (s.upd fun k => { k with clipMax := rd32 m0 m1 m2 m3 })
    | _ => .ub "read past the message"
  else .ok s

/-- process_client_ext_clipboard, server.c 1325-1350: what a complete message asks for -/
def clipAction (env : Env) (flags : Nat) (len : Int) (body : Bytes) (s : St) : Outcome St :=
  if flags.testBit clipCaps then clipSetCaps flags len body s
  else if flags.testBit clipRequest && flags.testBit clipText &&
      s.cl.clipCaps.testBit clipProvide && s.srv.provideMsg.isSome then
    .ok (sendClipProvide (s.srv.provideMsg.getD []) s)
  else if flags.testBit clipPeek && s.cl.clipCaps.testBit clipNotify then .ok (sendClipNotify s)
  else if flags.testBit clipNotify && flags.testBit clipText &&
      s.cl.clipCaps.testBit clipRequest then
    .ok (sendClipRequest s)
  else if flags.testBit clipProvide && flags.testBit clipText then
    if len < 0 then .ub "clipboard text read past the message"
    else clipProvideText env (body.take len.toNat) s
  else .ok s

/-- process_client_ext_clipboard, server.c 1265-1352; `a` starts with the 8 byte header whose
length field is negative.  Lengths of 1 to 3 make `length` negative: `sizeof(*msg) + length` then
wraps to less than the header and the handlers are given a huge size. -/
def onExtClipboard (env : Env) : Handler := fun s a =>
  match a with
  | _ :: _ :: _ :: _ :: l0 :: l1 :: l2 :: l3 :: f0 :: f1 :: f2 :: f3 :: body =>
    let len : Int := -(toInt32 (rd32 l0 l1 l2 l3)) - 4
    let flags := rd32 f0 f1 f2 f3
    -- `-(ntohl(…))` of 0x80000000 is 0x80000000, and subtracting 4 overflows `int32_t`
    if rd32 l0 l1 l2 l3 = 2147483648 then .ub "signed overflow in the length"
    else if flags.testBit clipCaps ∧
        -- `size_t < size_t + int`: a negative length makes the right side smaller than 12
        ((a.length : Int) < 12 + min 64 len) then .ok (s, 0)
    else if (maxCutText : Int) < len then .ub "client used after nvnc_client_close"
    else if (a.length : Int) < 12 + len then .ok (clipBegin flags len.toNat body s, a.length)
    else do
      let s ← clipAction env flags len body (emit (.clipMsg flags (body.take len.toNat)) s)
      .ok (s, (12 + len).toNat)
  | _ => .ok (s, 0)

/-- process_client_cut_text, server.c 1354-1402 -/
def onPlainCutText : Handler := fun s a =>
  match a with
  | _ :: _ :: _ :: _ :: l0 :: l1 :: l2 :: l3 :: body =>
    let len := rd32 l0 l1 l2 l3
    if maxCutText < len then .ub "client used after nvnc_client_close"
    else if 8 + len ≤ a.length then .ok (emit (.cutText (body.take len)) s, 8 + len)
    else
      let c : Cut := { len := len, data := body, zlib := false, provide := false }
      .ok ((s.upd fun k => { k with cut := some c }), a.length)
  | _ => .ok (s, 0)

/-- on_client_cut_text, server.c 1404-1420 -/
def onCutText (env : Env) : Handler := fun s a =>
  match a with
  | _ :: _ :: _ :: _ :: l0 :: _ :: _ :: _ :: _ =>
    -- `(int32_t)ntohl(length) < 0` is the top bit of the first byte
    if hasEnc s.cl encExtClipboard ∧ 128 ≤ l0.toNat then onExtClipboard env s a
    else onPlainCutText s a
  | _ => .ok (s, 0)

/-- on_client_enable_continuous_updates, server.c 1422-1451 -/
def onContUpdates (env : Env) (reenter : St → Outcome St) : Handler := fun s a =>
  match a with
  | _ :: en :: x0 :: x1 :: y0 :: y1 :: w0 :: w1 :: h0 :: h1 :: _ =>
    if en ≠ 0 then do
      let r : Rect := { x := rd16 x0 x1, y := rd16 y0 y1, w := rd16 w0 w1, h := rd16 h0 h1 }
      let s := emit .contOn (s.upd fun k => { k with cont := true, contRect := r })
      let s ← processFb env reenter s
      .ok (s, 10)
    else
      let s := s.upd fun k => { k with
        cont := false, contRect := { x := 0, y := 0, w := 0, h := 0 } }
      .ok (send .endOfCont [150] s, 10)
  | _ => .ok (s, 0)

/-- the screens of a SetDesktopSize message, nvnc_display_layout_init
(src/desktop-layout.c 23-32) -/
def parseScreens : Bytes → List Screen
  | i0 :: i1 :: i2 :: i3 :: x0 :: x1 :: y0 :: y1 :: w0 :: w1 :: h0 :: h1 ::
      _ :: _ :: _ :: _ :: rest =>
    { id := rd32 i0 i1 i2 i3, x := rd16 x0 x1, y := rd16 y0 y1, w := rd16 w0 w1,
      h := rd16 h0 h1 } :: parseScreens rest
  | _ => []

/-- check_desktop_layout, server.c 1592-1634: status and whether the callback was called -/
def checkLayout (env : Env) (l : Layout) : Nat × Bool :=
  if l.screens.all (fun d => decide (d.x + d.w ≤ l.w) && decide (d.y + d.h ≤ l.h)) then
    if env.layoutFn l then (4, true) else (1, true)
  else (3, false)

/-- on_client_set_desktop_size_event, server.c 1665-1700 -/
def onSetDesktopSize (env : Env) : Handler := fun s a =>
  match a with
  | _ :: _ :: w0 :: w1 :: h0 :: h1 :: n :: _ :: _ =>
    match slice a 8 (n.toNat * 16) with
    | none => .ok (s, 0)
    | some body =>
      let l : Layout := { w := rd16 w0 w1, h := rd16 h0 h1, screens := parseScreens body }
      let (status, called) := checkLayout env l
      let s := if called then emit (.layout l) s else s
      .ok (send .desktopSize (updateHead 1 ++ extDesktopSizeRect l.w l.h 1 status) s,
        8 + n.toNat * 16)
  | _ => .ok (s, 0)

/-- on_client_ntp, server.c 1725-1750; the reply is stamped with the clock twice -/
def onNtp (env : Env) : Handler := fun s a =>
  match slice a 0 20 with
  | none => .ok (s, 0)
  | some m =>
    if m.drop 16 ≠ [0, 0, 0, 0] then .ok (s, 20)
    else .ok (send .ntp (m.take 8 ++ be32 env.now ++ be32 env.now ++ m.drop 16) s, 20)

/-- the ghost entry for a fence request, if it is accepted (server.c 1757-1763) -/
def noteFence (flags : Nat) (payload : Bytes) (s : St) : St :=
  if 0 < s.cl.nPending then s else emit (.fenceReq flags payload) s

/-- on_fence_request, server.c 1752-1786; the flag is its result -/
def onFenceRequest (flags : Nat) (payload : Bytes) (s : St) : Outcome (St × Bool) :=
  let flags := flags % 8
  if 0 < s.cl.nPending then
    .ok ((s.upd fun k => { k with blocked := true }), false)
  else do
    let upd : Int := if s.cl.isUpdating then 1 else 0
    let s :=
      if flags.testBit 0 ∧ 0 < s.cl.nPending + upd then
        (s.upd fun k => { k with pfN := k.nPending + upd })
      else if flags.testBit 2 ∧ s.cl.isUpdating then
        (s.upd fun k => { k with pfN := 1, mustBlock := flags.testBit 1 })
      else s
    if s.cl.pfN = 0 then
      let s ← sendFence flags payload s
      .ok (s, true)
    else
      .ok (s.upd fun k => { k with
        blocked := decide (flags = fenceBlockBefore + fenceBlockAfter),
        pfFlags := flags, pfPayload := payload }, true)

/-- on_fence_response, server.c 1788-1832; the round-trip time and bandwidth bookkeeping is in
`Model/Flow`.  Eight bytes are read whatever the length of the payload. -/
def onFenceResponse (env : Env) (reenter : St → Outcome St) (p8 : Bytes) (s : St) : Outcome St :=
  match p8 with
  | [t0, t1, t2, t3, z0, z1, z2, z3] =>
    let size := rd32 z0 z1 z2 z3
    if size = 0 then .ok s
    else if toInt32 ((env.now + (4294967296 - rd32 t0 t1 t2 t3)) % 4294967296) < 0 then .ok s
    else processFb env reenter (s.upd fun k => { k with inflight := k.inflight - size })
  | _ => .ub "fence payload read past the message"

/-- on_client_fence, server.c 1834-1863.  `sizeof(msg)` is the size of a pointer, 8, while the
header has 9 bytes: the length byte and one payload byte may lie past the received bytes. -/
def onFence (env : Env) (reenter : St → Outcome St) : Handler := fun s a =>
  match a with
  | _ :: _ :: _ :: _ :: f0 :: f1 :: f2 :: f3 :: rest =>
    let more := rest ++ (List.range 80).map env.stale
    let len := (more.getD 0 0).toNat
    if rest.length < len then .ok (s, 0)
    else if 64 < len then .ub "client used after nvnc_client_close"
    else
      let flags := rd32 f0 f1 f2 f3
      let payload := (more.drop 1).take len
      if fenceRequest ≤ flags then do
        let (s, ok) ← onFenceRequest flags payload (noteFence flags payload s)
        if ok then .ok (s, 9 + len) else .ok (s, 0)
      else do
        let s ← onFenceResponse env reenter ((more.drop 1).take 8) s
        .ok (s, 9 + len)
  | _ => .ok (s, 0)

/-- on_client_message, server.c 1865-1902 -/
def onMessage (env : Env) (table : List Nat) (reenter : St → Outcome St) : Handler := fun s a =>
  match a with
  | [] => .ok (s, 0)
  | t :: _ =>
    if t = 0 then onSetPixelFormat s a
    else if t = 2 then onSetEncodings env s a
    else if t = 3 then onFbRequest env reenter s a
    else if t = 4 then onKey s a
    else if t = 5 then onPointer s a
    else if t = 6 then onCutText env s a
    else if t = 150 then onContUpdates env reenter s a
    else if t = 255 then onQemu table s a
    else if t = 251 then onSetDesktopSize env s a
    else if t = 160 then onNtp env s a
    else if t = 248 then onFence env reenter s a
    else .ub "client used after nvnc_client_close"

/-- try_read_client_message, server.c 1904-1936 -/
def tryRead (env : Env) (table : List Nat) (reenter : St → Outcome St) : Handler := fun s a =>
  match s.cl.st with
  | .error => .ok (s, a.length)
  | .version => onVersion env s a
  | .security => onSecurity env s a
  | .init => onInit s a
  | .veVersion => onVeVersion env s a
  | .veSubtype => onVeSubtype env s a
  | .vePlain => onVePlain env s a
  | .appleDh => onAppleDh env s a
  | .rsaPubKey => onRsaPubKey env s a
  | .rsaChallenge => onRsaChallenge env s a
  | .rsaHash => onRsaHash env s a
  | .rsaCreds => onRsaCreds env s a
  | .ready => onMessage env table reenter s a

/-! ## The receive loop -/

/-- the answer to the next read made by a nested call -/
def nextRead (s : St) : Read × St :=
  match s.net with
  | [] => (.again, s)
  | r :: rest =>
    let s := { s with net := rest }
    -- stream_tcp_read on a closed stream is an error with whatever errno there is
    if s.cl.closed then (if r = .err then (.err, s) else (.again, s)) else (r, s)

/-- The nested call of on_client_event made while a handler is running (server.c 2435 under
1981): it asserts that nothing has been consumed yet (1955) and, if more bytes can be read,
parses the message that is being handled a second time; the model stops there. -/
def reenterInHandler (s : St) : Outcome St :=
  if s.cl.idx ≠ 0 then .abort "on_client_event: buffer_index == 0"
  else
    match nextRead s with
    | (.again, s) => .ok s
    | (.closed, s) => .ok (remoteClosed s)
    | (.err, _) => .ub "client used after nvnc_client_close"
    | (.data [], s) => .ok s
    | (.data (_ :: _), _) => .ub "message handled twice by a nested on_client_event"

/-- the loop of on_client_event, server.c 1976-1986.  `fuel` bounds the number of iterations; it
is always enough because an iteration that does not leave the loop consumes a byte. -/
def loop (env : Env) (table : List Nat) : Nat → St → Outcome St
  | 0, s => .ok s
  | fuel + 1, s =>
    if s.cl.blocked then .ok s
    else do
      let s := s.upd fun k => { k with blocked := k.mustBlock, mustBlock := false }
      let a := s.cl.buf.drop s.cl.idx
      let st := s.cl.st
      let ch := s.cl.chan
      let (s, rc) ← tryRead env table reenterInHandler s a
      if rc = 0 then .ok s
      else if s.cl.buf.length < s.cl.idx + rc then .ub "buffer_index beyond buffer_len"
      else
        let pl := min rc s.cl.plain
        let s := emit (.msg st ch (a.take rc) pl)
          (s.upd fun k => { k with idx := k.idx + rc, plain := k.plain - pl })
        loop env table fuel s

/-- process_big_cut_text, server.c 1453-1496 -/
def bigCutText (env : Env) (c : Cut) (d : Bytes) (s : St) : Outcome St :=
  if c.len ≤ c.data.length then .abort "process_big_cut_text: length > index"
  else
    let c := { c with data := c.data ++ d }
    if c.data.length ≠ c.len then .ok (s.upd fun k => { k with cut := some c })
    else do
      let s ← (if c.zlib then
          if c.provide then clipProvideText env c.data s else .ok s
        else .ok (emit (.cutText c.data) s))
      .ok (s.upd fun k => { k with cut := none })

/-- on_client_event, server.c 1938-1995, for a readable stream whose `stream_read` answers `rd`.
A read error closes the client at once.  Reading into a full buffer asks for 0 bytes: the kernel's
answer 0 counts as the peer having closed (stream/tcp.c 208-210), gnutls calls it an error, and an
RSA-AES stream holds its message back. -/
def onReadable (env : Env) (table : List Nat) (rd : Read) (s : St) : Outcome St :=
  match s.cl.cut with
  | some c =>
    if c.len ≤ c.data.length then .abort "process_big_cut_text: length > index"
    else match rd with
      | .again => .ok s
      | .closed => .ok (remoteClosed s)
      | .err => .ok (freeClient s)
      | .data [] => .ok s
      | .data (b :: d) =>
        bigCutText env c ((b :: d).take (min (c.len - c.data.length) msgBufferSize)) s
  | none =>
    if s.cl.idx ≠ 0 then .abort "on_client_event: buffer_index == 0"
    else match rd with
      | .again => .ok s
      | .closed => .ok (remoteClosed s)
      | .err => .ok (freeClient s)
      | .data [] => .ok s
      | .data (b :: d) =>
        if msgBufferSize ≤ s.cl.buf.length then
          match s.cl.chan with
          | .plain => .ok (remoteClosed s)
          | .tls => .ok (freeClient s)
          | .rsa => .ok s
        else do
          let buf := s.cl.buf ++ (b :: d).take (msgBufferSize - s.cl.buf.length)
          let s := s.upd fun k => { k with
            buf := buf, plain := if k.chan = .plain then buf.length else k.plain }
          let s ← loop env table (buf.length + 1) s
          .ok (s.upd fun k => { k with buf := k.buf.drop k.idx, idx := 0 })

/-- the nested call of on_client_event when no handler is running; the callers go on using the
client -/
def reenterTop (env : Env) (table : List Nat) (s : St) : Outcome St :=
  match nextRead s with
  | (rd, s) => do
    let s ← onReadable env table rd s
    if s.cl.freed then .ub "client used after nvnc_client_close" else .ok s

/-! ## Events -/

/-- what can happen to a client after `on_connection` -/
inductive Op where
  | readable (rd : Read)               -- the stream is readable
  | written                            -- the last frame's write completed (on_write_frame_done)
  | encoded (f : Frame)                -- on_encode_frame_done
  | flushed                            -- a queued write with close_after_write completed
  | idle                               -- do_deferred_client_close
  | appClose                           -- nvnc_client_close by the application
  | damage (r : Region)                -- nvnc__damage_region
  | display (fb : Option Fb)           -- the displayed buffer is replaced
  | cursor                             -- nvnc_set_cursor with damage
  | setLed (v : Int)                   -- nvnc_client_set_led_state

/-- one event.  A client that is freed gets no more events, except the deferred closes that are
still scheduled. -/
def event (table : List Nat) (o : Op) (env : Env) (s : St) : Outcome St :=
  if s.cl.freed then
    match o with
    | .idle => if s.cl.nDefer = 0 then .ok s else .ub "client closed twice"
    | _ => .ok s
  else match o with
  | .readable rd => if s.cl.closed then .ok s else onReadable env table rd s
  | .written =>
    if s.cl.writing then
      completeFb env (reenterTop env table) (s.upd fun k => { k with writing := false })
    else .ok s
  | .encoded f =>
    if s.cl.encoding then
      finishFb env (reenterTop env table) f
        (emit (.encodeDone f) (s.upd fun k => { k with encoding := false }))
    else .ok s
  | .flushed => if s.cl.closePending then .ok (streamClose s) else .ok s
  | .idle =>
    if s.cl.nDefer = 0 then .ok s
    else .ok (freeClient (s.upd fun k => { k with nDefer := k.nDefer - 1 }))
  | .appClose => .ok (freeClient s)
  | .damage r =>
    processFb env (reenterTop env table)
      (if s.cl.closed then s
        else emit (.damaged r) (s.upd fun k => { k with damage := k.damage ++ r }))
  | .display fb => .ok { s with srv := { s.srv with fb := fb } }
  | .cursor =>
    processFb env (reenterTop env table)
      { s with srv := { s.srv with cursorSeq := s.srv.cursorSeq + 1 } }
  | .setLed v =>
    processFb env (reenterTop env table) (emit (.ledSet v) (s.upd fun k => { k with pendingLed := v }))

/-- one event; `net` are the answers to nested reads -/
def step (table : List Nat) (o : Op) (env : Env) (net : List Read) (s : St) : Outcome St :=
  event table o env { s with net := net }

/-- on_connection, server.c 2003-2064: the state right after the connection is accepted (the
version message is written first) -/
def newClient : Client :=
  { st := .version, chan := .plain, username := [], rsa256 := false, rsaKeyLen := 0, buf := [],
    idx := 0, plain := 0,
    pix := { bpp := 0, depth := 0, bigEndian := 0, trueColour := 0, rmax := 0, gmax := 0,
             bmax := 0, rshift := 0, gshift := 0, bshift := 0 },
    encodings := [], quality := 10, formatsChanged := false, contNotified := false, cut := none,
    clipCaps := 2 ^ clipText + 2 ^ clipRequest + 2 ^ clipNotify + 2 ^ clipProvide,
    clipMax := 20971520, knownW := 0, knownH := 0, closed := false, closePending := false,
    nDefer := 0, freed := false, encoding := false, writing := false, nPending := 0,
    isUpdating := false, extNotified := false, cont := false,
    contRect := { x := 0, y := 0, w := 0, h := 0 }, encoder := none, encId := 0, kept := [], nEncs := 0, damage := [],
    cursorSeq := 0, led := -1, pendingLed := 0, blocked := false, mustBlock := false, pfN := 0,
    pfFlags := 0, pfPayload := [], inflight := 0 }

def start (srv : Srv) : St :=
  { srv := srv, cl := newClient, net := [], log := [.send .plain .version versionMsg] }

/-- a run: every event comes with its environment -/
def run (table : List Nat) : List (Op × Env × List Read) → St → Outcome St
  | [], s => .ok s
  | (o, env, net) :: rest, s => do
    let s ← step table o env net s
    run table rest s

end Verif.Server
