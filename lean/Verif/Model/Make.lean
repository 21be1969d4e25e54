import Verif.Basic

/-!
# Making and giving back the things that the library is built from

Almost every object of the library is made from several calls that can fail: memory, zlib streams,
`aml` work items and handlers, file descriptors, mappings, the contexts of FFmpeg and GnuTLS. The
`..._new` functions undo by hand what they did when a later call fails, and the `..._destroy`
functions give everything back. This file models them over a ledger of the things that exist.

A *thing* is named by a number that is used once only. The ledger counts for each thing how often it
is there (0 or 1 in every ledger that a program can reach). Which of the calls that can fail do fail
is an arbitrary function of the call's name and of how many such calls were made before it.

Simplifications, all of this file:
 * memory is not filled in or read here; a function is the sequence of calls that make things, give
   them back, or decide about that, in the order of the code;
 * a pointer to a thing is the thing's number, `NULL` is `none`; giving back or using a thing that is
   not there any more, and using `NULL` where the callee dereferences it, are undefined behaviour;
 * the libraries' own functions are taken at their word: one call makes one thing or nothing, and the
   matching call gives it back with all that belongs to it.
-/

namespace Verif.Make

/-- One thing named `h`, as a count. -/
def one (h : Nat) : Nat → Nat := fun x => if x = h then 1 else 0

/-- Nothing, as a count. -/
def nothing : Nat → Nat := fun _ => 0

/-- All the things of a list, as a count. -/
def these : List Nat → Nat → Nat
  | [], _ => 0
  | h :: hs, x => one h x + these hs x

/-- What an optional pointer points to, as a count. -/
def maybe : Option Nat → Nat → Nat
  | none, _ => 0
  | some h, x => one h x

/-- The ledger: the things that exist, the name of the next thing, and the calls that can fail. -/
structure World where
  live : Nat → Nat
  next : Nat
  /-- whether a call of that name works, when that many fallible calls were made before -/
  fine : String → Nat → Bool
  calls : Nat

/-- Programs over the ledger. -/
abbrev M := StateT World Outcome

/-- A call that works or not and makes nothing. -/
def ask (name : String) : M Bool :=
  fun w => .ok (w.fine name w.calls, { w with calls := w.calls + 1 })

/-- The new thing of a call that works. -/
def fresh : M Nat :=
  fun w => .ok (w.next, { w with live := fun x => w.live x + one w.next x, next := w.next + 1 })

/-- A call that makes a thing or returns `NULL` (or -1). -/
def make (name : String) : M (Option Nat) := do
  match ← ask name with
  | true =>
    let h ← fresh
    return some h
  | false => return none

/-- A call that gives a thing back: `free`, `close`, `munmap`, `deflateEnd`, the last `..._unref`. -/
def free (h : Nat) : M Unit :=
  fun w => if w.live h = 0 then .ub "a thing is given back that is not there"
    else .ok ((), { w with live := fun x => w.live x - one h x })

/-- `free(NULL)`, `av_buffer_unref` of an empty reference and the like do nothing. -/
def freeMaybe : Option Nat → M Unit
  | none => pure ()
  | some h => free h

/-- Something reads or writes a thing. -/
def use (h : Nat) : M Unit :=
  fun w => if w.live h = 0 then .ub "a thing is used that is not there" else .ok ((), w)

/-- A pointer is dereferenced: it must not be `NULL`. -/
def useMaybe : Option Nat → M Unit
  | none => fun _ => .ub "NULL is dereferenced"
  | some h => use h

/-- `assert(x)` on a call that can fail. -/
def insist (name : String) : M Unit := do
  match ← ask name with
  | true => return
  | false => fun _ => .abort "an assertion fails"

/-- `assert(x)` on a call that makes a thing. -/
def insistMake (name : String) : M Nat := do
  let some h ← make name | fun _ => .abort "an assertion fails"
  return h

/-! ## Reference counted buffers -/

/-- `rcbuf`: the structure and the memory it owns. src/rcbuf.c. -/
structure Rcbuf where
  self : Nat
  payload : Nat

/-- `rcbuf_new`: src/rcbuf.c lines 23-34. The payload belongs to the caller if it fails. -/
def rcbufNew (payload : Nat) : M (Option Rcbuf) := do
  let some self ← make "calloc" | return none
  return some { self, payload }

/-- `rcbuf_from_string`: src/rcbuf.c lines 35-39. The copy is not given back if `rcbuf_new` fails. -/
def rcbufFromString : M (Option Rcbuf) := do
  let some value ← make "strdup" | return none
  rcbufNew value

/-- `rcbuf_from_mem`: src/rcbuf.c lines 41-54. -/
def rcbufFromMem : M (Option Rcbuf) := do
  let some mem ← make "malloc" | return none
  match ← rcbufNew mem with
  | none =>
    free mem
    return none
  | some buf => return some buf

/-- `rcbuf_unref` of the last reference: src/rcbuf.c lines 61-70. -/
def rcbufDel (b : Rcbuf) : M Unit := do
  free b.payload
  free b.self

/-! ## Encoders that only use memory and zlib -/

/-- `raw_encoder_new` and `raw_encoder_destroy`: src/enc/raw.c lines 179-198 (the output region, which
is empty in a new encoder, is left out). -/
def rawNew : M (Option Nat) := make "calloc"

@[inherit_doc rawNew]
def rawDel (self : Nat) : M Unit := free self

/-- `struct zrle_encoder`: what it owns. src/enc/zrle.c. -/
structure Zrle where
  self : Nat
  zs : Nat

/-- `zrle_encoder_new`: src/enc/zrle.c lines 401-428. -/
def zrleNew : M (Option Zrle) := do
  let some self ← make "calloc" | return none
  match ← make "deflateInit2" with
  | none =>
    free self
    return none
  | some zs => return some { self, zs }

/-- `zrle_encoder_destroy`: src/enc/zrle.c lines 430-437. -/
def zrleDel (e : Zrle) : M Unit := do
  free e.zs
  free e.self

/-- `struct tight_encoder`: the grid, the four zlib streams and the four work items. The streams are
members; `none` is a stream that was not initialised (all zero, which `deflateEnd` refuses without
harm). src/enc/tight.c. -/
structure Tight where
  self : Nat
  grid : Nat
  zs : List (Option Nat)
  workers : List (Option Nat)

/-- The calls of `tight_encoder_init_stream`: src/enc/tight.c lines 119-128, 196-199: what they return is not
looked at. -/
def tightStreams : Nat → M (List (Option Nat))
  | 0 => return []
  | n + 1 => do
    let z ← make "deflateInit2"
    let zs ← tightStreams n
    return z :: zs

/-- `tight_init_zs_worker`: src/enc/tight.c lines 148-168. One name stands for the work item and the context
that it frees. -/
def tightWorker : M (Option Nat) := do
  let some ctx ← make "calloc of a worker" | return none
  match ← ask "aml_work_new" with
  | false =>
    free ctx
    return none
  | true => return some ctx

/-- The calls of `tight_init_zs_worker`: src/enc/tight.c lines 201-204: what they return is not looked at.
The context is memory that goes with the work item (its `free` function); a work item that cannot be made
gives it back, and the pointer stays `NULL`. -/
def tightWorkers : Nat → M (List (Option Nat))
  | 0 => return []
  | n + 1 => do
    let wk ← tightWorker
    let wks ← tightWorkers n
    return wk :: wks

/-- `tight_encoder_new` with `tight_encoder_init` and the first `tight_encoder_resize`: src/enc/tight.c
lines 170-211, 549-563. -/
def tightNew : M (Option Tight) := do
  let some self ← make "calloc" | return none
  match ← make "calloc" with
  | none =>
    free self
    return none
  | some grid =>
    let zs ← tightStreams 4
    let workers ← tightWorkers 4
    return some { self, grid, zs, workers }

/-- `aml_unref` of each of the work items: it takes the address of `NULL` as that of an object. -/
def unrefAll : List (Option Nat) → M Unit
  | [] => return
  | none :: _ => fun _ => .ub "aml_unref(NULL)"
  | some h :: hs => do
    free h
    unrefAll hs

/-- `deflateEnd` of each of the streams. -/
def endAll : List (Option Nat) → M Unit
  | [] => return
  | h :: hs => do
    freeMaybe h
    endAll hs

/-- `tight_encoder_destroy`: src/enc/tight.c lines 213-226 and 565-569. -/
def tightDel (e : Tight) : M Unit := do
  unrefAll e.workers
  endAll e.zs
  free e.grid
  free e.self

/-! ## The pieces of a display -/

/-- `struct damage_refinery`: the two pointers. `none` is `NULL`. src/damage-refinery.c. -/
structure Refinery where
  state : Option Nat
  hashes : Option Nat

/-- `damage_refinery_init`: src/damage-refinery.c lines 36-57. Returns the pointers as the call leaves
them, and whether it worked. A failed call leaves the pointer that failed at `NULL`, and does not
touch (or only gives back) the other one: it keeps whatever value it had. -/
def refineryInit (old : Refinery) : M (Bool × Refinery) := do
  match ← make "XXH3_createState" with
  | none => return (false, { old with state := none })
  | some state =>
    match ← make "calloc of the hashes" with
    | none =>
      free state
      return (false, { state := some state, hashes := none })
    | some hashes => return (true, { state := some state, hashes := some hashes })

/-- `damage_refinery_destroy`: src/damage-refinery.c lines 69-73. The pointers keep their values. -/
def refineryDel (r : Refinery) : M Unit := do
  freeMaybe r.hashes
  freeMaybe r.state

/-- `damage_refinery_resize` to another size: src/damage-refinery.c lines 59-67. -/
def refineryResize (r : Refinery) : M (Bool × Refinery) := do
  refineryDel r
  refineryInit r

/-- `struct nvnc_display`. src/display.c. -/
structure Display where
  self : Nat
  resampler : Nat
  pool : Nat
  refinery : Refinery

/-- `nvnc_fb_pool_new`: src/fb_pool.c lines 47-62; an empty pool. -/
def poolNew : M (Option Nat) := make "calloc"

/-- `resampler_create`: src/resampler.c lines 81-96. -/
def resamplerNew : M (Option (Nat × Nat)) := do
  let some self ← make "calloc" | return none
  match ← poolNew with
  | none =>
    free self
    return none
  | some pool => return some (self, pool)

/-- `resampler_destroy`: src/resampler.c lines 98-102, with `nvnc_fb_pool_unref` of the last reference
of an empty pool (src/fb_pool.c lines 64-81). -/
def resamplerDel (self pool : Nat) : M Unit := do
  free pool
  free self

/-- `nvnc_display_new`: src/display.c lines 54-81. -/
def displayNew : M (Option Display) := do
  let some self ← make "calloc" | return none
  match ← resamplerNew with
  | none =>
    free self
    return none
  | some (resampler, pool) =>
    match ← refineryInit { state := none, hashes := none } with
    | (false, _) =>
      resamplerDel resampler pool
      free self
      return none
    | (true, refinery) => return some { self, resampler, pool, refinery }

/-- `nvnc__display_free`: src/display.c lines 83-90, without a buffer. -/
def displayDel (d : Display) : M Unit := do
  refineryDel d.refinery
  resamplerDel d.resampler d.pool
  free d.self

/-- `damage_refinery_resize` of a display's refinery, as `nvnc_display_feed_buffer` does it and without
looking at what it returns: src/display.c lines 123-134. -/
def displayResize (d : Display) : M Display := do
  let (_, refinery) ← refineryResize d.refinery
  return { d with refinery }

/-- `nvnc_fb_new` and `nvnc__fb_free` of such a framebuffer: src/fb.c lines 37-65, 172-197. -/
def fbNew : M (Option (Nat × Nat)) := do
  let some self ← make "calloc" | return none
  match ← make "aligned_alloc" with
  | none =>
    free self
    return none
  | some addr => return some (self, addr)

@[inherit_doc fbNew]
def fbDel (fb : Nat × Nat) : M Unit := do
  free fb.2
  free fb.1

/-- What the work of `resampler_feed` owns: its context, the storage of the damage region in it (`none`
for a region of one rectangle, which has none), and the target. src/resampler.c lines 42-48. -/
structure Job where
  ctx : Nat
  region : Option Nat
  dst : Nat

/-- `resampler_work_free`: src/resampler.c lines 67-79. The references of the source belong to
`Verif.Displays`; the target goes back to the pool, which is its end here. -/
def jobDel (j : Job) : M Unit := do
  free j.dst
  freeMaybe j.region
  free j.ctx

/-- `resampler_feed` of a framebuffer that must be transformed: src/resampler.c lines 170-243. Returns
what the started work owns, or nothing if the call fails; and the side data that the framebuffer now
has, `old` or a new one. The storage of the region is made by the copy at line 196 (a copy that fails
leaves a region without storage). The target is a framebuffer that `nvnc_fb_pool_acquire` gives the
caller a reference to; `nvnc_fb_pool_release` at line 239 adds a reference of the pool's and does not
drop the caller's. A work item that cannot be started is dropped at line 235 and calls
`resampler_work_free`. -/
def resamplerFeed (old : Option Nat) : M (Option Job × Option Nat) := do
  let some ctx ← make "calloc" | return (none, old)
  let region ← make "pixman_region_copy"
  match ← make "nvnc_fb_pool_acquire" with
  | none =>
    free ctx
    return (none, old)
  | some dst =>
  let side ← match old with
    | some side => pure (some side)
    | none => make "calloc side data"
  match side with
  | none =>
    free ctx
    return (none, none)
  | some side =>
  match ← make "aml_work_new" with
  | none =>
    jobDel { ctx, region, dst }
    return (none, some side)
  | some work =>
  match ← ask "aml_start" with
  | false =>
    free work
    jobDel { ctx, region, dst }
    return (none, some side)
  | true =>
    free work
    return (some { ctx, region, dst }, some side)

/-! ## Streams -/

/-- A stream over a socket: the structure, the socket and the handler (`none` is `NULL`).
src/stream/tcp.c. -/
structure Stream where
  self : Nat
  fd : Nat
  handler : Option Nat

/-- `stream_tcp_init`: src/stream/tcp.c lines 278-303: whether it worked and the handler's pointer.
When the handler cannot be started it is given back and the pointer is not reset. -/
def tcpInit : M (Bool × Option Nat) := do
  match ← make "aml_handler_new" with
  | none => return (false, none)
  | some handler =>
    match ← ask "aml_start" with
    | true => return (true, some handler)
    | false =>
      free handler
      return (false, some handler)

/-- `stream_new`: src/stream/tcp.c lines 305-319. The socket stays with the caller if it fails. -/
def streamNew (fd : Nat) : M (Option Stream) := do
  let some self ← make "calloc" | return none
  match ← tcpInit with
  | (false, _) =>
    free self
    return none
  | (true, handler) => return some { self, fd, handler }

/-- `stream_ws_new`: src/stream/ws.c lines 301-314: what `stream_tcp_init` returns is not looked at. -/
def wsNew (fd : Nat) : M (Option Stream) := do
  let some self ← make "calloc" | return none
  let (_, handler) ← tcpInit
  return some { self, fd, handler }

/-- `stream_destroy` of a stream without requests: `stream_tcp_close` (src/stream/tcp.c lines 31-59)
stops the handler and closes the socket; lines 61-67 give back the handler and the structure. -/
def streamDel (s : Stream) : M Unit := do
  useMaybe s.handler
  free s.fd
  match s.handler with
  | none => fun _ => .ub "aml_unref(NULL)"
  | some h => free h
  free s.self

/-- `stream_upgrade_to_rsa_eas`: src/stream/rsa-aes.c lines 192-211: the read buffer and the cipher
that the stream has in addition. -/
def rsaUpgrade : M (Option (Nat × Nat)) := do
  let some buffer ← make "malloc" | return none
  match ← make "crypto_cipher_new" with
  | none =>
    free buffer
    return none
  | some cipher => return some (buffer, cipher)

/-- What `stream_rsa_aes_destroy` gives back before the stream itself: src/stream/rsa-aes.c lines
47-53. -/
def rsaDowngrade (u : Nat × Nat) : M Unit := do
  free u.2
  free u.1

/-- `stream_upgrade_to_tls`: src/stream/gnutls.c lines 255-292, up to the first try of the handshake
(which makes nothing): the session that the stream has in addition and the handler that it has instead
of `handler`. -/
def tlsUpgrade (handler : Nat) : M (Option (Nat × Nat)) := do
  let some session ← make "gnutls_init" | return none
  match ← ask "gnutls_set_default_priority" with
  | false =>
    free session
    return none
  | true =>
  match ← ask "gnutls_credentials_set" with
  | false =>
    free session
    return none
  | true =>
    use handler
    free handler
    let new ← insistMake "aml_handler_new"
    insist "aml_start"
    return some (session, new)

/-- What `stream_gnutls_destroy` gives back of it: src/stream/gnutls.c lines 48-72, with the handler of
`stream_tcp_destroy`. -/
def tlsDowngrade (u : Nat × Nat) : M Unit := do
  free u.1
  use u.2
  free u.2

/-! ## Credentials -/

/-- `nvnc_set_tls_creds`: src/server.c lines 2843-2884: the state of the library and the credentials. -/
def tlsCreds : M (Option (Nat × Nat)) := do
  let some global ← make "gnutls_global_init" | return none
  match ← make "gnutls_certificate_allocate_credentials" with
  | none =>
    free global
    return none
  | some creds =>
    match ← ask "gnutls_certificate_set_x509_key_file" with
    | true => return some (global, creds)
    | false =>
      free creds
      free global
      return none

/-- What `nvnc_del` does with them: src/server.c lines 2402-2405. -/
def tlsCredsDel (c : Nat × Nat) : M Unit := do
  free c.2
  free c.1

/-- The lines of the key file after the first one, until `getline` fails or the end marker is found (one
answer for both): src/crypto/nettle/rsa.c lines 105-111, for a file of at most `n` lines. Nothing is
made. -/
def rsaLines : Nat → M Unit
  | 0 => return
  | n + 1 => do
    match ← ask "another line" with
    | true => rsaLines n
    | false => return

/-- `crypto_rsa_priv_key_load`: src/crypto/nettle/rsa.c lines 77-138. The buffer of `getline` is made by
its first call, also when that call finds nothing to read; it and the stream are not given back then.
The text is a `vec`; whether it could be made is not looked at (here: it is made). What the key structures
of nettle hold belongs to them and is not counted. -/
def rsaKeyLoad (n : Nat) : M Bool := do
  let some stream ← make "fopen" | return false
  let line ← fresh
  match ← ask "first line" with
  | false => return false
  | true =>
    let base64 ← fresh
    rsaLines n
    free line
    free stream
    let der ← insistMake "malloc"
    match ← ask "base64_decode" with
    | false =>
      free base64
      free der
      return false
    | true =>
      free base64
      match ← ask "rsa_keypair_from_der" with
      | false =>
        free der
        return false
      | true =>
        free der
        return true

/-! ## H.264: the encoder, FFmpeg -/

/-- `struct h264_encoder_ffmpeg`: what it owns when idle. src/enc/h264/ffmpeg-impl.c. -/
structure Ffmpeg where
  self : Nat
  packet : Nat
  work : Nat
  device : Nat
  frames : Option Nat
  graph : Nat
  codec : Nat

/-- `h264_encoder__init_hw_frames_context`: src/enc/h264/ffmpeg-impl.c lines 335-351: a context that
cannot be initialised is given back, and the call works all the same. -/
def framesInit : M (Bool × Option Nat) := do
  match ← make "av_hwframe_ctx_alloc" with
  | none => return (false, none)
  | some frames =>
    match ← ask "av_hwframe_ctx_init" with
    | true => return (true, some frames)
    | false =>
      free frames
      return (true, none)

/-- `h264_encoder__init_buffersrc`: src/enc/h264/ffmpeg-impl.c lines 203-237. The filter belongs to the
graph. -/
def buffersrcInit : M Bool := do
  match ← ask "avfilter_graph_create_filter" with
  | false => return false
  | true =>
  match ← make "av_buffersrc_parameters_alloc" with
  | none => return false
  | some params =>
    insist "av_buffersrc_parameters_set"
    free params
    return true

/-- The rest of `h264_encoder__init_filters` after the graph was allocated, up to `failure:`:
src/enc/h264/ffmpeg-impl.c lines 247-297. `avfilter_graph_parse` takes the two lists over. -/
def filtersFill : M Bool := do
  match ← buffersrcInit with
  | false => return false
  | true =>
  match ← ask "avfilter_graph_create_filter" with
  | false => return false
  | true =>
  match ← make "avfilter_inout_alloc" with
  | none => return false
  | some inputs =>
  match ← make "avfilter_inout_alloc" with
  | none =>
    free inputs
    return false
  | some outputs =>
    free outputs
    free inputs
    match ← ask "avfilter_graph_parse" with
    | false => return false
    | true => ask "avfilter_graph_config"

/-- `h264_encoder__init_filters`: src/enc/h264/ffmpeg-impl.c lines 239-302. -/
def filtersInit : M (Option Nat) := do
  let some graph ← make "avfilter_graph_alloc" | return none
  match ← filtersFill with
  | true => return some graph
  | false =>
    free graph
    return none

/-- `h264_encoder_ffmpeg_create`: src/enc/h264/ffmpeg-impl.c lines 513-596, with `find_render_node`
(lines 493-511): its `bool r = -1` is 1, which is not negative, so that without a render node the
caller goes on with a name that nothing was written to. `known` says whether the pixel format is one
of the table (line 549). -/
def ffmpegNew (known : Bool) : M (Option Ffmpeg) := do
  let some self ← make "calloc" | return none
  match ← make "vec_init" with
  | none =>
    free self
    return none
  | some packet =>
  match ← make "aml_work_new" with
  | none =>
    free packet
    free self
    return none
  | some work =>
  match ← ask "render node" with
  | false => fun _ => .ub "the name of the render node is read and was never written"
  | true =>
  match ← make "av_hwdevice_ctx_create" with
  | none =>
    free work
    free packet
    free self
    return none
  | some device =>
  match known with
  | false =>
    free device
    free work
    free packet
    free self
    return none
  | true =>
  match ← ask "avcodec_find_encoder_by_name" with
  | false =>
    free device
    free work
    free packet
    free self
    return none
  | true =>
  match ← framesInit with
  | (false, _) =>
    free device
    free work
    free packet
    free self
    return none
  | (true, frames) =>
  match ← filtersInit with
  | none =>
    freeMaybe frames
    free device
    free work
    free packet
    free self
    return none
  | some graph =>
  match ← make "avcodec_alloc_context3" with
  | none =>
    freeMaybe frames
    free device
    free work
    free packet
    free self
    return none
  | some codec =>
  match ← ask "avcodec_open2" with
  | false =>
    free codec
    freeMaybe frames
    free device
    free work
    free packet
    free self
    return none
  | true => return some { self, packet, work, device, frames, graph, codec }

/-- `h264_encoder_ffmpeg_destroy` without a current frame: src/enc/h264/ffmpeg-impl.c lines 598-614. -/
def ffmpegDel (e : Ffmpeg) : M Unit := do
  free e.packet
  freeMaybe e.frames
  free e.codec
  free e.device
  free e.graph
  free e.work
  free e.self

/-- The descriptors of a buffer object's planes: src/enc/h264/ffmpeg-impl.c lines 132-143. One that
cannot be had is -1, which `close` refuses without harm. -/
def planeFds : Nat → M (List (Option Nat))
  | 0 => return []
  | n + 1 => do
    let fd ← make "gbm_bo_get_fd_for_plane"
    let fds ← planeFds n
    return fd :: fds

/-- `hw_frame_desc_free`: src/enc/h264/ffmpeg-impl.c lines 107-117. -/
def descFree (desc : Nat) (fds : List (Option Nat)) : M Unit := do
  endAll fds
  free desc

/-- A frame that `fb_to_avframe` makes: the frame, the reference of the descriptor, the descriptor and
the planes' file descriptors. src/enc/h264/ffmpeg-impl.c lines 119-175. -/
structure AvFrame where
  self : Nat
  ref : Nat
  desc : Nat
  fds : List (Option Nat)

/-- `fb_to_avframe` of a buffer object with `n` planes: src/enc/h264/ffmpeg-impl.c lines 119-175. What
`calloc` returns is not looked at. -/
def fbToAvframe (n : Nat) : M (Option AvFrame) := do
  let desc ← make "calloc of the descriptor"
  useMaybe desc
  match desc with
  | none => return none
  | some desc =>
    let fds ← planeFds n
    match ← make "av_frame_alloc of the input" with
    | none =>
      descFree desc fds
      return none
    | some self =>
      match ← make "av_buffer_create" with
      | none =>
        descFree desc fds
        free self
        return none
      | some ref => return some { self, ref, desc, fds }

/-- `av_frame_unref` and `av_frame_free` of such a frame: the reference is the last one of the
descriptor, and `hw_frame_desc_free` is called for it. src/enc/h264/ffmpeg-impl.c lines 452-453. -/
def avframeFree (f : AvFrame) : M Unit := do
  descFree f.desc f.fds
  free f.ref
  free f.self

/-- The packets that the codec gives: src/enc/h264/ffmpeg-impl.c lines 395-404. `n` bounds how many
there are; each packet's data is made by the codec and given back by `av_packet_unref`. -/
def receivePackets : Nat → M Unit
  | 0 => return
  | n + 1 => do
    match ← make "avcodec_receive_packet" with
    | none => return
    | some data =>
      free data
      receivePackets n

/-- `h264_encoder__encode`: src/enc/h264/ffmpeg-impl.c lines 370-416, with at most `n` packets. What is
put into the filtered frame is given back by `av_frame_unref`. -/
def ffmpegEncode (n : Nat) : M Unit := do
  match ← ask "av_buffersrc_add_frame_flags" with
  | false => return
  | true =>
  match ← make "av_frame_alloc" with
  | none => return
  | some filtered =>
  match ← make "av_buffersink_get_frame" with
  | none => free filtered
  | some content =>
  match ← ask "avcodec_send_frame" with
  | false =>
    free content
    free filtered
  | true =>
    let packet ← insistMake "av_packet_alloc"
    receivePackets n
    free packet
    free content
    free filtered

/-- `h264_encoder__do_work`: src/enc/h264/ffmpeg-impl.c lines 418-454, for a buffer object with `planes`
planes and a codec that gives at most `n` packets. `av_buffer_ref` reads what it is given (line 425); a
reference that cannot be made leaves `NULL` in the frame. -/
def ffmpegWork (frames : Option Nat) (planes n : Nat) : M Unit := do
  match ← fbToAvframe planes with
  | none => fun _ => .abort "assert(frame)"
  | some frame =>
    useMaybe frames
    let ref ← make "av_buffer_ref"
    ffmpegEncode n
    freeMaybe ref
    avframeFree frame

/-- `fb_queue_enqueue`: src/enc/h264/ffmpeg-impl.c lines 190-201: the entry; its caller asserts that it
was made (line 625). The framebuffer's reference is handed through (`Verif.Displays`, `Verif.H264`). -/
def enqueue : M Nat := insistMake "calloc of the entry"

/-- `fb_queue_dequeue`: src/enc/h264/ffmpeg-impl.c lines 177-188. -/
def dequeue (entry : Nat) : M Unit := free entry

/-- `h264_encoder__on_work_done`: src/enc/h264/ffmpeg-impl.c lines 456-490, the copy of a packet that is
not empty, which is handed to the callback. A copy that cannot be made is empty. -/
def packetCopy : M Unit := do
  match ← ask "a packet that is not empty" with
  | false => return
  | true =>
    let copy ← make "vec_init"
    freeMaybe copy

/-- One frame that an idle encoder is fed: `h264_encoder_ffmpeg_feed`, src/enc/h264/ffmpeg-impl.c lines
616-632, `h264_encoder__schedule_work` (353-368), the work, and its end. -/
def ffmpegFrame (frames : Option Nat) (planes n : Nat) : M Unit := do
  let entry ← enqueue
  dequeue entry
  ffmpegWork frames planes n
  packetCopy

/-! ## H.264: the encoder, V4L2 -/

/-- `struct h264_encoder_v4l2m2m`: what it owns when idle. src/enc/h264/v4l2m2m-impl.c. -/
structure V4l2 where
  self : Nat
  fd : Nat
  maps : List Nat
  handler : Nat

/-- The entries of `/dev` in `find_capable_device`: src/enc/h264/v4l2m2m-impl.c lines 618-640. An entry
is `true` if its name begins with "video". -/
def searchDev : List Bool → M (Option Nat)
  | [] => return none
  | false :: es => searchDev es
  | true :: es => do
    match ← make "open" with
    | none => searchDev es
    | some fd =>
      match ← ask "is_device_capable" with
      | true => return some fd
      | false =>
        free fd
        searchDev es

/-- `find_capable_device`: src/enc/h264/v4l2m2m-impl.c lines 612-644. -/
def findDevice (dev : List Bool) : M (Option Nat) := do
  let dir ← insistMake "opendir"
  let fd ← searchDev dev
  free dir
  return fd

/-- The loop of `alloc_dst_buffers`: src/enc/h264/v4l2m2m-impl.c lines 293-314; the mappings and whether
it worked. -/
def mapAll : Nat → M (Bool × List Nat)
  | 0 => return (true, [])
  | n + 1 => do
    match ← ask "VIDIOC_QUERYBUF" with
    | false => return (false, [])
    | true =>
    match ← make "mmap" with
    | none => return (false, [])
    | some m =>
      let (good, ms) ← mapAll n
      return (good, m :: ms)

/-- Calls that fail together: `n` of them one after the other until one fails. -/
def askAll (name : String) : Nat → M Bool
  | 0 => return true
  | n + 1 => do
    match ← ask name with
    | true => askAll name n
    | false => return false

/-- Calls that are asserted, `n` of them: `enqueue_dst_buffers`, src/enc/h264/v4l2m2m-impl.c lines
319-326. -/
def insistAll (name : String) : Nat → M Unit
  | 0 => return
  | n + 1 => do
    insist name
    insistAll name n

/-- All of a list are given back. -/
def freeAll : List Nat → M Unit
  | [] => return
  | h :: hs => do
    free h
    freeAll hs

/-- `h264_encoder_v4l2m2m_create`: src/enc/h264/v4l2m2m-impl.c lines 646-705, with `alloc_dst_buffers`
(279-317), `alloc_src_buffers` (423-452), `enqueue_dst_buffers` (319-326) and `stream_on` (414-421), for
a driver that gives the three buffers that are asked for. `set_src_fmt` and `set_dst_fmt` are one
answer each. -/
def v4l2New (dev : List Bool) : M (Option V4l2) := do
  let some self ← make "calloc" | return none
  match ← findDevice dev with
  | none =>
    free self
    return none
  | some fd =>
  match ← ask "set_src_fmt" with
  | false =>
    free fd
    free self
    return none
  | true =>
  match ← ask "set_dst_fmt" with
  | false =>
    free fd
    free self
    return none
  | true =>
  match ← ask "VIDIOC_REQBUFS capture" with
  | false =>
    free fd
    free self
    return none
  | true =>
  match ← mapAll 3 with
  | (false, _) =>
    free fd
    free self
    return none
  | (true, maps) =>
  match ← askAll "alloc_src_buffers" 4 with
  | false =>
    free fd
    free self
    return none
  | true =>
  insistAll "v4l2_qbuf" 3
  match ← ask "stream_on" with
  | false =>
    free fd
    free self
    return none
  | true =>
  match ← make "aml_handler_new" with
  | none => fun _ => .ub "aml_set_event_mask(NULL)"
  | some handler =>
  match ← ask "aml_start" with
  | false =>
    free handler
    free fd
    free self
    return none
  | true => return some { self, fd, maps, handler }

/-- `h264_encoder_v4l2m2m_destroy` without taken buffers: src/enc/h264/v4l2m2m-impl.c lines 718-729, with
`free_dst_buffers` (406-412). -/
def v4l2Del (e : V4l2) : M Unit := do
  use e.handler
  free e.handler
  freeAll e.maps
  free e.fd
  free e.self

/-- An encoder of either kind: src/enc/h264/encoder.c. -/
inductive H264
  | v4l2 (e : V4l2)
  | ffmpeg (e : Ffmpeg)

/-- `h264_encoder_create`: src/enc/h264/encoder.c lines 28-48, with both kinds compiled in. -/
def h264New (dev : List Bool) (known : Bool) : M (Option H264) := do
  match ← v4l2New dev with
  | some e => return some (.v4l2 e)
  | none =>
    match ← ffmpegNew known with
    | some e => return some (.ffmpeg e)
    | none => return none

/-- `h264_encoder_destroy`: src/enc/h264/encoder.c lines 50-54. -/
def h264Del : H264 → M Unit
  | .v4l2 e => v4l2Del e
  | .ffmpeg e => ffmpegDel e

/-- `struct open_h264`: the structure, the pending data and the encoder. src/enc/h264/open-h264.c. -/
structure OpenH264 where
  self : Nat
  pending : Nat
  encoder : Option H264

/-- `open_h264_new`: src/enc/h264/open-h264.c lines 93-121. -/
def openH264New : M (Option OpenH264) := do
  let some self ← make "calloc" | return none
  match ← make "vec_init" with
  | none =>
    free self
    return none
  | some pending => return some { self, pending, encoder := none }

/-- `open_h264_destroy`: src/enc/h264/open-h264.c lines 123-132. -/
def openH264Del (e : OpenH264) : M Unit := do
  match e.encoder with
  | some enc => h264Del enc
  | none => pure ()
  free e.pending
  free e.self

/-- `open_h264_resize`: src/enc/h264/open-h264.c lines 134-158: the new encoder is made before the old one
is destroyed. -/
def openH264Resize (e : OpenH264) (dev : List Bool) (known : Bool) : M (Bool × OpenH264) := do
  match ← h264New dev known with
  | none => return (false, e)
  | some enc =>
    match e.encoder with
    | some old => h264Del old
    | none => pure ()
    return (true, { e with encoder := some enc })

/-! ## Whole lives -/

/-- A display's refinery is given `n` other sizes one after the other. src/display.c lines 123-134. -/
def displayResizes : Nat → Display → M Display
  | 0, d => return d
  | n + 1, d => do
    let d ← displayResize d
    displayResizes n d

/-- A display is made, its refinery is given `n` other sizes, and it is given back. -/
def displayLife (n : Nat) : M Unit := do
  match ← displayNew with
  | none => return
  | some d =>
    let d ← displayResizes n d
    displayDel d

/-- `n` frames, one after the other: src/enc/h264/ffmpeg-impl.c lines 353-368, 418-490, 616-632. -/
def ffmpegWorks (frames : Option Nat) (planes packets : Nat) : Nat → M Unit
  | 0 => return
  | n + 1 => do
    ffmpegFrame frames planes packets
    ffmpegWorks frames planes packets n

/-- An FFmpeg encoder is made, encodes `n` frames, and is given back. -/
def ffmpegLife (known : Bool) (planes packets n : Nat) : M Unit := do
  match ← ffmpegNew known with
  | none => return
  | some e =>
    ffmpegWorks e.frames planes packets n
    ffmpegDel e

/-- `open_h264_resize` for one size after the other: for each what `/dev` is like then and whether the
format is known. What the call returns makes the frame fail and nothing else
(src/enc/h264/open-h264.c lines 160-175). -/
def openH264Resizes : List (List Bool × Bool) → OpenH264 → M OpenH264
  | [], e => return e
  | s :: ss, e => do
    let (_, e) ← openH264Resize e s.1 s.2
    openH264Resizes ss e

/-- An Open H.264 encoder is made, gets frames of one size after the other, and is given back. -/
def openH264Life (sizes : List (List Bool × Bool)) : M Unit := do
  match ← openH264New with
  | none => return
  | some e =>
    let e ← openH264Resizes sizes e
    openH264Del e

end Verif.Make
