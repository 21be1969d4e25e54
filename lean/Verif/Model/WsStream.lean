import Verif.Model.Http
import Verif.Model.Tcp
import Verif.Model.Ws

/-! # Model of a WebSocket stream: src/stream/ws/ws.c on top of src/stream/tcp.c

Model/Ws has the frames that are read, Model/Http the request, Model/Tcp the send queue; here they are
one stream.  SHA-1 is a parameter; so is what the kernel says to each write. -/

namespace Verif.WsStream

/-- `WS_OPCODE_BIN` and `WS_OPCODE_PONG`, include/stream/websocket.h:26-32 -/
def opBin : Nat := 2
def opPong : Nat := 10

/-- the header that `stream_ws_send` (src/stream/ws/ws.c:237-244), `stream_ws_chained_exec` (265-270) and
`stream_ws_process_ping` (86-93) write into a local array, whose initial contents do not matter -/
def head (op len : Nat) : Bytes :=
  match Ws.writeHeader (List.replicate Ws.headerMinSize 0) { fin := true, opcode := op, len := len } with
  | .ok (b, n) => b.take n
  | _ => []

/-- what a completion callback does to a WebSocket stream: all its messages go through `stream_ws_send`,
src/stream/ws/ws.c:232-249.  A flush is under way when it runs, so that nothing is written between the
header and the message. -/
def framed : Tcp.Reaction → Tcp.Reaction
  | .stop => .stop
  | .close k => .close (framed k)
  | .send d cb k => .send (head opBin d.length) .stop (.send d (framed cb) (framed k))

/-- `struct stream_ws`, src/stream/ws/ws.c:40-48; corked until the handshake is done (310-311) -/
structure State where
  tcp : Tcp.State := { cork := true }
  /-- `ws_state` is STREAM_WS_STATE_READY -/
  ready : Bool := false
  rd : Ws.State
  /-- ghost: something was accepted between the header of a frame and its payload -/
  mixed : Bool := false
  /-- ghost: what each read sent in answer to pings -/
  pongs : List (List Bytes) := []

/-- a function in the part of the queue that a flush looks at (src/stream/tcp.c:79-93) has been executed
before -/
def retries (q : List Tcp.Req) : Bool := (q.take Tcp.iovMax).any fun r =>
  match r.body with
  | .exec _ (some _) => true
  | _ => false

/-- the operation calls `stream_tcp__flush`, which goes past src/stream/tcp.c:71 -/
def flushes (s : Tcp.State) : Tcp.Op → Bool
  | .send .. | .exec _ => !s.closed && !s.cork
  | .writable => !s.closed && s.pollW && !s.cork
  | .uncork _ => !s.closed && s.cork
  | .close => false

/-- An operation on the stream below.  `stream_ws_chained_exec` (src/stream/ws/ws.c:251-277) frees the
message after it was made; when it is called again for the same request, it uses and frees it again. -/
def tcpStep (s : Tcp.State) (op : Tcp.Op) (k : Tcp.Kernel) (now : Nat) : Outcome Tcp.State :=
  if flushes s op && retries s.queue then .ub "stream_ws_chained_exec: userdata used after free"
  else Tcp.step s op k now

/-- between these states, which the header of a frame separates, something else was accepted -/
def mixes (s s' : Tcp.State) : Bool := !s.closed && s'.accepted.length != s.accepted.length + 1

/-- several messages, handed to `stream_tcp_send` one after another; the kernel says `ks i` to the `i`-th -/
def sendAll (now : Nat) (ks : Nat → Tcp.Kernel) : List Bytes → Tcp.State → Outcome (Tcp.State × Bool)
  | [], s => .ok (s, false)
  | b :: bs, s => do
    let s' ← tcpStep s (.send b .stop) (ks 0) now
    let (s'', m) ← sendAll now (fun i => ks (i + 1)) bs s'
    .ok (s'', m || !bs.isEmpty && mixes s s')

/-- `stream__remote_closed` if the reader asked for it (src/stream/ws/ws.c:115, 121) -/
def hangUp (closed : Bool) (s : Tcp.State) : Outcome Tcp.State := if closed then Tcp.remoteClosed s else .ok s

/-- `stream_ws_read_ready`, src/stream/ws/ws.c:162-185, with what it does to the stream below.  After a
ping the loop ends, so that nothing is read any more when its answer is sent. -/
def readReady (eagain : Bool) (now : Nat) (ks : Nat → Tcp.Kernel) (s : State) (size : Nat) :
    Outcome (State × Int × Bytes) := do
  let (rd, n, out) ← Ws.readReady (List.replicate Ws.headerMinSize 0) eagain { s.rd with closed := false, sent := [] } size
  let (t, m) ← sendAll now ks rd.sent s.tcp
  let t ← hangUp rd.closed t
  .ok ({ s with tcp := t, rd := { rd with sent := [] }, mixed := s.mixed || m, pongs := s.pongs ++ [rd.sent] }, n, out)

/-- `stream_ws_read_handshake`, src/stream/ws/ws.c:187-212.  A handshake that does not return (C33) is an
abort; white space is looked for in strings of at most 255 bytes. -/
def readHandshake (sha1 : Bytes → Bytes) (eagain : Bool) (now : Nat) (ks : Nat → Tcp.Kernel) (s : State)
    (size : Nat) : Outcome (State × Int × Bytes) :=
  if s.rd.idx ≥ Ws.bufSize then do
    let t ← Tcp.remoteClosed s.tcp
    .ok ({ s with tcp := t }, -1, [])
  else do
    let mem ← writeAt s.rd.mem s.rd.idx [0]
    match Http.handshake sha1 255 ((mem.take s.rd.idx).takeWhile (· != 0)) with
    | none => .abort "ws_handshake does not return"
    | some (.ub w) => .ub w
    | some (.abort w) => .abort w
    | some (.ok none) => .ok ({ s with rd := { s.rd with mem := mem } }, 0, [])
    | some (.ok (some (n, reply))) =>
      let t ← tcpStep s.tcp (.uncork reply) (ks 0) now
      let idx := s.rd.idx - n
      let moved ← readAt mem n idx
      let mem ← writeAt mem 0 moved
      readReady eagain now (fun i => ks (i + 1))
        { s with tcp := t, ready := true, rd := { s.rd with mem := mem, idx := idx } } size

/-- `stream_ws_read`, src/stream/ws/ws.c:214-230, on `stream_tcp_read` (src/stream/tcp.c:196-215), which
closes the stream at the end of the input -/
def read (sha1 : Bytes → Bytes) (eagain : Bool) (now : Nat) (ks : Nat → Tcp.Kernel) (s : State) (k : Ws.Kernel)
    (size : Nat) : Outcome (State × Int × Bytes) := do
  let rd ← Ws.readIntoBuffer { s.rd with closed := s.tcp.closed, sent := [] } k
  if rd.closed then
    let t ← hangUp (!s.tcp.closed) s.tcp
    .ok ({ s with tcp := t, rd := rd }, 0, [])
  else if s.ready then readReady eagain now ks { s with rd := rd } size
  else readHandshake sha1 eagain now ks { s with rd := rd } size

/-- what is done to a WebSocket stream, with what the kernel says to the writes meanwhile -/
inductive Op where
  /-- `stream_ws_send`, src/stream/ws/ws.c:232-249 -/
  | send (d : Bytes) (cb : Tcp.Reaction) (k1 k2 : Tcp.Kernel)
  /-- `stream_ws_exec_and_send`, src/stream/ws/ws.c:279-291 -/
  | exec (f : Nat → Bytes) (k : Tcp.Kernel)
  /-- `stream_ws_read` of at most `size` bytes -/
  | read (k : Ws.Kernel) (size : Nat) (eagain : Bool) (ks : Nat → Tcp.Kernel)
  /-- `stream_tcp__on_writable` -/
  | writable (k : Tcp.Kernel)
  /-- `stream_tcp_close` -/
  | close

/-- `stream_ws_chained_exec`, src/stream/ws/ws.c:251-277: the header goes before what the function gives -/
def chained (f : Nat → Bytes) (t : Nat) : Bytes := head opBin (f t).length ++ f t

/-- one operation at time `now`, and the bytes it delivers to the layer above -/
def step (sha1 : Bytes → Bytes) (now : Nat) (s : State) : Op → Outcome (State × Bytes)
  | .send d cb k1 k2 => do
    let t ← tcpStep s.tcp (.send (head opBin d.length) .stop) k1 now
    let t' ← tcpStep t (.send d (framed cb)) k2 now
    .ok ({ s with tcp := t', mixed := s.mixed || mixes s.tcp t }, [])
  | .exec f k => do
    let t ← tcpStep s.tcp (.exec (chained f)) k now
    .ok ({ s with tcp := t }, [])
  | .read k size eagain ks => do
    let (s, _, out) ← read sha1 eagain now ks s k size
    .ok (s, out)
  | .writable k => do
    let t ← tcpStep s.tcp .writable k now
    .ok ({ s with tcp := t }, [])
  | .close => do
    let t ← tcpStep s.tcp .close .again now
    .ok ({ s with tcp := t }, [])

/-- a history; the `n`-th operation takes place at time `t + n` -/
def run (sha1 : Bytes → Bytes) : Nat → State → List Op → Outcome (State × Bytes)
  | _, s, [] => .ok (s, [])
  | t, s, o :: os => do
    let (s, out) ← step sha1 t s o
    let (s, out') ← run sha1 (t + 1) s os
    .ok (s, out ++ out')

/-- a stream that was just made, `stream_ws_new`, src/stream/ws/ws.c:301-314; `calloc` zeroes the buffer -/
def fresh : State := { rd := { mem := List.replicate Ws.bufSize 0 } }

end Verif.WsStream
